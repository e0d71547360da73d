import Verif.Container.Interval
/-
Parsers and their combinators (include/stdex/parser.hpp 79-180, 908-1258).

* A parser is an object with two virtual methods, `match` and `invalidate`, and a state: the interval of its last match,
  the hit offset (where there is one; `none` is `SIZE_MAX`), and the states of the parsers it owns. The state lives in a
  tree beside the code; a state missing from the tree counts as that of a parser just constructed.
* The parsers of a collection are distinct objects: one `shared_ptr` used twice in a tree of parsers is not modelled.
* The text, its end and the flags are the same in all calls of one match, and are left out of the signatures.
* `none` is undefined behaviour, or a loop out of the fuel it was given.
-/
namespace Verif.Parser
open Verif.Interval

/-- The state of a parser: `interval` 124, `hit_offset` 703, 1087, and the states of its elements. -/
inductive St where
  | node (iv : Ival Nat) (hit : Option Nat) (kids : List St)

def St.iv : St → Ival Nat | .node iv _ _ => iv
def St.hit : St → Option Nat | .node _ h _ => h
def St.kids : St → List St | .node _ _ k => k

/-- The state after construction, interval.hpp 25. -/
def fresh : St := .node .invalid none []

/-- The methods of a parser: `match` 98-105 (and `do_match` of its class) from a state and a start; `invalidate` 119-122. -/
structure Obj where
  run : St → Nat → Option (Bool × St)
  inval : St → St

/-- What `do_match` of a parser without elements computes from the start: the end of the match and the hit offset. -/
abbrev Leaf := Nat → Option (Option (Nat × Option Nat))

/-- A parser without elements: 119-122, 697-701 and the assignments to `interval` and `hit_offset`. -/
def leaf (m : Leaf) : Obj where
  run _ i :=
    match m i with
    | none => none
    | some none => some (false, .node .invalid none [])
    | some (some (j, h)) => some (true, .node ⟨i, j⟩ h [])
  inval _ := .node .invalid none []

/-- The loop of `basic_iterations::do_match` 928-941 and 942-943: iteration `i`, the element's state, `interval.end`. -/
def iterLoop (el : Obj) (mn mx : Nat) (greedy : Bool) : Nat → Nat → St → Nat → Option (Bool × Nat × St)
  | 0, _, _, _ => none
  | fuel + 1, i, kid, e =>
    if (!greedy && decide (i ≥ mn)) || decide (i ≥ mx) then some (true, e, kid)
    else match el.run kid e with
      | none => none
      | some (false, kid) => some (decide (i ≥ mn), e, kid)
      | some (true, kid) => if kid.iv.fin = e then some (true, e, kid) else iterLoop el mn mx greedy fuel (i + 1) kid kid.iv.fin

/-- `basic_iterations` 908-950; `invalidate` is that of `basic_parser`, and leaves the element alone. -/
def iter (fuel : Nat) (el : Obj) (mn mx : Nat) (greedy : Bool) : Obj where
  run s i :=
    match iterLoop el mn mx greedy fuel 0 (s.kids.headD fresh) i with
    | none => none
    | some (ok, e, kid) => some (ok, .node (if ok then ⟨i, e⟩ else .invalid) none [kid])
  inval s := .node .invalid none s.kids

/-- The elements of a collection with their states. -/
def pair : List Obj → List St → List (Obj × St)
  | [], _ => []
  | o :: os, [] => (o, fresh) :: pair os []
  | o :: os, s :: ss => (o, s) :: pair os ss

/-- `el->invalidate()` of every element, 992-993, 1032-1033, 1101-1102, 1221-1222. -/
def invalAll (l : List (Obj × St)) : List St := l.map fun p => p.1.inval p.2

/-- `parser_collection::invalidate` 990-995 and `basic_branch::invalidate` 1081-1085. -/
def collInval (os : List Obj) (s : St) : St := .node .invalid none (invalAll (pair os s.kids))

/-- The loop of `basic_sequence::do_match` 1030-1038: the end, if all matched, and the states. -/
def seqLoop : List (Obj × St) → Nat → Option (Option Nat × List St)
  | [], e => some (some e, [])
  | (o, s) :: r, e =>
    match o.run s e with
    | none => none
    | some (false, s) => some (none, s :: invalAll r)
    | some (true, s) =>
      match seqLoop r s.iv.fin with
      | none => none
      | some (x, ks) => some (x, s :: ks)

/-- `basic_sequence` 1004-1042. -/
def seq (os : List Obj) : Obj where
  run s i :=
    match seqLoop (pair os s.kids) i with
    | none => none
    | some (some e, ks) => some (true, .node ⟨i, e⟩ none ks)
    | some (none, ks) => some (false, .node .invalid none ks)
  inval := collInval os

/-- The loop of `basic_branch::do_match` 1098-1105: the hit offset and the interval, and the states. -/
def branchLoop : List (Obj × St) → Nat → Nat → Option (Option (Nat × Ival Nat) × List St)
  | [], _, _ => some (none, [])
  | (o, s) :: r, i, hit =>
    match o.run s i with
    | none => none
    | some (true, s) => some (some (hit, s.iv), s :: invalAll r)
    | some (false, s) =>
      match branchLoop r i (hit + 1) with
      | none => none
      | some (x, ks) => some (x, s :: ks)

/-- `basic_branch` 1056-1110. -/
def branch (os : List Obj) : Obj where
  run s i :=
    match branchLoop (pair os s.kids) i 0 with
    | none => none
    | some (some (hit, iv), ks) => some (true, .node iv (some hit) ks)
    | some (none, ks) => some (false, .node .invalid none ks)
  inval := collInval os

/-- The loop of `basic_permutation::match_recursively` 1238-1256 from element `k`, `todo` elements to go; `rec` is the
recursive call 1244. The result is `interval.end`, if it returned true, and the elements. -/
def permLoop (rec : List (Obj × St) → Nat → Option (Option Nat × List (Obj × St))) (start : Nat) :
    Nat → Nat → Bool → List (Obj × St) → Option (Option Nat × List (Obj × St))
  | 0, _, all, l => some (if all then some start else none, l)
  | todo + 1, k, all, l =>
    match l[k]? with
    | none => none
    | some (o, s) =>
      if s.iv.valid then permLoop rec start todo (k + 1) all l
      else match o.run s start with
        | none => none
        | some (false, s) => permLoop rec start todo (k + 1) false (l.set k (o, s))
        | some (true, s) =>
          match rec (l.set k (o, s)) s.iv.fin with
          | none => none
          | some (some e, l) => some (some e, l)
          | some (none, l) =>
            match l[k]? with
            | none => none
            | some (o, s) => permLoop rec start todo (k + 1) false (l.set k (o, o.inval s))

/-- `basic_permutation::match_recursively` 1231-1257; `fuel` bounds the depth of the recursion. -/
def permRec : Nat → List (Obj × St) → Nat → Option (Option Nat × List (Obj × St))
  | 0, _, _ => none
  | fuel + 1, l, start => permLoop (permRec fuel) start l.length 0 true l

/-- `basic_permutation` 1196-1258. The recursion is at most one deeper than there are elements, see `perm_contract`. -/
def perm (os : List Obj) : Obj where
  run s i :=
    match permRec (os.length + 1) ((pair os s.kids).map fun p => (p.1, p.1.inval p.2)) i with
    | none => none
    | some (some e, l) => some (true, .node ⟨i, e⟩ none (l.map Prod.snd))
    | some (none, l) => some (false, .node .invalid none (l.map Prod.snd))
  inval := collInval os

/-- `basic_parser::search` 86-96; `at` tells whether there is a character at an index, `i < end && text[i]`. -/
def search (atc : Nat → Option Bool) (o : Obj) : Nat → St → Nat → Option (Bool × St)
  | 0, _, _ => none
  | fuel + 1, s, i =>
    match atc i with
    | none => none
    | some false => some (false, s)
    | some true =>
      match o.run s i with
      | none => none
      | some (true, s) => some (true, s)
      | some (false, s) => search atc o fuel s (i + 1)

/-! ### Specification -/

/-- What a parser computes, as a function of the start: the end of the match, or no match. -/
abbrev Sem := Nat → Option Nat

/-- One after another. -/
def chain (fs : List Sem) (i : Nat) : Option Nat := fs.foldlM (fun p f => f p) i

/-- `k` times. -/
def times (f : Sem) (k : Nat) (i : Nat) : Option Nat := chain (List.replicate k f) i

/-- The ways to take one element out of a list, in order. -/
def picks {α : Type} : List α → List (α × List α)
  | [] => []
  | x :: r => (x, r) :: (picks r).map fun p => (p.1, x :: p.2)

/-- All orders of a list of the given length, lexicographically by position. -/
def ordersN {α : Type} : Nat → List α → List (List α)
  | 0, _ => [[]]
  | n + 1, l => (picks l).flatMap fun p => (ordersN n p.2).map (p.1 :: ·)

/-- All orders of a list. -/
def orders {α : Type} (l : List α) : List (List α) := ordersN l.length l

/-- What is relied on for every parser of a text of length `n`: from any state, and any start within the text, it runs to
completion, matches as `f` tells, with the outcome `R` (which includes the interval) if it does and no valid interval if
it does not; matches lie in the text; and `invalidate` leaves no valid interval. -/
structure Contract (n : Nat) (o : Obj) (f : Sem) (R : St → Nat → Nat → Prop) : Prop where
  ok : ∀ s i j, i ≤ n → f i = some j → ∃ s', o.run s i = some (true, s') ∧ R s' i j
  fails : ∀ s i, i ≤ n → f i = none → ∃ s', o.run s i = some (false, s') ∧ s'.iv.valid = false
  iv : ∀ s i j, R s i j → s.iv = ⟨i, j⟩
  bound : ∀ i j, i ≤ n → f i = some j → i ≤ j ∧ j ≤ n
  inv : ∀ s, (o.inval s).iv.valid = false

end Verif.Parser
