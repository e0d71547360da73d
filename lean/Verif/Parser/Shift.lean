import Verif.Parser.SgmlNum
/-
Parsing is local: a parser in the middle of a text does what it does on the rest of the text alone (include/stdex/parser.hpp 70-182 and the parsers of Leaf.lean and Tree.lean). Where a text is held - in a buffer of a given
length or up to a terminator, and what is before and behind it - does not matter. The one exception is `basic_bol`, which looks at the character before.
-/
namespace Verif.Parser
open Verif.Interval Verif.Str

/-- What a program builds parsers of: the parsers of code units, ends of lines, sets and strings, and the combinators. -/
inductive Grammar where
  | noop
  | any
  | cu (chr : Int) (invert : Bool)
  | space (invert : Bool)
  | punct (invert : Bool)
  | spaceOrPunct (invert : Bool)
  | bol (invert : Bool)
  | eol (invert : Bool)
  | set (s : List Int) (invert : Bool)
  | string (s : List Int)
  | iter (el : Grammar) (mn mx : Nat) (greedy : Bool)
  | seq (els : List Grammar)
  | branch (els : List Grammar)
  | perm (els : List Grammar)

mutual
/-- The tree of parsers on a text. -/
def Grammar.on (v : Env) : Grammar → Shape
  | .noop => .leaf (Parser.noop v)
  | .any => .leaf (anyCu v)
  | .cu c i => .leaf (Parser.cu v c i)
  | .space i => .leaf (spaceCu v i)
  | .punct i => .leaf (punctCu v i)
  | .spaceOrPunct i => .leaf (spaceOrPunctCu v i)
  | .bol i => .leaf (Parser.bol v i)
  | .eol i => .leaf (Parser.eol v i)
  | .set s i => .leaf (cuSet v s i)
  | .string s => .leaf (Parser.string v s)
  | .iter e a b g => .iter (e.on v) a b g
  | .seq l => .seq (Grammar.ons v l)
  | .branch l => .branch (Grammar.ons v l)
  | .perm l => .perm (Grammar.ons v l)
def Grammar.ons (v : Env) : List Grammar → List Shape
  | [] => []
  | g :: r => g.on v :: Grammar.ons v r
end

/-! ### Specification -/

mutual
/-- A condition on all parts of a grammar that are not combinators. -/
def Grammar.Each (P : Grammar → Prop) : Grammar → Prop
  | .iter e _ _ _ => e.Each P
  | .seq l => Grammar.Eachs P l
  | .branch l => Grammar.Eachs P l
  | .perm l => Grammar.Eachs P l
  | g => P g
def Grammar.Eachs (P : Grammar → Prop) : List Grammar → Prop
  | [] => True
  | g :: r => g.Each P ∧ Grammar.Eachs P r
end

/-- The sets and the strings to match have no terminator within. -/
def Plain : Grammar → Prop
  | .set s _ => ∀ c ∈ s, c ≠ 0
  | .string s => ∀ c ∈ s, c ≠ 0
  | _ => True

/-- It does not ask for the beginning of a line. -/
def NoBol : Grammar → Prop
  | .bol _ => False
  | _ => True

/-- The same flags and the same locale. -/
structure SameLocale (v u : Env) : Prop where
  ci : v.ci = u.ci
  ml : v.ml = u.ml
  lower : v.lower = u.lower
  space : v.space = u.space
  punct : v.punct = u.punct

/-! ### Proofs -/

theorem shift_along {v u : Env} {p t : List Int} (hv : v.Ok (p ++ t)) (hu : u.Ok t) : Along v (p ++ t) u t (p.length + ·) :=
  ⟨hv, hu, fun k _ => by omega, by simp⟩

theorem shift_at {p t : List Int} (i : Nat) : (p ++ t)[p.length + i]? = t[i]? := by
  rw [List.getElem?_append_right (by omega), Nat.add_sub_cancel_left]

theorem shift_cond {v u : Env} {p t : List Int} (hv : v.Ok (p ++ t)) (hu : u.Ok t) {i : Nat} (hi : i ≤ t.length) : Str.cond v.s v.fin (p.length + i) = Str.cond u.s u.fin i := by
  rw [cond_eq hv.valid (by rw [← hv.text, List.length_append]; omega), cond_eq hu.valid (by rw [← hu.text]; exact hi), ← hv.text, ← hu.text, shift_at]

theorem shift_one {p t : List Int} {m' m : Leaf} {q : Int → Bool} (h' : One (p ++ t) m' q) (h : One t m q) : LeafMirrors (p.length + ·) t.length m' m := by
  intro k hk
  dsimp only
  rw [h' _ (by rw [List.length_append]; omega), h k hk, shift_at]
  by_cases lt : k < t.length
  · rw [List.getElem?_eq_getElem lt]
    dsimp only
    by_cases y : q t[k] = true
    · rw [if_pos y, if_pos y]
      exact ⟨by simp [Nat.add_assoc], fun j h x => by cases x; omega⟩
    · rw [if_neg y, if_neg y]; exact ⟨rfl, fun j h x => by cases x⟩
  · rw [List.getElem?_eq_none (by omega)]; exact ⟨rfl, fun j h x => by cases x⟩

/-- A parser that matches nothing, under a condition. -/
theorem shift_empty {p t : List Int} {m' m : Leaf} {q' q : Nat → Bool} (h' : ∀ i ≤ (p ++ t).length, m' i = some (if q' i then some (i, none) else none))
    (h : ∀ i ≤ t.length, m i = some (if q i then some (i, none) else none)) (e : ∀ k ≤ t.length, q' (p.length + k) = q k) : LeafMirrors (p.length + ·) t.length m' m := by
  intro k hk
  dsimp only
  rw [h' _ (by rw [List.length_append]; omega), h k hk, e k hk]
  by_cases y : q k = true
  · rw [if_pos y, if_pos y]; exact ⟨rfl, fun j h x => by cases x; omega⟩
  · rw [if_neg y, if_neg y]; exact ⟨rfl, fun j h x => by cases x⟩

theorem shift_lineStart {p t : List Int} {k : Nat} (h : k = 0 → lineStart (p ++ t) p.length = true) : lineStart (p ++ t) (p.length + k) = lineStart t k := by
  cases k with
  | zero => rw [Nat.add_zero, h rfl]; rfl
  | succ k =>
    have e : p.length + (k + 1) - 1 = p.length + k := by omega
    unfold lineStart
    rw [e, shift_at, Nat.add_sub_cancel]
    have a : (p.length + (k + 1) == 0) = false := by simp
    rw [a, show ((k + 1 == 0) = false) from rfl]

theorem shift_lineEnd {p t : List Int} {k : Nat} : lineEnd (p ++ t) (p.length + k) = lineEnd t k := by
  unfold lineEnd
  rw [shift_at, List.length_append]
  have : (p.length + k == p.length + t.length) = (k == t.length) := by
    by_cases q : k = t.length
    · subst q; simp
    · have a : (k == t.length) = false := by simpa using q
      rw [a, beq_eq_false_iff_ne]; omega
  rw [this]

theorem same_env {v u : Env} (e : SameLocale v u) (c d : Int) : same v c d = same u c d := by
  unfold same; rw [e.ci, e.lower]

theorem shift_set {v u : Env} {p t : List Int} (hv : v.Ok (p ++ t)) (hu : u.Ok t) (e : SameLocale v u) {s : List Int} (hs : ∀ c ∈ s, c ≠ 0) (i : Bool) :
    LeafMirrors (p.length + ·) t.length (cuSet v s i) (cuSet u s i) := by
  intro k hk
  have g := cuSet_good hu hs i
  rw [Good] at g
  refine ⟨?_, (g k hk).2⟩
  dsimp only
  unfold cuSet
  rw [shift_cond hv hu hk, e.ci, e.lower]
  cases Str.cond u.s u.fin k with
  | none => rfl
  | some c =>
    cases c with
    | none => rfl
    | some c =>
      dsimp only
      split
      · rfl
      · split <;> rfl

theorem shift_string {v u : Env} {p t : List Int} (hv : v.Ok (p ++ t)) (hu : u.Ok t) (e : SameLocale v u) {s : List Int} (hs : ∀ c ∈ s, c ≠ 0) :
    LeafMirrors (p.length + ·) t.length (Parser.string v s) (Parser.string u s) := by
  intro k hk
  have g := string_good hu hs
  rw [Good] at g
  refine ⟨?_, (g k hk).2⟩
  dsimp only
  rw [string_spec hv hs _ (by rw [List.length_append]; omega), string_spec hu hs k hk, e.ci, e.lower]
  rw [show (p ++ t).drop (p.length + k) = t.drop k from by rw [List.drop_append, List.drop_eq_nil_of_le (by omega), Nat.add_sub_cancel_left]; rfl]
  generalize (if u.ci = true then u.lower else id) = g
  split
  · simp [Nat.add_assoc]
  · rfl

mutual
theorem shift_trees {v u : Env} {p t : List Int} (hv : v.Ok (p ++ t)) (hu : u.Ok t) (e : SameLocale v u) : ∀ (g : Grammar), g.Each Plain → (lineStart (p ++ t) p.length = true ∨ g.Each NoBol) →
    TreeMirrors (p.length + ·) t.length (g.on v) (g.on u)
  | .noop, _, _ => by
    simp only [Grammar.on, TreeMirrors]
    refine shift_empty (q' := fun i => decide (i < (p ++ t).length)) (q := fun i => decide (i < t.length)) (fun i hi => by rw [noop_spec hv i hi]; simp) (fun i hi => by rw [noop_spec hu i hi]; simp) fun k _ => ?_
    rw [List.length_append]
    exact decide_eq_decide.2 (by omega)
  | .any, _, _ => by simp only [Grammar.on, TreeMirrors]; exact shift_one (anyCu_spec hv) (anyCu_spec hu)
  | .cu c i, _, _ => by
    simp only [Grammar.on, TreeMirrors]
    have := cu_spec hv c i
    simp only [same_env e] at this
    exact shift_one this (cu_spec hu c i)
  | .space i, _, _ => by
    simp only [Grammar.on, TreeMirrors]
    have := spaceCu_spec hv i
    rw [e.ml, e.space] at this
    exact shift_one this (spaceCu_spec hu i)
  | .punct i, _, _ => by
    simp only [Grammar.on, TreeMirrors]
    have := punctCu_spec hv i
    rw [e.punct] at this
    exact shift_one this (punctCu_spec hu i)
  | .spaceOrPunct i, _, _ => by
    simp only [Grammar.on, TreeMirrors]
    have := spaceOrPunctCu_spec hv i
    rw [e.ml, e.space, e.punct] at this
    exact shift_one this (spaceOrPunctCu_spec hu i)
  | .bol i, _, hb => by
    simp only [Grammar.on, TreeMirrors]
    refine shift_empty (bol_spec hv i) (bol_spec hu i) fun k _ => ?_
    rw [shift_lineStart]
    intro _
    rcases hb with h | h
    · exact h
    · simp only [Grammar.Each, NoBol] at h
  | .eol i, _, _ => by
    simp only [Grammar.on, TreeMirrors]
    refine shift_empty (eol_spec hv i) (eol_spec hu i) fun k _ => ?_
    rw [shift_lineEnd]
  | .set s i, hp, _ => by simp only [Grammar.on, TreeMirrors]; exact shift_set hv hu e (by simpa only [Grammar.Each, Plain] using hp) i
  | .string s, hp, _ => by simp only [Grammar.on, TreeMirrors]; exact shift_string hv hu e (by simpa only [Grammar.Each, Plain] using hp)
  | .iter g a b r, hp, hb => by
    simp only [Grammar.Each] at hp hb
    simp only [Grammar.on, TreeMirrors]
    exact ⟨trivial, trivial, trivial, shift_trees hv hu e g hp hb⟩
  | .seq l, hp, hb => by
    simp only [Grammar.Each] at hp hb
    simp only [Grammar.on, TreeMirrors]
    exact shift_forest hv hu e l hp hb
  | .branch l, hp, hb => by
    simp only [Grammar.Each] at hp hb
    simp only [Grammar.on, TreeMirrors]
    exact shift_forest hv hu e l hp hb
  | .perm l, hp, hb => by
    simp only [Grammar.Each] at hp hb
    simp only [Grammar.on, TreeMirrors]
    exact shift_forest hv hu e l hp hb
theorem shift_forest {v u : Env} {p t : List Int} (hv : v.Ok (p ++ t)) (hu : u.Ok t) (e : SameLocale v u) : ∀ (l : List Grammar), Grammar.Eachs Plain l →
    (lineStart (p ++ t) p.length = true ∨ Grammar.Eachs NoBol l) → TreesMirror (p.length + ·) t.length (Grammar.ons v l) (Grammar.ons u l)
  | [], _, _ => by simp only [Grammar.ons, TreesMirror]
  | g :: r, hp, hb => by
    simp only [Grammar.Eachs] at hp hb
    simp only [Grammar.ons, TreesMirror]
    exact ⟨shift_trees hv hu e g hp.1 (hb.imp id And.left), shift_forest hv hu e r hp.2 (hb.imp id And.right)⟩
end

mutual
theorem grammar_good {v : Env} {t : List Int} (h : v.Ok t) : ∀ (g : Grammar), g.Each Plain → Good t.length (g.on v)
  | .noop, _ => by
    simp only [Grammar.on]
    exact empty_good (p := fun i => decide (i < t.length)) (m := Parser.noop v) (fun i hi => by rw [noop_spec h i hi]; simp)
  | .any, _ => by simp only [Grammar.on]; exact one_good (anyCu_spec h)
  | .cu c i, _ => by simp only [Grammar.on]; exact one_good (cu_spec h c i)
  | .space i, _ => by simp only [Grammar.on]; exact one_good (spaceCu_spec h i)
  | .punct i, _ => by simp only [Grammar.on]; exact one_good (punctCu_spec h i)
  | .spaceOrPunct i, _ => by simp only [Grammar.on]; exact one_good (spaceOrPunctCu_spec h i)
  | .bol i, _ => by simp only [Grammar.on]; exact empty_good (bol_spec h i)
  | .eol i, _ => by simp only [Grammar.on]; exact empty_good (eol_spec h i)
  | .set s i, hp => by simp only [Grammar.on]; exact cuSet_good h (by simpa only [Grammar.Each, Plain] using hp) i
  | .string s, hp => by simp only [Grammar.on]; exact string_good h (by simpa only [Grammar.Each, Plain] using hp)
  | .iter g a b r, hp => by
    simp only [Grammar.Each] at hp
    simp only [Grammar.on, Good]
    exact grammar_good h g hp
  | .seq l, hp => by
    simp only [Grammar.Each] at hp
    simp only [Grammar.on, Good]
    exact grammars_good h l hp
  | .branch l, hp => by
    simp only [Grammar.Each] at hp
    simp only [Grammar.on, Good]
    exact grammars_good h l hp
  | .perm l, hp => by
    simp only [Grammar.Each] at hp
    simp only [Grammar.on, Good]
    exact grammars_good h l hp
theorem grammars_good {v : Env} {t : List Int} (h : v.Ok t) : ∀ (l : List Grammar), Grammar.Eachs Plain l → Goods t.length (Grammar.ons v l)
  | [], _ => by simp only [Grammar.ons, Goods]
  | g :: r, hp => by
    simp only [Grammar.Eachs] at hp
    simp only [Grammar.ons, Goods]
    exact ⟨grammar_good h g hp.1, grammars_good h r hp.2⟩
end

/-! ### The theorems -/

/-- **C151** (match) Any grammar on the text `p ++ t`, from position `p.length + k`, and the same grammar on `t` alone, from `k`, in whatever states and held however: the same result, and if they match the intervals are
the same, moved by the length of `p`. If it asks for the beginning of a line, `t` must begin at one in `p ++ t`. -/
theorem shift_match {v u : Env} {p t : List Int} (hv : v.Ok (p ++ t)) (hu : u.Ok t) (e : SameLocale v u) (g : Grammar) (hp : g.Each Plain) (hb : lineStart (p ++ t) p.length = true ∨ g.Each NoBol)
    {fuel' fuel : Nat} (hl' : (p ++ t).length < fuel') (hl : t.length < fuel) (x' x : St) {k : Nat} (hk : k ≤ t.length) :
    ∃ b y' y, (obj fuel' (g.on v)).run x' (p.length + k) = some (b, y') ∧ (obj fuel (g.on u)).run x k = some (b, y) ∧
      (if b then ∃ j, y.iv = ⟨k, j⟩ ∧ y'.iv = ⟨p.length + k, p.length + j⟩ ∧ k ≤ j ∧ j ≤ t.length else y'.iv.valid = false ∧ y.iv.valid = false) :=
  tree_mirrors (shift_along hv hu) (shift_trees hv hu e g hp hb) (grammar_good hv g hp) (grammar_good hu g hp) hl' hl x' x hk

/-- **C151** (search) `search` too: behind `p`, it finds what it finds in `t`. -/
theorem shift_search {v u : Env} {p t : List Int} (hv : v.Ok (p ++ t)) (hu : u.Ok t) (e : SameLocale v u) (g : Grammar) (hp : g.Each Plain) (hb : lineStart (p ++ t) p.length = true ∨ g.Each NoBol)
    {fuel' fuel : Nat} (hl' : (p ++ t).length < fuel') (hl : t.length < fuel) (x' x : St) {k : Nat} (hk : k ≤ t.length) :
    ∃ b y' y, search (atChar v) (obj fuel' (g.on v)) fuel' x' (p.length + k) = some (b, y') ∧ search (atChar u) (obj fuel (g.on u)) fuel x k = some (b, y) ∧
      (b = true → ∃ i j, y.iv = ⟨i, j⟩ ∧ y'.iv = ⟨p.length + i, p.length + j⟩ ∧ k ≤ i ∧ i < t.length) := by
  have m := sem_mirrors (shift_along hv hu) _ _ (shift_trees hv hu e g hp hb)
  have len : (p ++ t).length = p.length + t.length := List.length_append
  obtain ⟨b', y', a1, a2, a3⟩ := tree_search hl' (grammar_good hv g hp) (atChar_spec hv) x' (i := p.length + k) (by omega)
  obtain ⟨b, y, b1, b2, b3⟩ := tree_search hl (grammar_good hu g hp) (atChar_spec hu) x hk
  have same : b' = b := by
    rw [Bool.eq_iff_iff, a2, b2]
    constructor
    · rintro ⟨i, h1, h2, h3⟩
      refine ⟨i - p.length, by omega, by omega, ?_⟩
      have := (m (i - p.length) (by omega)).1
      dsimp only at this
      rw [show p.length + (i - p.length) = i from by omega] at this
      rw [this, Option.isSome_map] at h3
      exact h3
    · rintro ⟨i, h1, h2, h3⟩
      refine ⟨p.length + i, by omega, by omega, ?_⟩
      have := (m i (by omega)).1
      dsimp only at this
      rw [this, Option.isSome_map]
      exact h3
  subst same
  refine ⟨b', y', y, a1, b1, fun hb' => ?_⟩
  obtain ⟨i', j', c1, c2, c3, c4, c5⟩ := a3 hb'
  obtain ⟨i, j, d1, d2, d3, d4, d5⟩ := b3 hb'
  have q := (m i (by omega)).1
  have q' := (m (i' - p.length) (by omega)).1
  dsimp only at q q'
  rw [show p.length + (i' - p.length) = i' from by omega] at q'
  rw [d3] at q
  have i1 : ¬ p.length + i < i' := fun lt => by rw [c5 _ (by omega) lt] at q; cases q
  have i2 : ¬ i' < p.length + i := fun lt => by rw [c3, d5 _ (by omega) (by omega)] at q'; cases q'
  have : i' = p.length + i := by omega
  subst this
  rw [q] at c3
  cases c3
  exact ⟨i, j, d4, c4, d1, d2⟩

/-- **C151** (elements) As elements of the parsers of numbers, dates, addresses and URLs. -/
theorem shift_sub {v u : Env} {p t : List Int} (hv : v.Ok (p ++ t)) (hu : u.Ok t) (e : SameLocale v u) (g : Grammar) (hp : g.Each Plain) (hb : lineStart (p ++ t) p.length = true ∨ g.Each NoBol) :
    Mirrors (p.length + ·) t.length (sem (g.on v)) (sem (g.on u)) := sem_mirrors (shift_along hv hu) _ _ (shift_trees hv hu e g hp hb)

/-- **C151** (integers) An integer with any digits: the same value, and the end moved. -/
theorem shift_integer {v u : Env} {p t : List Int} (hv : v.Ok (p ++ t)) (hu : u.Ok t) (e : SameLocale v u) (base : Nat) (ds : List Grammar) (hd : ∀ g ∈ ds, g.Each Plain ∧ g.Each NoBol ∧ Takes t.length (sem (g.on u)))
    {k : Nat} (hk : k ≤ t.length) : ∃ r, integer u base (ds.map fun g => sem (g.on u)) k = some r ∧
      integer v base (ds.map fun g => sem (g.on v)) (p.length + k) = some (r.map fun x => (p.length + x.1, x.2)) := by
  refine integer_mirrors (shift_along hv hu) base ?_ ?_ hk
  · induction ds with
    | nil => exact .nil
    | cons g r ih => exact .cons (shift_sub hv hu e g (hd g List.mem_cons_self).1 (.inr (hd g List.mem_cons_self).2.1)) (ih fun x hx => hd x (List.mem_cons_of_mem _ hx))
  · intro d hd'
    obtain ⟨g, hg, rfl⟩ := List.mem_map.1 hd'
    exact (hd g hg).2.2

/-- A URL of given grammars. -/
structure UrlGrammars where
  http : Grammar
  ftp : Grammar
  mailto : Grammar
  file : Grammar
  colon : Grammar
  slash : Grammar
  username : Grammar
  password : Grammar
  at_ : Grammar
  lbracket : Grammar
  rbracket : Grammar
  ipv4 : Grammar
  ipv6 : Grammar
  dns : Grammar
  port : Grammar
  path : Grammar

/-- The elements on a text. -/
def UrlGrammars.on (v : Env) (c : UrlGrammars) : UrlParts :=
  ⟨sem (c.http.on v), sem (c.ftp.on v), sem (c.mailto.on v), sem (c.file.on v), sem (c.colon.on v), sem (c.slash.on v), sem (c.username.on v), sem (c.password.on v), sem (c.at_.on v), sem (c.lbracket.on v),
   sem (c.rbracket.on v), sem (c.ipv4.on v), sem (c.ipv6.on v), sem (c.dns.on v), sem (c.port.on v), sem (c.path.on v)⟩

/-- A condition on all of them. -/
def UrlGrammars.All (P : Grammar → Prop) (c : UrlGrammars) : Prop :=
  P c.http ∧ P c.ftp ∧ P c.mailto ∧ P c.file ∧ P c.colon ∧ P c.slash ∧ P c.username ∧ P c.password ∧ P c.at_ ∧ P c.lbracket ∧ P c.rbracket ∧ P c.ipv4 ∧ P c.ipv6 ∧ P c.dns ∧ P c.port ∧ P c.path

/-- **C151** (URLs) A URL, and an e-mail address, in the middle of a text: the same parts as in the text that begins with it, moved. -/
theorem shift_url {v u : Env} {p t : List Int} (hv : v.Ok (p ++ t)) (hu : u.Ok t) (e : SameLocale v u) (c : UrlGrammars) (hc : c.All fun g => g.Each Plain ∧ g.Each NoBol) {k : Nat} (hk : k ≤ t.length) :
    url (c.on v) (p.length + k) = ((url (c.on u) k).1, urlf (p.length + ·) (url (c.on u) k).2) ∧
    email (c.on v) (p.length + k) = ((email (c.on u) k).1, emailf (p.length + ·) (email (c.on u) k).2) := by
  have m : UrlMirrors (p.length + ·) t.length (c.on v) (c.on u) := by
    obtain ⟨h1, h2, h3, h4, h5, h6, h7, h8, h9, h10, h11, h12, h13, h14, h15, h16⟩ := hc
    have s : ∀ g : Grammar, g.Each Plain ∧ g.Each NoBol → Mirrors (p.length + ·) t.length (sem (g.on v)) (sem (g.on u)) := fun g hg => shift_sub hv hu e g hg.1 (.inr hg.2)
    exact ⟨s _ h1, s _ h2, s _ h3, s _ h4, s _ h5, s _ h6, s _ h7, s _ h8, s _ h9, s _ h10, s _ h11, s _ h12, s _ h13, s _ h14, s _ h15, s _ h16⟩
  exact ⟨url_mirrors m hk, email_mirrors m hk⟩

/-- **C151** (holding) With nothing before it: what is matched depends on the text alone, not on whether it ends at the terminator or at a given length, or on what is behind. -/
theorem same_text {v u : Env} {t : List Int} (hv : v.Ok t) (hu : u.Ok t) (e : SameLocale v u) (g : Grammar) (hp : g.Each Plain)
    {fuel : Nat} (hl : t.length < fuel) (x : St) {k : Nat} (hk : k ≤ t.length) :
    ∃ b y' y, (obj fuel (g.on v)).run x k = some (b, y') ∧ (obj fuel (g.on u)).run x k = some (b, y) ∧ (if b then y'.iv = y.iv else y'.iv.valid = false ∧ y.iv.valid = false) := by
  obtain ⟨b, y', y, a1, a2, a3⟩ := shift_match (p := []) hv hu e g hp (.inl rfl) hl hl x x hk
  simp only [List.length_nil, Nat.zero_add] at a1 a3
  refine ⟨b, y', y, a1, a2, ?_⟩
  cases b with
  | false => exact a3
  | true =>
    obtain ⟨j, c1, c2, _⟩ := a3
    exact (if_pos rfl).symm ▸ (c2.trans c1.symm)

/-! ### Examples -/

/-- `"b"` alone, one character of a longer buffer. -/
def tail1 : Env := ⟨[98, 120, 121], some 1, false, false, demo.lower, isspace, ispunct⟩

theorem tail1_ok : tail1.Ok [98] :=
  ⟨.inr ⟨1, rfl, by decide⟩, by decide, fun n q => (by cases q; decide), demo_ok.lower⟩

/-- `b` and then the end, in `"ab,b"` behind `"ab,"`, and alone. -/
example : ∃ b y' y, (obj 5 ((Grammar.seq [.set [97, 98] false, .eol false]).on demo)).run fresh 3 = some (b, y') ∧ (obj 5 ((Grammar.seq [.set [97, 98] false, .eol false]).on tail1)).run fresh 0 = some (b, y) ∧
    (if b then ∃ j, y.iv = ⟨0, j⟩ ∧ y'.iv = ⟨3, 3 + j⟩ ∧ 0 ≤ j ∧ j ≤ 1 else y'.iv.valid = false ∧ y.iv.valid = false) :=
  shift_match (p := [97, 98, 44]) (t := [98]) demo_ok tail1_ok ⟨rfl, rfl, rfl, rfl, rfl⟩ (.seq [.set [97, 98] false, .eol false]) (by simp [Grammar.Each, Grammar.Eachs, Plain]) (.inr (by simp [Grammar.Each, Grammar.Eachs, NoBol])) (fuel' := 5) (fuel := 5) (k := 0) (by decide) (by decide) fresh fresh (by decide)

example : sem ((Grammar.seq [.set [97, 98] false, .eol false]).on demo) 3 = some 4 ∧ sem ((Grammar.seq [.set [97, 98] false, .eol false]).on tail1) 0 = some 1 := by decide +kernel

/-- The exception is one: the beginning of a line is at the start of `"b"`, not at the `b` of `"ab,b"`. -/
theorem bol_shifts_not : sem ((Grammar.bol false).on tail1) 0 = some 0 ∧ sem ((Grammar.bol false).on demo) 3 = none := by decide

end Verif.Parser
