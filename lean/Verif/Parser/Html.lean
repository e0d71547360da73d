import Verif.Parser.Css
/-
The parsers of HTML (include/stdex/parser.hpp 7877-8366): identifiers, values, tags, and conditions of declarations.
-/
namespace Verif.Parser
open Verif.Str

/-- 7903-7906, 7983-7985: `>`, `=` (of identifiers), `/>`, or white space at `i`, where `c` is -/
def htmlStop (v : Env) (eq : Bool) (c : Int) (i : Nat) : Option Bool :=
  if c = 62 ∨ (eq = true ∧ c = 61) then some true
  else if c = 47 then (hasChar v 62 (i + 1)).map fun b => b || v.space c
  else some (v.space c)

/-- The loops 7893-7912, 7976-7992: where it ends, and whether at a stop -/
def htmlScan (v : Env) (eq : Bool) : Nat → Nat → Option (Nat × Bool)
  | 0, _ => none
  | fuel + 1, i =>
    match peek v i with
    | none => none
    | some none => some (i, false)
    | some (some c) =>
      match htmlStop v eq c i with
      | none => none
      | some true => some (i, true)
      | some false => htmlScan v eq fuel (i + 1)

/-- `html_ident::do_match` 7884-7913: the end -/
def htmlIdent (v : Env) (i : Nat) : Option (Option Nat) :=
  (htmlScan v true (fuelOf v) i).map fun r => if r.2 = true ∨ i < r.1 then some r.1 else none

/-- `html_value::do_match` 7940-7993: `content` and `interval` -/
def htmlValue (v : Env) (i : Nat) : Option (Option Part) :=
  match quoteAt v i with
  | none => none
  | some (some q) =>
    match scan v (fun x => x != q) (fuelOf v) (i + 1) with
    | none => none
    | some e =>
      match peek v e with
      | none => none
      | some none => some none
      | some (some _) => some (some ((i + 1, e), (i, e + 1)))
  | some none => (htmlScan v false (fuelOf v) i).map fun r => some ((i, r.1), (i, r.1))

/-- `html_sequence_t` 8007-8019, as far as `html_tag` uses it -/
inductive Sequence where
  | element
  | element_start
  | element_end
  | declaration
  | comment
  | instruction
deriving DecidableEq

/-- `html_attribute` 8024-8027; a value that is not valid is `none` -/
structure Attr where
  name : Nat × Nat
  value : Iv
deriving DecidableEq

/-- `type`, `name`, `attributes` and `interval` of `html_tag` -/
structure Tag where
  type : Sequence
  name : Nat × Nat
  attrs : List Attr
  interval : Nat × Nat
deriving DecidableEq

/-- 8220-8241: the value of the attribute and what follows, after its name -/
def attrValue (v : Env) (a : Nat) : Option (Iv × Nat) :=
  match scan v v.space (fuelOf v) a with
  | none => none
  | some b =>
    match hasChar v 61 b with
    | none => none
    | some false => some (none, b)
    | some true =>
      match scan v v.space (fuelOf v) (b + 1) with
      | none => none
      | some c =>
        match htmlValue v c with
        | none => none
        | some none => some (none, c)
        | some (some (content, interval)) => (scan v v.space (fuelOf v) interval.2).map fun f => (some content, f)

/-- 8168-8201: in declarations `!>` ends, and `--…--` is skipped: nothing of that, an error, the end, or where to go on -/
inductive Decl where
  | other
  | error
  | last (e : Nat)
  | on (e : Nat)
deriving DecidableEq

def declPart (v : Env) (e : Nat) : Option Decl :=
  match litAt v [(33, 33), (62, 62)] e with
  | none => none
  | some true => some (.last (e + 2))
  | some false =>
    match litAt v [(45, 45), (45, 45)] e with
    | none => none
    | some false => some .other
    | some true =>
      match findLit v [(45, 45), (45, 45)] (fuelOf v) (e + 2) with
      | none => none
      | some none => some .error
      | some (some d) => (scan v v.space (fuelOf v) (d + 2)).map .on

/-- The loop 8150-8242: `type`, `attributes` and `interval.end` -/
def tagLoop (v : Env) : Nat → Sequence → Nat → List Attr → Option (Option (Sequence × List Attr × Nat))
  | 0, _, _, _ => none
  | fuel + 1, ty, e, l =>
    match (if ty = .element_start then litAt v [(47, 47), (62, 62)] e else some false) with
    | none => none
    | some true => some (some (.element, l, e + 2))
    | some false =>
      match hasChar v 62 e with
      | none => none
      | some true => some (some (ty, l, e + 1))
      | some false =>
        match (if ty = .declaration then declPart v e else some .other) with
        | none => none
        | some .error => some none
        | some (.last f) => some (some (ty, l, f))
        | some (.on f) => tagLoop v fuel ty f l
        | some .other =>
          match peek v e with
          | none => none
          | some none => some none
          | some (some _) =>
            match htmlIdent v e with
            | none => none
            | some none => tagLoop v fuel ty (e + 1) l
            | some (some a) =>
              match attrValue v a with
              | none => none
              | some (x, f) => tagLoop v fuel ty f (l ++ [⟨(e, a), x⟩])

/-- 8066-8142: comments and instructions are whole tags, else `type`, `name` and `interval.end` -/
inductive Head where
  | error
  | whole (ty : Sequence) (name : Nat × Nat) (e : Nat)
  | open_ (ty : Sequence) (name : Nat × Nat) (e : Nat)
deriving DecidableEq

/-- The loop 8108-8133: the end of the instruction and its interval -/
def instructionLoop (v : Env) : Nat → Nat → Option (Option (Nat × Nat))
  | 0, _ => none
  | fuel + 1, e =>
    match peek v e with
    | none => none
    | some none => some none
    | some (some c) =>
      if c = 62 then some (some (e, e + 1))
      else
        match litAt v [(63, 63), (62, 62)] e with
        | none => none
        | some true => some (some (e, e + 2))
        | some false => instructionLoop v fuel (e + 1)

/-- 8075-8103 -/
def bangHead (v : Env) (i : Nat) : Option Head :=
  match litAt v [(45, 45), (45, 45)] (i + 2) with
  | none => none
  | some false => some (.open_ .declaration (i + 2, i + 2) (i + 2))
  | some true =>
    match findLit v [(45, 45), (45, 45), (62, 62)] (fuelOf v) (i + 4) with
    | none => none
    | some none => some .error
    | some (some e) => some (.whole .comment (i + 4, e) (e + 3))

/-- 8135-8142 -/
def startHead (v : Env) (i : Nat) : Option Head :=
  match htmlIdent v (i + 1) with
  | none => none
  | some none => some .error
  | some (some a) => some (.open_ .element_start (i + 1, a) a)

/-- 8064-8142 -/
def tagHead (v : Env) (i : Nat) : Option Head :=
  match peek v (i + 1) with
  | none => none
  | some none => some .error
  | some (some c) =>
    match (if c = 47 then htmlIdent v (i + 2) else some none) with
    | none => none
    | some (some a) => some (.open_ .element_end (i + 2, a) a)
    | some none =>
      if c = 33 then bangHead v i
      else if c = 63 then
        match instructionLoop v (fuelOf v) (i + 2) with
        | none => none
        | some none => some .error
        | some (some (d, e)) => some (.whole .instruction (i + 2, d) e)
      else startHead v i

/-- `html_tag::do_match` 8054-8251 -/
def htmlTag (v : Env) (i : Nat) : Option (Option Tag) :=
  match hasChar v 60 i with
  | none => none
  | some false => some none
  | some true =>
    match tagHead v i with
    | none => none
    | some .error => some none
    | some (.whole ty name e) => some (some ⟨ty, name, [], (i, e)⟩)
    | some (.open_ ty name a) =>
      match scan v v.space (fuelOf v) a with
      | none => none
      | some b =>
        match tagLoop v (fuelOf v) ty b [] with
        | none => none
        | some none => some none
        | some (some (ty', l, e)) => some (some ⟨ty', name, l, (i, e)⟩)

/-- `html_declaration_condition_start::do_match` 8281-8320: `condition` and `interval` -/
def conditionStart (v : Env) (i : Nat) : Option (Option Part) :=
  match litAt v [(60, 60), (33, 33), (91, 91)] i with
  | none => none
  | some false => some none
  | some true =>
    match scan v v.space (fuelOf v) (i + 3) with
    | none => none
    | some a =>
      match trimLoop v 91 (fuelOf v) a a with
      | none => none
      | some none => some none
      | some (some (y, d)) => some (some ((a, y), (i, d + 1)))

/-- `html_declaration_condition_end::do_match` 8338-8357 -/
def conditionEnd (v : Env) (i : Nat) : Option (Option Nat) := (litAt v [(93, 93), (93, 93), (62, 62)] i).map fun b => if b then some (i + 3) else none

/-! ### Specification -/

/-- White space from `i` to `e` -/
abbrev SpaceTo (space : Int → Bool) (t : List Int) (i e : Nat) : Prop := RunAt (fun c => space c = true) t i e

/-- At `i` ends a value: `>`, `/>`, or white space. -/
def ValueStop (space : Int → Bool) (t : List Int) (i : Nat) : Prop := t[i]? = some 62 ∨ SaysAt ['/', '>'] t i ∨ ∃ c, t[i]? = some c ∧ space c = true

/-- At `i` ends an identifier: the same, or `=`. -/
def IdentStop (space : Int → Bool) (t : List Int) (i : Nat) : Prop := t[i]? = some 61 ∨ ValueStop space t i

/-- The first place from `i` with `stop`, or the end of the text, is `e`. -/
def UpTo (stop : Nat → Prop) (t : List Int) (i e : Nat) : Prop := i ≤ e ∧ (∀ j, i ≤ j → j < e → ¬ stop j) ∧ (stop e ∨ e = t.length) ∧ e ≤ t.length

/-- An identifier from `i` to `e`; at the end of the text it is not empty. -/
def IdentAt (space : Int → Bool) (t : List Int) (i e : Nat) : Prop := UpTo (IdentStop space t) t i e ∧ (i < e ∨ IdentStop space t e)

/-- A value with or without quotes -/
inductive HtmlValueAt (space : Int → Bool) (t : List Int) (i : Nat) : Part → Prop
  | quoted {e q} : (q = 34 ∨ q = 39) → t[i]? = some q → RunAt (· ≠ q) t (i + 1) e → t[e]? = some q → HtmlValueAt space t i ((i + 1, e), (i, e + 1))
  | plain {e} : t[i]? ≠ some 34 → t[i]? ≠ some 39 → UpTo (ValueStop space t) t i e → HtmlValueAt space t i ((i, e), (i, e))

/-- After the name of an attribute: no value, a value, or `=` and a quote that is not closed; and where that ends, with white space. -/
inductive AttrValue (space : Int → Bool) (t : List Int) (a : Nat) : Iv → Nat → Prop
  | none {b} : SpaceTo space t a b → t[b]? ≠ some 61 → AttrValue space t a none b
  | value {b c f} {content interval : Nat × Nat} : SpaceTo space t a b → t[b]? = some 61 → SpaceTo space t (b + 1) c → HtmlValueAt space t c (content, interval) → SpaceTo space t interval.2 f → AttrValue space t a (some content) f
  | open_ {b c} : SpaceTo space t a b → t[b]? = some 61 → SpaceTo space t (b + 1) c → (∀ p, ¬ HtmlValueAt space t c p) → AttrValue space t a .none c

/-- The rest of a tag from `e`: attributes up to `>`, or up to `/>` in elements, or up to `!>` in declarations, where `--…--` are skipped. -/
inductive AttrsAt (space : Int → Bool) (t : List Int) (ty : Sequence) : Nat → List Attr → Sequence → Nat → Prop
  | close {e} : t[e]? = some 62 → AttrsAt space t ty e [] ty (e + 1)
  | element {e} : ty = .element_start → SaysAt ['/', '>'] t e → AttrsAt space t ty e [] .element (e + 2)
  | bang {e} : ty = .declaration → SaysAt ['!', '>'] t e → AttrsAt space t ty e [] ty (e + 2)
  | comment {e d f l ty' g} : ty = .declaration → SaysAt ['-', '-'] t e → FirstLit [(45, 45), (45, 45)] t (e + 2) d → SpaceTo space t (d + 2) f → AttrsAt space t ty f l ty' g → AttrsAt space t ty e l ty' g
  | attr {e a x f l ty' g} : t[e]? ≠ some 62 → ¬ (ty = .element_start ∧ SaysAt ['/', '>'] t e) → ¬ (ty = .declaration ∧ (SaysAt ['!', '>'] t e ∨ SaysAt ['-', '-'] t e)) →
    IdentAt space t e a → AttrValue space t a x f → AttrsAt space t ty f l ty' g → AttrsAt space t ty e (⟨(e, a), x⟩ :: l) ty' g

/-- The beginning of a tag: `</name`, `<name`, or `<!` -/
inductive HeadAt (space : Int → Bool) (t : List Int) (i : Nat) : Sequence → Nat × Nat → Nat → Prop
  | end_ {a} : t[i + 1]? = some 47 → IdentAt space t (i + 2) a → HeadAt space t i .element_end (i + 2, a) a
  | start {a} : t[i + 1]? ≠ some 33 → t[i + 1]? ≠ some 63 → ¬ (t[i + 1]? = some 47 ∧ ∃ b, IdentAt space t (i + 2) b) → i + 1 < t.length → IdentAt space t (i + 1) a → HeadAt space t i .element_start (i + 1, a) a
  | declaration : t[i + 1]? = some 33 → ¬ SaysAt ['-', '-'] t (i + 2) → HeadAt space t i .declaration (i + 2, i + 2) (i + 2)

/-- A tag: a comment up to the first `-->`, an instruction up to the first `>` (without a question mark before it), or anything with attributes. -/
inductive TagAt (space : Int → Bool) (t : List Int) (i : Nat) : Tag → Prop
  | comment {e} : SaysAt ['<', '!', '-', '-'] t i → FirstLit [(45, 45), (45, 45), (62, 62)] t (i + 4) e → TagAt space t i ⟨.comment, (i + 4, e), [], (i, e + 3)⟩
  | instruction {d} : SaysAt ['<', '?'] t i → RunAt (· ≠ 62) t (i + 2) d → t[d]? = some 62 → TagAt space t i ⟨.instruction, (i + 2, if i + 2 < d ∧ t[d - 1]? = some 63 then d - 1 else d), [], (i, d + 1)⟩
  | tag {ty name a b l ty' e} : t[i]? = some 60 → HeadAt space t i ty name a → SpaceTo space t a b → AttrsAt space t ty b l ty' e → TagAt space t i ⟨ty', name, l, (i, e)⟩

/-- From `e` the parser gets to a `/>` that does not end the tag: it is an end tag or a declaration. -/
inductive StuckAt (space : Int → Bool) (t : List Int) (ty : Sequence) : Nat → Prop
  | here {e} : ty ≠ .element_start → SaysAt ['/', '>'] t e → StuckAt space t ty e
  | comment {e d f} : ty = .declaration → SaysAt ['-', '-'] t e → FirstLit [(45, 45), (45, 45)] t (e + 2) d → SpaceTo space t (d + 2) f → StuckAt space t ty f → StuckAt space t ty e
  | attr {e a x f} : t[e]? ≠ some 62 → ¬ (ty = .element_start ∧ SaysAt ['/', '>'] t e) → ¬ (ty = .declaration ∧ (SaysAt ['!', '>'] t e ∨ SaysAt ['-', '-'] t e)) →
    IdentAt space t e a → AttrValue space t a x f → StuckAt space t ty f → StuckAt space t ty e

/-- The tag at `i` is such a one, as `</a/>` or `<!a/>`. -/
def StuckTag (space : Int → Bool) (t : List Int) (i : Nat) : Prop := ∃ ty name a b, t[i]? = some 60 ∧ HeadAt space t i ty name a ∧ SpaceTo space t a b ∧ StuckAt space t ty b

/-- `<![condition[` -/
def ConditionStart (space : Int → Bool) (t : List Int) (i : Nat) (p : Part) : Prop :=
  ∃ a d y, SaysAt ['<', '!', '['] t i ∧ SpaceTo space t (i + 3) a ∧ RunAt (· ≠ 91) t a d ∧ t[d]? = some 91 ∧ TrimEnd space t a d y ∧ p = ((a, y), (i, d + 1))

/-- `]]>` -/
def ConditionEnd (t : List Int) (i : Nat) (e : Nat) : Prop := SaysAt [']', ']', '>'] t i ∧ e = i + 3

/-! ### Proofs -/

theorem slash_says {t : List Int} {i : Nat} : LitAt [(47, 47), (62, 62)] t i ↔ SaysAt ['/', '>'] t i := litAt_says (ps := [(47, 47), (62, 62)]) (w := ['/', '>']) ⟨case_pair rfl (by decide), case_pair rfl (by decide), trivial⟩
theorem bang_says {t : List Int} {i : Nat} : LitAt [(33, 33), (62, 62)] t i ↔ SaysAt ['!', '>'] t i := litAt_says (ps := [(33, 33), (62, 62)]) (w := ['!', '>']) ⟨case_pair rfl (by decide), case_pair rfl (by decide), trivial⟩
theorem dash_says {t : List Int} {i : Nat} : LitAt [(45, 45), (45, 45)] t i ↔ SaysAt ['-', '-'] t i := litAt_says (ps := [(45, 45), (45, 45)]) (w := ['-', '-']) ⟨case_pair rfl (by decide), case_pair rfl (by decide), trivial⟩
theorem cond_says {t : List Int} {i : Nat} : LitAt [(60, 60), (33, 33), (91, 91)] t i ↔ SaysAt ['<', '!', '['] t i :=
  litAt_says (ps := [(60, 60), (33, 33), (91, 91)]) (w := ['<', '!', '[']) ⟨case_pair rfl (by decide), case_pair rfl (by decide), case_pair rfl (by decide), trivial⟩
theorem condEnd_says {t : List Int} {i : Nat} : LitAt [(93, 93), (93, 93), (62, 62)] t i ↔ SaysAt [']', ']', '>'] t i :=
  litAt_says (ps := [(93, 93), (93, 93), (62, 62)]) (w := [']', ']', '>']) ⟨case_pair rfl (by decide), case_pair rfl (by decide), case_pair rfl (by decide), trivial⟩
theorem comment_says {t : List Int} {i : Nat} : LitAt [(60, 60), (33, 33), (45, 45), (45, 45)] t i ↔ SaysAt ['<', '!', '-', '-'] t i :=
  litAt_says (ps := [(60, 60), (33, 33), (45, 45), (45, 45)]) (w := ['<', '!', '-', '-']) ⟨case_pair rfl (by decide), case_pair rfl (by decide), case_pair rfl (by decide), case_pair rfl (by decide), trivial⟩
theorem instr_says {t : List Int} {i : Nat} : LitAt [(60, 60), (63, 63)] t i ↔ SaysAt ['<', '?'] t i := litAt_says (ps := [(60, 60), (63, 63)]) (w := ['<', '?']) ⟨case_pair rfl (by decide), case_pair rfl (by decide), trivial⟩

/-- **C98** (conditions) -/
theorem conditionStart_spec {v : Env} {t : List Int} (h : v.Ok t) {i : Nat} (hi : i ≤ t.length) : Decides (conditionStart v i) (ConditionStart v.space t i) := by
  unfold conditionStart
  rcases says_cases h (ps := [(60, 60), (33, 33), (91, 91)]) (by decide) (fun _ => cond_says) hi with ⟨e1, e2⟩ | ⟨e1, e2⟩
  · rw [e2]
    dsimp only
    obtain ⟨a, a1, a2, a3⟩ := space_to h (i := i + 3) (litAt_len (by decide) (cond_says.2 e1))
    rw [a1]
    dsimp only
    rcases trimLoop_spec h 91 (a := a) (fuelOf v) (e := a) (y := a) a3 (fuel_all h _) ⟨Nat.le_refl _, Nat.le_refl _, fun j _ _ => by omega, .inl rfl⟩ with ⟨d, z, s1, s2, s3, s4⟩ | ⟨s1, s2⟩
    · rw [s4]
      refine .yes (a := ((a, z), (i, d + 1))) rfl ⟨a, d, z, e1, a2, s1, s2, s3, rfl⟩ ?_
      rintro b ⟨a', d', z', -, k2, k3, k4, k5, rfl⟩
      have := runAt_one a2 k2; subst this
      have := runAt_one s1 k3; subst this
      rw [trimEnd_one s3 k5]
    · rw [s2]
      refine .no rfl ?_
      rintro b ⟨a', d', z', -, k2, k3, k4, k5, rfl⟩
      have := runAt_one a2 k2; subst this
      exact s1 _ k3 k4
  · rw [e2]
    exact .no rfl (fun b ⟨_, _, _, k, _⟩ => e1 k)

theorem conditionEnd_spec {v : Env} {t : List Int} (h : v.Ok t) {i : Nat} (hi : i ≤ t.length) : Decides (conditionEnd v i) (ConditionEnd t i) := by
  obtain ⟨r, r1, r2⟩ := lit_decides h (ps := [(93, 93), (93, 93), (62, 62)]) (by decide) hi 3
  exact ⟨r, r1, fun a => (r2 a).trans (and_congr condEnd_says Iff.rfl)⟩

/-- What stops: identifiers stop at `=`. -/
def StopAt (eq : Bool) (space : Int → Bool) (t : List Int) (i : Nat) : Prop := (eq = true ∧ t[i]? = some 61) ∨ ValueStop space t i

theorem stopAt_ident {space : Int → Bool} {t : List Int} {i : Nat} : StopAt true space t i ↔ IdentStop space t i := by
  unfold StopAt IdentStop
  simp

theorem stopAt_value {space : Int → Bool} {t : List Int} {i : Nat} : StopAt false space t i ↔ ValueStop space t i := by
  unfold StopAt
  simp

theorem slash_at {t : List Int} {i : Nat} : SaysAt ['/', '>'] t i ↔ t[i]? = some 47 ∧ t[i + 1]? = some 62 := by
  rw [← slash_says, litAt_cons, litAt_cons]
  simp [litAt_nil]

theorem htmlStop_spec {v : Env} {t : List Int} (h : v.Ok t) (eq : Bool) {c : Int} {i : Nat} (hc : t[i]? = some c) :
    (StopAt eq v.space t i ∧ htmlStop v eq c i = some true) ∨ (¬ StopAt eq v.space t i ∧ htmlStop v eq c i = some false) := by
  unfold htmlStop
  by_cases k : c = 62 ∨ (eq = true ∧ c = 61)
  · rw [if_pos k]
    refine .inl ⟨?_, rfl⟩
    rcases k with rfl | ⟨k, rfl⟩
    · exact .inr (.inl hc)
    · exact .inl ⟨k, hc⟩
  · rw [if_neg k]
    have sp : (∃ d, t[i]? = some d ∧ v.space d = true) ↔ v.space c = true := by
      rw [hc]
      exact ⟨fun ⟨d, x, y⟩ => by cases x; exact y, fun x => ⟨c, rfl, x⟩⟩
    have k62 : t[i]? ≠ some 62 := fun x => by rw [hc] at x; cases x; exact k (.inl rfl)
    have k61 : ¬ (eq = true ∧ t[i]? = some 61) := fun x => k (.inr ⟨x.1, by have := x.2; rw [hc] at this; cases this; rfl⟩)
    have red : StopAt eq v.space t i ↔ (c = 47 ∧ t[i + 1]? = some 62) ∨ v.space c = true := by
      unfold StopAt ValueStop
      rw [sp, slash_at, hc]
      constructor
      · rintro (x | x | x | x)
        · exact absurd (hc ▸ x) k61
        · exact absurd (hc ▸ x) k62
        · exact .inl ⟨by have := x.1; cases this; rfl, x.2⟩
        · exact .inr x
      · rintro (⟨x, y⟩ | x)
        · exact .inr (.inr (.inl ⟨by rw [x], y⟩))
        · exact .inr (.inr (.inr x))
    rw [red]
    by_cases k47 : c = 47
    · rw [if_pos k47, hasChar_eq h (get_lt hc)]
      show (_ ∧ some (decide (t[i + 1]? = some 62) || v.space c) = _) ∨ (_ ∧ some (decide (t[i + 1]? = some 62) || v.space c) = _)
      by_cases n : t[i + 1]? = some 62
      · exact .inl ⟨.inl ⟨k47, n⟩, by rw [decide_eq_true n]; rfl⟩
      · rw [decide_eq_false n, Bool.false_or]
        cases hs : v.space c with
        | true => exact .inl ⟨.inr rfl, rfl⟩
        | false => exact .inr ⟨fun x => x.elim (fun y => n y.2) (fun y => nomatch y), rfl⟩
    · rw [if_neg k47]
      cases hs : v.space c with
      | true => exact .inl ⟨.inr rfl, rfl⟩
      | false => exact .inr ⟨fun x => x.elim (fun y => k47 y.1) (fun y => nomatch y), rfl⟩

theorem stopAt_lt {eq : Bool} {space : Int → Bool} {t : List Int} {i : Nat} (h : StopAt eq space t i) : i < t.length := by
  rcases h with ⟨-, h⟩ | h | h | ⟨c, h, -⟩
  · exact get_lt h
  · exact get_lt h
  · exact get_lt (slash_at.1 h).1
  · exact get_lt h

theorem upTo_one {stop : Nat → Prop} {t : List Int} {i e e' : Nat} (h : UpTo stop t i e) (h' : UpTo stop t i e') : e = e' := by
  have key : ∀ {e e'}, UpTo stop t i e → UpTo stop t i e' → ¬ e < e' := by
    rintro e e' ⟨h1, h2, h3, h4⟩ ⟨k1, k2, k3, k4⟩ x
    rcases h3 with h3 | h3
    · exact k2 e h1 x h3
    · omega
  have := key h h'
  have := key h' h
  omega

theorem htmlScan_spec {v : Env} {t : List Int} (h : v.Ok t) (eq : Bool) : ∀ (fuel : Nat) {i : Nat}, i ≤ t.length → t.length - i < fuel →
    ∃ e b, UpTo (StopAt eq v.space t) t i e ∧ (b = true ↔ StopAt eq v.space t e) ∧ htmlScan v eq fuel i = some (e, b) := by
  intro fuel
  induction fuel with
  | zero => intro i _ q; omega
  | succ fuel ih =>
    intro i hi hf
    unfold htmlScan
    rw [peek_eq h hi]
    cases hc : t[i]? with
    | none =>
      have := List.getElem?_eq_none_iff.1 hc
      exact ⟨i, false, ⟨Nat.le_refl i, fun j _ _ => by omega, .inr (show i = t.length by omega), hi⟩, ⟨(fun x => nomatch x), fun x => by have := stopAt_lt x; omega⟩, rfl⟩
    | some c =>
      dsimp only
      rcases htmlStop_spec h eq hc with ⟨e1, e2⟩ | ⟨e1, e2⟩
      · rw [e2]
        exact ⟨i, true, ⟨Nat.le_refl _, fun j _ _ => by omega, .inl e1, hi⟩, ⟨fun _ => e1, fun _ => rfl⟩, rfl⟩
      · rw [e2]
        have hl := get_lt hc
        obtain ⟨e, b, x, y, z⟩ := ih hl (by omega)
        refine ⟨e, b, ⟨by have := x.1; omega, fun j j1 j2 => ?_, x.2.2⟩, y, z⟩
        by_cases q : j = i
        · exact q ▸ e1
        · exact x.2.1 j (by omega) j2

theorem upTo_congr {s s' : Nat → Prop} {t : List Int} {i e : Nat} (h : ∀ j, s j ↔ s' j) : UpTo s t i e ↔ UpTo s' t i e := by
  have : s = s' := funext fun j => propext (h j)
  rw [this]

theorem identAt_one {space : Int → Bool} {t : List Int} {i e e' : Nat} (h : IdentAt space t i e) (h' : IdentAt space t i e') : e = e' :=
  upTo_one h.1 h'.1

theorem ident_cases {v : Env} {t : List Int} (h : v.Ok t) {i : Nat} (hi : i ≤ t.length) :
    (∃ e, IdentAt v.space t i e ∧ e ≤ t.length ∧ htmlIdent v i = some (some e)) ∨ ((∀ e, ¬ IdentAt v.space t i e) ∧ i = t.length ∧ htmlIdent v i = some none) := by
  obtain ⟨e, b, x, y, z⟩ := htmlScan_spec h true (fuelOf v) hi (fuel_all h i)
  unfold htmlIdent
  rw [z]
  have x' := (upTo_congr (fun j => stopAt_ident)).1 x
  have y' := y.trans stopAt_ident
  show (∃ e', _ ∧ _ ∧ some (if b = true ∨ i < e then some e else none) = _) ∨ (_ ∧ _ ∧ some (if b = true ∨ i < e then some e else none) = _)
  by_cases k : b = true ∨ i < e
  · rw [if_pos k]
    refine .inl ⟨e, ⟨x', ?_⟩, x.2.2.2, rfl⟩
    rcases k with k | k
    · exact .inr (y'.1 k)
    · exact .inl k
  · rw [if_neg k]
    have ie : i = e := by have := x.1; omega
    refine .inr ⟨?_, ?_, rfl⟩
    · intro e' q
      have := upTo_one x' q.1
      subst this
      rcases q.2 with q | q
      · exact k (.inr q)
      · exact k (.inl (y'.2 q))
    · rcases x'.2.2.1 with q | q
      · exact absurd (.inl (y'.2 q)) k
      · omega

/-- **C98** (identifiers) -/
theorem htmlIdent_spec {v : Env} {t : List Int} (h : v.Ok t) {i : Nat} (hi : i ≤ t.length) : Decides (htmlIdent v i) (IdentAt v.space t i) := by
  rcases ident_cases h hi with ⟨e, x, -, y⟩ | ⟨x, -, y⟩
  · exact .yes y x (fun b q => identAt_one q x)
  · exact .no y x

theorem htmlValueAt_one {space : Int → Bool} {t : List Int} {i : Nat} {p p' : Part} (h : HtmlValueAt space t i p) (h' : HtmlValueAt space t i p') : p = p' := by
  cases h with
  | quoted q h1 h2 h3 =>
    cases h' with
    | quoted _ k1 k2 k3 =>
      rw [h1] at k1; cases k1
      rw [runAt_one h2 k2]
    | plain k1 k2 => rcases q with rfl | rfl; exact absurd h1 k1; exact absurd h1 k2
  | plain h1 h2 h3 =>
    cases h' with
    | quoted q k1 => rcases q with rfl | rfl; exact absurd k1 h1; exact absurd k1 h2
    | plain _ _ k3 => rw [upTo_one h3 k3]

theorem htmlValue_cases {v : Env} {t : List Int} (h : v.Ok t) {i : Nat} (hi : i ≤ t.length) :
    (∃ p, HtmlValueAt v.space t i p ∧ i ≤ p.2.2 ∧ p.2.2 ≤ t.length ∧ htmlValue v i = some (some p)) ∨ ((∀ p, ¬ HtmlValueAt v.space t i p) ∧ htmlValue v i = some none) := by
  unfold htmlValue
  rcases quoteAt_eq h hi with ⟨q, d1, d2, d3⟩ | ⟨d1, d2, d3⟩
  · rw [d3]
    dsimp only
    obtain ⟨d, s1, s2, s3⟩ := scan_to h (p := fun x => x != q) (P := (· ≠ q)) (by simp) (i := i + 1) (get_lt d2)
    rw [s1]
    dsimp only
    rw [peek_eq h s3]
    cases hd : t[d]? with
    | none =>
      refine .inr ⟨?_, rfl⟩
      intro p hp
      cases hp with
      | quoted _ k1 k2 k3 =>
        rw [d2] at k1; cases k1
        rw [← runAt_one s2 k2, hd] at k3; cases k3
      | plain k1 k2 => rcases d1 with rfl | rfl; exact k1 d2; exact k2 d2
    | some x =>
      have : x = q := Classical.byContradiction fun ne => s2.2.2 x hd ne
      subst this
      exact .inl ⟨_, .quoted d1 d2 s2 hd, by have := s2.1; dsimp only; omega, get_lt hd, rfl⟩
  · rw [d3]
    obtain ⟨e, b, x, y, z⟩ := htmlScan_spec h false (fuelOf v) hi (fuel_all h i)
    rw [z]
    exact .inl ⟨_, .plain d1 d2 ((upTo_congr (fun j => stopAt_value)).1 x), x.1, x.2.2.2, rfl⟩

/-- **C98** (values) -/
theorem htmlValue_spec {v : Env} {t : List Int} (h : v.Ok t) {i : Nat} (hi : i ≤ t.length) : Decides (htmlValue v i) (HtmlValueAt v.space t i) := by
  rcases htmlValue_cases h hi with ⟨e, x, -, -, y⟩ | ⟨x, y⟩
  · exact .yes y x (fun b q => htmlValueAt_one q x)
  · exact .no y x

theorem attrValue_one {space : Int → Bool} {t : List Int} {a f f' : Nat} {x x' : Iv} (h : AttrValue space t a x f) (h' : AttrValue space t a x' f') : x = x' ∧ f = f' := by
  cases h with
  | none h1 h2 =>
    cases h' with
    | none k1 => exact ⟨rfl, runAt_one h1 k1⟩
    | value k1 k2 | open_ k1 k2 => rw [← runAt_one h1 k1] at k2; exact absurd k2 h2
  | value h1 h2 h3 h4 h5 =>
    cases h' with
    | none k1 k2 => rw [← runAt_one h1 k1] at k2; exact absurd h2 k2
    | value k1 k2 k3 k4 k5 =>
      have := runAt_one h1 k1; subst this
      have := runAt_one h3 k3; subst this
      have := htmlValueAt_one h4 k4; cases this
      exact ⟨rfl, runAt_one h5 k5⟩
    | open_ k1 k2 k3 k4 =>
      have := runAt_one h1 k1; subst this
      have := runAt_one h3 k3; subst this
      exact absurd h4 (k4 _)
  | open_ h1 h2 h3 h4 =>
    cases h' with
    | none k1 k2 => rw [← runAt_one h1 k1] at k2; exact absurd h2 k2
    | value k1 k2 k3 k4 k5 =>
      have := runAt_one h1 k1; subst this
      have := runAt_one h3 k3; subst this
      exact absurd k4 (h4 _)
    | open_ k1 k2 k3 k4 =>
      have := runAt_one h1 k1; subst this
      exact ⟨rfl, runAt_one h3 k3⟩

/-- There is no white space at `e`. -/
def NoSpace (space : Int → Bool) (t : List Int) (e : Nat) : Prop := ∀ c, t[e]? = some c → space c = false

theorem noSpace_of {space : Int → Bool} {t : List Int} {i e : Nat} (h : SpaceTo space t i e) : NoSpace space t e := fun c q => by simpa using h.2.2 c q

theorem attrValue_spec {v : Env} {t : List Int} (h : v.Ok t) {a : Nat} (ha : a ≤ t.length) :
    ∃ x f, AttrValue v.space t a x f ∧ a ≤ f ∧ f ≤ t.length ∧ NoSpace v.space t f ∧ (t[a]? = some 61 → v.space 61 = false → a < f) ∧ attrValue v a = some (x, f) := by
  unfold attrValue
  obtain ⟨b, b1, b2, b3⟩ := space_to h ha
  rw [b1]
  dsimp only
  rw [hasChar_eq h b3]
  have hab := b2.1
  by_cases k : t[b]? = some 61
  · rw [decide_eq_true k]
    dsimp only
    obtain ⟨c, c1, c2, c3⟩ := space_to h (i := b + 1) (get_lt k)
    have hbc := c2.1
    rw [c1]
    dsimp only
    rcases htmlValue_cases h c3 with ⟨p, x, x1, x2, y⟩ | ⟨x, y⟩
    · rw [y]
      obtain ⟨f, f1, f2, f3⟩ := space_to h x2
      have := f2.1
      dsimp only
      rw [f1]
      exact ⟨_, f, .value b2 k c2 x f2, by omega, f3, noSpace_of f2, fun _ _ => by omega, rfl⟩
    · rw [y]
      exact ⟨_, c, .open_ b2 k c2 x, by omega, c3, noSpace_of c2, fun _ _ => by omega, rfl⟩
  · rw [decide_eq_false k]
    refine ⟨_, b, .none b2 k, by omega, b3, noSpace_of b2, fun x y => ?_, rfl⟩
    have : RunAt (fun c => v.space c = true) t a a := runAt_nil (fun c q z => by rw [x] at q; cases q; rw [y] at z; cases z)
    rw [runAt_one b2 this] at k
    exact absurd x k

theorem attrsAt_one {space : Int → Bool} {t : List Int} {ty ty1 ty2 : Sequence} {e g1 g2 : Nat} {l1 l2 : List Attr} (h : AttrsAt space t ty e l1 ty1 g1) (h' : AttrsAt space t ty e l2 ty2 g2) : l1 = l2 ∧ ty1 = ty2 ∧ g1 = g2 := by
  have cs : ∀ {e}, t[e]? = some 62 → ¬ SaysAt ['/', '>'] t e := fun x y => by have := (slash_at.1 y).1; rw [x] at this; cases this
  have cb : ∀ {e}, t[e]? = some 62 → ¬ SaysAt ['!', '>'] t e := fun x y => by
    have := (litAt_cons.1 (bang_says.2 y)).1; rw [x] at this; rcases this with q | q <;> cases q
  have cd : ∀ {e}, t[e]? = some 62 → ¬ SaysAt ['-', '-'] t e := fun x y => by
    have := (litAt_cons.1 (dash_says.2 y)).1; rw [x] at this; rcases this with q | q <;> cases q
  have bd : ∀ {e}, SaysAt ['!', '>'] t e → ¬ SaysAt ['-', '-'] t e := fun x y => by
    have h1 := (litAt_cons.1 (bang_says.2 x)).1
    have h2 := (litAt_cons.1 (dash_says.2 y)).1
    rcases h1 with h1 | h1 <;> rw [h1] at h2 <;> rcases h2 with h2 | h2 <;> cases h2
  induction h generalizing l2 ty2 g2 with
  | close x =>
    cases h' with
    | close => exact ⟨rfl, rfl, rfl⟩
    | element _ y => exact absurd y (cs x)
    | bang _ y => exact absurd y (cb x)
    | comment _ y => exact absurd y (cd x)
    | attr y => exact absurd x y
  | element x1 x2 =>
    cases h' with
    | close y => exact absurd x2 (cs y)
    | element => exact ⟨rfl, rfl, rfl⟩
    | bang y => rw [x1] at y; cases y
    | comment y => rw [x1] at y; cases y
    | attr _ y => exact absurd ⟨x1, x2⟩ y
  | bang x1 x2 =>
    cases h' with
    | close y => exact absurd x2 (cb y)
    | element y => rw [x1] at y; cases y
    | bang => exact ⟨rfl, rfl, rfl⟩
    | comment _ y => exact absurd y (bd x2)
    | attr _ _ y => exact absurd ⟨x1, .inl x2⟩ y
  | comment x1 x2 x3 x4 _ ih =>
    cases h' with
    | close y => exact absurd x2 (cd y)
    | element y => rw [x1] at y; cases y
    | bang _ y => exact absurd x2 (bd y)
    | comment _ _ y3 y4 y5 =>
      have := firstLit_one x3 y3; subst this
      have := runAt_one x4 y4; subst this
      exact ih y5
    | attr _ _ y => exact absurd ⟨x1, .inr x2⟩ y
  | attr x1 x2 x3 x4 x5 _ ih =>
    cases h' with
    | close y => exact absurd y x1
    | element y1 y2 => exact absurd ⟨y1, y2⟩ x2
    | bang y1 y2 => exact absurd ⟨y1, .inl y2⟩ x3
    | comment y1 y2 => exact absurd ⟨y1, .inr y2⟩ x3
    | attr _ _ _ y4 y5 y6 =>
      have := identAt_one x4 y4; subst this
      obtain ⟨p, q⟩ := attrValue_one x5 y5; subst p; subst q
      obtain ⟨p, q, r⟩ := ih y6
      exact ⟨by rw [p], q, r⟩

/-- What `declPart` says -/
def DeclSpec (space : Int → Bool) (t : List Int) (e : Nat) : Decl → Prop
  | .other => ¬ SaysAt ['!', '>'] t e ∧ ¬ SaysAt ['-', '-'] t e
  | .error => SaysAt ['-', '-'] t e ∧ ¬ SaysAt ['!', '>'] t e ∧ ∀ d, ¬ FirstLit [(45, 45), (45, 45)] t (e + 2) d
  | .last f => SaysAt ['!', '>'] t e ∧ f = e + 2
  | .on f => SaysAt ['-', '-'] t e ∧ ¬ SaysAt ['!', '>'] t e ∧ ∃ d, FirstLit [(45, 45), (45, 45)] t (e + 2) d ∧ SpaceTo space t (d + 2) f ∧ e < f ∧ f ≤ t.length

theorem declPart_spec {v : Env} {t : List Int} (h : v.Ok t) {e : Nat} (he : e ≤ t.length) : ∃ d, DeclSpec v.space t e d ∧ declPart v e = some d := by
  unfold declPart
  rcases says_cases h (ps := [(33, 33), (62, 62)]) (by decide) (fun _ => bang_says) he with ⟨e1, e2⟩ | ⟨e1, e2⟩
  · rw [e2]
    exact ⟨.last (e + 2), ⟨e1, rfl⟩, rfl⟩
  · rw [e2]
    dsimp only
    rcases says_cases h (ps := [(45, 45), (45, 45)]) (by decide) (fun _ => dash_says) he with ⟨d1, d2⟩ | ⟨d1, d2⟩
    · rw [d2]
      dsimp only
      have := litAt_len (by decide) (dash_says.2 d1)
      rcases findLit_spec h (ps := [(45, 45), (45, 45)]) (by decide) (fuelOf v) (a := e + 2) this (fuel_all h _) with ⟨d, x, y, z⟩ | ⟨x, y⟩
      · rw [z]
        dsimp only
        obtain ⟨f, f1, f2, f3⟩ := space_to h (i := d + 2) y
        rw [f1]
        exact ⟨.on f, ⟨d1, e1, d, x, f2, by have := f2.1; have := x.1; omega, f3⟩, rfl⟩
      · rw [y]
        exact ⟨.error, ⟨d1, e1, x⟩, rfl⟩
    · rw [d2]
      exact ⟨.other, ⟨e1, d1⟩, rfl⟩

/-- The tag can be read from `e`, or it cannot. -/
def TagEnd (space : Int → Bool) (t : List Int) (ty : Sequence) (e : Nat) (l : List Attr) (r : Option (Option (Sequence × List Attr × Nat))) : Prop :=
  (∃ m ty' g, AttrsAt space t ty e m ty' g ∧ r = some (some (ty', l ++ m, g))) ∨ ((∀ m ty' g, ¬ AttrsAt space t ty e m ty' g) ∧ r = some none)

theorem attrsAt_lt {space : Int → Bool} {t : List Int} {ty ty' : Sequence} {e g : Nat} {l : List Attr} (h : AttrsAt space t ty e l ty' g) : e < t.length ∨ IdentAt space t e t.length := by
  cases h with
  | close x => exact .inl (get_lt x)
  | element _ x => exact .inl (get_lt (slash_at.1 x).1)
  | bang _ x => have := litAt_len (by decide) (bang_says.2 x); simp at this; exact .inl (by omega)
  | comment _ x => have := litAt_len (by decide) (dash_says.2 x); simp at this; exact .inl (by omega)
  | attr _ _ _ x =>
    by_cases q : e < t.length
    · exact .inl q
    · have h4 := x.1.2.2.2
      have h1 := x.1.1
      have := Nat.le_antisymm h4 (by omega)
      exact .inr (this ▸ x)

theorem ident_end {space : Int → Bool} {t : List Int} {e a : Nat} (he : e = t.length) (h : IdentAt space t e a) : False := by
  have := h.1.1
  have := h.1.2.2.2
  rcases h.2 with q | q
  · omega
  · have := stopAt_lt (stopAt_ident.2 q); omega

theorem tagLoop_spec {v : Env} {t : List Int} (h : v.Ok t) : ∀ (fuel : Nat) {ty : Sequence} {e : Nat} (l : List Attr), e ≤ t.length → t.length - e < fuel → ¬ StuckAt v.space t ty e → NoSpace v.space t e →
    TagEnd v.space t ty e l (tagLoop v fuel ty e l) := by
  intro fuel
  induction fuel with
  | zero => intro ty e l _ q; omega
  | succ fuel ih =>
    intro ty e l he hf hg hn
    unfold tagLoop
    -- `/>`
    have c1 : (ty = .element_start ∧ SaysAt ['/', '>'] t e ∧ (if ty = .element_start then litAt v [(47, 47), (62, 62)] e else some false) = some true) ∨
        (¬ (ty = .element_start ∧ SaysAt ['/', '>'] t e) ∧ (if ty = .element_start then litAt v [(47, 47), (62, 62)] e else some false) = some false) := by
      by_cases k : ty = .element_start
      · rw [if_pos k]
        rcases says_cases h (ps := [(47, 47), (62, 62)]) (by decide) (fun _ => slash_says) he with ⟨e1, e2⟩ | ⟨e1, e2⟩
        · exact .inl ⟨k, e1, e2⟩
        · exact .inr ⟨fun x => e1 x.2, e2⟩
      · rw [if_neg k]
        exact .inr ⟨fun x => k x.1, rfl⟩
    rcases c1 with ⟨k1, k2, k3⟩ | ⟨k1, k3⟩
    · rw [k3]
      exact .inl ⟨[], .element, e + 2, .element k1 k2, by rw [List.append_nil]⟩
    rw [k3]
    dsimp only
    rw [hasChar_eq h he]
    by_cases k62 : t[e]? = some 62
    · rw [decide_eq_true k62]
      exact .inl ⟨[], ty, e + 1, .close k62, by rw [List.append_nil]⟩
    rw [decide_eq_false k62]
    dsimp only
    have c2 : ∃ d, (ty = .declaration → DeclSpec v.space t e d) ∧ (ty ≠ .declaration → d = .other) ∧ (if ty = .declaration then declPart v e else some .other) = some d := by
      by_cases k : ty = .declaration
      · rw [if_pos k]
        obtain ⟨d, d1, d2⟩ := declPart_spec h he
        exact ⟨d, fun _ => d1, fun x => absurd k x, d2⟩
      · rw [if_neg k]
        exact ⟨.other, fun x => absurd x k, fun _ => rfl, rfl⟩
    obtain ⟨d, d1, d2, d3⟩ := c2
    rw [d3]
    by_cases kd : ty = .declaration
    case neg =>
      have := d2 kd; subst this
      dsimp only
      have nod : ¬ (ty = .declaration ∧ (SaysAt ['!', '>'] t e ∨ SaysAt ['-', '-'] t e)) := fun x => kd x.1
      rw [peek_eq h he]
      cases hc : t[e]? with
      | none =>
        have el := List.getElem?_eq_none_iff.1 hc
        refine .inr ⟨fun m ty' g q => ?_, rfl⟩
        rcases attrsAt_lt q with q | q
        · omega
        · exact ident_end (by omega) q
      | some c =>
        dsimp only
        have hl := get_lt hc
        rcases ident_cases h he with ⟨a, a1, a2, a3⟩ | ⟨a1, a2, a3⟩
        case inr => omega
        rw [a3]
        dsimp only
        obtain ⟨x, f, f1, f2, f3, f4, f5, f6⟩ := attrValue_spec h a2
        rw [f6]
        dsimp only
        have ea := a1.1.1
        have prog : e < f := by
          by_cases q : e < a
          · omega
          · have : a = e := by omega
            subst this
            rcases a1.2 with q | q | q | q | ⟨c', q, q'⟩
            · omega
            · exact f5 q (hn 61 q)
            · exact absurd q k62
            · exact absurd (.here (fun y => k1 ⟨y, q⟩) q) hg
            · rw [hn c' q] at q'; cases q'
        rcases ih (l ++ [⟨(e, a), x⟩]) f3 (by omega) (fun y => hg (.attr k62 k1 nod a1 f1 y)) f4 with ⟨m, ty', g, m1, m2⟩ | ⟨m1, m2⟩
        · exact .inl ⟨⟨(e, a), x⟩ :: m, ty', g, .attr k62 k1 nod a1 f1 m1, by rw [m2, List.append_assoc]; rfl⟩
        · refine .inr ⟨fun m ty' g q => ?_, m2⟩
          cases q with
          | close y => exact k62 y
          | element y1 y2 => exact k1 ⟨y1, y2⟩
          | bang y1 y2 => exact kd y1
          | comment y1 y2 => exact kd y1
          | attr _ _ _ y4 y5 y6 =>
            have := identAt_one a1 y4; subst this
            obtain ⟨p, q⟩ := attrValue_one f1 y5; subst p; subst q
            exact m1 _ _ _ y6
    case pos =>
      have ds := d1 kd
      cases d with
      | error =>
        obtain ⟨e1, e2, e3⟩ := ds
        refine .inr ⟨fun m ty' g q => ?_, rfl⟩
        cases q with
        | close y => exact k62 y
        | element y1 y2 => exact k1 ⟨y1, y2⟩
        | bang y1 y2 => exact e2 y2
        | comment y1 y2 y3 => exact e3 _ y3
        | attr _ _ y => exact y ⟨kd, .inr e1⟩
      | last f =>
        obtain ⟨e1, rfl⟩ := ds
        exact .inl ⟨[], ty, e + 2, .bang kd e1, by rw [List.append_nil]⟩
      | on f =>
        obtain ⟨e1, e2, d, e3, e4, e5, e6⟩ := ds
        dsimp only
        rcases ih l e6 (by omega) (fun y => hg (.comment kd e1 e3 e4 y)) (noSpace_of e4) with ⟨m, ty', g, m1, m2⟩ | ⟨m1, m2⟩
        · exact .inl ⟨m, ty', g, .comment kd e1 e3 e4 m1, m2⟩
        · refine .inr ⟨fun m ty' g q => ?_, m2⟩
          cases q with
          | close y => exact k62 y
          | element y1 y2 => exact k1 ⟨y1, y2⟩
          | bang y1 y2 => exact e2 y2
          | comment y1 y2 y3 y4 y5 =>
            have := firstLit_one e3 y3; subst this
            have := runAt_one e4 y4; subst this
            exact m1 _ _ _ y5
          | attr _ _ y => exact y ⟨kd, .inr e1⟩
      | other =>
        dsimp only
        have nod : ¬ (ty = .declaration ∧ (SaysAt ['!', '>'] t e ∨ SaysAt ['-', '-'] t e)) := fun x => x.2.elim ds.1 ds.2
        rw [peek_eq h he]
        cases hc : t[e]? with
        | none =>
          have el := List.getElem?_eq_none_iff.1 hc
          refine .inr ⟨fun m ty' g q => ?_, rfl⟩
          rcases attrsAt_lt q with q | q
          · omega
          · exact ident_end (by omega) q
        | some c =>
          dsimp only
          have hl := get_lt hc
          rcases ident_cases h he with ⟨a, a1, a2, a3⟩ | ⟨a1, a2, a3⟩
          case inr => omega
          rw [a3]
          dsimp only
          obtain ⟨x, f, f1, f2, f3, f4, f5, f6⟩ := attrValue_spec h a2
          rw [f6]
          dsimp only
          have ea := a1.1.1
          have prog : e < f := by
            by_cases q : e < a
            · omega
            · have : a = e := by omega
              subst this
              rcases a1.2 with q | q | q | q | ⟨c', q, q'⟩
              · omega
              · exact f5 q (hn 61 q)
              · exact absurd q k62
              · exact absurd (.here (fun y => k1 ⟨y, q⟩) q) hg
              · rw [hn c' q] at q'; cases q'
          rcases ih (l ++ [⟨(e, a), x⟩]) f3 (by omega) (fun y => hg (.attr k62 k1 nod a1 f1 y)) f4 with ⟨m, ty', g, m1, m2⟩ | ⟨m1, m2⟩
          · exact .inl ⟨⟨(e, a), x⟩ :: m, ty', g, .attr k62 k1 nod a1 f1 m1, by rw [m2, List.append_assoc]; rfl⟩
          · refine .inr ⟨fun m ty' g q => ?_, m2⟩
            cases q with
            | close y => exact k62 y
            | element y1 y2 => exact k1 ⟨y1, y2⟩
            | bang y1 y2 => exact ds.1 y2
            | comment y1 y2 => exact ds.2 y2
            | attr _ _ _ y4 y5 y6 =>
              have := identAt_one a1 y4; subst this
              obtain ⟨p, q⟩ := attrValue_one f1 y5; subst p; subst q
              exact m1 _ _ _ y6

/-- The instruction ends with the first `>`; a question mark before it is no part of it. -/
theorem instructionLoop_spec {v : Env} {t : List Int} (h : v.Ok t) : ∀ (fuel : Nat) {a : Nat}, a ≤ t.length → t.length - a < fuel →
    (∃ d, RunAt (· ≠ 62) t a d ∧ t[d]? = some 62 ∧ instructionLoop v fuel a = some (some (if a < d ∧ t[d - 1]? = some 63 then d - 1 else d, d + 1))) ∨
    ((∀ d, RunAt (· ≠ 62) t a d → t[d]? ≠ some 62) ∧ instructionLoop v fuel a = some none) := by
  intro fuel
  induction fuel with
  | zero => intro a _ q; omega
  | succ fuel ih =>
    intro a ha hf
    unfold instructionLoop
    rw [peek_eq h ha]
    cases hc : t[a]? with
    | none =>
      refine .inr ⟨fun d hd hs => ?_, rfl⟩
      have hr : RunAt (· ≠ 62) t a a := runAt_nil (fun c q => by rw [hc] at q; cases q)
      rw [runAt_one hd hr, hc] at hs
      cases hs
    | some c =>
      dsimp only
      have hl := get_lt hc
      by_cases k : c = 62
      · rw [if_pos k]
        subst k
        refine .inl ⟨a, runAt_nil (fun d q x => by rw [hc] at q; cases q; exact x rfl), hc, ?_⟩
        rw [if_neg (fun x => Nat.lt_irrefl _ x.1)]
      · rw [if_neg k]
        rcases lit_cases h (ps := [(63, 63), (62, 62)]) (by decide) ha with ⟨e1, e2⟩ | ⟨e1, e2⟩
        · rw [e2]
          rw [litAt_cons, litAt_cons] at e1
          dsimp only at e1
          rw [or_self, or_self] at e1
          refine .inl ⟨a + 1, runAt_cons hc k (runAt_nil (fun d q x => by rw [e1.2.1] at q; cases q; exact x rfl)), e1.2.1, ?_⟩
          rw [if_pos ⟨by omega, by rw [Nat.add_sub_cancel]; exact e1.1⟩, Nat.add_sub_cancel]
        · rw [e2]
          dsimp only
          have back : ∀ d, RunAt (· ≠ 62) t a d → RunAt (· ≠ 62) t (a + 1) d := by
            intro d hd
            refine ⟨?_, fun j h1 h2 => hd.2.1 j (by omega) h2, hd.2.2⟩
            have := hd.1
            by_cases x : a = d
            · subst x; exact absurd k (hd.2.2 c hc)
            · omega
          rcases ih hl (by omega) with ⟨d, d1, d2, d3⟩ | ⟨d1, d2⟩
          · refine .inl ⟨d, runAt_cons hc k d1, d2, ?_⟩
            rw [d3]
            have hd := d1.1
            by_cases q : a + 1 = d
            · subst q
              rw [if_neg (fun x => by omega), if_neg]
              rintro ⟨-, x⟩
              rw [Nat.add_sub_cancel] at x
              refine e1 (litAt_cons.2 ⟨.inl x, litAt_cons.2 ⟨.inl d2, litAt_nil _ _⟩⟩)
            · by_cases x : t[d - 1]? = some 63
              · rw [if_pos ⟨by omega, x⟩, if_pos ⟨by omega, x⟩]
              · rw [if_neg (fun y => x y.2), if_neg (fun y => x y.2)]
          · exact .inr ⟨fun d hd => d1 d (back d hd), d2⟩

/-- What `tagHead` says, after `<` -/
def HeadSpec (space : Int → Bool) (t : List Int) (i : Nat) : Head → Prop
  | .error => (∀ T, ¬ TagAt space t i T) ∧ ∀ ty n a, ¬ HeadAt space t i ty n a
  | .whole ty name e => TagAt space t i ⟨ty, name, [], (i, e)⟩ ∧ ∀ ty n a, ¬ HeadAt space t i ty n a
  | .open_ ty name a => HeadAt space t i ty name a ∧ a ≤ t.length ∧ i < a

theorem headAt_one {space : Int → Bool} {t : List Int} {i a a' : Nat} {ty ty' : Sequence} {n n' : Nat × Nat} (h : HeadAt space t i ty n a) (h' : HeadAt space t i ty' n' a') : ty = ty' ∧ n = n' ∧ a = a' := by
  cases h with
  | end_ h1 h2 =>
    cases h' with
    | end_ k1 k2 => rw [identAt_one h2 k2]; exact ⟨rfl, rfl, rfl⟩
    | start _ _ k => exact absurd ⟨h1, _, h2⟩ k
    | declaration k => rw [h1] at k; cases k
  | start h1 h2 h3 h4 h5 =>
    cases h' with
    | end_ k1 k2 => exact absurd ⟨k1, _, k2⟩ h3
    | start _ _ _ _ k => rw [identAt_one h5 k]; exact ⟨rfl, rfl, rfl⟩
    | declaration k => exact absurd k h1
  | declaration h1 h2 =>
    cases h' with
    | end_ k1 k2 => rw [h1] at k1; cases k1
    | start k => exact absurd h1 k
    | declaration => exact ⟨rfl, rfl, rfl⟩

theorem comment_at {t : List Int} {i : Nat} : SaysAt ['<', '!', '-', '-'] t i ↔ t[i]? = some 60 ∧ t[i + 1]? = some 33 ∧ SaysAt ['-', '-'] t (i + 2) := by
  rw [← comment_says, litAt_cons, litAt_cons, ← dash_says]
  simp

theorem instr_at {t : List Int} {i : Nat} : SaysAt ['<', '?'] t i ↔ t[i]? = some 60 ∧ t[i + 1]? = some 63 := by
  rw [← instr_says, litAt_cons, litAt_cons]
  simp [litAt_nil]

/-- The tag begins with this. -/
theorem tagAt_head {space : Int → Bool} {t : List Int} {i : Nat} {T : Tag} (h : TagAt space t i T) :
    (SaysAt ['<', '!', '-', '-'] t i ∧ T.type = .comment) ∨ (SaysAt ['<', '?'] t i ∧ T.type = .instruction) ∨ ∃ ty name a, HeadAt space t i ty name a := by
  cases h with
  | comment x => exact .inl ⟨x, rfl⟩
  | instruction x => exact .inr (.inl ⟨x, rfl⟩)
  | tag _ x => exact .inr (.inr ⟨_, _, _, x⟩)

theorem head_comment {space : Int → Bool} {t : List Int} {i a : Nat} {ty : Sequence} {n : Nat × Nat} (h : HeadAt space t i ty n a) : ¬ SaysAt ['<', '!', '-', '-'] t i ∧ ¬ SaysAt ['<', '?'] t i := by
  rw [comment_at, instr_at]
  cases h with
  | end_ x => exact ⟨(fun y => by rw [x] at y; cases y.2.1), (fun y => by rw [x] at y; cases y.2)⟩
  | start x1 x2 => exact ⟨fun y => x1 y.2.1, fun y => x2 y.2⟩
  | declaration x1 x2 => exact ⟨fun y => x2 y.2.2, fun y => by rw [x1] at y; cases y.2⟩

theorem comment_instr {t : List Int} {i : Nat} (h : SaysAt ['<', '!', '-', '-'] t i) : ¬ SaysAt ['<', '?'] t i := by
  rw [comment_at] at h
  rw [instr_at]
  exact fun y => by rw [h.2.1] at y; cases y.2

theorem tagHead_spec {v : Env} {t : List Int} (h : v.Ok t) {i : Nat} (h60 : t[i]? = some 60) : ∃ d, HeadSpec v.space t i d ∧ tagHead v i = some d := by
  have hi := get_lt h60
  unfold tagHead
  rw [peek_eq h hi]
  cases hc : t[i + 1]? with
  | none =>
    have hl := List.getElem?_eq_none_iff.1 hc
    have no : ∀ ty n a, ¬ HeadAt v.space t i ty n a := by
      intro ty n a q
      cases q with
      | end_ x => rw [hc] at x; cases x
      | start _ _ _ x => omega
      | declaration x => rw [hc] at x; cases x
    refine ⟨.error, ⟨fun T q => ?_, no⟩, rfl⟩
    rcases tagAt_head q with ⟨q, -⟩ | ⟨q, -⟩ | ⟨_, _, _, q⟩
    · rw [comment_at, hc] at q; cases q.2.1
    · rw [instr_at, hc] at q; cases q.2
    · exact no _ _ _ q
  | some c =>
    have hl := get_lt hc
    dsimp only
    have c1 : (∃ a, c = 47 ∧ IdentAt v.space t (i + 2) a ∧ a ≤ t.length ∧ (if c = 47 then htmlIdent v (i + 2) else some none) = some (some a)) ∨
        (¬ (t[i + 1]? = some 47 ∧ ∃ b, IdentAt v.space t (i + 2) b) ∧ (if c = 47 then htmlIdent v (i + 2) else some none) = some none) := by
      by_cases k : c = 47
      · rw [if_pos k]
        rcases ident_cases h (i := i + 2) hl with ⟨a, a1, a2, a3⟩ | ⟨a1, a2, a3⟩
        · exact .inl ⟨a, k, a1, a2, a3⟩
        · exact .inr ⟨fun ⟨_, b, x⟩ => a1 b x, a3⟩
      · rw [if_neg k]
        refine .inr ⟨fun ⟨x, _⟩ => ?_, rfl⟩
        rw [hc] at x; cases x; exact k rfl
    rcases c1 with ⟨a, a1, a2, a3, a4⟩ | ⟨a1, a2⟩
    · rw [a4]
      subst a1
      exact ⟨.open_ .element_end (i + 2, a) a, ⟨.end_ hc a2, a3, by have := a2.1.1; omega⟩, rfl⟩
    · rw [a2]
      dsimp only
      by_cases k33 : c = 33
      · rw [if_pos k33]
        subst k33
        unfold bangHead
        rcases says_cases h (ps := [(45, 45), (45, 45)]) (by decide) (fun _ => dash_says) (i := i + 2) hl with ⟨d1, d2⟩ | ⟨d1, d2⟩
        · rw [d2]
          dsimp only
          have hs : SaysAt ['<', '!', '-', '-'] t i := comment_at.2 ⟨h60, hc, d1⟩
          have := litAt_len (by decide) (comment_says.2 hs)
          rcases findLit_spec h (ps := [(45, 45), (45, 45), (62, 62)]) (by decide) (fuelOf v) (a := i + 4) this (fuel_all h _) with ⟨e, x, -, z⟩ | ⟨x, z⟩
          · rw [z]
            exact ⟨.whole .comment (i + 4, e) (e + 3), ⟨.comment hs x, fun _ _ _ q => (head_comment q).1 hs⟩, rfl⟩
          · rw [z]
            refine ⟨.error, ⟨fun T q => ?_, fun _ _ _ q => (head_comment q).1 hs⟩, rfl⟩
            cases q with
            | comment _ q => exact x _ q
            | instruction q => exact comment_instr hs q
            | tag _ q => exact (head_comment q).1 hs
        · rw [d2]
          exact ⟨.open_ .declaration (i + 2, i + 2) (i + 2), ⟨.declaration hc d1, hl, by omega⟩, rfl⟩
      · rw [if_neg k33]
        by_cases k63 : c = 63
        · rw [if_pos k63]
          subst k63
          have hs : SaysAt ['<', '?'] t i := instr_at.2 ⟨h60, hc⟩
          rcases instructionLoop_spec h (fuelOf v) (a := i + 2) hl (fuel_all h _) with ⟨d, d1, d2, d3⟩ | ⟨d1, d2⟩
          · rw [d3]
            exact ⟨.whole .instruction (i + 2, if i + 2 < d ∧ t[d - 1]? = some 63 then d - 1 else d) (d + 1), ⟨.instruction hs d1 d2, fun _ _ _ q => (head_comment q).2 hs⟩, rfl⟩
          · rw [d2]
            refine ⟨.error, ⟨fun T q => ?_, fun _ _ _ q => (head_comment q).2 hs⟩, rfl⟩
            cases q with
            | comment q => exact comment_instr q hs
            | instruction _ q q' => exact d1 _ q q'
            | tag _ q => exact (head_comment q).2 hs
        · rw [if_neg k63]
          unfold startHead
          rcases ident_cases h hi with ⟨a, b1, b2, b3⟩ | ⟨b1, b2, b3⟩
          · rw [b3]
            exact ⟨.open_ .element_start (i + 1, a) a, ⟨.start (fun x => by rw [hc] at x; cases x; exact k33 rfl) (fun x => by rw [hc] at x; cases x; exact k63 rfl) a1 hl b1, b2, by have := b1.1.1; omega⟩, rfl⟩
          · omega

theorem tagAt_one {space : Int → Bool} {t : List Int} {i : Nat} {T T' : Tag} (h : TagAt space t i T) (h' : TagAt space t i T') : T = T' := by
  cases h with
  | comment x1 x2 =>
    cases h' with
    | comment _ y2 => rw [firstLit_one x2 y2]
    | instruction y => exact absurd y (comment_instr x1)
    | tag _ y => exact absurd x1 (head_comment y).1
  | instruction x1 x2 =>
    cases h' with
    | comment y => exact absurd x1 (comment_instr y)
    | instruction _ y2 => have := runAt_one x2 y2; subst this; rfl
    | tag _ y => exact absurd x1 (head_comment y).2
  | tag x1 x2 x3 x4 =>
    cases h' with
    | comment y => exact absurd y (head_comment x2).1
    | instruction y => exact absurd y (head_comment x2).2
    | tag _ y2 y3 y4 =>
      obtain ⟨rfl, rfl, rfl⟩ := headAt_one x2 y2
      have := runAt_one x3 y3; subst this
      obtain ⟨rfl, rfl, rfl⟩ := attrsAt_one x4 y4
      rfl

/-- **C99** (tags), where the parser comes to an end -/
theorem htmlTag_spec_partial {v : Env} {t : List Int} (h : v.Ok t) {i : Nat} (hi : i ≤ t.length) (he : ¬ StuckTag v.space t i) : Decides (htmlTag v i) (TagAt v.space t i) := by
  unfold htmlTag
  rw [hasChar_eq h hi]
  by_cases h60 : t[i]? = some 60
  · rw [decide_eq_true h60]
    dsimp only
    obtain ⟨d, d1, d2⟩ := tagHead_spec h h60
    rw [d2]
    cases d with
    | error => exact .no rfl d1.1
    | whole ty name e =>
      obtain ⟨d1, -⟩ := d1
      exact .yes rfl d1 (fun b q => tagAt_one q d1)
    | open_ ty name a =>
      obtain ⟨x1, x2, x3⟩ := d1
      dsimp only
      obtain ⟨b, b1, b2, b3⟩ := space_to h x2
      rw [b1]
      dsimp only
      have goes : ¬ StuckAt v.space t ty b := fun q => he ⟨ty, name, a, b, h60, x1, b2, q⟩
      rcases tagLoop_spec h (fuelOf v) [] b3 (fuel_all h b) goes (noSpace_of b2) with ⟨m, ty', g, m1, m2⟩ | ⟨m1, m2⟩
      · rw [m2, List.nil_append]
        have T := TagAt.tag h60 x1 b2 m1
        exact .yes rfl T (fun b q => tagAt_one q T)
      · rw [m2]
        refine .no rfl fun T q => ?_
        cases q with
        | comment y => exact (head_comment x1).1 y
        | instruction y => exact (head_comment x1).2 y
        | tag _ y2 y3 y4 =>
          obtain ⟨rfl, rfl, rfl⟩ := headAt_one x1 y2
          have := runAt_one b2 y3; subst this
          exact m1 _ _ _ y4
  · rw [decide_eq_false h60]
    refine .no rfl fun T q => ?_
    cases q with
    | comment y => exact h60 (comment_at.1 y).1
    | instruction y => exact h60 (instr_at.1 y).1
    | tag y => exact h60 y

/-! ### Bounds -/

/-- The attribute is between `e` and `g`, its value after its name. -/
def AttrIn (e g : Nat) (x : Attr) : Prop := e ≤ x.name.1 ∧ x.name.1 ≤ x.name.2 ∧ x.name.2 ≤ g ∧ ∀ c, x.value = some c → x.name.2 ≤ c.1 ∧ c.1 ≤ c.2 ∧ c.2 ≤ g

/-- The attribute `x` ends before `y` begins. -/
def AttrBefore (x y : Attr) : Prop := x.name.2 ≤ y.name.1 ∧ ∀ c, x.value = some c → c.2 ≤ y.name.1

theorem attrValue_bounds {space : Int → Bool} {t : List Int} {a f : Nat} {x : Iv} (h : AttrValue space t a x f) : a ≤ f ∧ ∀ c, x = some c → a ≤ c.1 ∧ c.1 ≤ c.2 ∧ c.2 ≤ f := by
  cases h with
  | none h => exact ⟨h.1, fun c q => nomatch q⟩
  | value h1 _ h2 h3 h4 =>
    have := h1.1; have := h2.1; have := h4.1
    cases h3 with
    | quoted _ _ k =>
      have := k.1
      exact ⟨by dsimp only at *; omega, fun c q => by cases q; dsimp only at *; omega⟩
    | plain _ _ k =>
      have := k.1
      exact ⟨by dsimp only at *; omega, fun c q => by cases q; dsimp only at *; omega⟩
  | open_ h1 _ h2 => have := h1.1; have := h2.1; exact ⟨by omega, fun c q => nomatch q⟩

theorem attrsAt_bounds {space : Int → Bool} {t : List Int} {ty ty' : Sequence} {e g : Nat} {l : List Attr} (h : AttrsAt space t ty e l ty' g) :
    e < g ∧ g ≤ t.length ∧ t[g - 1]? = some 62 ∧ (∀ x ∈ l, AttrIn e g x) ∧ l.Pairwise AttrBefore := by
  induction h with
  | close x => exact ⟨Nat.lt_succ_self _, get_lt x, x, (fun x q => nomatch q), .nil⟩
  | element _ x => have := slash_at.1 x; exact ⟨by omega, get_lt this.2, this.2, (fun x q => nomatch q), .nil⟩
  | bang _ x =>
    have := litAt_cons.1 (bang_says.2 x)
    have := (litAt_cons.1 this.2).1
    dsimp only at this
    rw [or_self] at this
    exact ⟨by omega, get_lt this, this, (fun x q => nomatch q), .nil⟩
  | comment _ _ x y _ ih =>
    obtain ⟨h1, h2, h3, h4, h5⟩ := ih
    have := x.1; have := y.1
    exact ⟨by omega, h2, h3, fun z hz => ⟨by have := (h4 z hz).1; omega, (h4 z hz).2⟩, h5⟩
  | attr _ _ _ x y _ ih =>
    obtain ⟨h1, h2, h3, h4, h5⟩ := ih
    have hx := x.1.1
    obtain ⟨y1, y2⟩ := attrValue_bounds y
    refine ⟨by omega, h2, h3, ?_, .cons ?_ h5⟩
    · intro z hz
      rcases List.mem_cons.1 hz with rfl | hz
      · exact ⟨Nat.le_refl _, hx, by dsimp only; omega, fun c q => by have := y2 c q; dsimp only; omega⟩
      · exact ⟨by have := (h4 z hz).1; omega, (h4 z hz).2⟩
    · intro z hz
      have := (h4 z hz).1
      exact ⟨by dsimp only; omega, fun c q => by have := y2 c q; omega⟩

/-- **C99**: whatever is matched begins with `<`, ends with `>`, and what is reported is inside and in order. -/
theorem htmlTag_bounds {space : Int → Bool} {t : List Int} {i : Nat} {T : Tag} (h : TagAt space t i T) :
    T.interval.1 = i ∧ t[i]? = some 60 ∧ T.interval.2 ≤ t.length ∧ t[T.interval.2 - 1]? = some 62 ∧ i < T.name.1 ∧ T.name.1 ≤ T.name.2 ∧ T.name.2 < T.interval.2 ∧
      (∀ x ∈ T.attrs, AttrIn T.name.2 T.interval.2 x) ∧ T.attrs.Pairwise AttrBefore := by
  cases h with
  | comment x y =>
    have q := y.2.1
    rw [litAt_cons, litAt_cons, litAt_cons] at q
    dsimp only at q
    rw [or_self, or_self, or_self] at q
    exact ⟨rfl, (comment_at.1 x).1, get_lt q.2.2.1, q.2.2.1, by dsimp only; omega, y.1, by dsimp only; omega, (fun x q => nomatch q), .nil⟩
  | instruction x y z =>
    have := y.1
    refine ⟨rfl, (instr_at.1 x).1, get_lt z, z, by dsimp only; omega, ?_, ?_, (fun x q => nomatch q), .nil⟩
    · dsimp only; split <;> omega
    · dsimp only; split <;> omega
  | tag x1 x2 x3 x4 =>
    obtain ⟨h1, h2, h3, h4, h5⟩ := attrsAt_bounds x4
    have := x3.1
    have key : ∀ {ty name a}, HeadAt space t i ty name a → i < name.1 ∧ name.1 ≤ name.2 ∧ name.2 = a := by
      intro ty name a x
      cases x with
      | end_ _ y => exact ⟨by dsimp only; omega, y.1.1, rfl⟩
      | start _ _ _ _ y => exact ⟨by dsimp only; omega, y.1.1, rfl⟩
      | declaration => exact ⟨by dsimp only; omega, Nat.le_refl _, rfl⟩
    obtain ⟨k1, k2, k3⟩ := key x2
    exact ⟨rfl, x1, h2, h3, k1, k2, by dsimp only; omega, fun z hz => ⟨by have := (h4 z hz).1; dsimp only; omega, (h4 z hz).2⟩, h5⟩

/-! ### A tag that does not end -/

/-- Where `/>` follows an end tag or a declaration, every round of the loop adds an empty attribute and stays where it is. -/
theorem tagLoop_hangs {v : Env} {t : List Int} (h : v.Ok t) {ty : Sequence} (hty : ty ≠ .element_start) {b : Nat} (hb : SaysAt ['/', '>'] t b) (hn : NoSpace v.space t b) : ∀ (n fuel : Nat) (l : List Attr),
    tagLoop v (n + fuel) ty b l = tagLoop v fuel ty b (l ++ List.replicate n ⟨(b, b), none⟩) := by
  obtain ⟨h47, h62⟩ := slash_at.1 hb
  have hl := get_lt h47
  have step : ∀ fuel l, tagLoop v (fuel + 1) ty b l = tagLoop v fuel ty b (l ++ [⟨(b, b), none⟩]) := by
    intro fuel l
    rw [tagLoop, if_neg hty]
    dsimp only
    rw [hasChar_eq h (by omega), decide_eq_false (by rw [h47]; exact fun q => nomatch q)]
    dsimp only
    have c2 : (if ty = .declaration then declPart v b else some .other) = some Decl.other := by
      by_cases k : ty = .declaration
      · rw [if_pos k]
        have nb : ¬ SaysAt ['!', '>'] t b := fun y => by
          have := (litAt_cons.1 (bang_says.2 y)).1; rw [h47] at this; rcases this with q | q <;> cases q
        have nd : ¬ SaysAt ['-', '-'] t b := fun y => by
          have := (litAt_cons.1 (dash_says.2 y)).1; rw [h47] at this; rcases this with q | q <;> cases q
        obtain ⟨d, d1, d2⟩ := declPart_spec h (e := b) (by omega)
        rw [d2]
        cases d with
        | other => rfl
        | error => exact absurd d1.1 nd
        | last f => exact absurd d1.1 nb
        | on f => exact absurd d1.1 nd
      · rw [if_neg k]
    rw [c2]
    dsimp only
    rw [peek_eq h (by omega), h47]
    dsimp only
    have id : IdentAt v.space t b b := ⟨⟨Nat.le_refl _, fun j _ _ => by omega, .inl (.inr (.inr (.inl hb))), by omega⟩, .inr (.inr (.inr (.inl hb)))⟩
    rcases ident_cases h (i := b) (by omega) with ⟨a, a1, a2, a3⟩ | ⟨a1, a2, a3⟩
    · rw [a3, ← identAt_one id a1]
      dsimp only
      obtain ⟨x, f, f1, f2, f3, f4, f5, f6⟩ := attrValue_spec h (a := b) (by omega)
      rw [f6]
      have : AttrValue v.space t b none b := .none (runAt_nil (fun c q z => by rw [hn c q] at z; cases z)) (by rw [h47]; exact fun q => nomatch q)
      obtain ⟨rfl, rfl⟩ := attrValue_one f1 this
      rfl
    · omega
  intro n
  induction n with
  | zero => intro fuel l; rw [List.replicate_zero, List.append_nil, Nat.zero_add]
  | succ n ih =>
    intro fuel l
    rw [show n + 1 + fuel = (n + fuel) + 1 by omega, step, ih, List.append_assoc]
    rfl

/-- The loop does not come to an end, and there is no tag. -/
theorem tagLoop_stuck {v : Env} {t : List Int} (h : v.Ok t) {ty : Sequence} {b : Nat} (hs : StuckAt v.space t ty b) : NoSpace v.space t b → b ≤ t.length → ∀ (fuel : Nat) (l : List Attr), tagLoop v fuel ty b l = none := by
  induction hs with
  | here hty hb =>
    intro hn _ fuel l
    rw [← Nat.add_zero fuel, tagLoop_hangs h hty hb hn fuel 0]
    rfl
  | comment k1 k2 k3 k4 hs ih =>
    rename_i e d f
    intro hn hb fuel l
    cases fuel with
    | zero => rfl
    | succ fuel =>
      have h45 := (litAt_cons.1 (dash_says.2 k2)).1
      dsimp only at h45
      rw [or_self] at h45
      rw [tagLoop, if_neg (by rw [k1]; decide)]
      dsimp only
      rw [hasChar_eq h hb, decide_eq_false (by rw [h45]; exact fun q => nomatch q), if_pos k1]
      dsimp only
      have nb : ¬ SaysAt ['!', '>'] t e := fun y => by
        have := (litAt_cons.1 (bang_says.2 y)).1; rw [h45] at this; rcases this with q | q <;> cases q
      obtain ⟨x, d1, d2⟩ := declPart_spec h hb
      rw [d2]
      cases x with
      | other => exact absurd k2 d1.2
      | error => exact absurd k3 (d1.2.2 _)
      | last => exact absurd d1.1 nb
      | on g =>
        obtain ⟨-, -, d', e1, e2, e3, e4⟩ := d1
        have := firstLit_one k3 e1; subst this
        have := runAt_one k4 e2; subst this
        exact ih (noSpace_of k4) e4 fuel l
  | attr k1 k2 k3 k4 k5 hs ih =>
    rename_i e a x f
    intro hn hb fuel l
    cases fuel with
    | zero => rfl
    | succ fuel =>
      have c1 : (if ty = .element_start then litAt v [(47, 47), (62, 62)] e else some false) = some false := by
        by_cases k : ty = .element_start
        · rw [if_pos k]
          rcases says_cases h (ps := [(47, 47), (62, 62)]) (by decide) (fun _ => slash_says) hb with ⟨e1, e2⟩ | ⟨e1, e2⟩
          · exact absurd ⟨k, e1⟩ k2
          · exact e2
        · rw [if_neg k]
      have c2 : (if ty = .declaration then declPart v e else some .other) = some Decl.other := by
        by_cases k : ty = .declaration
        · rw [if_pos k]
          obtain ⟨d, d1, d2⟩ := declPart_spec h hb
          rw [d2]
          cases d with
          | other => rfl
          | error => exact absurd ⟨k, .inr d1.1⟩ k3
          | last f => exact absurd ⟨k, .inl d1.1⟩ k3
          | on f => exact absurd ⟨k, .inr d1.1⟩ k3
        · rw [if_neg k]
      rw [tagLoop, c1]
      dsimp only
      rw [hasChar_eq h hb, decide_eq_false k1]
      dsimp only
      rw [c2]
      dsimp only
      rw [peek_eq h hb]
      cases hc : t[e]? with
      | none => exact absurd (ident_end (by have := List.getElem?_eq_none_iff.1 hc; omega) k4) id
      | some c =>
        dsimp only
        rcases ident_cases h hb with ⟨a', a1, a2, a3⟩ | ⟨a1, a2, a3⟩
        · have := identAt_one k4 a1; subst this
          rw [a3]
          dsimp only
          obtain ⟨x', f', f1, f2, f3, f4, f5, f6⟩ := attrValue_spec h a2
          obtain ⟨rfl, rfl⟩ := attrValue_one k5 f1
          rw [f6]
          exact ih f4 f3 fuel _
        · exact absurd k4 (a1 _)

theorem attrValue_noSpace {space : Int → Bool} {t : List Int} {a f : Nat} {x : Iv} (h : AttrValue space t a x f) : NoSpace space t f := by
  cases h with
  | none h => exact noSpace_of h
  | value _ _ _ _ h => exact noSpace_of h
  | open_ _ _ h => exact noSpace_of h

theorem stuck_no_attrs {space : Int → Bool} {t : List Int} {ty ty' : Sequence} {b g : Nat} {l : List Attr} (h : AttrsAt space t ty b l ty' g) : NoSpace space t b → ¬ StuckAt space t ty b := by
  induction h with
  | close x =>
    intro _ st
    cases st with
    | here _ y => rw [slash_at, x] at y; cases y.1
    | comment _ y => have := (litAt_cons.1 (dash_says.2 y)).1; rw [x] at this; rcases this with q | q <;> cases q
    | attr y => exact y x
  | element x1 x2 =>
    intro _ st
    cases st with
    | here y => exact y x1
    | comment y => rw [x1] at y; cases y
    | attr _ y => exact y ⟨x1, x2⟩
  | bang x1 x2 =>
    intro _ st
    have h1 := (litAt_cons.1 (bang_says.2 x2)).1
    dsimp only at h1
    rw [or_self] at h1
    cases st with
    | here _ y => rw [slash_at, h1] at y; cases y.1
    | comment _ y => have := (litAt_cons.1 (dash_says.2 y)).1; rw [h1] at this; rcases this with q | q <;> cases q
    | attr _ _ y => exact y ⟨x1, .inl x2⟩
  | comment x1 x2 x3 x4 _ ih =>
    intro _ st
    have h1 := (litAt_cons.1 (dash_says.2 x2)).1
    dsimp only at h1
    rw [or_self] at h1
    cases st with
    | here _ y => rw [slash_at, h1] at y; cases y.1
    | comment _ _ y3 y4 y5 =>
      have := firstLit_one x3 y3; subst this
      have := runAt_one x4 y4; subst this
      exact ih (noSpace_of x4) y5
    | attr _ _ y => exact y ⟨x1, .inr x2⟩
  | attr x1 x2 x3 x4 x5 _ ih =>
    intro hn st
    cases st with
    | here y1 y2 =>
      have h47 := (slash_at.1 y2).1
      have := identAt_one x4 ⟨⟨Nat.le_refl _, fun j _ _ => by omega, .inl (.inr (.inr (.inl y2))), by have := get_lt h47; omega⟩, .inr (.inr (.inr (.inl y2)))⟩
      subst this
      obtain ⟨rfl, rfl⟩ := attrValue_one x5 (.none (runAt_nil (fun c q z => by rw [hn c q] at z; cases z)) (by rw [h47]; exact fun q => nomatch q))
      exact ih hn (.here y1 y2)
    | comment y1 y2 => exact x3 ⟨y1, .inr y2⟩
    | attr _ _ _ y4 y5 y6 =>
      have := identAt_one x4 y4; subst this
      obtain ⟨rfl, rfl⟩ := attrValue_one x5 y5
      exact ih (attrValue_noSpace x5) y6

/-- **C99**: exactly the stuck tags are read for ever, all others are decided by `htmlTag_spec_partial`; and they are no tags. -/
theorem htmlTag_stuck {v : Env} {t : List Int} (h : v.Ok t) {i : Nat} (hs : StuckTag v.space t i) : htmlTag v i = none ∧ ∀ T, ¬ TagAt v.space t i T := by
  obtain ⟨ty, name, a, b, h60, x1, x2, x3⟩ := hs
  have hi := get_lt h60
  constructor
  · unfold htmlTag
    rw [hasChar_eq h (by omega), decide_eq_true h60]
    dsimp only
    obtain ⟨d, d1, d2⟩ := tagHead_spec h h60
    rw [d2]
    cases d with
    | error => exact absurd x1 (d1.2 _ _ _)
    | whole ty' name' e => exact absurd x1 (d1.2 _ _ _)
    | open_ ty' name' a' =>
      obtain ⟨d1, d3, -⟩ := d1
      obtain ⟨rfl, rfl, rfl⟩ := headAt_one x1 d1
      dsimp only
      obtain ⟨b', b1, b2, b3⟩ := space_to h d3
      have := runAt_one x2 b2; subst this
      rw [b1]
      dsimp only
      rw [tagLoop_stuck h x3 (noSpace_of x2) b3]
  · intro T q
    cases q with
    | comment y => exact (head_comment x1).1 y
    | instruction y => exact (head_comment x1).2 y
    | tag _ y2 y3 y4 =>
      obtain ⟨rfl, rfl, rfl⟩ := headAt_one x1 y2
      have := runAt_one x2 y3; subst this
      exact stuck_no_attrs y4 (noSpace_of x2) x3

/-- Tags that begin with neither `</` nor `<!` are never stuck. -/
theorem htmlTag_element {space : Int → Bool} {t : List Int} {i : Nat} (h47 : t[i + 1]? ≠ some 47) (h33 : t[i + 1]? ≠ some 33) : ¬ StuckTag space t i := by
  rintro ⟨ty, name, a, b, -, x1, -, x3⟩
  have key : ∀ {ty b}, StuckAt space t ty b → ty ≠ .element_start := by
    intro ty b st
    induction st with
    | here y => exact y
    | comment _ _ _ _ _ ih => exact ih
    | attr _ _ _ _ _ _ ih => exact ih
  cases x1 with
  | end_ y => exact h47 y
  | start => exact key x3 rfl
  | declaration y => exact h33 y

/-- **C99**: `</a/>` is read over and over; no number of rounds is enough, and there is no tag. -/
theorem htmlTag_hangs : tagHead (ipEnv [60, 47, 97, 47, 62]) 0 = some (.open_ .element_end (2, 3) 3) ∧ (∀ n, tagLoop (ipEnv [60, 47, 97, 47, 62]) n .element_end 3 [] = none) ∧
    ∀ n, tagLoop (ipEnv [60, 47, 97, 47, 62]) (n + 1) .element_end 3 [] = tagLoop (ipEnv [60, 47, 97, 47, 62]) 1 .element_end 3 (List.replicate n ⟨(3, 3), none⟩) := by
  have ok : (ipEnv [60, 47, 97, 47, 62]).Ok [60, 47, 97, 47, 62] := ⟨.inl (by decide), by decide, (fun n q => nomatch q), fun _ => Iff.rfl⟩
  have hb : SaysAt ['/', '>'] [60, 47, 97, 47, 62] 3 := slash_at.2 ⟨by decide, by decide⟩
  have hn : NoSpace (ipEnv [60, 47, 97, 47, 62]).space [60, 47, 97, 47, 62] 3 := fun c q => by cases q; decide
  refine ⟨by decide +kernel, fun n => ?_, fun n => ?_⟩
  · rw [← Nat.add_zero n, tagLoop_hangs ok (by decide) hb hn n 0]
    rfl
  · rw [tagLoop_hangs ok (by decide) hb hn n 1, List.nil_append]

/-! ### Examples -/

/- `<a b='c' d/>` -/
example : htmlTag (ipEnv [60, 97, 32, 98, 61, 39, 99, 39, 32, 100, 47, 62]) 0 = some (some ⟨.element, (1, 2), [⟨(3, 4), some (6, 7)⟩, ⟨(9, 10), none⟩], (0, 12)⟩) := by decide +kernel
/- `</a >`, `<!--a-->`, `<?a?>`, `<!a -- > -- b>` -/
example : htmlTag (ipEnv [60, 47, 97, 32, 62]) 0 = some (some ⟨.element_end, (2, 3), [], (0, 5)⟩) := by decide +kernel
example : htmlTag (ipEnv [60, 33, 45, 45, 97, 45, 45, 62]) 0 = some (some ⟨.comment, (4, 5), [], (0, 8)⟩) := by decide +kernel
example : htmlTag (ipEnv [60, 63, 97, 63, 62]) 0 = some (some ⟨.instruction, (2, 3), [], (0, 5)⟩) := by decide +kernel
example : htmlTag (ipEnv [60, 33, 97, 32, 45, 45, 32, 62, 32, 45, 45, 32, 98, 62]) 0 = some (some ⟨.declaration, (2, 2), [⟨(2, 3), none⟩, ⟨(12, 13), none⟩], (0, 14)⟩) := by decide +kernel
/- `<![ a [`, `]]>` -/
example : conditionStart (ipEnv [60, 33, 91, 32, 97, 32, 91]) 0 = some (some ((4, 5), (0, 7))) ∧ conditionEnd (ipEnv [93, 93, 62]) 0 = some (some 3) := by decide +kernel
/- The empty name `<>` is a tag. -/
example : htmlTag (ipEnv [60, 62]) 0 = some (some ⟨.element_start, (1, 1), [], (0, 2)⟩) := by decide +kernel

end Verif.Parser
