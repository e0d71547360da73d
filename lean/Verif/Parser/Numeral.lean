import Verif.Parser.Number
/-
Parsers of compound numerals: fraction, score, signed, mixed, scientific and monetary (include/stdex/parser.hpp 1684-2328). The elements
are the functions they compute, as in Parser/Number; the state of the object holds the intervals of the elements, as the
previous match left them. A null element is `none`. `double` arithmetic is modelled by exact arithmetic.
-/
namespace Verif.Parser
open Verif.Str

/-- The interval of an element: `none` if it is invalid. -/
abbrev Iv := Option (Nat × Nat)

/-- The interval of an element after `match`. -/
def ivOf (i : Nat) (e : Option Nat) : Iv := e.map fun j => (i, j)

/-- `interval.empty()` interval.hpp 54. -/
def Iv.void : Iv → Bool
  | none => true
  | some (a, b) => decide (a ≥ b)

/-- `element && element->match` -/
def opt (d : Option Sub) (i : Nat) : Option Nat :=
  match d with
  | none => none
  | some d => d i

structure Signs where
  pos : Iv
  neg : Iv
  spc : Iv
deriving DecidableEq

/-- `basic_signed_numeral` 1872-1892, `basic_mixed_numeral` 1964-1985, `basic_scientific_numeral` 2110-2131,
`basic_monetary_numeral` 2264-2285 (where the elements are not null): the intervals of the signs, and `interval.end`. -/
def signs (pos neg spc : Option Sub) (i : Nat) (_old : Signs) : Signs × Nat :=
  match opt pos i with
  | some e => (⟨some (i, e), none, none⟩, e)
  | none =>
    match opt neg i with
    | some e => (⟨none, some (i, e), none⟩, e)
    | none =>
      match opt spc i with
      | some e => (⟨none, none, some (i, e)⟩, e)
      | none => (⟨none, none, none⟩, i)

/-! ### Fraction 1712-1732 -/

structure Fraction where
  numerator : Iv
  line : Iv
  denominator : Iv
  interval : Iv
deriving DecidableEq

/-- `basic_fraction::do_match` 1718-1731. -/
def fraction (num line den : Sub) (i : Nat) (_old : Fraction) : Bool × Fraction :=
  match num i with
  | none => (false, ⟨none, none, none, none⟩)
  | some e1 =>
    match line e1 with
    | none => (false, ⟨none, none, none, none⟩)
    | some e2 =>
      match den e2 with
      | none => (false, ⟨none, none, none, none⟩)
      | some e3 => (true, ⟨some (i, e1), some (e1, e2), some (e2, e3), some (i, e3)⟩)

/-! ### Score 1777-1816 -/

/-- `for (; m_space->match(...); interval.end = m_space->interval.end);`: `none` if it does not end. -/
def spaces (space : Sub) : Nat → Nat → Option Nat
  | 0, _ => none
  | fuel + 1, e =>
    match space e with
    | none => some e
    | some e' => spaces space fuel e'

/-- `basic_score::do_match` 1783-1815: the intervals of `home`, `separator`, `guest` and of the parser. -/
def score (n : Nat) (home sep guest space : Sub) (i : Nat) (_old : Fraction) : Option (Bool × Fraction) :=
  match home i with
  | none => some (false, ⟨none, none, none, none⟩)
  | some e1 =>
    match spaces space (n + 1) e1 with
    | none => none
    | some e2 =>
      match sep e2 with
      | none => some (false, ⟨none, none, none, none⟩)
      | some e3 =>
        match spaces space (n + 1) e3 with
        | none => none
        | some e4 =>
          match guest e4 with
          | none => some (false, ⟨none, none, none, none⟩)
          | some e5 => some (true, ⟨some (i, e1), some (e2, e3), some (e4, e5), some (i, e5)⟩)

/-! ### Signed numeral 1865-1904 -/

structure Signed where
  signs : Signs
  number : Iv
  interval : Iv
deriving DecidableEq

/-- `basic_signed_numeral::do_match` 1871-1903. -/
def signed (pos neg spc : Option Sub) (number : Sub) (i : Nat) (old : Signed) : Bool × Signed :=
  let (s, e) := signs pos neg spc i old.signs
  match number e with
  | some e' => (true, ⟨s, some (e, e'), some (i, e')⟩)
  | none => (false, ⟨⟨none, none, none⟩, none, none⟩)

/-! ### Mixed numeral 1957-2027 -/

structure Mixed where
  signs : Signs
  integer : Iv
  fraction : Iv
  interval : Iv
deriving DecidableEq

/-- `basic_mixed_numeral::do_match` 1963-2026; `space` is `m_space`. -/
def mixed (n : Nat) (pos neg spc : Option Sub) (integer space fraction : Sub) (i : Nat) (old : Mixed) : Option (Bool × Mixed) :=
  let (s, e) := signs pos neg spc i old.signs
  let rest : Option (Bool × Mixed) :=
    match fraction e with
    | some e' => some (true, ⟨s, none, some (e, e'), some (i, e')⟩)
    | none =>
      match integer e with
      | some e' => some (true, ⟨s, some (e, e'), none, some (i, e')⟩)
      | none => some (false, ⟨⟨none, none, none⟩, none, none, none⟩)
  match integer e with
  | none => rest
  | some e1 =>
    match space e1 with
    | none => rest
    | some e2 =>
      match spaces space (n + 1) e2 with
      | none => none
      | some e3 =>
        match fraction e3 with
        | some e4 => some (true, ⟨s, some (e, e1), some (e3, e4), some (i, e4)⟩)
        | none => some (true, ⟨s, some (e, e1), none, some (i, e1)⟩)

/-! ### Scientific numeral 2103-2198 -/

/-- The elements; integers give their end and value. -/
structure SciParts where
  pos : Option Sub
  neg : Option Sub
  spc : Option Sub
  integer : Nat → Option (Nat × Nat)
  sep : Sub
  decimal : Nat → Option (Nat × Nat)
  expSym : Option Sub
  expPos : Option Sub
  expNeg : Option Sub
  exponent : Option (Nat → Option (Nat × Nat))

/-- The intervals, and the values of the integers. -/
structure Sci where
  signs : Signs
  integer : Iv
  sep : Iv
  decimal : Iv
  expSym : Iv
  expPos : Iv
  expNeg : Iv
  exponent : Iv
  interval : Iv
  value : Option Rat

/-- `exponent && exponent->match` -/
def optV (d : Option (Nat → Option (Nat × Nat))) (i : Nat) : Option (Nat × Nat) :=
  match d with
  | none => none
  | some d => d i

/-- The outcome of 2162-2182: `exponent_symbol`, `positive_exp_sign`, `negative_exp_sign`, `exponent` with its value, and `interval.end`. -/
structure ExpOut where
  sym : Iv
  pos : Iv
  neg : Iv
  exp : Iv
  value : Nat
  fin : Nat

/-- 2170-2182: the `else if` and `else`. -/
def expNegative (c : SciParts) (e : Nat) : ExpOut :=
  match opt c.expSym e with
  | none => ⟨none, none, none, none, 0, e⟩
  | some e1 =>
    match opt c.expNeg e1 with
    | none => ⟨none, none, none, none, 0, e⟩
    | some e2 =>
      match optV c.exponent e2 with
      | none => ⟨none, none, none, none, 0, e⟩
      | some (e3, val) => ⟨some (e, e1), none, some (e1, e2), some (e2, e3), val, e3⟩

/-- 2164-2169: the second alternative, with the interval of `positive_exp_sign` as the first one left it. -/
def expPlain (c : SciParts) (e e1 : Nat) (pos : Iv) : ExpOut :=
  match optV c.exponent e1 with
  | some (e3, val) => ⟨some (e, e1), pos, none, some (e1, e3), val, e3⟩
  | none => expNegative c e

/-- 2162-2182. -/
def expPart (c : SciParts) (e : Nat) : ExpOut :=
  match opt c.expSym e with
  | none => expNegative c e
  | some e1 =>
    match opt c.expPos e1 with
    | none => expPlain c e e1 none
    | some e2 =>
      match optV c.exponent e2 with
      | some (e3, val) => ⟨some (e, e1), some (e1, e2), none, some (e2, e3), val, e3⟩
      | none => expPlain c e e1 (some (e1, e2))

/-- 2136-2142: the intervals of `decimal_separator` and `decimal`, the value of `decimal`, and `interval.end`. -/
def decPart (c : SciParts) (e : Nat) : Iv × Iv × Nat × Nat :=
  match c.sep e with
  | none => (none, none, 0, e)
  | some e1 =>
    match c.decimal e1 with
    | none => (none, none, 0, e)
    | some (e2, val) => (some (e, e1), some (e1, e2), val, e2)

/-- `interval.size()` interval.hpp 47. -/
def Iv.size : Iv → Nat
  | none => 0
  | some (a, b) => b - a

/-- 2184-2194. -/
def sciValue (ival : Nat) (dec : Iv) (dval : Nat) (neg : Iv) (exp expNeg : Iv) (eval : Nat) : Rat :=
  let v0 : Rat := ival
  let v1 : Rat := if dec.isSome then v0 + dval * (1 / 10 ^ dec.size) else v0
  let v2 : Rat := if neg.isSome then -v1 else v1
  if exp.isSome then (if expNeg.isSome then v2 * (1 / 10 ^ eval) else v2 * 10 ^ eval) else v2

/-- `basic_scientific_numeral::do_match` 2109-2197. An integer that does not match has the value 0 (1331-1350, 1438, 1607). -/
def scientific (c : SciParts) (i : Nat) (old : Sci) : Bool × Sci :=
  let (s, e) := signs c.pos c.neg c.spc i old.signs
  let int : Iv × Nat × Nat := match c.integer e with
    | none => (none, 0, e)
    | some (e1, val) => (some (e, e1), val, e1)
  let (sep, dec, dval, e2) := decPart c int.2.2
  if int.1.void && dec.void then (false, ⟨⟨none, none, none⟩, none, none, none, none, none, none, none, none, old.value⟩)
  else
    let x := expPart c e2
    (true, ⟨s, int.1, sep, dec, x.sym, x.pos, x.neg, x.exp, some (i, x.fin), some (sciValue int.2.1 dec dval s.neg x.exp x.neg x.value)⟩)

/-! ### Monetary numeral 2257-2327 -/

structure Money where
  signs : Signs
  currency : Iv
  integer : Iv
  sep : Iv
  decimal : Iv
  interval : Iv
deriving DecidableEq

/-- `basic_monetary_numeral::do_match` 2263-2326. -/
def monetary (pos neg spc currency integer sep decimal : Sub) (i : Nat) (old : Money) : Bool × Money :=
  let (s, e) := signs (some pos) (some neg) (some spc) i old.signs
  match currency e with
  | none => (false, ⟨⟨none, none, none⟩, none, none, none, none, none⟩)
  | some e0 =>
    let int : Iv × Nat := match integer e0 with
      | none => (none, e0)
      | some e1 => (some (e0, e1), e1)
    let d : Iv × Iv × Nat := match sep int.2 with
      | none => (none, none, int.2)
      | some e1 =>
        match decimal e1 with
        | none => (none, none, int.2)
        | some e2 => (some (int.2, e1), some (e1, e2), e2)
    if int.1.void && d.2.1.void then (false, ⟨⟨none, none, none⟩, none, none, none, none, none⟩)
    else (true, ⟨s, some (e, e0), int.1, d.1, d.2.1, some (i, d.2.2)⟩)

/-! ### Specification -/

/-- At most one of the elements matches at `i`, the first that does, and ends at `j`; `k` is which. -/
inductive SignAt (pos neg spc : Option Sub) (i : Nat) : Option Nat → Nat → Prop
  | pos {j : Nat} : opt pos i = some j → SignAt pos neg spc i (some 0) j
  | neg {j : Nat} : opt pos i = none → opt neg i = some j → SignAt pos neg spc i (some 1) j
  | spc {j : Nat} : opt pos i = none → opt neg i = none → opt spc i = some j → SignAt pos neg spc i (some 2) j
  | no : opt pos i = none → opt neg i = none → opt spc i = none → SignAt pos neg spc i none i

/-- The sign that matched has the interval from `i` to `j`, and the others are invalid. -/
def Signs.are (s : Signs) (i j : Nat) (k : Option Nat) : Prop :=
  s = ⟨if k = some 0 then some (i, j) else none, if k = some 1 then some (i, j) else none, if k = some 2 then some (i, j) else none⟩

/-- White space is taken as long as there is. -/
inductive Blanks (space : Sub) : Nat → Nat → Prop
  | stop {e : Nat} : space e = none → Blanks space e e
  | more {e e' j : Nat} : space e = some e' → Blanks space e' j → Blanks space e j

theorem signs_spec (pos neg spc : Option Sub) (i : Nat) (old : Signs) : ∃ k j s, signs pos neg spc i old = (s, j) ∧ SignAt pos neg spc i k j ∧ s.are i j k := by
  unfold signs
  cases h1 : opt pos i with
  | some e => exact ⟨some 0, e, _, rfl, .pos h1, rfl⟩
  | none =>
    cases h2 : opt neg i with
    | some e => exact ⟨some 1, e, _, rfl, .neg h1 h2, rfl⟩
    | none =>
      cases h3 : opt spc i with
      | some e => exact ⟨some 2, e, _, rfl, .spc h1 h2 h3, rfl⟩
      | none => exact ⟨none, i, _, rfl, .no h1 h2 h3, rfl⟩

theorem signAt_unique {pos neg spc : Option Sub} {i j j' : Nat} {k k' : Option Nat} (h : SignAt pos neg spc i k j) (h' : SignAt pos neg spc i k' j') : k = k' ∧ j = j' := by
  cases h <;> cases h' <;> simp_all

theorem spaces_spec {n : Nat} {space : Sub} (h : Takes n space) : ∀ (fuel e : Nat), e ≤ n → n - e < fuel → ∃ j, spaces space fuel e = some j ∧ Blanks space e j ∧ e ≤ j ∧ j ≤ n := by
  intro fuel
  induction fuel with
  | zero => intro e _ q; omega
  | succ fuel ih =>
    intro e he hf
    rw [spaces]
    cases hq : space e with
    | none => exact ⟨e, rfl, .stop hq, Nat.le_refl _, he⟩
    | some e' =>
      have ⟨g1, g2⟩ := h e he e' hq
      have ⟨j, a, b, c, d⟩ := ih e' g2 (by omega)
      exact ⟨j, a, .more hq b, by omega, d⟩

theorem blanks_unique {space : Sub} {e j j' : Nat} (h : Blanks space e j) (h' : Blanks space e j') : j = j' := by
  induction h with
  | stop q =>
    cases h' with
    | stop _ => rfl
    | more q' _ => rw [q] at q'; cases q'
  | more q _ ih =>
    cases h' with
    | stop q' => rw [q] at q'; cases q'
    | more q' b => rw [q] at q'; cases q'; exact ih b

/-! ### Theorems: the outcome does not depend on the state before -/

/-- **C75** A fraction: numerator, line and denominator one after another; if any fails, all are invalid. -/
theorem fraction_spec (num line den : Sub) (i : Nat) (old : Fraction) :
    (∀ e1 e2 e3, num i = some e1 → line e1 = some e2 → den e2 = some e3 → fraction num line den i old = (true, ⟨some (i, e1), some (e1, e2), some (e2, e3), some (i, e3)⟩)) ∧
    ((¬ ∃ e1 e2 e3, num i = some e1 ∧ line e1 = some e2 ∧ den e2 = some e3) → fraction num line den i old = (false, ⟨none, none, none, none⟩)) := by
  unfold fraction
  refine ⟨fun e1 e2 e3 h1 h2 h3 => by simp only [h1, h2, h3], fun h => ?_⟩
  cases h1 : num i with
  | none => rfl
  | some e1 =>
    dsimp only
    cases h2 : line e1 with
    | none => rfl
    | some e2 =>
      dsimp only
      cases h3 : den e2 with
      | none => rfl
      | some e3 => exact absurd ⟨e1, e2, e3, h1, h2, h3⟩ h

/-- **C75** A score: home, blanks, separator, blanks, guest. -/
theorem score_spec {n : Nat} {home sep guest space : Sub} (h1 : Takes n home) (h2 : Takes n sep) (hs : Takes n space) {i : Nat} (hi : i ≤ n) (old : Fraction) :
    (∀ e1 e2 e3 e4 e5, home i = some e1 → Blanks space e1 e2 → sep e2 = some e3 → Blanks space e3 e4 → guest e4 = some e5 →
      score n home sep guest space i old = some (true, ⟨some (i, e1), some (e2, e3), some (e4, e5), some (i, e5)⟩)) ∧
    ((¬ ∃ e1 e2 e3 e4 e5, home i = some e1 ∧ Blanks space e1 e2 ∧ sep e2 = some e3 ∧ Blanks space e3 e4 ∧ guest e4 = some e5) →
      score n home sep guest space i old = some (false, ⟨none, none, none, none⟩)) := by
  unfold score
  cases q1 : home i with
  | none => exact ⟨(fun _ _ _ _ _ q => nomatch q), fun _ => rfl⟩
  | some e1 =>
    have ⟨_, g1⟩ := h1 i hi e1 q1
    have ⟨e2, a2, b2, _, g2⟩ := spaces_spec hs (n + 1) e1 g1 (by omega)
    dsimp only
    rw [a2]
    dsimp only
    cases q2 : sep e2 with
    | none =>
      refine ⟨fun x1 x2 x3 x4 x5 y1 y2 y3 _ _ => ?_, fun _ => rfl⟩
      cases y1; rw [blanks_unique y2 b2, q2] at y3; cases y3
    | some e3 =>
      have ⟨_, g3⟩ := h2 e2 g2 e3 q2
      have ⟨e4, a4, b4, _, g4⟩ := spaces_spec hs (n + 1) e3 g3 (by omega)
      dsimp only
      rw [a4]
      dsimp only
      cases q3 : guest e4 with
      | none =>
        refine ⟨fun x1 x2 x3 x4 x5 y1 y2 y3 y4 y5 => ?_, fun _ => rfl⟩
        cases y1; rw [blanks_unique y2 b2, q2] at y3; cases y3; rw [blanks_unique y4 b4, q3] at y5; cases y5
      | some e5 =>
        refine ⟨fun x1 x2 x3 x4 x5 y1 y2 y3 y4 y5 => ?_, fun q => absurd ⟨e1, e2, e3, e4, e5, rfl, b2, q2, b4, q3⟩ q⟩
        cases y1; have := blanks_unique y2 b2; subst this; rw [q2] at y3; cases y3; have := blanks_unique y4 b4; subst this; rw [q3] at y5; cases y5; rfl

/-- **C75** A signed numeral: an optional sign and a number. -/
theorem signed_spec (pos neg spc : Option Sub) (number : Sub) (i : Nat) (old : Signed) {k : Option Nat} {j : Nat} (hk : SignAt pos neg spc i k j) :
    (∀ e, number j = some e → ∃ s, signed pos neg spc number i old = (true, ⟨s, some (j, e), some (i, e)⟩) ∧ s.are i j k) ∧
    (number j = none → signed pos neg spc number i old = (false, ⟨⟨none, none, none⟩, none, none⟩)) := by
  have ⟨k', j', s, a, b, c⟩ := signs_spec pos neg spc i old.signs
  have ⟨e1, e2⟩ := signAt_unique hk b
  subst e1 e2
  unfold signed
  rw [a]
  dsimp only
  exact ⟨fun e h => ⟨s, by rw [h], c⟩, fun h => by rw [h]⟩

/-- **C75** A mixed numeral: an optional sign; an integer, blanks and a fraction; or an integer before blanks; or a fraction; or an integer. -/
theorem mixed_spec {n : Nat} {pos neg spc : Option Sub} {integer space fraction : Sub} (hint : Takes n integer) (hs : Takes n space) {i : Nat} (old : Mixed) {k : Option Nat} {j : Nat}
    (hk : SignAt pos neg spc i k j) (hj : j ≤ n) :
    (∀ e1 e2 e3 e4, integer j = some e1 → space e1 = some e2 → Blanks space e2 e3 → fraction e3 = some e4 →
      ∃ s, mixed n pos neg spc integer space fraction i old = some (true, ⟨s, some (j, e1), some (e3, e4), some (i, e4)⟩) ∧ s.are i j k) ∧
    (∀ e1 e2 e3, integer j = some e1 → space e1 = some e2 → Blanks space e2 e3 → fraction e3 = none →
      ∃ s, mixed n pos neg spc integer space fraction i old = some (true, ⟨s, some (j, e1), none, some (i, e1)⟩) ∧ s.are i j k) ∧
    ((∀ e1, integer j = some e1 → space e1 = none) →
      (∀ e, fraction j = some e → ∃ s, mixed n pos neg spc integer space fraction i old = some (true, ⟨s, none, some (j, e), some (i, e)⟩) ∧ s.are i j k) ∧
      (fraction j = none → ∀ e, integer j = some e → ∃ s, mixed n pos neg spc integer space fraction i old = some (true, ⟨s, some (j, e), none, some (i, e)⟩) ∧ s.are i j k) ∧
      (fraction j = none → integer j = none → mixed n pos neg spc integer space fraction i old = some (false, ⟨⟨none, none, none⟩, none, none, none⟩))) := by
  have ⟨k', j', s, a, b, c⟩ := signs_spec pos neg spc i old.signs
  have ⟨e1, e2⟩ := signAt_unique hk b
  subst e1 e2
  unfold mixed
  rw [a]
  dsimp only
  refine ⟨?_, ?_, ?_⟩
  · intro e1 e2 e3 e4 h1 h2 h3 h4
    have ⟨_, g1⟩ := hint j hj e1 h1
    have ⟨_, g2⟩ := hs e1 g1 e2 h2
    have ⟨x, a3, b3, _⟩ := spaces_spec hs (n + 1) e2 g2 (by omega)
    have := blanks_unique h3 b3
    subst this
    simp only [h1, h2, a3, h4]
    exact ⟨s, rfl, c⟩
  · intro e1 e2 e3 h1 h2 h3 h4
    have ⟨_, g1⟩ := hint j hj e1 h1
    have ⟨_, g2⟩ := hs e1 g1 e2 h2
    have ⟨x, a3, b3, _⟩ := spaces_spec hs (n + 1) e2 g2 (by omega)
    have := blanks_unique h3 b3
    subst this
    simp only [h1, h2, a3, h4]
    exact ⟨s, rfl, c⟩
  · intro h
    cases hi1 : integer j with
    | none =>
      simp only
      refine ⟨fun e he => ⟨s, by simp only [he], c⟩, (fun _ e he => nomatch he), fun hf _ => by simp only [hf]⟩
    | some e1 =>
      simp only [h e1 hi1]
      refine ⟨fun e he => ⟨s, by simp only [he], c⟩, fun hf e he => ⟨s, by cases he; simp only [hf], c⟩, (fun _ he => nomatch he)⟩

/-- The exponent at `e`: the symbol with a plus sign and digits, or without a sign, or with a minus sign: its value and where it ends. -/
inductive ExpAt (c : SciParts) (e : Nat) : Int → Nat → Prop
  | plus {e1 e2 e3 val : Nat} : opt c.expSym e = some e1 → opt c.expPos e1 = some e2 → optV c.exponent e2 = some (e3, val) → ExpAt c e val e3
  | plain {e1 e3 val : Nat} : opt c.expSym e = some e1 → (∀ e2, opt c.expPos e1 = some e2 → optV c.exponent e2 = none) → optV c.exponent e1 = some (e3, val) → ExpAt c e val e3
  | minus {e1 e2 e3 val : Nat} : opt c.expSym e = some e1 → (∀ e2, opt c.expPos e1 = some e2 → optV c.exponent e2 = none) → optV c.exponent e1 = none →
      opt c.expNeg e1 = some e2 → optV c.exponent e2 = some (e3, val) → ExpAt c e (-(val : Int)) e3

/-- A scientific numeral: what follows the sign at `j`: the value of the integer, the value and length of the decimals, where they end. -/
inductive MantissaAt (c : SciParts) (j : Nat) : Option Nat → Option (Nat × Nat) → Nat → Prop
  | both {e1 e2 e3 ival dval : Nat} : c.integer j = some (e1, ival) → c.sep e1 = some e2 → c.decimal e2 = some (e3, dval) → MantissaAt c j (some ival) (some (dval, e3 - e2)) e3
  | int {e1 ival : Nat} : c.integer j = some (e1, ival) → (∀ e2, c.sep e1 = some e2 → c.decimal e2 = none) → MantissaAt c j (some ival) none e1
  | dec {e2 e3 dval : Nat} : c.integer j = none → c.sep j = some e2 → c.decimal e2 = some (e3, dval) → MantissaAt c j none (some (dval, e3 - e2)) e3

/-- Ten to the power. -/
def tenTo (x : Int) : Rat :=
  match x with
  | .ofNat n => 10 ^ n
  | .negSucc n => 1 / 10 ^ (n + 1)

/-- The value: integer and decimals with the sign, times a power of ten. -/
def sciNumber (neg : Bool) (ival : Option Nat) (dec : Option (Nat × Nat)) (exp : Int) : Rat :=
  (if neg then -1 else 1) * ((ival.getD 0 : Nat) + (match dec with | none => 0 | some (d, n) => (d : Rat) / 10 ^ n)) * tenTo exp

theorem expNegative_none (c : SciParts) (e : Nat) (h : ∀ e1 e2, opt c.expSym e = some e1 → opt c.expNeg e1 = some e2 → optV c.exponent e2 = none) :
    expNegative c e = ⟨none, none, none, none, 0, e⟩ := by
  unfold expNegative
  cases h1 : opt c.expSym e with
  | none => rfl
  | some e1 =>
    dsimp only
    cases h2 : opt c.expNeg e1 with
    | none => rfl
    | some e2 =>
      dsimp only
      rw [h e1 e2 h1 h2]

/-- Digits of integers take some of the text. -/
def TakesV (n : Nat) (d : Nat → Option (Nat × Nat)) : Prop := ∀ i ≤ n, ∀ j x, d i = some (j, x) → i < j ∧ j ≤ n

theorem expPart_spec (c : SciParts) (e : Nat) :
    (∀ x e', ExpAt c e x e' → ∃ o : ExpOut, expPart c e = o ∧ o.fin = e' ∧ o.exp.isSome = true ∧ x = (if o.neg.isSome then -(o.value : Int) else o.value)) ∧
    ((∀ x e', ¬ ExpAt c e x e') → expPart c e = ⟨none, none, none, none, 0, e⟩) := by
  unfold expPart
  refine ⟨?_, ?_⟩
  · intro x e' h
    cases h with
    | plus h1 h2 h3 => simp only [h1, h2, h3]; exact ⟨_, rfl, rfl, rfl, rfl⟩
    | plain h1 h2 h3 =>
      rename_i e1 _
      cases hp : opt c.expPos e1 with
      | none => simp only [h1, hp, expPlain, h3]; exact ⟨_, rfl, rfl, rfl, rfl⟩
      | some e2 => simp only [h1, hp, expPlain, h2 e2 hp, h3]; exact ⟨_, rfl, rfl, rfl, rfl⟩
    | minus h1 h2 h3 h4 h5 =>
      rename_i e1 e2 _
      cases hp : opt c.expPos e1 with
      | none => simp only [h1, hp, expPlain, h3, expNegative, h4, h5]; exact ⟨_, rfl, rfl, rfl, rfl⟩
      | some e2 => simp only [h1, hp, expPlain, h2 e2 hp, h3, expNegative, h4, h5]; exact ⟨_, rfl, rfl, rfl, rfl⟩
  · intro h
    cases h1 : opt c.expSym e with
    | none => exact expNegative_none c e fun e1 _ q => by rw [h1] at q; cases q
    | some e1 =>
      dsimp only
      have hplus : ∀ e2, opt c.expPos e1 = some e2 → optV c.exponent e2 = none := by
        intro e2 h2
        cases h3 : optV c.exponent e2 with
        | none => rfl
        | some p => exact absurd (.plus h1 h2 h3) (h p.2 p.1)
      have hplain : optV c.exponent e1 = none := by
        cases h3 : optV c.exponent e1 with
        | none => rfl
        | some p => exact absurd (.plain h1 hplus h3) (h p.2 p.1)
      have hneg : expNegative c e = ⟨none, none, none, none, 0, e⟩ := expNegative_none c e fun e1' e2 q1 q2 => by
        rw [h1] at q1
        cases q1
        cases h3 : optV c.exponent e2 with
        | none => rfl
        | some p => exact absurd (.minus h1 hplus hplain q2 h3) (h (-(p.2 : Int)) p.1)
      cases h2 : opt c.expPos e1 with
      | none => simp only [expPlain, hplain, hneg]
      | some e2 => simp only [hplus e2 h2, expPlain, hplain, hneg]

theorem tenTo_neg (n : Nat) : tenTo (-(n : Int)) = 1 / 10 ^ n := by
  cases n with
  | zero => show (10 : Rat) ^ 0 = 1 / 10 ^ 0; decide +kernel
  | succ n => rfl

theorem sciValue_spec (ival : Nat) (iv : Iv) (dval : Nat) (neg : Iv) (exp expNeg : Iv) (eval : Nat) (x : Int)
    (hx : x = if exp.isSome then (if expNeg.isSome then -(eval : Int) else eval) else 0) :
    sciValue ival iv dval neg exp expNeg eval = sciNumber neg.isSome (some ival) (if iv.isSome then some (dval, iv.size) else none) x := by
  have h10 : ∀ n : Nat, (10 : Rat) ^ n ≠ 0 := fun n => Rat.ne_of_gt (Rat.pow_pos (by decide))
  have t0 : tenTo 0 = 1 := rfl
  have tp : ∀ n : Nat, tenTo (n : Int) = 10 ^ n := fun _ => rfl
  have e1 : (if iv.isSome = true then (ival : Rat) + (dval : Rat) * (1 / 10 ^ iv.size) else ival) =
      ((ival : Nat) : Rat) + (match (if iv.isSome = true then some (dval, iv.size) else none) with | none => (0 : Rat) | some (d, n) => (d : Rat) / 10 ^ n) := by
    cases hc : iv.isSome
    · show (ival : Rat) = (ival : Rat) + 0
      grind
    · show (ival : Rat) + (dval : Rat) * (1 / 10 ^ iv.size) = (ival : Rat) + (dval : Rat) / 10 ^ iv.size
      have := h10 iv.size
      grind
  unfold sciValue sciNumber
  simp only [Option.getD_some]
  rw [e1]
  generalize ((ival : Nat) : Rat) + (match (if iv.isSome = true then some (dval, iv.size) else none) with | none => (0 : Rat) | some (d, n) => (d : Rat) / 10 ^ n) = m
  subst hx
  cases exp.isSome
  · simp only [Bool.false_eq_true, if_false, t0]
    cases neg.isSome
    · simp only [Bool.false_eq_true, if_false]; grind
    · simp only [if_true]; grind
  · cases expNeg.isSome
    · simp only [if_true, Bool.false_eq_true, if_false, tp]
      cases neg.isSome
      · simp only [Bool.false_eq_true, if_false]; grind
      · simp only [if_true]; grind
    · simp only [if_true, tenTo_neg]
      cases neg.isSome
      · simp only [Bool.false_eq_true, if_false]; grind
      · simp only [if_true]; grind

/-- **C75** A scientific numeral: an optional sign, an integer or decimals or both, and an exponent if there is one; the value is
the number it denotes in terms of its parts. -/
theorem scientific_spec {n : Nat} {c : SciParts} (hint : TakesV n c.integer) (hsep : ∀ i ≤ n, ∀ j, c.sep i = some j → j ≤ n) (hdec : TakesV n c.decimal) {i : Nat} (old : Sci) {k : Option Nat} {j : Nat}
    (hk : SignAt c.pos c.neg c.spc i k j) (hj : j ≤ n) :
    (∀ iv dv e x e', MantissaAt c j iv dv e → (ExpAt c e x e' ∨ ((∀ y f, ¬ ExpAt c e y f) ∧ x = 0 ∧ e' = e)) →
      ∃ s, scientific c i old = (true, s) ∧ s.interval = some (i, e') ∧ s.signs.are i j k ∧ s.value = some (sciNumber (k == some 1) iv dv x)) ∧
    ((∀ iv dv e, ¬ MantissaAt c j iv dv e) → ∃ s, scientific c i old = (false, s) ∧ s.interval = none ∧ s.signs = ⟨none, none, none⟩ ∧ s.integer = none ∧ s.sep = none ∧ s.decimal = none ∧
      s.expSym = none ∧ s.expPos = none ∧ s.expNeg = none ∧ s.exponent = none) := by
  have ⟨k', j', s, a, b, cc⟩ := signs_spec c.pos c.neg c.spc i old.signs
  have ⟨e1, e2⟩ := signAt_unique hk b
  subst e1 e2
  have hneg : s.neg.isSome = (k == some 1) := by
    unfold Signs.are at cc
    rw [cc]
    by_cases q : k = some 1
    · subst q; rfl
    · simp [q]
  have hexp : ∀ (e : Nat) (x : Int) (e' : Nat), (ExpAt c e x e' ∨ ((∀ y f, ¬ ExpAt c e y f) ∧ x = 0 ∧ e' = e)) →
      (expPart c e).fin = e' ∧ x = if (expPart c e).exp.isSome then (if (expPart c e).neg.isSome then -((expPart c e).value : Int) else (expPart c e).value) else 0 := by
    intro e x e' h
    rcases h with h | ⟨h1, h2, h3⟩
    · have ⟨o, a1, a2, a3, a4⟩ := (expPart_spec c e).1 x e' h
      rw [a1]
      exact ⟨a2, by rw [if_pos a3]; exact a4⟩
    · rw [(expPart_spec c e).2 h1]
      exact ⟨h3.symm, h2⟩
  unfold scientific
  rw [a]
  dsimp only
  refine ⟨?_, ?_⟩
  · intro iv dv e x e' hm hx
    have ⟨x1, x2⟩ := hexp e x e' hx
    cases hm with
    | both h1 h2 h3 =>
      rename_i e1 e2 ival dval
      have ⟨g1, g2⟩ := hint j hj _ _ h1
      have hv1 : Iv.void (some (j, e1)) = false := by simp [Iv.void]; omega
      simp only [h1, decPart, h2, h3, hv1, Bool.false_and, Bool.false_eq_true, if_false]
      refine ⟨_, rfl, by rw [x1], cc, ?_⟩
      dsimp only
      rw [sciValue_spec _ _ _ _ _ _ _ x x2, hneg]
      rfl
    | int h1 h2 =>
      rename_i ival
      have ⟨g1, g2⟩ := hint j hj _ _ h1
      have hv1 : Iv.void (some (j, e)) = false := by simp [Iv.void]; omega
      have hd : decPart c e = (none, none, 0, e) := by
        unfold decPart
        cases q : c.sep e with
        | none => rfl
        | some e2 => dsimp only; rw [h2 e2 q]
      simp only [h1, hd, hv1, Bool.false_and, Bool.false_eq_true, if_false]
      refine ⟨_, rfl, by rw [x1], cc, ?_⟩
      dsimp only
      rw [sciValue_spec _ _ _ _ _ _ _ x x2, hneg]
      rfl
    | dec h1 h2 h3 =>
      rename_i e2 dval
      have g1 := hsep j hj _ h2
      have ⟨g2, g3⟩ := hdec e2 g1 _ _ h3
      have hv1 : Iv.void (some (e2, e)) = false := by simp [Iv.void]; omega
      simp only [h1, decPart, h2, h3, hv1, Bool.and_false, Bool.false_eq_true, if_false]
      refine ⟨_, rfl, by rw [x1], cc, ?_⟩
      dsimp only
      rw [sciValue_spec _ _ _ _ _ _ _ x x2, hneg]
      rfl
  · intro h
    cases h1 : c.integer j with
    | some p =>
      obtain ⟨e1, ival⟩ := p
      exfalso
      cases h2 : c.sep e1 with
      | none => exact h _ _ _ (.int h1 fun e2 q => by rw [h2] at q; cases q)
      | some e2 =>
        cases h3 : c.decimal e2 with
        | none => exact h _ _ _ (.int h1 fun e2' q => by rw [h2] at q; cases q; exact h3)
        | some p => exact h _ _ _ (.both h1 h2 h3)
    | none =>
      have hd : decPart c j = (none, none, 0, j) := by
        unfold decPart
        cases h2 : c.sep j with
        | none => rfl
        | some e2 =>
          dsimp only
          cases h3 : c.decimal e2 with
          | none => rfl
          | some p => exact absurd (.dec h1 h2 h3) (h _ _ _)
      simp only [hd, Iv.void, Bool.and_self, if_true]
      exact ⟨_, rfl, rfl, rfl, rfl, rfl, rfl, rfl, rfl, rfl, rfl⟩

/-- **C75** A monetary numeral: an optional sign, the currency, and an integer or decimals or both. -/
theorem monetary_spec {n : Nat} {pos neg spc currency integer sep decimal : Sub} (hcur : Takes n currency) (hint : Takes n integer) (hsep : Takes n sep) (hdec : Takes n decimal) {i : Nat} (old : Money)
    {k : Option Nat} {j : Nat} (hk : SignAt (some pos) (some neg) (some spc) i k j) (hj : j ≤ n) :
    (∀ e0 e1, currency j = some e0 → integer e0 = some e1 → (∀ e2, sep e1 = some e2 → decimal e2 = none) →
      ∃ s, monetary pos neg spc currency integer sep decimal i old = (true, ⟨s, some (j, e0), some (e0, e1), none, none, some (i, e1)⟩) ∧ s.are i j k) ∧
    (∀ e0 e1 e2 e3, currency j = some e0 → integer e0 = some e1 → sep e1 = some e2 → decimal e2 = some e3 →
      ∃ s, monetary pos neg spc currency integer sep decimal i old = (true, ⟨s, some (j, e0), some (e0, e1), some (e1, e2), some (e2, e3), some (i, e3)⟩) ∧ s.are i j k) ∧
    (∀ e0 e2 e3, currency j = some e0 → integer e0 = none → sep e0 = some e2 → decimal e2 = some e3 →
      ∃ s, monetary pos neg spc currency integer sep decimal i old = (true, ⟨s, some (j, e0), none, some (e0, e2), some (e2, e3), some (i, e3)⟩) ∧ s.are i j k) ∧
    ((∀ e0, currency j = some e0 → integer e0 = none ∧ ∀ e2, sep e0 = some e2 → decimal e2 = none) →
      monetary pos neg spc currency integer sep decimal i old = (false, ⟨⟨none, none, none⟩, none, none, none, none, none⟩)) := by
  have ⟨k', j', s, a, b, cc⟩ := signs_spec (some pos) (some neg) (some spc) i old.signs
  have ⟨q1, q2⟩ := signAt_unique hk b
  subst q1 q2
  unfold monetary
  rw [a]
  dsimp only
  refine ⟨?_, ?_, ?_, ?_⟩
  · intro e0 e1 h0 h1 h2
    have ⟨_, g0⟩ := hcur j hj e0 h0
    have ⟨g1, _⟩ := hint e0 g0 e1 h1
    have hv : Iv.void (some (e0, e1)) = false := by simp [Iv.void]; omega
    cases h3 : sep e1 with
    | none => simp only [h0, h1, h3, hv, Bool.false_and, Bool.false_eq_true, if_false]; exact ⟨s, rfl, cc⟩
    | some e2 => simp only [h0, h1, h3, h2 e2 h3, hv, Bool.false_and, Bool.false_eq_true, if_false]; exact ⟨s, rfl, cc⟩
  · intro e0 e1 e2 e3 h0 h1 h2 h3
    have ⟨_, g0⟩ := hcur j hj e0 h0
    have ⟨g1, _⟩ := hint e0 g0 e1 h1
    have hv : Iv.void (some (e0, e1)) = false := by simp [Iv.void]; omega
    simp only [h0, h1, h2, h3, hv, Bool.false_and, Bool.false_eq_true, if_false]
    exact ⟨s, rfl, cc⟩
  · intro e0 e2 e3 h0 h1 h2 h3
    have ⟨_, g0⟩ := hcur j hj e0 h0
    have ⟨_, g1⟩ := hsep e0 g0 e2 h2
    have ⟨g2, _⟩ := hdec e2 g1 e3 h3
    have hv : Iv.void (some (e2, e3)) = false := by simp [Iv.void]; omega
    simp only [h0, h1, h2, h3, hv, Bool.and_false, Bool.false_eq_true, if_false]
    exact ⟨s, rfl, cc⟩
  · intro h
    cases h0 : currency j with
    | none => rfl
    | some e0 =>
      have ⟨h1, h2⟩ := h e0 h0
      cases h3 : sep e0 with
      | none => simp only [h1, h3, Iv.void, Bool.and_self, if_true]
      | some e2 => simp only [h1, h3, h2 e2 h3, Iv.void, Bool.and_self, if_true]

/-! ### Decimal floating-point literals -/

/-- The elements for ASCII digits, `+`, `-`, `.` and `e`. -/
def asciiSci (v : Env) (t : List Int) : SciParts :=
  let int := fun i => (integer v 10 (ascii10 t) i).getD none
  ⟨some (charSub t 43), some (charSub t 45), none, int, charSub t 46, int, some (charSub t 101), some (charSub t 43), some (charSub t 45), some int⟩

/-- The exponent of a literal: `e`, a sign or none (`true` is minus), and digits. -/
def expText : Option (Option Bool × List Int) → List Int
  | none => []
  | some (none, ep) => 101 :: ep
  | some (some false, ep) => 101 :: 43 :: ep
  | some (some true, ep) => 101 :: 45 :: ep

/-- A literal: a minus sign or none, digits, a point and digits unless there are none, an exponent or none. -/
def literal (neg : Bool) (ip dp : List Int) (ex : Option (Option Bool × List Int)) : List Int :=
  (if neg then [45] else []) ++ (ip ++ ((if dp = [] then [] else 46 :: dp) ++ expText ex))

/-- The number written with these digits. -/
def number (w : List Int) : Nat := positional 10 (w.map fun c => (c - 48).toNat)

/-- The exponent of the literal. -/
def expNumber : Option (Option Bool × List Int) → Int
  | none => 0
  | some (some true, ep) => -(number ep : Int)
  | some (_, ep) => number ep

theorem int_at {v : Env} {t : List Int} (h : v.Ok t) {i : Nat} {r rest : List Int} (hd : t.drop i = r ++ rest) (hi : i ≤ t.length) (hr : ∀ c ∈ r, isDec c = true)
    (h2 : ∀ c, rest.head? = some c → isDec c = false) (hn : number r < 2 ^ 64) :
    (integer v 10 (ascii10 t) i).getD none = if r = [] then none else some (i + r.length, number r) := by
  rw [integer10_ascii h hi, hd]
  simp only [takeWhile_run hr h2, Option.getD_some]
  unfold number at hn ⊢
  rw [Nat.mod_eq_of_lt hn]

theorem char_at {t : List Int} {i : Nat} {c : Int} {rest : List Int} (hd : t.drop i = c :: rest) (d : Int) : charSub t d i = if c = d then some (i + 1) else none := by
  have hc : t[i]? = some c := by
    have := congrArg (fun l : List Int => l[0]?) hd
    simpa using this
  unfold charSub
  rw [hc]
  by_cases e : c = d
  · rw [if_pos (by rw [e]), if_pos e]
  · rw [if_neg (fun q => e (Option.some.inj q)), if_neg e]

theorem char_end {t : List Int} {i : Nat} (hd : t.drop i = []) (d : Int) : charSub t d i = none := by
  unfold charSub
  rw [List.getElem?_eq_none (List.drop_eq_nil_iff.1 hd)]
  simp

theorem drop_add {t a b : List Int} {i : Nat} (h : t.drop i = a ++ b) : t.drop (i + a.length) = b := by
  rw [← List.drop_drop, h]; simp

theorem dec_head {r : List Int} (h : ∀ c ∈ r, isDec c = true) (hr : r ≠ []) : ∃ c rest, r = c :: rest ∧ 48 ≤ c ∧ c ≤ 57 := by
  cases r with
  | nil => exact absurd rfl hr
  | cons c rest => exact ⟨c, rest, rfl, by have := h c List.mem_cons_self; simpa [isDec] using this⟩

theorem ascii_takesV {v : Env} {t : List Int} (h : v.Ok t) : TakesV t.length (fun i => (integer v 10 (ascii10 t) i).getD none) := by
  intro i hi j x hj
  dsimp only at hj
  rw [integer10_ascii h hi, Option.getD_some] at hj
  dsimp only at hj
  split at hj
  · cases hj
  · rename_i c
    cases hj
    have : ((t.drop i).takeWhile isDec).length ≤ (t.drop i).length := (List.takeWhile_sublist _).length_le
    have h0 : 0 < ((t.drop i).takeWhile isDec).length := List.length_pos_iff.2 c
    rw [List.length_drop] at this
    omega

theorem expAt_text {v : Env} {t : List Int} (h : v.Ok t) {e : Nat} (he : e ≤ t.length) {ex : Option (Option Bool × List Int)} (hd : t.drop e = expText ex)
    (hx : ∀ s ep, ex = some (s, ep) → ep ≠ [] ∧ (∀ c ∈ ep, isDec c = true) ∧ number ep < 2 ^ 64) :
    ExpAt (asciiSci v t) e (expNumber ex) t.length ∨ ((∀ y f, ¬ ExpAt (asciiSci v t) e y f) ∧ expNumber ex = 0 ∧ t.length = e) := by
  have nolast : ∀ c : Int, ([] : List Int).head? = some c → isDec c = false := fun c q => nomatch q
  cases ex with
  | none =>
    right
    have : opt (asciiSci v t).expSym e = none := char_end hd 101
    refine ⟨fun y f q => ?_, rfl, ?_⟩
    · cases q with
      | plus q _ _ => rw [this] at q; cases q
      | plain q _ _ => rw [this] at q; cases q
      | minus q _ _ _ _ => rw [this] at q; cases q
    · have := List.drop_eq_nil_iff.1 hd; omega
  | some p =>
    left
    obtain ⟨s, ep⟩ := p
    have ⟨x1, x2, x3⟩ := hx s ep rfl
    have sym : ∀ rest, t.drop e = 101 :: rest → opt (asciiSci v t).expSym e = some (e + 1) := fun rest q => by
      show charSub t 101 e = _
      rw [char_at q, if_pos rfl]
    have next : ∀ (rest : List Int) (c : Int) (i : Nat), t.drop i = c :: rest → t.drop (i + 1) = rest := fun rest c i q => drop_add (a := [c]) q
    have digits : ∀ i, t.drop i = ep → i ≤ t.length → optV (asciiSci v t).exponent i = some (t.length, number ep) := by
      intro i q hi
      show (integer v 10 (ascii10 t) i).getD none = _
      rw [int_at h (r := ep) (rest := []) (by rw [q, List.append_nil]) hi x2 nolast x3, if_neg x1]
      have := congrArg List.length q
      rw [List.length_drop] at this
      rw [show i + ep.length = t.length by omega]
    have len : ∀ {i : Nat} {c : Int} {rest : List Int}, t.drop i = c :: rest → i < t.length := by
      intro i c rest q
      have := congrArg List.length q
      rw [List.length_drop, List.length_cons] at this
      omega
    have notdig : ∀ (i : Nat) (c : Int) (rest : List Int), t.drop i = c :: rest → isDec c = false → optV (asciiSci v t).exponent i = none := by
      intro i c rest q hc
      show (integer v 10 (ascii10 t) i).getD none = none
      rw [int_at h (r := []) (rest := c :: rest) q (by have := len q; omega) (fun _ q => nomatch q) (fun x q => by cases q; exact hc) (by show 0 < _; omega), if_pos rfl]
    cases s with
    | none =>
      have hd1 : t.drop e = 101 :: ep := hd
      have hd2 := next _ _ _ hd1
      obtain ⟨c, rest, rfl, c1, c2⟩ := dec_head x2 x1
      have l1 := len hd2
      refine .plain (sym _ hd1) ?_ (digits _ hd2 (by omega))
      intro e2 q
      have : charSub t 43 (e + 1) = some e2 := q
      rw [char_at hd2, if_neg (by omega)] at this
      cases this
    | some b =>
      cases b with
      | false =>
        have hd1 : t.drop e = 101 :: 43 :: ep := hd
        have hd2 := next _ _ _ hd1
        have hd3 := next _ _ _ hd2
        have l1 := len hd2
        exact .plus (e2 := e + 1 + 1) (sym _ hd1) (by show charSub t 43 (e + 1) = _; rw [char_at hd2, if_pos rfl]) (digits _ hd3 (by omega))
      | true =>
        have hd1 : t.drop e = 101 :: 45 :: ep := hd
        have hd2 := next _ _ _ hd1
        have hd3 := next _ _ _ hd2
        have l1 := len hd2
        refine .minus (e2 := e + 1 + 1) (sym _ hd1) ?_ (notdig _ _ _ hd2 rfl) (by show charSub t 45 (e + 1) = _; rw [char_at hd2, if_pos rfl]) (digits _ hd3 (by omega))
        intro e2 q
        have : charSub t 43 (e + 1) = some e2 := q
        rw [char_at hd2, if_neg (by decide)] at this
        cases this

theorem expText_head {ex : Option (Option Bool × List Int)} {c : Int} (h : (expText ex).head? = some c) : c = 101 := by
  match ex, h with
  | some (none, _), h => cases h; rfl
  | some (some false, _), h => cases h; rfl
  | some (some true, _), h => cases h; rfl

/-- **C75** Every decimal literal is matched as a whole, and the value is the number it denotes, provided that the integer, the decimals
and the exponent, each read as an integer, are below 2⁶⁴. -/
theorem scientific_literal_partial {v : Env} {neg : Bool} {ip dp : List Int} {ex : Option (Option Bool × List Int)} {t : List Int} (ht : t = literal neg ip dp ex) (h : v.Ok t)
    (hip : ∀ c ∈ ip, isDec c = true) (hdp : ∀ c ∈ dp, isDec c = true) (hne : ip ≠ [] ∨ dp ≠ [])
    (hx : ∀ s ep, ex = some (s, ep) → ep ≠ [] ∧ (∀ c ∈ ep, isDec c = true) ∧ number ep < 2 ^ 64) (h1 : number ip < 2 ^ 64) (h2 : number dp < 2 ^ 64) (old : Sci) :
    ∃ s, scientific (asciiSci v t) 0 old = (true, s) ∧ s.interval = some (0, t.length) ∧
      s.value = some ((if neg then -1 else 1) * ((number (ip ++ dp) : Nat) / 10 ^ dp.length) * tenTo (expNumber ex)) := by
  have rest1 : ∀ c, ((if dp = [] then [] else 46 :: dp) ++ expText ex).head? = some c → isDec c = false := by
    intro c hc
    by_cases q : dp = []
    · rw [if_pos q, List.nil_append] at hc
      rw [expText_head hc]; rfl
    · rw [if_neg q] at hc
      cases hc; rfl
  have rest2 : ∀ c, (expText ex).head? = some c → isDec c = false := fun c hc => by rw [expText_head hc]; rfl
  -- the sign
  have hsign : ∃ k j, SignAt (asciiSci v t).pos (asciiSci v t).neg (asciiSci v t).spc 0 k j ∧ (k == some 1) = neg ∧ j ≤ t.length ∧
      t.drop j = ip ++ ((if dp = [] then [] else 46 :: dp) ++ expText ex) := by
    cases neg with
    | true =>
      have hd : t.drop 0 = 45 :: (ip ++ ((if dp = [] then [] else 46 :: dp) ++ expText ex)) := by rw [ht]; rfl
      refine ⟨some 1, 1, .neg ?_ ?_, rfl, ?_, ?_⟩
      · show charSub t 43 0 = none; rw [char_at hd]; rfl
      · show charSub t 45 0 = some 1; rw [char_at hd]; rfl
      · rw [ht]; simp [literal]
      · exact drop_add (a := [45]) hd
    | false =>
      have hd : t.drop 0 = ip ++ ((if dp = [] then [] else 46 :: dp) ++ expText ex) := by rw [ht]; rfl
      have nosign : ∀ d : Int, d = 43 ∨ d = 45 → charSub t d 0 = none := by
        intro d hdd
        cases hip' : ip with
        | cons c r =>
          rw [hip'] at hd
          have hc : isDec c = true := hip c (by rw [hip']; exact List.mem_cons_self)
          rw [char_at hd, if_neg]
          intro q
          have hc : 48 ≤ c ∧ c ≤ 57 := by simpa [isDec] using hc
          omega
        | nil =>
          rw [hip', List.nil_append, if_neg (hne.resolve_left (fun q => q hip'))] at hd
          rw [char_at (c := 46) hd, if_neg (by omega)]
      exact ⟨none, 0, .no (nosign 43 (.inl rfl)) (nosign 45 (.inr rfl)) rfl, rfl, Nat.zero_le _, hd⟩
  obtain ⟨k, j, hk, hkn, hj, hdj⟩ := hsign
  have hint : (asciiSci v t).integer j = if ip = [] then none else some (j + ip.length, number ip) := int_at h hdj hj hip rest1 h1
  have hd1 := drop_add hdj
  have len : ∀ {i : Nat} {c : Int} {rest : List Int}, t.drop i = c :: rest → i < t.length := by
    intro i c rest q
    have := congrArg List.length q
    rw [List.length_drop, List.length_cons] at this
    omega
  have hj1 : j + ip.length ≤ t.length := by
    have := congrArg List.length hdj
    rw [List.length_drop, List.length_append] at this
    omega
  have value : ∀ (iv : Option Nat) (dv : Option (Nat × Nat)), ((iv.getD 0 : Nat) : Rat) + (match dv with | none => 0 | some (d, n) => (d : Rat) / 10 ^ n) = ((number (ip ++ dp) : Nat) : Rat) / 10 ^ dp.length →
      sciNumber (k == some 1) iv dv (expNumber ex) = (if neg then -1 else 1) * ((number (ip ++ dp) : Nat) / 10 ^ dp.length) * tenTo (expNumber ex) := by
    intro iv dv q
    unfold sciNumber
    rw [q, hkn]
  have split : number (ip ++ dp) = number ip * 10 ^ dp.length + number dp := by
    unfold number
    have := positional_foldl 10 ((ip ++ dp).map fun c => (c - 48).toNat) 0
    rw [List.map_append, List.foldl_append, positional_foldl, positional_foldl] at this
    simpa using this.symm
  have h10 : (10 : Rat) ^ dp.length ≠ 0 := Rat.ne_of_gt (Rat.pow_pos (by decide))
  have spec := scientific_spec (n := t.length) (c := asciiSci v t) (ascii_takesV h) (fun i hi j q => (charSub_takes t 46 i hi j q).2) (ascii_takesV h) old hk hj
  by_cases q : dp = []
  · have hip' : ip ≠ [] := hne.resolve_right (fun c => c q)
    rw [if_neg hip'] at hint
    rw [if_pos q, List.nil_append] at hd1
    have hm : MantissaAt (asciiSci v t) j (some (number ip)) none (j + ip.length) := by
      refine .int hint ?_
      intro e2 he2
      exfalso
      have he2 : charSub t 46 (j + ip.length) = some e2 := he2
      cases hq : expText ex with
      | nil => rw [hq] at hd1; rw [char_end hd1] at he2; cases he2
      | cons c r =>
        rw [hq] at hd1
        have : c = 101 := expText_head (ex := ex) (by rw [hq]; rfl)
        rw [char_at hd1, if_neg (by omega)] at he2
        cases he2
    have ⟨s, a, b, _, d⟩ := spec.1 _ _ _ _ _ hm (expAt_text h hj1 hd1 hx)
    refine ⟨s, a, b, ?_⟩
    rw [d, value]
    subst q
    rw [split]
    show (number ip : Rat) + 0 = ((number ip * 10 ^ 0 + 0 : Nat) : Rat) / 10 ^ 0
    simp only [Nat.pow_zero, Nat.mul_one, Nat.add_zero]
    grind
  · rw [if_neg q, List.cons_append] at hd1
    have hsep : (asciiSci v t).sep (j + ip.length) = some (j + ip.length + 1) := by
      show charSub t 46 _ = _
      rw [char_at hd1, if_pos rfl]
    have l1 := len hd1
    have hd2 : t.drop (j + ip.length + 1) = dp ++ expText ex := drop_add (a := [46]) hd1
    have hdec : (asciiSci v t).decimal (j + ip.length + 1) = some (j + ip.length + 1 + dp.length, number dp) := by
      show (integer v 10 (ascii10 t) _).getD none = _
      rw [int_at h hd2 (by omega) hdp rest2 h2, if_neg q]
    have hd3 := drop_add hd2
    have hj3 : j + ip.length + 1 + dp.length ≤ t.length := by
      have := congrArg List.length hd2
      rw [List.length_drop, List.length_append] at this
      omega
    have hsize : j + ip.length + 1 + dp.length - (j + ip.length + 1) = dp.length := by omega
    by_cases q2 : ip = []
    · rw [if_pos q2] at hint
      have hl : j + ip.length = j := by rw [q2]; rfl
      have hsep' : (asciiSci v t).sep j = some (j + ip.length + 1) := by rw [← hsep, hl]
      have hm : MantissaAt (asciiSci v t) j none (some (number dp, dp.length)) (j + ip.length + 1 + dp.length) := by
        have := MantissaAt.dec (c := asciiSci v t) hint hsep' hdec
        rw [hsize] at this
        exact this
      have ⟨s, a, b, _, d⟩ := spec.1 _ _ _ _ _ hm (expAt_text h hj3 hd3 hx)
      refine ⟨s, a, b, ?_⟩
      rw [d, value]
      rw [split]
      have e0 : number ip = 0 := by rw [q2]; rfl
      rw [e0]
      show (0 : Rat) + (number dp : Rat) / 10 ^ dp.length = ((0 * 10 ^ dp.length + number dp : Nat) : Rat) / 10 ^ dp.length
      rw [Nat.zero_mul, Nat.zero_add]
      grind
    · rw [if_neg q2] at hint
      have hm := MantissaAt.both (c := asciiSci v t) hint hsep hdec
      have ⟨s, a, b, _, d⟩ := spec.1 _ _ _ _ _ hm (expAt_text h hj3 hd3 hx)
      refine ⟨s, a, b, ?_⟩
      rw [d, value]
      rw [split, hsize]
      show (number ip : Rat) + (number dp : Rat) / 10 ^ dp.length = ((number ip * 10 ^ dp.length + number dp : Nat) : Rat) / 10 ^ dp.length
      push_cast
      grind

/-- `-3.14e2` -/
example : literal true [51] [49, 52] (some (none, [50])) = [45, 51, 46, 49, 52, 101, 50] ∧ number [51] = 3 ∧ number [49, 52] = 14 := by decide

def sciText : List Int := [45, 51, 46, 49, 52, 101, 50]
def sciEnv (t : List Int) : Env := ⟨t ++ [0], none, false, false, id, isspace, ispunct⟩
def sciOld : Sci := ⟨⟨none, none, none⟩, none, none, none, none, none, none, none, none, none⟩

theorem sciText_ok : (sciEnv sciText).Ok sciText := ⟨.inl (by decide), by decide, (fun n q => nomatch q), fun _ => Iff.rfl⟩

example : (scientific (asciiSci (sciEnv sciText) sciText) 0 sciOld).2.value = some (-314) := by decide +kernel

/-- `0.99999999999999999999`: twenty decimals, read as 0.07766279631452241919. -/
def longText : List Int := [48, 46] ++ List.replicate 20 57

/-- What `scientific_literal_partial` lacks: the decimals of a literal may be any number, but wrap around. -/
theorem scientific_decimals_wrap : longText = literal false [48] (List.replicate 20 57) none ∧ (sciEnv longText).Ok longText ∧
    (scientific (asciiSci (sciEnv longText) longText) 0 sciOld).1 = true ∧
    (scientific (asciiSci (sciEnv longText) longText) 0 sciOld).2.value = some ((7766279631452241919 : Rat) / 10 ^ 20) ∧
    ((if false then -1 else 1) * ((number ([48] ++ List.replicate 20 57) : Nat) / 10 ^ 20) * tenTo (expNumber none) : Rat) = 99999999999999999999 / 10 ^ 20 :=
  ⟨by decide, ⟨.inl (by decide), by decide, (fun n q => nomatch q), fun _ => Iff.rfl⟩, by decide +kernel, by decide +kernel, by decide +kernel⟩

/-- `1/2`, with `Takes` of the elements by `charSub_takes`. -/
example : fraction (charSub [49, 47, 50] 49) (charSub [49, 47, 50] 47) (charSub [49, 47, 50] 50) 0 ⟨some (7, 9), none, none, none⟩ =
    (true, ⟨some (0, 1), some (1, 2), some (2, 3), some (0, 3)⟩) := by decide

/-- `2 : 1` -/
example : score 5 (charSub [50, 32, 58, 32, 49] 50) (charSub [50, 32, 58, 32, 49] 58) (charSub [50, 32, 58, 32, 49] 49) (charSub [50, 32, 58, 32, 49] 32) 0 ⟨none, none, none, none⟩ =
    some (true, ⟨some (0, 1), some (2, 3), some (4, 5), some (0, 5)⟩) := by decide

/-- `-€5` -/
example : monetary (charSub [45, 8364, 53] 43) (charSub [45, 8364, 53] 45) (charSub [45, 8364, 53] 177) (charSub [45, 8364, 53] 8364) (charSub [45, 8364, 53] 53)
    (charSub [45, 8364, 53] 46) (charSub [45, 8364, 53] 53) 0 ⟨⟨none, none, none⟩, none, none, none, none, none⟩ =
    (true, ⟨⟨none, some (0, 1), none⟩, some (1, 2), some (2, 3), none, none, some (0, 3)⟩) := by decide

/-- `+5` and `1 2`, where the fraction is `2`. -/
example : signed (some (charSub [43, 53] 43)) none none (charSub [43, 53] 53) 0 ⟨⟨none, none, none⟩, none, none⟩ = (true, ⟨⟨some (0, 1), none, none⟩, some (1, 2), some (0, 2)⟩) ∧
    mixed 3 none none none (charSub [49, 32, 50] 49) (charSub [49, 32, 50] 32) (charSub [49, 32, 50] 50) 0 ⟨⟨none, none, none⟩, none, none, none⟩ =
      some (true, ⟨⟨none, none, none⟩, some (0, 1), some (2, 3), some (0, 3)⟩) := by decide

end Verif.Parser
