import Verif.Parser.Number
/-
Parser of Roman numerals (include/stdex/parser.hpp 1569-1658).
-/
namespace Verif.Parser
open Verif.Str

/-- The value assigned to `dig[0]` in 1608-1616 when the k-th digit matches. -/
def romanVal : Nat → Nat
  | 0 => 1
  | 1 => 5
  | 2 => 10
  | 3 => 50
  | 4 => 100
  | 5 => 500
  | 6 => 1000
  | 7 => 5000
  | _ => 10000

/-- `dig[1]`, `dig[2]`, `dig[3]`, `dig[4]` and `value` before a round of the loop 1607-1651. -/
structure RSt where
  d1 : Nat
  d2 : Nat
  d3 : Nat
  d4 : Nat
  value : Nat
deriving DecidableEq

/-- The `else if` 1630-1634. -/
def subtracts (d1 d0 : Nat) : Prop :=
  (d1 = 1 ∧ (d0 = 5 ∨ d0 = 10)) ∨ (d1 = 10 ∧ (d0 = 50 ∨ d0 = 100)) ∨ (d1 = 100 ∧ (d0 = 500 ∨ d0 = 1000)) ∨ (d1 = 1000 ∧ (d0 = 5000 ∨ d0 = 10000))

instance (a b : Nat) : Decidable (subtracts a b) := by unfold subtracts; infer_instance

/-- 1619-1650 with the update 1607 of `dig`; `none` is `break`. -/
def romanStep (d0 : Nat) (s : RSt) : Option RSt :=
  let d4 := if s.d4 = 2 ^ 64 - 1 then d0 else s.d4
  if s.d3 = s.d2 ∧ s.d2 = s.d1 ∧ s.d1 = d0 ∧ d0 ≠ d4 then none
  else if d0 ≤ s.d1 then some ⟨d0, s.d1, s.d2, d4, (s.value + d0) % 2 ^ 64⟩
  else if subtracts s.d1 d0 then
    if s.d2 < d0 then none
    else some ⟨d0 - s.d1, s.d2, s.d3, d4, ((s.value + 2 ^ 64 - s.d1) % 2 ^ 64 + (d0 - s.d1)) % 2 ^ 64⟩
  else none

/-- The loop 1607-1651: `interval.end` and `value`; `ds` are the nine digits, one that is `nullptr` never matches. -/
def romanLoop (v : Env) (ds : List Sub) : Nat → Nat → RSt → Option (Nat × Nat)
  | 0, _, _ => none
  | fuel + 1, e, s =>
    match Str.cond v.s v.fin e with
    | none => none
    | some none => some (e, s.value)
    | some (some _) =>
      match firstOf ds 0 e with
      | none => some (e, s.value)
      | some (k, e2) =>
        match romanStep (romanVal k) s with
        | none => some (e, s.value)
        | some s' => romanLoop v ds fuel e2 s'

def romanInit : RSt := ⟨2 ^ 64 - 1, 2 ^ 64 - 1, 2 ^ 64 - 1, 2 ^ 64 - 1, 0⟩

/-- `basic_roman_numeral::do_match` 1602-1657. -/
def roman (v : Env) (ds : List Sub) (i : Nat) : Option (Option (Nat × Nat)) :=
  match romanLoop v ds (v.s.length + 2) i romanInit with
  | none => none
  | some (e, value) => if value ≠ 0 then some (some (e, value)) else some none

/-! ### Specification -/

/-- The values of the nine digits. -/
def romanDigits : List Nat := [1, 5, 10, 50, 100, 500, 1000, 5000, 10000]

/-- Roman digits are written from `i` to `j`, with these values. -/
def RomanAt (n : Nat) (ds : List Sub) (i : Nat) (w : List Nat) (j : Nat) : Prop := ∃ ks, Written n ds i ks j ∧ ks.map (fun k => romanDigits[k]?) = w.map some

/-- The value of Roman digits: one before a greater one is subtracted. -/
def romanValue : List Nat → Int
  | [] => 0
  | [d] => d
  | d :: e :: w => (if d < e then -(d : Int) else d) + romanValue (e :: w)

/-- A digit before a greater one is a power of ten, and that is five or ten times as much. -/
def Proper : List Nat → Prop
  | [] => True
  | [_] => True
  | d :: e :: w => (d < e → (d = 1 ∨ d = 10 ∨ d = 100 ∨ d = 1000) ∧ (e = 5 * d ∨ e = 10 * d)) ∧ Proper (e :: w)

/-- How a decimal digit is written in Roman numerals with the digits `u`, `5 u`, `10 u`. -/
def romanPlace (u : Nat) : Nat → List Nat
  | 0 => []
  | 1 => [u]
  | 2 => [u, u]
  | 3 => [u, u, u]
  | 4 => [u, 5 * u]
  | 5 => [5 * u]
  | 6 => [5 * u, u]
  | 7 => [5 * u, u, u]
  | 8 => [5 * u, u, u, u]
  | _ => [u, 10 * u]

/-! ### Proofs -/

theorem romanValue_snoc : ∀ (w : List Nat) (l d : Nat), romanValue (w ++ [l, d]) = romanValue (w ++ [l]) + (if l < d then (d : Int) - 2 * l else d) := by
  intro w
  induction w with
  | nil =>
    intro l d
    simp only [List.nil_append, romanValue]
    split <;> omega
  | cons a w ih =>
    intro l d
    cases w with
    | nil =>
      simp only [List.cons_append, List.nil_append, romanValue]
      split <;> split <;> omega
    | cons b w =>
      have := ih l d
      simp only [List.cons_append, romanValue] at this ⊢
      omega

theorem proper_snoc : ∀ (w : List Nat) (l d : Nat), Proper (w ++ [l]) → (l < d → (l = 1 ∨ l = 10 ∨ l = 100 ∨ l = 1000) ∧ (d = 5 * l ∨ d = 10 * l)) → Proper (w ++ [l, d]) := by
  intro w
  induction w with
  | nil => intro l d _ h; exact ⟨h, trivial⟩
  | cons a w ih =>
    intro l d hp h
    cases w with
    | nil => exact ⟨hp.1, h, trivial⟩
    | cons b w => exact ⟨hp.1, ih l d hp.2 h⟩

/-- What the state says about the digits read so far. -/
def RInv (p : List Nat) (s : RSt) : Prop :=
  (p = [] ∧ s = romanInit) ∨ (∃ p' l, p = p' ++ [l] ∧ 1 ≤ s.d1 ∧ s.d1 ≤ l ∧ l ≤ 10000 ∧ ((s.d1 = 1 ∨ s.d1 = 10 ∨ s.d1 = 100 ∨ s.d1 = 1000) → s.d1 = l) ∧
    s.d1 ≤ s.value ∧ s.value ≤ 10000 * p.length ∧ (s.value : Int) = romanValue p ∧ Proper p)

theorem romanStep_inv {p : List Nat} {s s' : RSt} {d : Nat} (hd : d ∈ romanDigits) (h : RInv p s) (hp : p.length < 2 ^ 40) (hs : romanStep d s = some s') : RInv (p ++ [d]) s' := by
  have hd1 : 1 ≤ d ∧ d ≤ 10000 := by
    unfold romanDigits at hd
    simp only [List.mem_cons, List.not_mem_nil, or_false] at hd
    omega
  unfold romanStep at hs
  dsimp only at hs
  generalize (if s.d4 = 2 ^ 64 - 1 then d else s.d4) = d4 at hs
  split at hs
  · cases hs
  · rcases h with ⟨rfl, rfl⟩ | ⟨p', l, rfl, h1, h2, h3, h4, h5, h6, h7, h8⟩
    · right
      have : d ≤ romanInit.d1 := by show d ≤ 2 ^ 64 - 1; omega
      rw [if_pos this] at hs
      cases hs
      refine ⟨[], d, rfl, hd1.1, Nat.le_refl _, hd1.2, fun _ => rfl, ?_, ?_, ?_, trivial⟩
      · show d ≤ (0 + d) % 2 ^ 64; omega
      · show (0 + d) % 2 ^ 64 ≤ 10000 * 1; omega
      · show (((0 + d) % 2 ^ 64 : Nat) : Int) = (d : Int); omega
    · right
      have hlen : (p' ++ [l]).length = p'.length + 1 := by simp
      have hlen2 : (p' ++ [l] ++ [d]).length = p'.length + 2 := by simp
      rw [hlen] at hp h6
      split at hs
      · rename_i c
        cases hs
        refine ⟨p' ++ [l], d, rfl, hd1.1, Nat.le_refl _, hd1.2, fun _ => rfl, ?_, ?_, ?_, ?_⟩
        · show d ≤ (s.value + d) % 2 ^ 64; omega
        · rw [hlen2]; show (s.value + d) % 2 ^ 64 ≤ _; omega
        · rw [List.append_assoc]
          show (((s.value + d) % 2 ^ 64 : Nat) : Int) = romanValue (p' ++ [l, d])
          rw [romanValue_snoc, ← h7, if_neg (by omega)]
          omega
        · rw [List.append_assoc]
          exact proper_snoc _ _ _ h8 (fun q => by omega)
      · rename_i c
        split at hs
        · rename_i c2
          have hl : s.d1 = l := h4 (by unfold subtracts at c2; omega)
          have hd5 : d = 5 * l ∨ d = 10 * l := by unfold subtracts at c2; omega
          have hl2 : l = 1 ∨ l = 10 ∨ l = 100 ∨ l = 1000 := by unfold subtracts at c2; omega
          split at hs
          · cases hs
          · cases hs
            have e : ((s.value + 2 ^ 64 - s.d1) % 2 ^ 64 + (d - s.d1)) % 2 ^ 64 = s.value - s.d1 + (d - s.d1) := by
              rw [show s.value + 2 ^ 64 - s.d1 = (s.value - s.d1) + 2 ^ 64 by omega, Nat.add_mod_right]
              omega
            rw [e]
            refine ⟨p' ++ [l], d, rfl, ?_, ?_, hd1.2, ?_, ?_, ?_, ?_, ?_⟩
            · show 1 ≤ d - s.d1; omega
            · show d - s.d1 ≤ d; omega
            · show (d - s.d1 = 1 ∨ d - s.d1 = 10 ∨ d - s.d1 = 100 ∨ d - s.d1 = 1000) → d - s.d1 = d
              omega
            · show d - s.d1 ≤ s.value - s.d1 + (d - s.d1); omega
            · rw [hlen2]; show s.value - s.d1 + (d - s.d1) ≤ _; omega
            · rw [List.append_assoc]
              show ((s.value - s.d1 + (d - s.d1) : Nat) : Int) = romanValue (p' ++ [l, d])
              rw [romanValue_snoc, ← h7, if_pos (by omega)]
              omega
            · rw [List.append_assoc]
              exact proper_snoc _ _ _ h8 (fun _ => ⟨hl2, hd5⟩)
        · cases hs

theorem romanVal_get {k : Nat} (h : k < 9) : romanDigits[k]? = some (romanVal k) := by
  have : ∀ k, k < 9 → romanDigits[k]? = some (romanVal k) := by decide
  exact this k h

theorem digitAt_lt {ds : List Sub} {i k j : Nat} (h : DigitAt ds i k j) : k < ds.length := by
  obtain ⟨d, a, _⟩ := h
  exact (List.getElem?_eq_some_iff.1 a).1

theorem romanLoop_spec {v : Env} {t : List Int} (h : v.Ok t) {ds : List Sub} (h9 : ds.length = 9) (hd : ∀ d ∈ ds, Takes t.length d) :
    ∀ (fuel i : Nat) (p : List Nat) (s : RSt), i ≤ t.length → t.length - i < fuel → p.length + (t.length - i) < 2 ^ 40 → RInv p s →
    ∃ w j s', RomanAt t.length ds i w j ∧ j ≤ t.length ∧ RInv (p ++ w) s' ∧ romanLoop v ds fuel i s = some (j, s'.value) := by
  intro fuel
  induction fuel with
  | zero => intro i p s _ q; omega
  | succ fuel ih =>
    intro i p s hi hf hp hs
    have stop : ∃ w j s', RomanAt t.length ds i w j ∧ j ≤ t.length ∧ RInv (p ++ w) s' ∧ some (i, s.value) = some (j, s'.value) :=
      ⟨[], i, s, ⟨[], .nil i, rfl⟩, hi, by rw [List.append_nil]; exact hs, rfl⟩
    rw [romanLoop]
    have hi' := hi
    rw [h.text] at hi'
    rw [cond_eq h.valid hi', ← h.text]
    by_cases hlt : i < t.length
    · rw [List.getElem?_eq_getElem hlt]
      dsimp only
      cases hq : firstOf ds 0 i with
      | none => exact stop
      | some q =>
        obtain ⟨k, e⟩ := q
        have ⟨_, hk⟩ := firstOf_some hq
        have ⟨d, hm, hde⟩ := digitAt_mem hk
        have hk9 : k < 9 := by have := digitAt_lt hk; omega
        have ⟨g1, g2⟩ := hd d hm i hi e hde
        dsimp only
        cases hr : romanStep (romanVal k) s with
        | none => exact stop
        | some s1 =>
          have hinv := romanStep_inv (List.mem_of_getElem? (romanVal_get hk9)) hs (by omega) hr
          have ⟨w, j, s', ⟨ks, a1, a2⟩, a3, a4, a5⟩ := ih e (p ++ [romanVal k]) s1 g2 (by omega) (by rw [List.length_append, List.length_singleton]; omega) hinv
          refine ⟨romanVal k :: w, j, s', ⟨k :: ks, .cons hlt hk a1, by rw [List.map_cons, List.map_cons, a2, romanVal_get hk9]⟩, a3, ?_, a5⟩
          rw [List.append_assoc] at a4
          exact a4
    · rw [List.getElem?_eq_none (by omega)]
      exact stop

/-- **C74** What a Roman numeral parser matches are Roman digits, of which it gives the value: digits before greater ones are
subtracted, and that only if allowed. (Texts are shorter than 2⁴⁰.) -/
theorem roman_value {v : Env} {t : List Int} (h : v.Ok t) (hl : t.length < 2 ^ 40) {ds : List Sub} (h9 : ds.length = 9) (hd : ∀ d ∈ ds, Takes t.length d) {i : Nat} (hi : i ≤ t.length) :
    ∃ w j, RomanAt t.length ds i w j ∧ j ≤ t.length ∧ Proper w ∧
      ∃ val : Nat, (val : Int) = romanValue w ∧ roman v ds i = some (if w = [] then none else some (j, val)) := by
  have hlen : t.length ≤ v.s.length := by rw [h.text]; exact text_length_le _ _
  have ⟨w, j, s', a1, a2, a3, a4⟩ := romanLoop_spec h h9 hd (v.s.length + 2) i [] romanInit hi (by omega) (by simp only [List.length_nil]; omega) (.inl ⟨rfl, rfl⟩)
  refine ⟨w, j, a1, a2, ?_⟩
  rw [List.nil_append] at a3
  unfold roman
  rw [a4]
  dsimp only
  rcases a3 with ⟨q1, q2⟩ | ⟨p', l, q1, h1, h2, h3, h4, h5, h6, h7, h8⟩
  · subst q1 q2
    exact ⟨trivial, 0, rfl, rfl⟩
  · refine ⟨h8, s'.value, h7, ?_⟩
    rw [if_pos (by omega), if_neg (by rw [q1]; simp)]

/-! ### Canonical numerals -/

/-- All of the digits are taken. -/
def runDigits : List Nat → RSt → Option RSt
  | [], s => some s
  | d :: w, s => (romanStep d s).bind (runDigits w)

theorem runDigits_append (a b : List Nat) (s : RSt) : runDigits (a ++ b) s = (runDigits a s).bind (runDigits b) := by
  induction a generalizing s with
  | nil => rfl
  | cons d a ih =>
    rw [List.cons_append, runDigits, runDigits]
    cases romanStep d s with
    | none => rfl
    | some s1 => exact ih s1

theorem romanLoop_run {v : Env} {t : List Int} (h : v.Ok t) {ds : List Sub} {i j : Nat} {ks : List Nat} (hw : Written t.length ds i ks j) :
    ∀ (fuel : Nat) (s s' : RSt), (hd : ∀ d ∈ ds, Takes t.length d) → (hj : Stops t.length ds j) → i ≤ t.length → t.length - i < fuel → runDigits (ks.map romanVal) s = some s' →
      romanLoop v ds fuel i s = some (j, s'.value) := by
  induction hw with
  | nil i =>
    intro fuel s s' hd hj hi hf hr
    have hr : s = s' := Option.some.inj hr
    subst hr
    cases fuel with
    | zero => omega
    | succ fuel =>
      rw [romanLoop]
      have hi' := hi
      rw [h.text] at hi'
      rw [cond_eq h.valid hi', ← h.text]
      by_cases hlt : i < t.length
      · rw [List.getElem?_eq_getElem hlt]
        dsimp only
        cases hq : firstOf ds 0 i with
        | none => rfl
        | some q =>
          obtain ⟨k, e⟩ := q
          have ⟨_, hk⟩ := firstOf_some hq
          have ⟨d, hm, hde⟩ := digitAt_mem hk
          rw [hj hlt d hm] at hde
          cases hde
      · rw [List.getElem?_eq_none (by omega)]
  | cons hlt hk _ ih =>
    intro fuel s s' hd hj hi hf hr
    rename_i i k e _ _ _
    cases fuel with
    | zero => omega
    | succ fuel =>
      rw [romanLoop]
      have hi' := hi
      rw [h.text] at hi'
      rw [cond_eq h.valid hi', ← h.text, List.getElem?_eq_getElem hlt]
      dsimp only
      have ⟨d, hm, hde⟩ := digitAt_mem hk
      have ⟨g1, g2⟩ := hd d hm i hi e hde
      cases hq : firstOf ds 0 i with
      | none => rw [firstOf_none hq d hm] at hde; cases hde
      | some q =>
        obtain ⟨k', e'⟩ := q
        have ⟨_, hk'⟩ := firstOf_some hq
        have ⟨q1, q2⟩ := digitAt_unique hk hk'
        simp only [Nat.sub_zero] at q1
        subst q1 q2
        dsimp only
        rw [List.map_cons, runDigits] at hr
        cases hr1 : romanStep (romanVal k) s with
        | none => rw [hr1] at hr; cases hr
        | some s1 =>
          rw [hr1] at hr
          exact ih fuel s1 s' hd hj g2 (by omega) hr

/-- The last three digits are at least `m`. -/
def Least (m : Nat) (s : RSt) : Prop := m ≤ s.d1 ∧ m ≤ s.d2 ∧ m ≤ s.d3

theorem step_add {d : Nat} {s : RSt} (h : d ≤ s.d1) (h3 : ¬ (s.d3 = s.d2 ∧ s.d2 = s.d1 ∧ s.d1 = d)) :
    ∃ x, romanStep d s = some ⟨d, s.d1, s.d2, x, (s.value + d) % 2 ^ 64⟩ := by
  unfold romanStep
  dsimp only
  refine ⟨if s.d4 = 2 ^ 64 - 1 then d else s.d4, ?_⟩
  rw [if_neg (fun q => h3 ⟨q.1, q.2.1, q.2.2.1⟩), if_pos h]

theorem step_sub {d : Nat} {s : RSt} (h : subtracts s.d1 d) (h2 : d ≤ s.d2) (h3 : s.d1 ≤ s.value) (h4 : s.value < 2 ^ 63) :
    ∃ x, romanStep d s = some ⟨d - s.d1, s.d2, s.d3, x, s.value - s.d1 + (d - s.d1)⟩ := by
  have e : ((s.value + 2 ^ 64 - s.d1) % 2 ^ 64 + (d - s.d1)) % 2 ^ 64 = s.value - s.d1 + (d - s.d1) := by
    rw [show s.value + 2 ^ 64 - s.d1 = (s.value - s.d1) + 2 ^ 64 by omega, Nat.add_mod_right]
    unfold subtracts at h
    omega
  unfold romanStep
  dsimp only
  refine ⟨if s.d4 = 2 ^ 64 - 1 then d else s.d4, ?_⟩
  rw [if_neg (fun q => by unfold subtracts at h; omega), if_neg (by unfold subtracts at h; omega), if_pos h, if_neg (by omega), e]

theorem place_run {u x : Nat} (hu : u = 1 ∨ u = 10 ∨ u = 100 ∨ u = 1000) (hx : x < 10) {s : RSt} (h : Least (10 * u) s) (hv : s.value < 2 ^ 62) :
    ∃ s', runDigits (romanPlace u x) s = some s' ∧ Least u s' ∧ s'.value = s.value + u * x := by
  obtain ⟨l1, l2, l3⟩ := h
  have sub5 : subtracts u (5 * u) := by unfold subtracts; omega
  have sub10 : subtracts u (10 * u) := by unfold subtracts; omega
  have one : ∃ f, romanStep u s = some ⟨u, s.d1, s.d2, f, s.value + u⟩ := by
    have ⟨f, e⟩ := step_add (d := u) (s := s) (by omega) (by omega)
    exact ⟨f, by rw [e, Nat.mod_eq_of_lt (by omega)]⟩
  have five : ∃ f, romanStep (5 * u) s = some ⟨5 * u, s.d1, s.d2, f, s.value + 5 * u⟩ := by
    have ⟨f, e⟩ := step_add (d := 5 * u) (s := s) (by omega) (by omega)
    exact ⟨f, by rw [e, Nat.mod_eq_of_lt (by omega)]⟩
  have add : ∀ {s : RSt} (a : Nat), s.d1 = a * u → 1 ≤ a → ¬ (s.d3 = s.d2 ∧ s.d2 = s.d1 ∧ s.d1 = u) → s.value < 2 ^ 63 → ∃ f, romanStep u s = some ⟨u, s.d1, s.d2, f, s.value + u⟩ := by
    intro s a ha h1 h3 hv
    have hle : u ≤ s.d1 := by rw [ha]; exact Nat.le_mul_of_pos_left _ h1
    have ⟨f, e⟩ := step_add (d := u) (s := s) hle h3
    exact ⟨f, by rw [e, Nat.mod_eq_of_lt (by omega)]⟩
  match x, hx with
  | 0, _ => exact ⟨s, rfl, ⟨by omega, by omega, by omega⟩, by omega⟩
  | 1, _ =>
    have ⟨f, e⟩ := one
    exact ⟨_, by rw [romanPlace, runDigits, e]; rfl, ⟨Nat.le_refl _, by show u ≤ s.d1; omega, by show u ≤ s.d2; omega⟩, by show s.value + u = _; omega⟩
  | 2, _ =>
    have ⟨f, e⟩ := one
    have ⟨f2, e2⟩ := add (s := ⟨u, s.d1, s.d2, f, s.value + u⟩) 1 (Nat.one_mul u).symm (by omega) (by dsimp only; omega) (by dsimp only; omega)
    exact ⟨_, by rw [romanPlace, runDigits, e, Option.bind_some, runDigits, e2]; rfl, ⟨Nat.le_refl _, Nat.le_refl _, by show u ≤ s.d1; omega⟩, by show s.value + u + u = _; omega⟩
  | 3, _ =>
    have ⟨f, e⟩ := one
    have ⟨f2, e2⟩ := add (s := ⟨u, s.d1, s.d2, f, s.value + u⟩) 1 (Nat.one_mul u).symm (by omega) (by dsimp only; omega) (by dsimp only; omega)
    have ⟨f3, e3⟩ := add (s := ⟨u, u, s.d1, f2, s.value + u + u⟩) 1 (Nat.one_mul u).symm (by omega) (by dsimp only; omega) (by dsimp only; omega)
    exact ⟨_, by rw [romanPlace, runDigits, e, Option.bind_some, runDigits, e2, Option.bind_some, runDigits, e3]; rfl, ⟨Nat.le_refl _, Nat.le_refl _, Nat.le_refl _⟩, by show s.value + u + u + u = _; omega⟩
  | 4, _ =>
    have ⟨f, e⟩ := one
    have ⟨f2, e2⟩ := step_sub (d := 5 * u) (s := ⟨u, s.d1, s.d2, f, s.value + u⟩) sub5 (by dsimp only; omega) (by dsimp only; omega) (by dsimp only; omega)
    exact ⟨_, by rw [romanPlace, runDigits, e, Option.bind_some, runDigits, e2]; rfl, ⟨by show u ≤ 5 * u - u; omega, by show u ≤ s.d1; omega, by show u ≤ s.d2; omega⟩, by show s.value + u - u + (5 * u - u) = _; omega⟩
  | 5, _ =>
    have ⟨f, e⟩ := five
    exact ⟨_, by rw [romanPlace, runDigits, e]; rfl, ⟨by show u ≤ 5 * u; omega, by show u ≤ s.d1; omega, by show u ≤ s.d2; omega⟩, by show s.value + 5 * u = _; omega⟩
  | 6, _ =>
    have ⟨f, e⟩ := five
    have ⟨f2, e2⟩ := add (s := ⟨5 * u, s.d1, s.d2, f, s.value + 5 * u⟩) 5 rfl (by omega) (by dsimp only; omega) (by dsimp only; omega)
    exact ⟨_, by rw [romanPlace, runDigits, e, Option.bind_some, runDigits, e2]; rfl, ⟨Nat.le_refl _, by show u ≤ 5 * u; omega, by show u ≤ s.d1; omega⟩, by show s.value + 5 * u + u = _; omega⟩
  | 7, _ =>
    have ⟨f, e⟩ := five
    have ⟨f2, e2⟩ := add (s := ⟨5 * u, s.d1, s.d2, f, s.value + 5 * u⟩) 5 rfl (by omega) (by dsimp only; omega) (by dsimp only; omega)
    have ⟨f3, e3⟩ := add (s := ⟨u, 5 * u, s.d1, f2, s.value + 5 * u + u⟩) 1 (Nat.one_mul u).symm (by omega) (by dsimp only; omega) (by dsimp only; omega)
    exact ⟨_, by rw [romanPlace, runDigits, e, Option.bind_some, runDigits, e2, Option.bind_some, runDigits, e3]; rfl, ⟨Nat.le_refl _, Nat.le_refl _, by show u ≤ 5 * u; omega⟩, by show s.value + 5 * u + u + u = _; omega⟩
  | 8, _ =>
    have ⟨f, e⟩ := five
    have ⟨f2, e2⟩ := add (s := ⟨5 * u, s.d1, s.d2, f, s.value + 5 * u⟩) 5 rfl (by omega) (by dsimp only; omega) (by dsimp only; omega)
    have ⟨f3, e3⟩ := add (s := ⟨u, 5 * u, s.d1, f2, s.value + 5 * u + u⟩) 1 (Nat.one_mul u).symm (by omega) (by dsimp only; omega) (by dsimp only; omega)
    have ⟨f4, e4⟩ := add (s := ⟨u, u, 5 * u, f3, s.value + 5 * u + u + u⟩) 1 (Nat.one_mul u).symm (by omega) (by dsimp only; omega) (by dsimp only; omega)
    exact ⟨_, by rw [romanPlace, runDigits, e, Option.bind_some, runDigits, e2, Option.bind_some, runDigits, e3, Option.bind_some, runDigits, e4]; rfl, ⟨Nat.le_refl _, Nat.le_refl _, Nat.le_refl _⟩, by show s.value + 5 * u + u + u + u = _; omega⟩
  | 9, _ =>
    have ⟨f, e⟩ := one
    have ⟨f2, e2⟩ := step_sub (d := 10 * u) (s := ⟨u, s.d1, s.d2, f, s.value + u⟩) sub10 (by dsimp only; omega) (by dsimp only; omega) (by dsimp only; omega)
    exact ⟨_, by rw [show romanPlace u 9 = [u, 10 * u] from rfl, runDigits, e, Option.bind_some, runDigits, e2]; rfl, ⟨by show u ≤ 10 * u - u; omega, by show u ≤ s.d1; omega, by show u ≤ s.d2; omega⟩, by show s.value + u - u + (10 * u - u) = _; omega⟩

/-- A leading digit may be repeated any number of times. -/
theorem lead_run {u : Nat} (h1 : 1 ≤ u) (hu : u ≤ 10000) : ∀ (k : Nat) (s : RSt), Least u s → (s.d4 = u ∨ s.d4 = 2 ^ 64 - 1) → s.value + u * k < 2 ^ 62 →
    ∃ s', runDigits (List.replicate k u) s = some s' ∧ Least u s' ∧ s'.value = s.value + u * k := by
  intro k
  induction k with
  | zero => intro s h _ _; exact ⟨s, rfl, h, by omega⟩
  | succ k ih =>
    intro s h h4 hv
    obtain ⟨l1, l2, l3⟩ := h
    rw [Nat.mul_succ] at hv
    have e : romanStep u s = some ⟨u, s.d1, s.d2, u, s.value + u⟩ := by
      unfold romanStep
      have : (if s.d4 = 2 ^ 64 - 1 then u else s.d4) = u := by
        split
        · rfl
        · rename_i c; exact h4.resolve_right c
      dsimp only
      rw [this, if_neg (by simp), if_pos l1, Nat.mod_eq_of_lt (by omega)]
    have ⟨s', a, b, c⟩ := ih ⟨u, s.d1, s.d2, u, s.value + u⟩ ⟨Nat.le_refl _, l1, l2⟩ (.inl rfl) (by dsimp only; omega)
    refine ⟨s', by rw [List.replicate_succ, runDigits, e]; exact a, b, ?_⟩
    rw [c, Nat.mul_succ]
    dsimp only
    omega

/-- The numeral of `1000 k + 100 h + 10 t + o`, the digit for 1000 repeated as needed. -/
def numeral (k h t o : Nat) : List Nat := List.replicate k 1000 ++ romanPlace 100 h ++ romanPlace 10 t ++ romanPlace 1 o

/-- The numeral of `10000 k + 1000 m + 100 h + 10 t + o`, the digit for 10000 repeated as needed. -/
def numeral' (k m h t o : Nat) : List Nat := List.replicate k 10000 ++ romanPlace 1000 m ++ romanPlace 100 h ++ romanPlace 10 t ++ romanPlace 1 o

theorem least_mono {a b : Nat} (h : b ≤ a) {s : RSt} (hs : Least a s) : Least b s := ⟨Nat.le_trans h hs.1, Nat.le_trans h hs.2.1, Nat.le_trans h hs.2.2⟩

theorem numeral_run {k h t o : Nat} (hh : h < 10) (ht : t < 10) (ho : o < 10) (hk : k < 2 ^ 40) :
    ∃ s', runDigits (numeral k h t o) romanInit = some s' ∧ s'.value = 1000 * k + 100 * h + 10 * t + o := by
  have ⟨s1, a1, b1, c1⟩ := lead_run (u := 1000) (by omega) (by omega) k romanInit ⟨by decide, by decide, by decide⟩ (.inr rfl) (by show 0 + _ < _; omega)
  have c1 : s1.value = 0 + 1000 * k := c1
  have ⟨s2, a2, b2, c2⟩ := place_run (u := 100) (.inr (.inr (.inl rfl))) hh b1 (by omega)
  have ⟨s3, a3, b3, c3⟩ := place_run (u := 10) (.inr (.inl rfl)) ht b2 (by omega)
  have ⟨s4, a4, b4, c4⟩ := place_run (u := 1) (.inl rfl) ho b3 (by omega)
  refine ⟨s4, ?_, by omega⟩
  unfold numeral
  rw [runDigits_append, runDigits_append, runDigits_append, a1, Option.bind_some, a2, Option.bind_some, a3, Option.bind_some, a4]

theorem numeral'_run {k m h t o : Nat} (hm : m < 10) (hh : h < 10) (ht : t < 10) (ho : o < 10) (hk : k < 2 ^ 40) :
    ∃ s', runDigits (numeral' k m h t o) romanInit = some s' ∧ s'.value = 10000 * k + 1000 * m + 100 * h + 10 * t + o := by
  have ⟨s1, a1, b1, c1⟩ := lead_run (u := 10000) (by omega) (by omega) k romanInit ⟨by decide, by decide, by decide⟩ (.inr rfl) (by show 0 + _ < _; omega)
  have c1 : s1.value = 0 + 10000 * k := c1
  have ⟨s0, a0, b0, c0⟩ := place_run (u := 1000) (.inr (.inr (.inr rfl))) hm b1 (by omega)
  have ⟨s2, a2, b2, c2⟩ := place_run (u := 100) (.inr (.inr (.inl rfl))) hh b0 (by omega)
  have ⟨s3, a3, b3, c3⟩ := place_run (u := 10) (.inr (.inl rfl)) ht b2 (by omega)
  have ⟨s4, a4, b4, c4⟩ := place_run (u := 1) (.inl rfl) ho b3 (by omega)
  refine ⟨s4, ?_, by omega⟩
  unfold numeral'
  rw [runDigits_append, runDigits_append, runDigits_append, runDigits_append, a1, Option.bind_some, a0, Option.bind_some, a2, Option.bind_some, a3, Option.bind_some, a4]

theorem map_vals {ks w : List Nat} (h : ks.map (fun k => romanDigits[k]?) = w.map some) : ks.map romanVal = w := by
  induction ks generalizing w with
  | nil => cases w with | nil => rfl | cons => cases h
  | cons k ks ih =>
    cases w with
    | nil => cases h
    | cons d w =>
      simp only [List.map_cons, List.cons.injEq] at h ⊢
      have hk := (List.getElem?_eq_some_iff.1 h.1).1
      rw [romanVal_get hk] at h
      exact ⟨Option.some.inj h.1, ih h.2⟩

theorem roman_run {v : Env} {t : List Int} (h : v.Ok t) {ds : List Sub} (hd : ∀ d ∈ ds, Takes t.length d) {i j val : Nat} {w : List Nat} (hi : i ≤ t.length)
    (hw : RomanAt t.length ds i w j) (hj : Stops t.length ds j) (hr : ∃ s', runDigits w romanInit = some s' ∧ s'.value = val) (hv : val ≠ 0) :
    roman v ds i = some (some (j, val)) := by
  have hlen : t.length ≤ v.s.length := by rw [h.text]; exact text_length_le _ _
  obtain ⟨ks, a, b⟩ := hw
  obtain ⟨s', e1, e2⟩ := hr
  have := romanLoop_run h a (v.s.length + 2) romanInit s' hd hj hi (by omega) (by rw [map_vals b]; exact e1)
  unfold roman
  rw [this]
  dsimp only
  rw [e2, if_pos hv]

/-- **C74** Every canonical Roman numeral is matched as a whole and gives its number. The digit for 1000 is the greatest here. -/
theorem roman_canonical {v : Env} {t : List Int} (h : v.Ok t) {ds : List Sub} (hd : ∀ d ∈ ds, Takes t.length d) {i j k a b c : Nat} (hi : i ≤ t.length)
    (ha : a < 10) (hb : b < 10) (hc : c < 10) (hk : k < 2 ^ 40) (hn : 1000 * k + 100 * a + 10 * b + c ≠ 0)
    (hw : RomanAt t.length ds i (numeral k a b c) j) (hj : Stops t.length ds j) : roman v ds i = some (some (j, 1000 * k + 100 * a + 10 * b + c)) :=
  roman_run h hd hi hw hj (numeral_run ha hb hc hk) hn

/-- **C74** And here it is the digit for 10000. -/
theorem roman_canonical' {v : Env} {t : List Int} (h : v.Ok t) {ds : List Sub} (hd : ∀ d ∈ ds, Takes t.length d) {i j k m a b c : Nat} (hi : i ≤ t.length)
    (hm : m < 10) (ha : a < 10) (hb : b < 10) (hc : c < 10) (hk : k < 2 ^ 40) (hn : 10000 * k + 1000 * m + 100 * a + 10 * b + c ≠ 0)
    (hw : RomanAt t.length ds i (numeral' k m a b c) j) (hj : Stops t.length ds j) : roman v ds i = some (some (j, 10000 * k + 1000 * m + 100 * a + 10 * b + c)) :=
  roman_run h hd hi hw hj (numeral'_run hm ha hb hc hk) hn

/-! ### Examples -/

/-- `IVXLCDM` and two more letters. -/
def romanAscii (t : List Int) : List Sub := [73, 86, 88, 76, 67, 68, 77, 65, 66].map (charSub t)

theorem romanAscii_takes (t : List Int) : (romanAscii t).length = 9 ∧ ∀ d ∈ romanAscii t, Takes t.length d := by
  refine ⟨rfl, fun d hd => ?_⟩
  unfold romanAscii at hd
  have ⟨c, _, e⟩ := List.mem_map.1 hd
  subst e
  exact charSub_takes t c

def romanEnv (t : List Int) : Env := ⟨t ++ [0], none, false, false, id, isspace, ispunct⟩

/-- `MCMXC` is 1990, `IVI` is 5, and of `XIIII` only `XIII` is taken. -/
example : (roman (romanEnv [77, 67, 77, 88, 67]) (romanAscii [77, 67, 77, 88, 67]) 0 = some (some (5, 1990))) ∧
    (roman (romanEnv [73, 86, 73]) (romanAscii [73, 86, 73]) 0 = some (some (3, 5))) ∧
    (roman (romanEnv [88, 73, 73, 73, 73]) (romanAscii [88, 73, 73, 73, 73]) 0 = some (some (4, 13))) := by decide

/-- The hypotheses of `roman_canonical` for `MCMXC`. -/
example : numeral 1 9 9 0 = [1000, 100, 1000, 10, 100] ∧ RomanAt 5 (romanAscii [77, 67, 77, 88, 67]) 0 (numeral 1 9 9 0) 5 ∧ Stops 5 (romanAscii [77, 67, 77, 88, 67]) 5 := by
  have at_ : ∀ i k : Nat, i < 5 → k < 9 → firstOf (romanAscii [77, 67, 77, 88, 67]) 0 i = some (k, i + 1) → DigitAt (romanAscii [77, 67, 77, 88, 67]) i k (i + 1) :=
    fun i k _ _ h => (firstOf_some h).2
  exact ⟨by decide, ⟨[6, 4, 6, 2, 4], .cons (by omega) (at_ 0 6 (by omega) (by omega) (by decide)) (.cons (by omega) (at_ 1 4 (by omega) (by omega) (by decide))
    (.cons (by omega) (at_ 2 6 (by omega) (by omega) (by decide)) (.cons (by omega) (at_ 3 2 (by omega) (by omega) (by decide)) (.cons (by omega) (at_ 4 4 (by omega) (by omega) (by decide)) (.nil 5))))), by decide⟩,
    fun q => absurd q (by omega)⟩

end Verif.Parser
