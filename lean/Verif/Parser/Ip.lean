import Verif.Parser.Number
/-
Parsers of IPv4 and IPv6 addresses (include/stdex/parser.hpp 2342-2466, 2554-2740). The elements are the functions they compute, as in
Parser/Number. The machine is little-endian, where `HE2BE(x)` (endian.hpp 140) is the call `byteswap(x)` of an argument passed by
value (endian.hpp 52-78): it has no effect on `x`.
-/
namespace Verif.Parser
open Verif.Str

/-- The loops 2413-2436 (`b = 10`, `mx = 255`) and 2643, 2672-2700 (`b = 16`, `mx = 0xffff`): `interval.end`, `x` and `is_empty`. -/
def boundLoop (v : Env) (b mx : Nat) (ds : List Sub) : Nat → Nat → Nat → Bool → Option (Nat × Nat × Bool)
  | 0, _, _, _ => none
  | fuel + 1, e, x, empty =>
    match Str.cond v.s v.fin e with
    | none => none
    | some none => some (e, x, empty)
    | some (some _) =>
      match firstOf ds 0 e with
      | none => some (e, x, empty)
      | some (dig, e') => if x * b + dig ≤ mx then boundLoop v b mx ds fuel e' (x * b + dig) false else some (e, x, empty)

/-- `components`, `value.s_addr` as an integer of the machine, and `interval`. -/
structure V4 where
  comps : List (Nat × Nat)
  value : Nat
  interval : Option (Nat × Nat)
deriving DecidableEq

/-- `invalidate` 2375-2387. -/
def v4Invalid : V4 := ⟨[(1, 0), (1, 0), (1, 0), (1, 0)], 0, none⟩

/-- The loop 2404-2441: `k` rounds are left; `first` is `!i`. `none` is `goto error`. -/
def v4Loop (v : Env) (ds : List Sub) (sep : Sub) : Nat → Bool → Nat → List (Nat × Nat) → Nat → Option (Option (Nat × List (Nat × Nat) × Nat))
  | 0, _, e, comps, value => some (some (e, comps, value))
  | k + 1, first, e, comps, value =>
    match (if first then some e else sep e) with
    | none => some none
    | some e0 =>
      match boundLoop v 10 255 ds (v.s.length + 2) e0 0 true with
      | none => none
      | some (e1, x, empty) =>
        if empty then some none
        else v4Loop v ds sep k false e1 (comps ++ [(e0, e1)]) ((value * 2 ^ 8) % 2 ^ 32 ||| x % 2 ^ 8)

/-- `basic_ipv4_address::do_match` 2399-2451; `none` is a read outside of the text. -/
def ipv4 (v : Env) (ds : List Sub) (sep : Sub) (i : Nat) : Option (Bool × V4) :=
  match v4Loop v ds sep 4 true i [] 0 with
  | none => none
  | some none => some (false, v4Invalid)
  | some (some (e, comps, value)) => some (true, ⟨comps, value, some (i, e)⟩)

/-! ### Specification -/

/-- A number of at most `mx` in base `b`, as many of its digits as there are and fit, is written from `i` to `j`. -/
def BoundedAt (n : Nat) (ds : List Sub) (b mx i x j : Nat) : Prop :=
  ∃ w, w ≠ [] ∧ Written n ds i w j ∧ positional b w = x ∧ x ≤ mx ∧ ∀ d e, j < n → DigitAt ds j d e → mx < x * b + d

/-- The four numbers of an IPv4 address from `i` to `e3`, with separators. -/
structure V4At (n : Nat) (ds : List Sub) (sep : Sub) (i x0 e0 s1 x1 e1 s2 x2 e2 s3 x3 e3 : Nat) : Prop where
  a0 : BoundedAt n ds 10 255 i x0 e0
  b1 : sep e0 = some s1
  a1 : BoundedAt n ds 10 255 s1 x1 e1
  b2 : sep e1 = some s2
  a2 : BoundedAt n ds 10 255 s2 x2 e2
  b3 : sep e2 = some s3
  a3 : BoundedAt n ds 10 255 s3 x3 e3

/-! ### Proofs -/

theorem written_snoc {n : Nat} {ds : List Sub} {i j k e : Nat} {w : List Nat} (h : Written n ds i w j) (hj : j < n) (hd : DigitAt ds j k e) : Written n ds i (w ++ [k]) e := by
  induction h with
  | nil i => exact .cons hj hd (.nil e)
  | cons a b _ ih => exact .cons a b (ih hj hd)

theorem written_le {n : Nat} {ds : List Sub} (hd : ∀ d ∈ ds, Takes n d) {i j : Nat} {w : List Nat} (h : Written n ds i w j) (hi : i ≤ n) : j ≤ n ∧ i + w.length ≤ j := by
  induction h with
  | nil i => exact ⟨hi, by simp⟩
  | cons a b _ ih =>
    have ⟨d, m, e⟩ := digitAt_mem b
    have ⟨g1, g2⟩ := hd d m _ hi _ e
    have ⟨q1, q2⟩ := ih g2
    exact ⟨q1, by rw [List.length_cons]; omega⟩

theorem boundLoop_spec {v : Env} {t : List Int} (h : v.Ok t) {b mx : Nat} {ds : List Sub} (hd : ∀ d ∈ ds, Takes t.length d) :
    ∀ (fuel i : Nat) (w : List Nat) (i0 : Nat), i ≤ t.length → t.length - i < fuel → Written t.length ds i0 w i → positional b w ≤ mx →
      ∃ w' j, Written t.length ds i0 (w ++ w') j ∧ j ≤ t.length ∧ i ≤ j ∧ positional b (w ++ w') ≤ mx ∧ (∀ d e, j < t.length → DigitAt ds j d e → mx < positional b (w ++ w') * b + d) ∧
        boundLoop v b mx ds fuel i (positional b w) w.isEmpty = some (j, positional b (w ++ w'), (w ++ w').isEmpty) := by
  intro fuel
  induction fuel with
  | zero => intro i _ _ _ q; omega
  | succ fuel ih =>
    intro i w i0 hi hf hw hx
    have stop : (∀ d e, i < t.length → DigitAt ds i d e → mx < positional b w * b + d) → ∃ w' j, Written t.length ds i0 (w ++ w') j ∧ j ≤ t.length ∧ i ≤ j ∧ positional b (w ++ w') ≤ mx ∧
        (∀ d e, j < t.length → DigitAt ds j d e → mx < positional b (w ++ w') * b + d) ∧ some (i, positional b w, w.isEmpty) = some (j, positional b (w ++ w'), (w ++ w').isEmpty) :=
      fun q => ⟨[], i, by rw [List.append_nil]; exact hw, hi, Nat.le_refl _, by rw [List.append_nil]; exact hx, by rw [List.append_nil]; exact q, by rw [List.append_nil]⟩
    rw [boundLoop]
    have hi' := hi
    rw [h.text] at hi'
    rw [cond_eq h.valid hi', ← h.text]
    by_cases hlt : i < t.length
    · rw [List.getElem?_eq_getElem hlt]
      dsimp only
      cases hq : firstOf ds 0 i with
      | none =>
        refine stop fun d e _ hde => ?_
        have ⟨x, m, q⟩ := digitAt_mem hde
        rw [firstOf_none hq x m] at q
        cases q
      | some p =>
        obtain ⟨k, e⟩ := p
        have ⟨_, hk⟩ := firstOf_some hq
        rw [Nat.sub_zero] at hk
        have ⟨d, hm, hde⟩ := digitAt_mem hk
        have ⟨g1, g2⟩ := hd d hm i hi e hde
        dsimp only
        by_cases c : positional b w * b + k ≤ mx
        · rw [if_pos c]
          have ⟨w', j, a1, a2, a3, a4, a5, a6⟩ := ih e (w ++ [k]) i0 g2 (by omega) (written_snoc hw hlt hk) (by rw [positional_snoc]; exact c)
          rw [List.append_assoc] at a1 a4 a5 a6
          refine ⟨[k] ++ w', j, a1, a2, by omega, a4, a5, ?_⟩
          rw [← a6, positional_snoc, show (w ++ [k]).isEmpty = false by cases w <;> rfl]
        · rw [if_neg c]
          refine stop fun d' e' _ hde' => ?_
          have ⟨q, _⟩ := digitAt_unique hk hde'
          subst q
          omega
    · rw [List.getElem?_eq_none (by omega)]
      exact stop fun _ _ q => absurd q hlt

/-- A bounded number is read, or there is no digit that fits. -/
theorem bound_spec {v : Env} {t : List Int} (h : v.Ok t) {b mx : Nat} (hb : 0 < b) {ds : List Sub} (hd : ∀ d ∈ ds, Takes t.length d) {i : Nat} (hi : i ≤ t.length) :
    (∃ x j, BoundedAt t.length ds b mx i x j ∧ i < j ∧ j ≤ t.length ∧ boundLoop v b mx ds (v.s.length + 2) i 0 true = some (j, x, false)) ∨
    ((∀ x j, ¬ BoundedAt t.length ds b mx i x j) ∧ boundLoop v b mx ds (v.s.length + 2) i 0 true = some (i, 0, true)) := by
  have hlen : t.length ≤ v.s.length := by rw [h.text]; exact text_length_le _ _
  have ⟨w, j, a1, a2, a3, a4, a5, a6⟩ := boundLoop_spec h (b := b) (mx := mx) hd (v.s.length + 2) i [] i hi (by omega) (.nil i) (Nat.zero_le _)
  rw [List.nil_append] at a1 a4 a5 a6
  cases w with
  | nil =>
    cases a1
    right
    refine ⟨fun x j ⟨w, b1, b2, b3, b4, b5⟩ => ?_, a6⟩
    cases b2 with
    | nil => exact b1 rfl
    | cons c1 c2 c3 =>
      rename_i k i' w
      have := a5 k i' c1 c2
      simp only [positional] at this b3
      have := Nat.le_mul_of_pos_right k (Nat.pow_pos (n := w.length) hb)
      omega
  | cons k w =>
    left
    have := written_le hd a1 hi
    rw [List.length_cons] at this
    exact ⟨positional b (k :: w), j, ⟨k :: w, by simp, a1, rfl, a4, a5⟩, by omega, a2, a6⟩
theorem positional_append (b : Nat) (w w' : List Nat) : positional b (w ++ w') = positional b w * b ^ w'.length + positional b w' := by
  have := positional_foldl b (w ++ w') 0
  rw [List.foldl_append, positional_foldl, positional_foldl] at this
  simpa using this.symm

/-- Of two runs of digits from the same position one continues the other. -/
theorem written_prefix {n : Nat} {ds : List Sub} {i j : Nat} {w : List Nat} (h : Written n ds i w j) : ∀ {w' : List Nat} {j' : Nat}, Written n ds i w' j' →
    (∃ r, w' = w ++ r ∧ Written n ds j r j') ∨ (∃ r, w = w' ++ r ∧ Written n ds j' r j) := by
  induction h with
  | nil i => intro w' j' h'; exact .inl ⟨w', rfl, h'⟩
  | cons a b c ih =>
    intro w' j' h'
    cases h' with
    | nil => exact .inr ⟨_, rfl, .cons a b c⟩
    | cons a' b' c' =>
      have ⟨q1, q2⟩ := digitAt_unique b b'
      subst q1 q2
      rcases ih c' with ⟨r, e, hr⟩ | ⟨r, e, hr⟩
      · exact .inl ⟨r, by rw [e]; rfl, hr⟩
      · exact .inr ⟨r, by rw [e]; rfl, hr⟩

theorem bounded_unique {n : Nat} {ds : List Sub} {b mx i x j x' j' : Nat} (hb : 0 < b) (h : BoundedAt n ds b mx i x j) (h' : BoundedAt n ds b mx i x' j') : x = x' ∧ j = j' := by
  have key : ∀ {w r : List Nat} {j j' : Nat}, Written n ds j r j' → positional b (w ++ r) ≤ mx → (∀ d e, j < n → DigitAt ds j d e → mx < positional b w * b + d) → r = [] ∧ j = j' := by
    intro w r j j' hr hx hs
    cases hr with
    | nil => exact ⟨rfl, rfl⟩
    | cons a c d =>
      rename_i k e r
      exfalso
      have := hs k e a c
      rw [show w ++ k :: r = (w ++ [k]) ++ r by simp, positional_append, positional_snoc] at hx
      have := Nat.le_mul_of_pos_right (positional b w * b + k) (Nat.pow_pos (n := r.length) hb)
      omega
  obtain ⟨w, a1, a2, a3, a4, a5⟩ := h
  obtain ⟨w', b1, b2, b3, b4, b5⟩ := h'
  subst a3 b3
  rcases written_prefix a2 b2 with ⟨r, e, hr⟩ | ⟨r, e, hr⟩
  · subst e
    have ⟨q1, q2⟩ := key hr b4 a5
    subst q1
    exact ⟨by rw [List.append_nil], q2⟩
  · subst e
    have ⟨q1, q2⟩ := key hr a4 b5
    subst q1
    exact ⟨by rw [List.append_nil], q2.symm⟩

theorem or_add {a x : Nat} (h : x < 2 ^ 8) : (a * 2 ^ 8) ||| x = a * 2 ^ 8 + x := by
  rw [Nat.mul_comm, ← Nat.two_pow_add_eq_or_of_lt h]

/-- **C76** An IPv4 address parser matches just when four numbers up to 255 with separators follow; `components` are their intervals and `value`, as an integer, has the first
of them as the most significant byte. Otherwise everything is invalid. -/
theorem ipv4_spec {v : Env} {t : List Int} (h : v.Ok t) {ds : List Sub} (hd : ∀ d ∈ ds, Takes t.length d) {sep : Sub} (hs : ∀ i ≤ t.length, ∀ j, sep i = some j → j ≤ t.length) {i : Nat} (hi : i ≤ t.length) :
    (∀ x0 e0 s1 x1 e1 s2 x2 e2 s3 x3 e3, V4At t.length ds sep i x0 e0 s1 x1 e1 s2 x2 e2 s3 x3 e3 →
      ipv4 v ds sep i = some (true, ⟨[(i, e0), (s1, e1), (s2, e2), (s3, e3)], x0 * 2 ^ 24 + x1 * 2 ^ 16 + x2 * 2 ^ 8 + x3, some (i, e3)⟩)) ∧
    ((∀ x0 e0 s1 x1 e1 s2 x2 e2 s3 x3 e3, ¬ V4At t.length ds sep i x0 e0 s1 x1 e1 s2 x2 e2 s3 x3 e3) → ipv4 v ds sep i = some (false, ⟨[(1, 0), (1, 0), (1, 0), (1, 0)], 0, none⟩)) := by
  unfold ipv4
  simp only [v4Loop, if_true, Bool.false_eq_true, if_false, List.nil_append, List.cons_append]
  rcases bound_spec h (b := 10) (mx := 255) (by omega) hd hi with ⟨y0, f0, p0, _, g0, q0⟩ | ⟨p0, q0⟩
  · rw [q0]
    dsimp only
    cases r1 : sep f0 with
    | none =>
      dsimp only
      refine ⟨fun x0 e0 s1 x1 e1 s2 x2 e2 s3 x3 e3 H => ?_, fun _ => rfl⟩
      have ⟨_, z⟩ := bounded_unique (by omega) p0 H.a0
      subst z
      have := H.b1
      rw [r1] at this
      cases this
    | some u1 =>
      dsimp only
      rcases bound_spec h (b := 10) (mx := 255) (by omega) hd (hs _ g0 _ r1) with ⟨y1, f1, p1, _, g1, q1⟩ | ⟨p1, q1⟩
      · rw [q1]
        dsimp only
        cases r2 : sep f1 with
        | none =>
          dsimp only
          refine ⟨fun x0 e0 s1 x1 e1 s2 x2 e2 s3 x3 e3 H => ?_, fun _ => rfl⟩
          have ⟨_, z⟩ := bounded_unique (by omega) p0 H.a0
          subst z
          have z := H.b1
          rw [r1] at z
          cases z
          have ⟨_, z⟩ := bounded_unique (by omega) p1 H.a1
          subst z
          have := H.b2
          rw [r2] at this
          cases this
        | some u2 =>
          dsimp only
          rcases bound_spec h (b := 10) (mx := 255) (by omega) hd (hs _ g1 _ r2) with ⟨y2, f2, p2, _, g2, q2⟩ | ⟨p2, q2⟩
          · rw [q2]
            dsimp only
            cases r3 : sep f2 with
            | none =>
              dsimp only
              refine ⟨fun x0 e0 s1 x1 e1 s2 x2 e2 s3 x3 e3 H => ?_, fun _ => rfl⟩
              have ⟨_, z⟩ := bounded_unique (by omega) p0 H.a0
              subst z
              have z := H.b1
              rw [r1] at z
              cases z
              have ⟨_, z⟩ := bounded_unique (by omega) p1 H.a1
              subst z
              have z := H.b2
              rw [r2] at z
              cases z
              have ⟨_, z⟩ := bounded_unique (by omega) p2 H.a2
              subst z
              have := H.b3
              rw [r3] at this
              cases this
            | some u3 =>
              dsimp only
              rcases bound_spec h (b := 10) (mx := 255) (by omega) hd (hs _ g2 _ r3) with ⟨y3, f3, p3, _, g3, q3⟩ | ⟨p3, q3⟩
              · rw [q3]
                dsimp only
                refine ⟨fun x0 e0 s1 x1 e1 s2 x2 e2 s3 x3 e3 H => ?_, fun q => absurd ⟨p0, r1, p1, r2, p2, r3, p3⟩ (q y0 f0 u1 y1 f1 u2 y2 f2 u3 y3 f3)⟩
                have ⟨z0, z⟩ := bounded_unique (by omega) p0 H.a0
                subst z z0
                have z := H.b1
                rw [r1] at z
                cases z
                have ⟨z0, z⟩ := bounded_unique (by omega) p1 H.a1
                subst z z0
                have z := H.b2
                rw [r2] at z
                cases z
                have ⟨z0, z⟩ := bounded_unique (by omega) p2 H.a2
                subst z z0
                have z := H.b3
                rw [r3] at z
                cases z
                have ⟨z0, z⟩ := bounded_unique (by omega) p3 H.a3
                subst z z0
                have l0 : y0 < 256 := by obtain ⟨_, _, _, _, q, _⟩ := p0; omega
                have l1 : y1 < 256 := by obtain ⟨_, _, _, _, q, _⟩ := p1; omega
                have l2 : y2 < 256 := by obtain ⟨_, _, _, _, q, _⟩ := p2; omega
                have l3 : y3 < 256 := by obtain ⟨_, _, _, _, q, _⟩ := p3; omega
                have val : (((((((0 * 2 ^ 8) % 2 ^ 32 ||| y0 % 2 ^ 8) * 2 ^ 8) % 2 ^ 32 ||| y1 % 2 ^ 8) * 2 ^ 8) % 2 ^ 32 ||| y2 % 2 ^ 8) * 2 ^ 8) % 2 ^ 32 ||| y3 % 2 ^ 8 =
                    y0 * 2 ^ 24 + y1 * 2 ^ 16 + y2 * 2 ^ 8 + y3 := by
                  rw [Nat.mod_eq_of_lt (a := y0) (by omega), Nat.mod_eq_of_lt (a := y1) (by omega), Nat.mod_eq_of_lt (a := y2) (by omega), Nat.mod_eq_of_lt (a := y3) (by omega)]
                  rw [show (0 * 2 ^ 8) % 2 ^ 32 ||| y0 = y0 by simp, Nat.mod_eq_of_lt (a := y0 * 2 ^ 8) (by omega), or_add l1]
                  rw [Nat.mod_eq_of_lt (a := (y0 * 2 ^ 8 + y1) * 2 ^ 8) (by omega), or_add l2]
                  rw [Nat.mod_eq_of_lt (a := ((y0 * 2 ^ 8 + y1) * 2 ^ 8 + y2) * 2 ^ 8) (by omega), or_add l3]
                  omega
                rw [val]
                rfl
              · rw [q3]
                dsimp only
                refine ⟨fun x0 e0 s1 x1 e1 s2 x2 e2 s3 x3 e3 H => ?_, fun _ => rfl⟩
                have ⟨_, z⟩ := bounded_unique (by omega) p0 H.a0
                subst z
                have z := H.b1
                rw [r1] at z
                cases z
                have ⟨_, z⟩ := bounded_unique (by omega) p1 H.a1
                subst z
                have z := H.b2
                rw [r2] at z
                cases z
                have ⟨_, z⟩ := bounded_unique (by omega) p2 H.a2
                subst z
                have z := H.b3
                rw [r3] at z
                cases z
                exact absurd H.a3 (p3 _ _)
          · rw [q2]
            dsimp only
            refine ⟨fun x0 e0 s1 x1 e1 s2 x2 e2 s3 x3 e3 H => ?_, fun _ => rfl⟩
            have ⟨_, z⟩ := bounded_unique (by omega) p0 H.a0
            subst z
            have z := H.b1
            rw [r1] at z
            cases z
            have ⟨_, z⟩ := bounded_unique (by omega) p1 H.a1
            subst z
            have z := H.b2
            rw [r2] at z
            cases z
            exact absurd H.a2 (p2 _ _)
      · rw [q1]
        dsimp only
        refine ⟨fun x0 e0 s1 x1 e1 s2 x2 e2 s3 x3 e3 H => ?_, fun _ => rfl⟩
        have ⟨_, z⟩ := bounded_unique (by omega) p0 H.a0
        subst z
        have z := H.b1
        rw [r1] at z
        cases z
        exact absurd H.a1 (p1 _ _)
  · rw [q0]
    dsimp only
    exact ⟨fun x0 e0 s1 x1 e1 s2 x2 e2 s3 x3 e3 H => absurd H.a0 (p0 _ _), fun _ => rfl⟩

/-! ### Dotted decimal text, and byte order -/

/-- `a.b.c.d` -/
def dotted (a b c d : Nat) : List Int := decText a ++ 46 :: (decText b ++ 46 :: (decText c ++ 46 :: decText d))

theorem bounded_dec {t : List Int} {i a : Nat} {rest : List Int} (hd : t.drop i = decText a ++ rest) (h2 : ∀ c, rest.head? = some c → isDec c = false) (ha : a ≤ 255) :
    BoundedAt t.length (ascii10 t) 10 255 i a (i + (decText a).length) ∧ t.drop (i + (decText a).length) = rest := by
  have ⟨ne, dec, val⟩ := decText_spec a
  have ⟨w, st⟩ := written_ascii (t := t) _ i rfl
  rw [hd, takeWhile_run dec h2] at w st
  refine ⟨⟨_, by simpa using ne, w, val, ha, ?_⟩, by rw [← List.drop_drop, hd]; simp⟩
  intro d e hj hde
  have ⟨x, m, q⟩ := digitAt_mem hde
  rw [st hj x m] at q
  cases q

theorem charSub_at {t : List Int} {i : Nat} {c : Int} {rest : List Int} (hd : t.drop i = c :: rest) : charSub t c i = some (i + 1) ∧ t.drop (i + 1) = rest := by
  have hc : t[i]? = some c := by
    have := congrArg (fun l : List Int => l[0]?) hd
    simpa using this
  have hr : t.drop (i + 1) = rest := by
    have := congrArg List.tail hd
    simpa using this
  exact ⟨by unfold charSub; rw [if_pos hc], hr⟩

/-- **C76** The text of every address is matched as a whole. -/
theorem ipv4_dotted {v : Env} {a b c d : Nat} {t : List Int} (ht : t = dotted a b c d) (h : v.Ok t) (ha : a ≤ 255) (hb : b ≤ 255) (hc : c ≤ 255) (hd : d ≤ 255) :
    ∃ comps, ipv4 v (ascii10 t) (charSub t 46) 0 = some (true, ⟨comps, a * 2 ^ 24 + b * 2 ^ 16 + c * 2 ^ 8 + d, some (0, t.length)⟩) := by
  have dot : ∀ (r : List Int) (x : Int), ((46 : Int) :: r).head? = some x → isDec x = false := fun r x q => by cases q; rfl
  have ⟨p0, q0⟩ := bounded_dec (t := t) (i := 0) (a := a) (rest := 46 :: (decText b ++ 46 :: (decText c ++ 46 :: decText d))) (by rw [List.drop_zero, ht]; rfl) (dot _) ha
  have ⟨s1, r1⟩ := charSub_at q0
  have ⟨p1, q1⟩ := bounded_dec r1 (dot _) hb
  have ⟨s2, r2⟩ := charSub_at q1
  have ⟨p2, q2⟩ := bounded_dec r2 (dot _) hc
  have ⟨s3, r3⟩ := charSub_at q2
  have ⟨p3, q3⟩ := bounded_dec (t := t) (i := 0 + (decText a).length + 1 + (decText b).length + 1 + (decText c).length + 1) (a := d) (rest := []) (by rw [List.append_nil]; exact r3) (fun _ q => nomatch q) hd
  have takes : ∀ x ∈ ascii10 t, Takes t.length x := by
    intro x hx
    unfold ascii10 at hx
    have ⟨k, _, e⟩ := List.mem_map.1 hx
    subst e
    exact charSub_takes t _
  have spec := (ipv4_spec h takes (sep := charSub t 46) (fun i hi j q => (charSub_takes t 46 i hi j q).2) (Nat.zero_le _)).1 _ _ _ _ _ _ _ _ _ _ _ ⟨p0, s1, p1, s2, p2, s3, p3⟩
  have e := List.drop_eq_nil_iff.1 q3
  have e2 : 0 + (decText a).length + 1 + (decText b).length + 1 + (decText c).length + 1 + (decText d).length ≤ t.length := by
    rw [ht]; simp only [dotted, List.length_append, List.length_cons]; omega
  rw [show 0 + (decText a).length + 1 + (decText b).length + 1 + (decText c).length + 1 + (decText d).length = t.length by omega] at spec
  exact ⟨_, spec⟩

/-- The bytes of a 32-bit integer in the memory of a little-endian machine. -/
def memory32 (x : Nat) : List Nat := [x % 256, x / 2 ^ 8 % 256, x / 2 ^ 16 % 256, x / 2 ^ 24 % 256]

/-- What C76 lacks: `value` is an `in_addr`, whose bytes in memory should be `a`, `b`, `c`, `d`. They are so in reverse, as the result of the conversion of the byte order 2445 is not used. -/
theorem ipv4_bytes_reversed {a b c d : Nat} (ha : a ≤ 255) (hb : b ≤ 255) (hc : c ≤ 255) (hd : d ≤ 255) :
    memory32 (a * 2 ^ 24 + b * 2 ^ 16 + c * 2 ^ 8 + d) = [d, c, b, a] := by
  unfold memory32
  simp only [List.cons.injEq, and_true]
  refine ⟨by omega, by omega, by omega, by omega⟩

/-- `10.0.0.1` -/
def ipText : List Int := dotted 10 0 0 1
def ipEnv (t : List Int) : Env := ⟨t ++ [0], none, false, false, id, isspace, ispunct⟩

example : ipText = [49, 48, 46, 48, 46, 48, 46, 49] ∧ (ipEnv ipText).Ok ipText ∧
    ipv4 (ipEnv ipText) (ascii10 ipText) (charSub ipText 46) 0 = some (true, ⟨[(0, 2), (3, 4), (5, 6), (7, 8)], 10 * 2 ^ 24 + 1, some (0, 8)⟩) :=
  ⟨by decide, ⟨.inl (by decide), by decide, (fun n q => nomatch q), fun _ => Iff.rfl⟩, by decide⟩

/-! ### IPv6 -/

/-- How a round of the loop 2642-2710 or the loop ends: `goto error`, or the number of components `i`, `interval.end`, the components read, and
`compaction_i` with `compaction_start`. -/
structure V6St where
  i : Nat
  e : Nat
  comps : List (Nat × Nat)
  compact : Option (Nat × Nat)
deriving DecidableEq

/-- 2671-2709, and the `next` round. Nothing is stored to `value` (2709 has no effect). -/
def v6GroupThen (v : Env) (ds : List Sub) (next : V6St → Option (Option V6St)) (s : V6St) : Option (Option V6St) :=
  match boundLoop v 16 0xffff ds (v.s.length + 2) s.e 0 true with
  | none => none
  | some (e, _, empty) =>
    if empty then (if s.compact.isSome then some (some ⟨s.i, e, s.comps, s.compact⟩) else some none)
    else next ⟨s.i + 1, e, s.comps ++ [(s.e, e)], s.compact⟩

/-- The loop 2642-2710 with `k` rounds left: 2645-2669. The inner `none` is `goto error`. -/
def v6Loop (v : Env) (ds : List Sub) (sep : Sub) : Nat → V6St → Option (Option V6St)
  | 0, s => some (some s)
  | k + 1, s =>
    match sep s.e with
    | some e1 =>
      match sep e1 with
      | some e2 =>
        match s.compact with
        | none => v6GroupThen v ds (v6Loop v ds sep k) ⟨s.i, e2, s.comps, some (s.i, e1)⟩
        | some _ => some (some ⟨s.i, e1, s.comps, s.compact⟩)
      | none => if s.i = 0 then some none else v6GroupThen v ds (v6Loop v ds sep k) ⟨s.i, e1, s.comps, s.compact⟩
    | none => if s.i ≠ 0 then some (some s) else v6GroupThen v ds (v6Loop v ds sep k) s

/-- A group, and the loop with `k` rounds left. -/
def v6Group (v : Env) (ds : List Sub) (sep : Sub) (k : Nat) (s : V6St) : Option (Option V6St) := v6GroupThen v ds (v6Loop v ds sep k) s

/-- The loop 2715-2718: `while (k > ci) a[--j] = a[--k]`. -/
def alignMove {α : Type} [Inhabited α] (ci : Nat) : Nat → Nat → List α → List α × Nat
  | 0, j, a => (a, j)
  | k + 1, j, a => if k + 1 > ci then alignMove ci k (j - 1) (a.set (j - 1) (a[k]?.getD default)) else (a, j)

/-- The loop 2719-2723: `while (j > ci) a[--j] = x`. -/
def alignFill {α : Type} (ci : Nat) (x : α) : Nat → List α → List α
  | 0, a => a
  | j + 1, a => if j + 1 > ci then alignFill ci x j (a.set j x) else a

/-- 2713-2723 -/
def align {α : Type} [Inhabited α] (a : List α) (i ci : Nat) (x : α) : List α :=
  let (b, j) := alignMove ci i 8 a
  alignFill ci x j b

/-- `components`, the eight words of `value`, the interval of `scope_id`, and `interval`. -/
structure V6 where
  comps : List (Nat × Nat)
  words : List Nat
  scope : Option (Nat × Nat)
  interval : Option (Nat × Nat)
deriving DecidableEq

/-- `invalidate` 2603-2624. -/
def v6Invalid : V6 := ⟨List.replicate 8 (1, 0), List.replicate 8 0, none, none⟩

/-- 2728-2735: the scope id. -/
def v6Scope (scopeSep scope : Option Sub) (i e : Nat) (comps : List (Nat × Nat)) (words : List Nat) : V6 :=
  match scopeSep.bind (· e) with
  | none => ⟨comps, words, none, some (i, e)⟩
  | some e1 =>
    match scope.bind (· e1) with
    | none => ⟨comps, words, none, some (i, e)⟩
    | some e2 => ⟨comps, words, some (e1, e2), some (i, e2)⟩

/-- `basic_ipv6_address::do_match` 2637-2739; `old` are the components before, of which those not yet assigned remain in the array. -/
def ipv6 (v : Env) (ds : List Sub) (sep : Sub) (scopeSep scope : Option Sub) (i : Nat) (old : V6) : Option (Bool × V6) :=
  match v6Loop v ds sep 8 ⟨0, i, [], none⟩ with
  | none => none
  | some none => some (false, v6Invalid)
  | some (some s) =>
    let arr := s.comps ++ old.comps.drop s.comps.length
    let words := List.replicate 8 0
    match s.compact with
    | some (ci, cs) => some (true, v6Scope scopeSep scope i s.e (align arr s.i ci (cs, cs)) (align words s.i ci 0))
    | none => if s.i < 8 then some (false, v6Invalid) else some (true, v6Scope scopeSep scope i s.e arr words)

/-! #### Specification -/

/-- A group of hexadecimal digits, of a number below 2¹⁶. -/
def HexAt (n : Nat) (ds : List Sub) (i j : Nat) : Prop := ∃ x, BoundedAt n ds 16 0xffff i x j

/-- More groups, each behind one separator. -/
inductive Tail (n : Nat) (ds : List Sub) (sep : Sub) : Nat → List (Nat × Nat) → Nat → Prop
  | nil (e : Nat) : Tail n ds sep e [] e
  | cons {e s e1 j : Nat} {r : List (Nat × Nat)} : sep e = some s → sep s = none → HexAt n ds s e1 → Tail n ds sep e1 r j → Tail n ds sep e ((s, e1) :: r) j

/-- Some groups, with separators in between. -/
inductive GroupsAt (n : Nat) (ds : List Sub) (sep : Sub) : Nat → List (Nat × Nat) → Nat → Prop
  | nil (i : Nat) : GroupsAt n ds sep i [] i
  | cons {i e j : Nat} {r : List (Nat × Nat)} : HexAt n ds i e → Tail n ds sep e r j → GroupsAt n ds sep i ((i, e) :: r) j

/-- No group behind a separator follows. -/
def Ends (n : Nat) (ds : List Sub) (sep : Sub) (j : Nat) : Prop := ∀ s, sep j = some s → sep s = none → ∀ e, ¬ HexAt n ds s e

/-- Eight groups. -/
def FullAt (n : Nat) (ds : List Sub) (sep : Sub) (i : Nat) (comps : List (Nat × Nat)) (j : Nat) : Prop :=
  sep i = none ∧ GroupsAt n ds sep i comps j ∧ comps.length = 8

/-- Groups, two separators (the second from `m` to `e`), and groups, at most eight in all, and as many as the text has; the missing ones have the place of the second
separator. The address ends at `j`; `past` is `j`, or the end of one more separator there. -/
def CompactAt (n : Nat) (ds : List Sub) (sep : Sub) (i : Nat) (comps : List (Nat × Nat)) (j past : Nat) : Prop :=
  ∃ l r f m e, (l ≠ [] → sep i = none) ∧ GroupsAt n ds sep i l f ∧ sep f = some m ∧ sep m = some e ∧ GroupsAt n ds sep e r j ∧ (r = [] → ∀ x, ¬ HexAt n ds e x) ∧
    l.length < 8 ∧ l.length + r.length ≤ 8 ∧ (l.length + r.length < 8 → r ≠ [] → Ends n ds sep j) ∧
    comps = l ++ List.replicate (8 - l.length - r.length) (m, m) ++ r ∧
    (l.length + r.length = 8 ∨ r = [] ∨ sep j = none → past = j) ∧ (l.length + r.length < 8 → r ≠ [] → ∀ q, sep j = some q → past = q)

/-- The scope id behind an address that ends at `e`. -/
def ScopeAt (scopeSep scope : Option Sub) (e : Nat) (iv : Option (Nat × Nat)) (j : Nat) : Prop :=
  (∃ a b p q, scopeSep = some a ∧ scope = some b ∧ a e = some p ∧ b p = some q ∧ iv = some (p, q) ∧ j = q) ∨
  ((∀ a b p q, scopeSep = some a → scope = some b → a e = some p → b p ≠ some q) ∧ iv = none ∧ j = e)

/-! #### Proofs -/

theorem hex_cases {v : Env} {t : List Int} (h : v.Ok t) {ds : List Sub} (hd : ∀ d ∈ ds, Takes t.length d) {i : Nat} (hi : i ≤ t.length) :
    (∃ j x, HexAt t.length ds i j ∧ i < j ∧ j ≤ t.length ∧ boundLoop v 16 0xffff ds (v.s.length + 2) i 0 true = some (j, x, false)) ∨
    ((∀ j, ¬ HexAt t.length ds i j) ∧ boundLoop v 16 0xffff ds (v.s.length + 2) i 0 true = some (i, 0, true)) := by
  rcases bound_spec h (b := 16) (mx := 0xffff) (by omega) hd hi with ⟨x, j, a, b, c, d⟩ | ⟨a, b⟩
  · exact .inl ⟨j, x, ⟨x, a⟩, b, c, d⟩
  · exact .inr ⟨fun j ⟨x, q⟩ => a x j q, b⟩

theorem hex_unique {n : Nat} {ds : List Sub} {i j j' : Nat} (h : HexAt n ds i j) (h' : HexAt n ds i j') : j = j' :=
  let ⟨_, a⟩ := h
  let ⟨_, b⟩ := h'
  (bounded_unique (by omega) a b).2

theorem v6Group_hex {v : Env} {t : List Int} (h : v.Ok t) {ds : List Sub} (hd : ∀ d ∈ ds, Takes t.length d) {sep : Sub} {k : Nat} {s : V6St} (hi : s.e ≤ t.length) {e : Nat} (hx : HexAt t.length ds s.e e) :
    v6Group v ds sep k s = v6Loop v ds sep k ⟨s.i + 1, e, s.comps ++ [(s.e, e)], s.compact⟩ ∧ e ≤ t.length := by
  rcases hex_cases h hd hi with ⟨j, x, a, b, c, d⟩ | ⟨a, _⟩
  · have := hex_unique a hx
    subst this
    rw [v6Group, v6GroupThen, d]
    exact ⟨rfl, c⟩
  · exact absurd hx (a e)

theorem v6Group_none {v : Env} {t : List Int} (h : v.Ok t) {ds : List Sub} (hd : ∀ d ∈ ds, Takes t.length d) {sep : Sub} {k : Nat} {s : V6St} (hi : s.e ≤ t.length) (hx : ∀ e, ¬ HexAt t.length ds s.e e) :
    v6Group v ds sep k s = if s.compact.isSome then some (some s) else some none := by
  rcases hex_cases h hd hi with ⟨j, x, a, b, c, d⟩ | ⟨_, a⟩
  · exact absurd a (hx j)
  · rw [v6Group, v6GroupThen, a]; rfl

theorem v6Loop_succ (v : Env) (ds : List Sub) (sep : Sub) (k : Nat) (s : V6St) : v6Loop v ds sep (k + 1) s =
    match sep s.e with
    | some e1 =>
      match sep e1 with
      | some e2 =>
        match s.compact with
        | none => v6Group v ds sep k ⟨s.i, e2, s.comps, some (s.i, e1)⟩
        | some _ => some (some ⟨s.i, e1, s.comps, s.compact⟩)
      | none => if s.i = 0 then some none else v6Group v ds sep k ⟨s.i, e1, s.comps, s.compact⟩
    | none => if s.i ≠ 0 then some (some s) else v6Group v ds sep k s := rfl

/-- The loop reads the groups that follow. -/
theorem v6Loop_tail {v : Env} {t : List Int} (h : v.Ok t) {ds : List Sub} (hd : ∀ d ∈ ds, Takes t.length d) {sep : Sub} (hs : ∀ i ≤ t.length, ∀ j, sep i = some j → j ≤ t.length)
    {e j : Nat} {r : List (Nat × Nat)} (ht : Tail t.length ds sep e r j) : ∀ (k : Nat) (s : V6St), s.e = e → e ≤ t.length → s.i ≠ 0 → r.length ≤ k →
      v6Loop v ds sep k s = v6Loop v ds sep (k - r.length) ⟨s.i + r.length, j, s.comps ++ r, s.compact⟩ ∧ j ≤ t.length := by
  induction ht with
  | nil e =>
    intro k s he hl _ _
    subst he
    refine ⟨?_, hl⟩
    rw [List.append_nil]
    rfl
  | cons a b c _ ih =>
    rename_i e s' e1 j r _
    intro k s he hl hi hk
    subst he
    rw [List.length_cons] at hk ⊢
    obtain ⟨k, rfl⟩ : ∃ m, k = m + 1 := ⟨k - 1, by omega⟩
    have hl' := hs _ hl _ a
    have ⟨g1, g2⟩ := v6Group_hex (sep := sep) (k := k) (s := ⟨s.i, s', s.comps, s.compact⟩) h hd hl' c
    have ⟨q1, q2⟩ := ih k ⟨s.i + 1, e1, s.comps ++ [(s', e1)], s.compact⟩ rfl g2 (by simp) (by omega)
    refine ⟨?_, q2⟩
    rw [v6Loop_succ]
    simp only [a, b, if_neg hi]
    rw [g1, q1]
    simp only [List.append_assoc, List.singleton_append]
    rw [show k + 1 - (r.length + 1) = k - r.length by omega, show s.i + 1 + r.length = s.i + (r.length + 1) by omega]

/-- The loop behind a compaction: it reads the groups there are, and one separator more. -/
theorem v6Loop_compact {v : Env} {t : List Int} (h : v.Ok t) {ds : List Sub} (hd : ∀ d ∈ ds, Takes t.length d) {sep : Sub} (hs : ∀ i ≤ t.length, ∀ j, sep i = some j → j ≤ t.length) :
    ∀ (k : Nat) (s : V6St), s.compact.isSome = true → s.i ≠ 0 → s.e ≤ t.length → ∃ r j past, Tail t.length ds sep s.e r j ∧ r.length ≤ k ∧ (r.length < k → Ends t.length ds sep j) ∧
      (r.length = k ∨ sep j = none → past = j) ∧ (r.length < k → ∀ q, sep j = some q → past = q) ∧
      v6Loop v ds sep k s = some (some ⟨s.i + r.length, past, s.comps ++ r, s.compact⟩) := by
  intro k
  induction k with
  | zero =>
    intro s _ _ _
    refine ⟨[], s.e, s.e, .nil _, Nat.le_refl _, (fun q => by simp at q), (fun _ => rfl), (fun q => by simp at q), ?_⟩
    rw [v6Loop, List.append_nil]; rfl
  | succ k ih =>
    intro s hc hi he
    cases a : sep s.e with
    | none =>
      refine ⟨[], s.e, s.e, .nil _, Nat.zero_le _, (fun _ q x => by rw [a] at x; cases x), (fun _ => rfl), (fun _ q x => by rw [a] at x; cases x), ?_⟩
      rw [v6Loop, List.append_nil]
      simp only [a, if_pos hi]; rfl
    | some s1 =>
      cases b : sep s1 with
      | some s2 =>
        refine ⟨[], s.e, s1, .nil _, Nat.zero_le _, (fun _ q x y => ?_), (fun o => ?_), (fun _ q x => ?_), ?_⟩
        · rw [a] at x; cases x; rw [b] at y; cases y
        · rcases o with o | o
          · simp at o
          · rw [a] at o; cases o
        · rw [a] at x; cases x; rfl
        · rw [v6Loop, List.append_nil]
          obtain ⟨w, hw⟩ := Option.isSome_iff_exists.1 hc
          simp only [a, b, hw]; rfl
      | none =>
        have hl' := hs _ he _ a
        have step : v6Loop v ds sep (k + 1) s = v6Group v ds sep k ⟨s.i, s1, s.comps, s.compact⟩ := by
          rw [v6Loop_succ]; simp only [a, b, if_neg hi]
        by_cases hx : ∃ e, HexAt t.length ds s1 e
        · obtain ⟨e, hx⟩ := hx
          have ⟨g1, g2⟩ := v6Group_hex (sep := sep) (k := k) (s := ⟨s.i, s1, s.comps, s.compact⟩) h hd hl' hx
          obtain ⟨r, j, past, i1, i2, i3, i4, i5, i6⟩ := ih ⟨s.i + 1, e, s.comps ++ [(s1, e)], s.compact⟩ hc (by simp) g2
          refine ⟨(s1, e) :: r, j, past, .cons a b hx i1, ?_, ?_, ?_, ?_, ?_⟩
          · rw [List.length_cons]; omega
          · rw [List.length_cons]; exact fun q => i3 (by omega)
          · rw [List.length_cons]; exact fun q => i4 (q.imp (by omega) id)
          · rw [List.length_cons]; exact fun q => i5 (by omega)
          · rw [step, g1, i6]
            simp only [List.append_assoc, List.singleton_append, List.length_cons]
            rw [show s.i + 1 + r.length = s.i + (r.length + 1) by omega]
        · have hx' : ∀ e, ¬ HexAt t.length ds s1 e := fun e q => hx ⟨e, q⟩
          refine ⟨[], s.e, s1, .nil _, Nat.zero_le _, (fun _ q x _ => ?_), (fun o => ?_), (fun _ q x => ?_), ?_⟩
          · rw [a] at x; cases x; exact hx'
          · rcases o with o | o
            · simp at o
            · rw [a] at o; cases o
          · rw [a] at x; cases x; rfl
          · rw [step, v6Group_none h hd hl' hx', List.append_nil]
            simp only [hc, if_true]; rfl

/-- The loop before a compaction. -/
theorem v6Loop_plain {v : Env} {t : List Int} (h : v.Ok t) {ds : List Sub} (hd : ∀ d ∈ ds, Takes t.length d) {sep : Sub} (hs : ∀ i ≤ t.length, ∀ j, sep i = some j → j ≤ t.length) :
    ∀ (k : Nat) (s : V6St), s.compact = none → s.i ≠ 0 → s.e ≤ t.length → ∃ r f, Tail t.length ds sep s.e r f ∧ r.length ≤ k ∧ f ≤ t.length ∧
      ((r.length = k ∧ v6Loop v ds sep k s = some (some ⟨s.i + k, f, s.comps ++ r, none⟩)) ∨
       (r.length < k ∧ v6Loop v ds sep k s = some (some ⟨s.i + r.length, f, s.comps ++ r, none⟩)) ∨
       v6Loop v ds sep k s = some none ∨
       (r.length < k ∧ ∃ m e, sep f = some m ∧ sep m = some e ∧
        v6Loop v ds sep k s = v6Group v ds sep (k - r.length - 1) ⟨s.i + r.length, e, s.comps ++ r, some (s.i + r.length, m)⟩)) := by
  intro k
  induction k with
  | zero =>
    intro s hc _ he
    refine ⟨[], s.e, .nil _, Nat.le_refl _, he, .inl ⟨rfl, ?_⟩⟩
    rw [v6Loop, List.append_nil, ← hc]; rfl
  | succ k ih =>
    intro s hc hi he
    cases a : sep s.e with
    | none =>
      refine ⟨[], s.e, .nil _, Nat.zero_le _, he, .inr (.inl ⟨Nat.succ_pos _, ?_⟩)⟩
      rw [v6Loop, List.append_nil, ← hc]
      simp only [a, if_pos hi]; rfl
    | some s1 =>
      cases b : sep s1 with
      | some s2 =>
        refine ⟨[], s.e, .nil _, Nat.zero_le _, he, .inr (.inr (.inr ⟨Nat.succ_pos _, s1, s2, a, b, ?_⟩))⟩
        rw [v6Loop, List.append_nil]
        simp only [a, b, hc]; rfl
      | none =>
        have hl' := hs _ he _ a
        have step : v6Loop v ds sep (k + 1) s = v6Group v ds sep k ⟨s.i, s1, s.comps, s.compact⟩ := by
          rw [v6Loop_succ]; simp only [a, b, if_neg hi]
        by_cases hx : ∃ e, HexAt t.length ds s1 e
        · obtain ⟨e, hx⟩ := hx
          have ⟨g1, g2⟩ := v6Group_hex (sep := sep) (k := k) (s := ⟨s.i, s1, s.comps, s.compact⟩) h hd hl' hx
          obtain ⟨r, f, i1, i2, i3, i4⟩ := ih ⟨s.i + 1, e, s.comps ++ [(s1, e)], s.compact⟩ hc (by simp) g2
          refine ⟨(s1, e) :: r, f, .cons a b hx i1, ?_, i3, ?_⟩
          · rw [List.length_cons]; omega
          · rw [step, g1, List.length_cons]
            simp only [List.append_assoc, List.singleton_append] at i4
            rw [show s.i + 1 + r.length = s.i + (r.length + 1) by omega, show s.i + 1 + k = s.i + (k + 1) by omega] at i4
            rw [show k + 1 - (r.length + 1) = k - r.length by omega]
            rcases i4 with ⟨p, q⟩ | ⟨p, q⟩ | q | ⟨p, q⟩
            · exact .inl ⟨by omega, q⟩
            · exact .inr (.inl ⟨by omega, q⟩)
            · exact .inr (.inr (.inl q))
            · exact .inr (.inr (.inr ⟨by omega, q⟩))
        · have hx' : ∀ e, ¬ HexAt t.length ds s1 e := fun e q => hx ⟨e, q⟩
          refine ⟨[], s.e, .nil _, Nat.zero_le _, he, .inr (.inr (.inl ?_))⟩
          rw [step, v6Group_none h hd hl' hx']
          simp only [hc]; rfl

theorem alignMove_eq {α : Type} [Inhabited α] (ci : Nat) : ∀ (k j : Nat) (a : List α), ci ≤ k → k ≤ j → j ≤ a.length →
    (alignMove ci k j a).2 = j - (k - ci) ∧ ∀ n, (alignMove ci k j a).1[n]? = if j - (k - ci) ≤ n ∧ n < j then a[n - (j - k)]? else a[n]? := by
  intro k
  induction k with
  | zero =>
    intro j a h1 _ _
    refine ⟨by simp [alignMove], fun n => ?_⟩
    rw [alignMove, if_neg (by omega)]
  | succ k ih =>
    intro j a h1 h2 h3
    rw [alignMove]
    by_cases c : k + 1 > ci
    · rw [if_pos c]
      have hk : k < a.length := by omega
      have ⟨i1, i2⟩ := ih (j - 1) (a.set (j - 1) (a[k]?.getD default)) (by omega) (by omega) (by rw [List.length_set]; omega)
      refine ⟨by rw [i1]; omega, fun n => ?_⟩
      rw [i2 n]
      by_cases c1 : n = j - 1
      · rw [if_neg (by omega), if_pos (by omega), c1, List.getElem?_set_self (by omega), show j - 1 - (j - (k + 1)) = k by omega, List.getElem?_eq_getElem hk]
        rfl
      · by_cases c2 : j - 1 - (k - ci) ≤ n ∧ n < j - 1
        · rw [if_pos c2, if_pos (by omega), List.getElem?_set_ne (by omega), show n - (j - 1 - k) = n - (j - (k + 1)) by omega]
        · rw [if_neg c2, if_neg (by omega), List.getElem?_set_ne (by omega)]
    · rw [if_neg c]
      refine ⟨by show j = _; omega, fun n => ?_⟩
      show a[n]? = _
      rw [if_neg (by omega)]

theorem alignFill_eq {α : Type} (ci : Nat) (x : α) : ∀ (j : Nat) (a : List α), j ≤ a.length → ∀ n, (alignFill ci x j a)[n]? = if ci ≤ n ∧ n < j then some x else a[n]? := by
  intro j
  induction j with
  | zero => intro a _ n; rw [alignFill, if_neg (by omega)]
  | succ j ih =>
    intro a h n
    rw [alignFill]
    by_cases c : j + 1 > ci
    · rw [if_pos c, ih _ (by rw [List.length_set]; omega)]
      by_cases c1 : n = j
      · rw [if_neg (by omega), if_pos (by omega), c1, List.getElem?_set_self (by omega)]
      · rw [List.getElem?_set_ne (by omega)]
        by_cases c2 : ci ≤ n ∧ n < j
        · rw [if_pos c2, if_pos (by omega)]
        · rw [if_neg c2, if_neg (by omega)]
    · rw [if_neg c, if_neg (by omega)]

theorem alignMove_length {α : Type} [Inhabited α] (ci : Nat) : ∀ (k j : Nat) (a : List α), (alignMove ci k j a).1.length = a.length := by
  intro k
  induction k with
  | zero => intro j a; rfl
  | succ k ih =>
    intro j a
    rw [alignMove]
    by_cases c : k + 1 > ci
    · rw [if_pos c, ih, List.length_set]
    · rw [if_neg c]

/-- The alignment to the right does not depend on what is in the rest of the array. -/
theorem align_eq {α : Type} [Inhabited α] (l r old : List α) (x : α) (h8 : (l ++ r ++ old).length = 8) : align (l ++ r ++ old) (l.length + r.length) l.length x = l ++ List.replicate (8 - l.length - r.length) x ++ r := by
  have hl : l.length + r.length + old.length = 8 := by simp only [List.length_append] at h8; exact h8
  apply List.ext_getElem?
  intro n
  unfold align
  have ⟨m1, m2⟩ := alignMove_eq l.length (l.length + r.length) 8 (l ++ r ++ old) (by omega) (by omega) (by omega)
  have m3 := alignMove_length l.length (l.length + r.length) 8 (l ++ r ++ old)
  show (alignFill l.length x (alignMove l.length (l.length + r.length) 8 (l ++ r ++ old)).2 (alignMove l.length (l.length + r.length) 8 (l ++ r ++ old)).1)[n]? = _
  rw [alignFill_eq _ _ _ _ (by rw [m1, m3]; omega), m1, m2 n]
  by_cases c1 : n < l.length
  · rw [if_neg (by omega), if_neg (by omega), List.append_assoc, List.getElem?_append_left c1, List.append_assoc, List.getElem?_append_left c1]
  · by_cases c2 : n < 8 - r.length
    · rw [if_pos (by omega), List.getElem?_append_left (by rw [List.length_append, List.length_replicate]; omega), List.getElem?_append_right (by omega), List.getElem?_replicate_of_lt (by omega)]
    · rw [if_neg (by omega), List.getElem?_append_right (l₁ := l ++ List.replicate (8 - l.length - r.length) x) (by rw [List.length_append, List.length_replicate]; omega)]
      rw [List.length_append, List.length_replicate]
      by_cases c3 : n < 8
      · rw [if_pos (by omega), List.getElem?_append_left (by rw [List.length_append]; omega), List.getElem?_append_right (by omega)]
        congr 1; omega
      · rw [if_neg (by omega), List.getElem?_eq_none (by omega), List.getElem?_eq_none (by omega)]

theorem v6Scope_spec (scopeSep scope : Option Sub) (i e : Nat) (comps : List (Nat × Nat)) (words : List Nat) :
    ∃ iv j, ScopeAt scopeSep scope e iv j ∧ v6Scope scopeSep scope i e comps words = ⟨comps, words, iv, some (i, j)⟩ := by
  unfold v6Scope
  cases scopeSep with
  | none => exact ⟨none, e, .inr ⟨(fun _ _ _ _ q => nomatch q), rfl, rfl⟩, rfl⟩
  | some a =>
    cases hp : a e with
    | none =>
      refine ⟨none, e, .inr ⟨(fun a' b p q x _ y => by cases x; rw [hp] at y; cases y), rfl, rfl⟩, ?_⟩
      simp only [Option.bind_some, hp]
    | some p =>
      cases scope with
      | none =>
        refine ⟨none, e, .inr ⟨(fun _ _ _ _ _ q => nomatch q), rfl, rfl⟩, ?_⟩
        simp only [Option.bind_some, hp, Option.bind_none]
      | some b =>
        cases hq : b p with
        | none =>
          refine ⟨none, e, .inr ⟨(fun a' b' p' q x x' y z => by cases x; cases x'; rw [hp] at y; cases y; rw [hq] at z; cases z), rfl, rfl⟩, ?_⟩
          simp only [Option.bind_some, hp, hq]
        | some q =>
          refine ⟨some (p, q), q, .inl ⟨a, b, p, q, rfl, rfl, hp, hq, rfl, rfl⟩, ?_⟩
          simp only [Option.bind_some, hp, hq]

/-- How the loop ends. -/
theorem v6_outcome {v : Env} {t : List Int} (h : v.Ok t) {ds : List Sub} (hd : ∀ d ∈ ds, Takes t.length d) {sep : Sub} (hs : ∀ i ≤ t.length, ∀ j, sep i = some j → j ≤ t.length) {i : Nat} (hi : i ≤ t.length) :
    (∃ comps j, FullAt t.length ds sep i comps j ∧ v6Loop v ds sep 8 ⟨0, i, [], none⟩ = some (some ⟨8, j, comps, none⟩)) ∨
    (∃ l r m j past, CompactAt t.length ds sep i (l ++ List.replicate (8 - l.length - r.length) (m, m) ++ r) j past ∧ l.length + r.length ≤ 8 ∧
      v6Loop v ds sep 8 ⟨0, i, [], none⟩ = some (some ⟨l.length + r.length, past, l ++ r, some (l.length, m)⟩)) ∨
    v6Loop v ds sep 8 ⟨0, i, [], none⟩ = some none ∨
    (∃ s, s.compact = none ∧ s.i < 8 ∧ v6Loop v ds sep 8 ⟨0, i, [], none⟩ = some (some s)) := by
  have compact : ∀ (k : Nat) (l : List (Nat × Nat)) (f m e : Nat), (l ≠ [] → sep i = none) → GroupsAt t.length ds sep i l f → sep f = some m → sep m = some e → e ≤ t.length → k + l.length = 7 →
      ∃ r j past, CompactAt t.length ds sep i (l ++ List.replicate (8 - l.length - r.length) (m, m) ++ r) j past ∧ l.length + r.length ≤ 8 ∧
        v6Group v ds sep k ⟨l.length, e, l, some (l.length, m)⟩ = some (some ⟨l.length + r.length, past, l ++ r, some (l.length, m)⟩) := by
    intro k l f m e a1 a2 a3 a4 a5 a6
    by_cases hx : ∃ x, HexAt t.length ds e x
    · obtain ⟨x, hx⟩ := hx
      have ⟨g1, g2⟩ := v6Group_hex (sep := sep) (k := k) (s := ⟨l.length, e, l, some (l.length, m)⟩) h hd a5 hx
      obtain ⟨r, j, past, i1, i2, i3, i4, i5, i6⟩ := v6Loop_compact h hd hs k ⟨l.length + 1, x, l ++ [(e, x)], some (l.length, m)⟩ rfl (by simp) g2
      refine ⟨(e, x) :: r, j, past, ⟨l, (e, x) :: r, f, m, e, a1, a2, a3, a4, .cons hx i1, (fun q => nomatch q), by omega, ?_, ?_, rfl, ?_, ?_⟩, ?_, ?_⟩
      · rw [List.length_cons]; omega
      · rw [List.length_cons]; exact fun q _ => i3 (by omega)
      · rw [List.length_cons]
        rintro (q | q | q)
        · exact i4 (.inl (by omega))
        · cases q
        · exact i4 (.inr q)
      · rw [List.length_cons]; exact fun q _ => i5 (by omega)
      · rw [List.length_cons]; omega
      · rw [g1, i6, List.length_cons]
        simp only [List.append_assoc, List.singleton_append]
        rw [show l.length + 1 + r.length = l.length + (r.length + 1) by omega]
    · have hx' : ∀ x, ¬ HexAt t.length ds e x := fun x q => hx ⟨x, q⟩
      refine ⟨[], e, e, ⟨l, [], f, m, e, a1, a2, a3, a4, .nil _, (fun _ => hx'), by omega, by simp; omega, (fun _ q => absurd rfl q), rfl, (fun _ => rfl), (fun _ q => absurd rfl q)⟩, by simp; omega, ?_⟩
      rw [v6Group_none h hd a5 hx', List.append_nil]
      rfl
  cases a : sep i with
  | none =>
    have step : v6Loop v ds sep 8 ⟨0, i, [], none⟩ = v6Group v ds sep 7 ⟨0, i, [], none⟩ := by
      rw [v6Loop_succ]; simp only [a]; rfl
    by_cases hx : ∃ x, HexAt t.length ds i x
    · obtain ⟨x, hx⟩ := hx
      have ⟨g1, g2⟩ := v6Group_hex (sep := sep) (k := 7) (s := ⟨0, i, [], none⟩) h hd hi hx
      rw [step, g1]
      obtain ⟨r, f, i1, i2, i3, i4⟩ := v6Loop_plain h hd hs 7 ⟨1, x, [(i, x)], none⟩ rfl (by simp) g2
      have hl : 1 + r.length = ((i, x) :: r).length := by rw [List.length_cons]; omega
      rcases i4 with ⟨p, q⟩ | ⟨p, q⟩ | q | ⟨p, m, e, q1, q2, q⟩
      · refine .inl ⟨(i, x) :: r, f, ⟨a, .cons hx i1, by rw [List.length_cons]; omega⟩, q⟩
      · exact .inr (.inr (.inr ⟨_, rfl, by show 1 + r.length < 8; omega, q⟩))
      · exact .inr (.inr (.inl q))
      · have he := hs _ (hs _ i3 _ q1) _ q2
        obtain ⟨r', j, past, c1, c2, c3⟩ := compact (7 - r.length - 1) ((i, x) :: r) f m e (fun _ => a) (.cons hx i1) q1 q2 he (by rw [List.length_cons]; omega)
        refine .inr (.inl ⟨(i, x) :: r, r', m, j, past, c1, c2, ?_⟩)
        rw [← c3, ← hl]
        exact q
    · have hx' : ∀ e, ¬ HexAt t.length ds i e := fun e q => hx ⟨e, q⟩
      refine .inr (.inr (.inl ?_))
      rw [step, v6Group_none h hd hi hx']
      rfl
  | some m =>
    cases b : sep m with
    | none =>
      refine .inr (.inr (.inl ?_))
      rw [v6Loop_succ]; simp only [a, b, if_true]
    | some e =>
      have he := hs _ (hs _ hi _ a) _ b
      obtain ⟨r', j, past, c1, c2, c3⟩ := compact 7 [] i m e (fun q => absurd rfl q) (.nil _) a b he rfl
      refine .inr (.inl ⟨[], r', m, j, past, c1, c2, ?_⟩)
      rw [← c3]
      rw [v6Loop_succ]; simp only [a, b]; rfl

theorem v6_full {v : Env} {t : List Int} (h : v.Ok t) {ds : List Sub} (hd : ∀ d ∈ ds, Takes t.length d) {sep : Sub} (hs : ∀ i ≤ t.length, ∀ j, sep i = some j → j ≤ t.length) {i : Nat} (hi : i ≤ t.length)
    {comps : List (Nat × Nat)} {j : Nat} (hf : FullAt t.length ds sep i comps j) : v6Loop v ds sep 8 ⟨0, i, [], none⟩ = some (some ⟨8, j, comps, none⟩) := by
  obtain ⟨a, b, c⟩ := hf
  have step : v6Loop v ds sep 8 ⟨0, i, [], none⟩ = v6Group v ds sep 7 ⟨0, i, [], none⟩ := by
    rw [v6Loop_succ]; simp only [a]; rfl
  cases b with
  | nil => cases c
  | cons x y =>
    rename_i e r
    rw [List.length_cons] at c
    have ⟨g1, g2⟩ := v6Group_hex (sep := sep) (k := 7) (s := ⟨0, i, [], none⟩) h hd hi x
    have ⟨q1, _⟩ := v6Loop_tail h hd hs y 7 ⟨1, e, [(i, e)], none⟩ rfl g2 (by simp) (by omega)
    rw [step, g1]
    show v6Loop v ds sep 7 ⟨1, e, [(i, e)], none⟩ = _
    rw [q1, show 7 - r.length = 0 by omega, v6Loop, show 1 + r.length = 8 by omega]
    rfl

theorem v6_compact {v : Env} {t : List Int} (h : v.Ok t) {ds : List Sub} (hd : ∀ d ∈ ds, Takes t.length d) {sep : Sub} (hs : ∀ i ≤ t.length, ∀ j, sep i = some j → j ≤ t.length) {i : Nat} (hi : i ≤ t.length)
    {comps : List (Nat × Nat)} {j past : Nat} (hf : CompactAt t.length ds sep i comps j past) :
    ∃ l r m, comps = l ++ List.replicate (8 - l.length - r.length) (m, m) ++ r ∧ l.length + r.length ≤ 8 ∧
      v6Loop v ds sep 8 ⟨0, i, [], none⟩ = some (some ⟨l.length + r.length, past, l ++ r, some (l.length, m)⟩) := by
  obtain ⟨l, r, f, m, e, a1, a2, a3, a4, a5, a6, a7, a8, a9, a10, a11, a12⟩ := hf
  refine ⟨l, r, m, a10, a8, ?_⟩
  -- up to the compaction
  have left : v6Loop v ds sep 8 ⟨0, i, [], none⟩ = v6Group v ds sep (7 - l.length) ⟨l.length, e, l, some (l.length, m)⟩ ∧ e ≤ t.length := by
    cases a2 with
    | nil =>
      refine ⟨?_, hs _ (hs _ hi _ a3) _ a4⟩
      rw [v6Loop_succ]; simp only [a3, a4]; rfl
    | cons x y =>
      rename_i e' r'
      rw [List.length_cons] at a7 ⊢
      have ⟨g1, g2⟩ := v6Group_hex (sep := sep) (k := 7) (s := ⟨0, i, [], none⟩) h hd hi x
      have ⟨q1, q2⟩ := v6Loop_tail h hd hs y 7 ⟨1, e', [(i, e')], none⟩ rfl g2 (by simp) (by omega)
      refine ⟨?_, hs _ (hs _ q2 _ a3) _ a4⟩
      have step : v6Loop v ds sep 8 ⟨0, i, [], none⟩ = v6Group v ds sep 7 ⟨0, i, [], none⟩ := by
        rw [v6Loop_succ]; simp only [a1 (by simp)]; rfl
      rw [step, g1]
      show v6Loop v ds sep 7 ⟨1, e', [(i, e')], none⟩ = _
      rw [q1, show 7 - r'.length = (6 - r'.length) + 1 by omega, v6Loop_succ]
      simp only [a3, a4]
      rw [show 7 - (r'.length + 1) = 6 - r'.length by omega, show 1 + r'.length = r'.length + 1 by omega]
      rfl
  obtain ⟨left, he⟩ := left
  rw [left]
  cases a5 with
  | nil =>
    rw [v6Group_none h hd he (a6 rfl), a11 (.inr (.inl rfl)), List.append_nil]
    rfl
  | cons x y =>
    rename_i e' r'
    rw [List.length_cons] at a8 a9 a11 a12 ⊢
    have ⟨g1, g2⟩ := v6Group_hex (sep := sep) (k := 7 - l.length) (s := ⟨l.length, e, l, some (l.length, m)⟩) h hd he x
    have ⟨q1, q2⟩ := v6Loop_tail h hd hs y (7 - l.length) ⟨l.length + 1, e', l ++ [(e, e')], some (l.length, m)⟩ rfl g2 (by simp) (by omega)
    rw [g1]
    show v6Loop v ds sep (7 - l.length) ⟨l.length + 1, e', l ++ [(e, e')], some (l.length, m)⟩ = _
    rw [q1]
    obtain ⟨r2, j2, past2, i1, i2, i3, i4, i5, i6⟩ := v6Loop_compact h hd hs (7 - l.length - r'.length) ⟨l.length + 1 + r'.length, j, l ++ [(e, e')] ++ r', some (l.length, m)⟩ rfl (by simp) q2
    rw [i6]
    cases i1 with
    | nil =>
      have hp : past2 = past := by
        by_cases c : l.length + (r'.length + 1) = 8
        · rw [a11 (.inl c), i4 (.inl (by simp only [List.length_nil]; omega))]
        · cases hq : sep j with
          | none => rw [a11 (.inr (.inr hq)), i4 (.inr hq)]
          | some q => rw [a12 (by omega) (by simp) q hq, i5 (by simp only [List.length_nil]; omega) q hq]
      rw [hp, List.append_nil]
      simp only [List.append_assoc, List.singleton_append, List.length_nil]
      rw [show l.length + 1 + r'.length + 0 = l.length + (r'.length + 1) by omega]
    | cons b1 b2 b3 _ =>
      rw [List.length_cons] at i2
      exact absurd b3 (a9 (by omega) (by simp) _ b1 b2 _)

/-- **C76** (IPv6) An address of eight groups, or one with `::` for the groups that are missing, and nothing else matches; each of the eight components has the interval of
its group, or of the second colon of `::`; a scope id behind the address belongs to the match. The match ends with the address, or with one more separator behind it. -/
theorem ipv6_spec {v : Env} {t : List Int} (h : v.Ok t) {ds : List Sub} (hd : ∀ d ∈ ds, Takes t.length d) {sep : Sub} (hs : ∀ i ≤ t.length, ∀ j, sep i = some j → j ≤ t.length)
    (scopeSep scope : Option Sub) {i : Nat} (hi : i ≤ t.length) (old : V6) (ho : old.comps.length = 8) :
    (∀ comps j, FullAt t.length ds sep i comps j → ∃ words iv j', ScopeAt scopeSep scope j iv j' ∧ ipv6 v ds sep scopeSep scope i old = some (true, ⟨comps, words, iv, some (i, j')⟩)) ∧
    (∀ comps j past, CompactAt t.length ds sep i comps j past →
      ∃ words iv j', ScopeAt scopeSep scope past iv j' ∧ ipv6 v ds sep scopeSep scope i old = some (true, ⟨comps, words, iv, some (i, j')⟩)) ∧
    ((∀ comps j, ¬ FullAt t.length ds sep i comps j) → (∀ comps j past, ¬ CompactAt t.length ds sep i comps j past) → ipv6 v ds sep scopeSep scope i old = some (false, ⟨[(1, 0), (1, 0), (1, 0), (1, 0), (1, 0), (1, 0), (1, 0), (1, 0)], [0, 0, 0, 0, 0, 0, 0, 0], none, none⟩)) := by
  refine ⟨fun comps j hf => ?_, fun comps j past hc => ?_, fun nf nc => ?_⟩
  · unfold ipv6
    rw [v6_full h hd hs hi hf]
    have hl : comps.length = 8 := hf.2.2
    obtain ⟨iv, j', s1, s2⟩ := v6Scope_spec scopeSep scope i j comps (List.replicate 8 0)
    refine ⟨List.replicate 8 0, iv, j', s1, ?_⟩
    dsimp only
    rw [if_neg (by omega), hl, List.drop_eq_nil_of_le (by omega), List.append_nil, s2]
  · obtain ⟨l, r, m, e, hl, hv⟩ := v6_compact h hd hs hi hc
    unfold ipv6
    rw [hv]
    obtain ⟨iv, j', s1, s2⟩ := v6Scope_spec scopeSep scope i past comps (align (List.replicate 8 0) (l.length + r.length) l.length 0)
    refine ⟨align (List.replicate 8 0) (l.length + r.length) l.length 0, iv, j', s1, ?_⟩
    dsimp only
    rw [align_eq l r _ (m, m) (by rw [List.length_append, List.length_drop, List.length_append, ho]; omega), ← e, s2]
  · unfold ipv6
    rcases v6_outcome h hd hs hi with ⟨comps, j, a, _⟩ | ⟨l, r, m, j, past, a, _⟩ | a | ⟨s, a1, a2, a3⟩
    · exact absurd a (nf _ _)
    · exact absurd a (nc _ _ _)
    · rw [a]; rfl
    · rw [a3]
      dsimp only
      rw [a1]
      dsimp only
      rw [if_pos a2]; rfl

/-- **C76** No address is read in two ways, as far as the code can tell: what matches determines components and end. -/
theorem ipv6_unambiguous {v : Env} {t : List Int} (h : v.Ok t) {ds : List Sub} (hd : ∀ d ∈ ds, Takes t.length d) {sep : Sub} (hs : ∀ i ≤ t.length, ∀ j, sep i = some j → j ≤ t.length)
    {i : Nat} (hi : i ≤ t.length) {comps comps' : List (Nat × Nat)} {j j' past past' : Nat} :
    (FullAt t.length ds sep i comps j → FullAt t.length ds sep i comps' j' → comps = comps' ∧ j = j') ∧
    (FullAt t.length ds sep i comps j → CompactAt t.length ds sep i comps' j' past' → False) ∧
    (CompactAt t.length ds sep i comps j past → CompactAt t.length ds sep i comps' j' past' → comps = comps' ∧ past = past') := by
  refine ⟨fun a b => ?_, fun a b => ?_, fun a b => ?_⟩
  · have x := v6_full h hd hs hi a
    rw [v6_full h hd hs hi b] at x
    injection x with x; injection x with x
    injection x with _ x1 x2
    exact ⟨x2.symm, x1.symm⟩
  · have x := v6_full h hd hs hi a
    obtain ⟨_, _, _, _, _, y⟩ := v6_compact h hd hs hi b
    rw [y] at x
    injection x with x; injection x with x
    injection x with _ _ _ x
    cases x
  · obtain ⟨l, r, m, e, _, x⟩ := v6_compact h hd hs hi a
    obtain ⟨l', r', m', e', _, y⟩ := v6_compact h hd hs hi b
    rw [y] at x
    injection x with x; injection x with x
    injection x with x1 x2 x3 x4
    injection x4 with x4
    injection x4 with x4 x5
    have ⟨y1, y2⟩ := List.append_inj x3 x4
    subst y1 y2 x5
    exact ⟨by rw [e, e'], x2.symm⟩

/-- What C76 lacks, whatever the text: `value` stays the address with no bit set, as no group is ever stored to it. -/
theorem ipv6_value_zero {v : Env} {ds : List Sub} {sep : Sub} {scopeSep scope : Option Sub} {i : Nat} {old : V6} {r : Bool} {x : V6}
    (h : ipv6 v ds sep scopeSep scope i old = some (r, x)) : ∀ w ∈ x.words, w = 0 := by
  have zeroSet : ∀ (a : List Nat) (n : Nat), (∀ w ∈ a, w = 0) → ∀ w ∈ a.set n 0, w = 0 := fun a n ha w hw => (List.mem_or_eq_of_mem_set hw).elim (ha w) id
  have move : ∀ (ci k j : Nat) (a : List Nat), (∀ w ∈ a, w = 0) → ∀ w ∈ (alignMove ci k j a).1, w = 0 := by
    intro ci k
    induction k with
    | zero => intro j a ha; exact ha
    | succ k ih =>
      intro j a ha
      rw [alignMove]
      by_cases c : k + 1 > ci
      · rw [if_pos c]
        refine ih _ _ ?_
        have : a[k]?.getD default = 0 := by
          cases hq : a[k]? with
          | none => rfl
          | some y => exact ha y (List.mem_of_getElem? hq)
        rw [this]
        exact zeroSet a _ ha
      · rw [if_neg c]; exact ha
  have fill : ∀ (ci j : Nat) (a : List Nat), (∀ w ∈ a, w = 0) → ∀ w ∈ alignFill ci 0 j a, w = 0 := by
    intro ci j
    induction j with
    | zero => intro a ha; exact ha
    | succ j ih =>
      intro a ha
      rw [alignFill]
      by_cases c : j + 1 > ci
      · rw [if_pos c]; exact ih _ (zeroSet a _ ha)
      · rw [if_neg c]; exact ha
  have rep : ∀ w ∈ List.replicate 8 (0 : Nat), w = 0 := fun w hw => (List.mem_replicate.1 hw).2
  have scopeWords : ∀ e comps words, (v6Scope scopeSep scope i e comps words).words = words := fun e comps words => by
    obtain ⟨_, _, _, q⟩ := v6Scope_spec scopeSep scope i e comps words
    rw [q]
  unfold ipv6 at h
  cases hv : v6Loop v ds sep 8 ⟨0, i, [], none⟩ with
  | none => rw [hv] at h; cases h
  | some o =>
    rw [hv] at h
    cases o with
    | none => cases h; exact rep
    | some s =>
      dsimp only at h
      cases hc : s.compact with
      | some c =>
        rw [hc] at h
        cases h
        rw [scopeWords]
        exact fill _ _ _ (move _ _ _ _ rep)
      | none =>
        rw [hc] at h
        dsimp only at h
        by_cases c : s.i < 8
        · rw [if_pos c] at h; cases h; exact rep
        · rw [if_neg c] at h; cases h; rw [scopeWords]; exact rep

/-- The digits `0`…`9`, `a`…`f`. -/
def ascii16 (t : List Int) : List Sub := ascii10 t ++ (List.range 6).map fun k : Nat => charSub t ((k : Int) + 97)

/-- `1::fe:9` -/
def v6Text : List Int := [49, 58, 58, 102, 101, 58, 57]
/-- `1:2:3:4:5:6:7:8%1` -/
def v6Text2 : List Int := [49, 58, 50, 58, 51, 58, 52, 58, 53, 58, 54, 58, 55, 58, 56, 37, 49]
/-- `1::2:,` -/
def v6Text3 : List Int := [49, 58, 58, 50, 58, 44]

example : (ipEnv v6Text).Ok v6Text ∧ (∀ d ∈ ascii16 v6Text, Takes v6Text.length d) ∧
    ipv6 (ipEnv v6Text) (ascii16 v6Text) (charSub v6Text 58) none none 0 v6Invalid =
      some (true, ⟨[(0, 1), (2, 2), (2, 2), (2, 2), (2, 2), (2, 2), (3, 5), (6, 7)], List.replicate 8 0, none, some (0, 7)⟩) := by
  refine ⟨⟨.inl (by decide), by decide, (fun n q => nomatch q), fun _ => Iff.rfl⟩, ?_, by decide⟩
  intro d hd
  rcases List.mem_append.1 hd with hd | hd <;> obtain ⟨k, _, e⟩ := List.mem_map.1 hd <;> subst e <;> exact charSub_takes _ _

example : ipv6 (ipEnv v6Text2) (ascii16 v6Text2) (charSub v6Text2 58) (some (charSub v6Text2 37)) (some (charSub v6Text2 49)) 0 v6Invalid =
      some (true, ⟨[(0, 1), (2, 3), (4, 5), (6, 7), (8, 9), (10, 11), (12, 13), (14, 15)], List.replicate 8 0, some (16, 17), some (0, 17)⟩) := by decide

/-- What C76 lacks: a single colon behind a compacted address is taken as part of it. -/
example : ipv6 (ipEnv v6Text3) (ascii16 v6Text3) (charSub v6Text3 58) none none 0 v6Invalid =
      some (true, ⟨[(0, 1), (2, 2), (2, 2), (2, 2), (2, 2), (2, 2), (2, 2), (3, 4)], List.replicate 8 0, none, some (0, 5)⟩) := by decide

end Verif.Parser
