import Verif.Parser.Leaf
/-
Parsers of integers (include/stdex/parser.hpp 1272-1535). The elements, given as `shared_ptr` to parsers, are here the functions
they compute: from the start to the end of the match, with the value or hit offset that is used (by C61 the outcome of a parser
is a function of the text and the start). Elements are distinct objects.
-/
namespace Verif.Parser
open Verif.Str

/-- An element: where its match at a position ends. -/
abbrev Sub := Nat → Option Nat

/-- The `if`s 1333-1343, 1510-1526: the first digit that matches, and where it ends. -/
def firstOf : List Sub → Nat → Nat → Option (Nat × Nat)
  | [], _, _ => none
  | d :: ds, k, i =>
    match d i with
    | some e => some (k, e)
    | none => firstOf ds (k + 1) i

/-- The loop of `basic_integer10::do_match` 1331-1345 (`b = 10`) and `basic_integer16::do_match` 1508-1528 (`b = 16`):
`interval.end` and `value`. -/
def intLoop (v : Env) (b : Nat) (ds : List Sub) : Nat → Nat → Nat → Option (Nat × Nat)
  | 0, _, _ => none
  | fuel + 1, e, value =>
    match Str.cond v.s v.fin e with
    | none => none
    | some none => some (e, value)
    | some (some _) =>
      match firstOf ds 0 e with
      | none => some (e, value)
      | some (dig, e') => intLoop v b ds fuel e' ((value * b + dig) % 2 ^ 64)

/-- `basic_integer10::do_match` 1330-1351, `basic_integer16::do_match` 1507-1534: the outer `none` is a read outside of the text or an
endless loop, the inner one is `false`; otherwise `interval.end` and `value`. -/
def integer (v : Env) (b : Nat) (ds : List Sub) (i : Nat) : Option (Option (Nat × Nat)) :=
  match intLoop v b ds (v.s.length + 2) i 0 with
  | none => none
  | some (e, value) => if i < e then some (some (e, value)) else some none

/-- The values of `basic_integer10ts`: `interval.end`, `value`, `digit_count`, `has_separators`. -/
structure Grouped where
  fin : Nat
  value : Nat
  count : Nat
  seps : Bool
deriving DecidableEq

/-- The loop 1422-1433; `digits` gives the end and value, `sep` the end and hit offset; `hit` is `hit_offset`. -/
def tsLoop (digits : Nat → Option (Nat × Nat)) (sep : Nat → Option (Nat × Nat)) : Nat → Option Nat → Grouped → Option Grouped
  | 0, _, _ => none
  | fuel + 1, hit, g =>
    match sep g.fin with
    | none => some g
    | some (e1, h) =>
      if hit = none ∨ hit = some h then
        match digits e1 with
        | none => some g
        | some (e2, val) => if e2 - e1 = 3 then tsLoop digits sep fuel (some h) ⟨e2, (g.value * 1000 + val) % 2 ^ 64, g.count + 3, true⟩ else some g
      else some g

/-- `basic_integer10ts::do_match` 1411-1440; `n` bounds the number of rounds of the loop. -/
def integerTs (n : Nat) (digits sep : Nat → Option (Nat × Nat)) (i : Nat) : Option (Option Grouped) :=
  match digits i with
  | none => some none
  | some (e, val) => if e - i ≤ 3 then (tsLoop digits sep (n + 1) none ⟨e, val, e - i, false⟩).map some else some (some ⟨e, val, e - i, false⟩)

/-! ### Specification -/

/-- An element matches within a text of `n` code units, and takes some of them. -/
def Takes (n : Nat) (d : Sub) : Prop := ∀ i ≤ n, ∀ j, d i = some j → i < j ∧ j ≤ n

/-- Digit `k` is at `i`, and ends at `j`: its parser matches and those of smaller digits don't. -/
def DigitAt (ds : List Sub) (i k j : Nat) : Prop := ∃ d, ds[k]? = some d ∧ d i = some j ∧ ∀ k' < k, ∀ d', ds[k']? = some d' → d' i = none

/-- The digits `w` are written one after another from `i` to `j`. -/
inductive Written (n : Nat) (ds : List Sub) : Nat → List Nat → Nat → Prop
  | nil (i : Nat) : Written n ds i [] i
  | cons {i k i' j : Nat} {w : List Nat} : i < n → DigitAt ds i k i' → Written n ds i' w j → Written n ds i (k :: w) j

/-- No more digits. -/
def Stops (n : Nat) (ds : List Sub) (j : Nat) : Prop := j < n → ∀ d ∈ ds, d j = none

/-- The number with these digits, the most significant first. -/
def positional (b : Nat) : List Nat → Nat
  | [] => 0
  | d :: w => d * b ^ w.length + positional b w

/-! ### Proofs -/

theorem firstOf_some {ds : List Sub} {i : Nat} : ∀ {k m e : Nat}, firstOf ds k i = some (m, e) → k ≤ m ∧ DigitAt ds i (m - k) e := by
  induction ds with
  | nil => intro k m e h; cases h
  | cons d ds ih =>
    intro k m e h
    rw [firstOf] at h
    cases hd : d i with
    | some e' =>
      rw [hd] at h
      cases h
      exact ⟨Nat.le_refl _, d, by simp, hd, fun k' q => absurd q (by omega)⟩
    | none =>
      rw [hd] at h
      have ⟨a, x, b1, b2, b3⟩ := ih h
      refine ⟨by omega, x, ?_, b2, ?_⟩
      · rw [show m - k = (m - (k + 1)) + 1 by omega, List.getElem?_cons_succ]; exact b1
      · intro k' hk' d' hd'
        cases k' with
        | zero => rw [List.getElem?_cons_zero] at hd'; cases hd'; exact hd
        | succ k' => rw [List.getElem?_cons_succ] at hd'; exact b3 k' (by omega) d' hd'

theorem firstOf_none {ds : List Sub} {i : Nat} : ∀ {k : Nat}, firstOf ds k i = none → ∀ d ∈ ds, d i = none := by
  induction ds with
  | nil => intro _ _ d hd; cases hd
  | cons d ds ih =>
    intro k h x hx
    rw [firstOf] at h
    cases hd : d i with
    | some e' => rw [hd] at h; cases h
    | none =>
      rw [hd] at h
      rcases List.mem_cons.1 hx with rfl | q
      · exact hd
      · exact ih h x q

theorem digitAt_mem {ds : List Sub} {i k j : Nat} (h : DigitAt ds i k j) : ∃ d ∈ ds, d i = some j :=
  let ⟨d, a, b, _⟩ := h
  ⟨d, List.mem_of_getElem? a, b⟩

theorem digitAt_unique {ds : List Sub} {i k j k' j' : Nat} (h : DigitAt ds i k j) (h' : DigitAt ds i k' j') : k = k' ∧ j = j' := by
  obtain ⟨d, a, b, c⟩ := h
  obtain ⟨d', a', b', c'⟩ := h'
  rcases Nat.lt_trichotomy k k' with q | q | q
  · rw [c' k q d a] at b; cases b
  · subst q; rw [a] at a'; cases a'; rw [b] at b'; cases b'; exact ⟨rfl, rfl⟩
  · rw [c k' q d' a'] at b'; cases b'

theorem positional_foldl (b : Nat) : ∀ (w : List Nat) (a : Nat), w.foldl (fun a d => a * b + d) a = a * b ^ w.length + positional b w := by
  intro w
  induction w with
  | nil => intro a; simp [positional]
  | cons d w ih =>
    intro a
    rw [List.foldl_cons, ih, positional, List.length_cons, Nat.add_mul, Nat.pow_succ, Nat.mul_comm (b ^ w.length) b, ← Nat.mul_assoc]
    omega

theorem intLoop_spec {v : Env} {t : List Int} (h : v.Ok t) (b : Nat) {ds : List Sub} (hd : ∀ d ∈ ds, Takes t.length d) :
    ∀ (fuel i value : Nat), i ≤ t.length → t.length - i < fuel → ∃ w j, Written t.length ds i w j ∧ j ≤ t.length ∧ i + w.length ≤ j ∧ Stops t.length ds j ∧
      intLoop v b ds fuel i (value % 2 ^ 64) = some (j, (w.foldl (fun a d => a * b + d) value) % 2 ^ 64) := by
  intro fuel
  induction fuel with
  | zero => intro i value _ q; omega
  | succ fuel ih =>
    intro i value hi hf
    rw [intLoop]
    have hi' := hi
    rw [h.text] at hi'
    rw [cond_eq h.valid hi', ← h.text]
    by_cases hlt : i < t.length
    · rw [List.getElem?_eq_getElem hlt]
      dsimp only
      cases hq : firstOf ds 0 i with
      | none => exact ⟨[], i, .nil i, hi, by simp, fun _ => firstOf_none hq, rfl⟩
      | some p =>
        obtain ⟨k, e⟩ := p
        have ⟨_, hk⟩ := firstOf_some hq
        have ⟨d, hm, hde⟩ := digitAt_mem hk
        have ⟨g1, g2⟩ := hd d hm i hi e hde
        have ⟨w, j, a1, a2, a3, a4, a5⟩ := ih e (value * b + k) g2 (by omega)
        refine ⟨k :: w, j, .cons hlt hk a1, a2, ?_, a4, ?_⟩
        · rw [List.length_cons]; omega
        · rw [List.foldl_cons]
          dsimp only
          rw [← a5]
          congr 1
          rw [Nat.add_mod, Nat.mul_mod, Nat.mod_mod, ← Nat.mul_mod, ← Nat.add_mod]
    · rw [List.getElem?_eq_none (by omega)]
      exact ⟨[], i, .nil i, hi, by simp, fun q => absurd q hlt, rfl⟩

/-- **C73** The integer parsers take the longest run of digits, never read outside of the text and end; the value is that of the
digits read, modulo 2⁶⁴. -/
theorem integer_spec {v : Env} {t : List Int} (h : v.Ok t) (b : Nat) {ds : List Sub} (hd : ∀ d ∈ ds, Takes t.length d) {i : Nat} (hi : i ≤ t.length) :
    ∃ w j, Written t.length ds i w j ∧ Stops t.length ds j ∧ j ≤ t.length ∧ i + w.length ≤ j ∧
      integer v b ds i = some (if w = [] then none else some (j, positional b w % 2 ^ 64)) := by
  have hlen : t.length ≤ v.s.length := by rw [h.text]; exact text_length_le _ _
  have ⟨w, j, a1, a2, a3, a4, a5⟩ := intLoop_spec h b hd (v.s.length + 2) i 0 hi (by omega)
  refine ⟨w, j, a1, a4, a2, a3, ?_⟩
  unfold integer
  rw [show (0 : Nat) = 0 % 2 ^ 64 from rfl, a5]
  dsimp only
  cases a1 with
  | nil => rw [if_neg (by omega), if_pos rfl]
  | cons _ _ _ =>
    rw [List.length_cons] at a3
    rw [if_pos (by omega), if_neg (by simp), positional_foldl]
    simp

/-- The run of digits is determined by the text. -/
theorem written_unique {n : Nat} {ds : List Sub} {i j : Nat} {w : List Nat} (h : Written n ds i w j) (hj : Stops n ds j) :
    ∀ {w' : List Nat} {j' : Nat}, Written n ds i w' j' → Stops n ds j' → w = w' ∧ j = j' := by
  induction h with
  | nil i =>
    intro w' j' h' _
    cases h' with
    | nil => exact ⟨rfl, rfl⟩
    | cons a b _ => have ⟨d, m, e⟩ := digitAt_mem b; rw [hj a d m] at e; cases e
  | cons a b _ ih =>
    intro w' j' h' hs
    cases h' with
    | nil => have ⟨d, m, e⟩ := digitAt_mem b; rw [hs a d m] at e; cases e
    | cons a' b' c' =>
      have ⟨q1, q2⟩ := digitAt_unique b b'
      subst q1 q2
      have ⟨q3, q4⟩ := ih hj c' hs
      exact ⟨by rw [q3], q4⟩

/-! ### Digits that are characters -/

/-- The parser of a code unit as an element. -/
def charSub (t : List Int) (c : Int) : Sub := fun i => if t[i]? = some c then some (i + 1) else none

/-- It is what `basic_cu` does (case sensitive). -/
theorem charSub_cu {v : Env} {t : List Int} (h : v.Ok t) (hc : v.ci = false) (c : Int) {i : Nat} (hi : i ≤ t.length) :
    cu v c false i = some ((charSub t c i).map fun j => (j, none)) := by
  rw [cu_spec h c false i hi]
  unfold charSub same
  rw [hc]
  cases q : t[i]? with
  | none => simp
  | some x =>
    by_cases e : x = c
    · subst e; simp
    · simp [e]

theorem charSub_takes (t : List Int) (c : Int) : Takes t.length (charSub t c) := by
  intro i _ j h
  unfold charSub at h
  split at h
  · rename_i q
    have := (List.getElem?_eq_some_iff.1 q).1
    cases h
    omega
  · cases h

/-- The digits of base ten as characters. -/
def ascii10 (t : List Int) : List Sub := (List.range 10).map fun k : Nat => charSub t (48 + (k : Int))

/-- `0`–`9` -/
def isDec (c : Int) : Bool := decide (48 ≤ c ∧ c ≤ 57)

theorem ascii10_at {t : List Int} {i : Nat} {c : Int} (h : t[i]? = some c) (hc : isDec c = true) : DigitAt (ascii10 t) i (c - 48).toNat (i + 1) := by
  have hc : 48 ≤ c ∧ c ≤ 57 := by simpa [isDec] using hc
  have key : ∀ k : Nat, k < 10 → (ascii10 t)[k]? = some (charSub t (48 + (k : Int))) := by
    intro k hk
    unfold ascii10
    rw [List.getElem?_map, List.getElem?_range hk]; rfl
  refine ⟨charSub t c, ?_, ?_, ?_⟩
  · rw [key _ (by omega)]
    congr 2
    omega
  · unfold charSub; rw [if_pos h]
  · intro k' hk' d' hd'
    rw [key _ (by omega)] at hd'
    cases hd'
    unfold charSub
    rw [if_neg]
    intro q
    rw [h] at q
    have := Option.some.inj q
    omega

theorem ascii10_none {t : List Int} {i : Nat} (h : ∀ c, t[i]? = some c → isDec c = false) : ∀ d ∈ ascii10 t, d i = none := by
  intro d hd
  unfold ascii10 at hd
  have ⟨k, hk, e⟩ := List.mem_map.1 hd
  have hk := List.mem_range.1 hk
  subst e
  unfold charSub
  rw [if_neg]
  intro q
  have := h _ q
  simp [isDec] at this
  omega

theorem written_ascii {t : List Int} : ∀ (r : List Int) (i : Nat), t.drop i = r →
    Written t.length (ascii10 t) i ((r.takeWhile isDec).map fun c => (c - 48).toNat) (i + (r.takeWhile isDec).length) ∧
    Stops t.length (ascii10 t) (i + (r.takeWhile isDec).length) := by
  intro r
  induction r with
  | nil =>
    intro i h
    refine ⟨.nil i, ?_⟩
    intro q
    have := List.drop_eq_nil_iff.1 h
    simp only [List.takeWhile_nil, List.length_nil] at q
    omega
  | cons c r ih =>
    intro i h
    have hlt : i < t.length := by
      have := congrArg List.length h
      rw [List.length_drop, List.length_cons] at this
      omega
    have hc : t[i]? = some c := by
      have := congrArg (fun l : List Int => l[0]?) h
      simpa using this
    have hr : t.drop (i + 1) = r := by
      have := congrArg List.tail h
      simpa using this
    have ⟨a, b⟩ := ih (i + 1) hr
    by_cases hd : isDec c = true
    · rw [List.takeWhile_cons_of_pos hd, List.map_cons, List.length_cons]
      rw [show i + ((r.takeWhile isDec).length + 1) = i + 1 + (r.takeWhile isDec).length by omega]
      exact ⟨.cons hlt (ascii10_at hc hd) a, b⟩
    · rw [List.takeWhile_cons_of_neg hd]
      refine ⟨.nil i, ?_⟩
      intro _
      refine ascii10_none ?_
      intro x hx
      rw [List.length_nil, Nat.add_zero, hc] at hx
      cases hx
      simpa using hd

/-- **C73** With the characters `0`–`9` as digits: the longest run of decimal digits at the position, if any. -/
theorem integer10_ascii {v : Env} {t : List Int} (h : v.Ok t) {i : Nat} (hi : i ≤ t.length) :
    integer v 10 (ascii10 t) i = some (let r := (t.drop i).takeWhile isDec
      if r = [] then none else some (i + r.length, positional 10 (r.map fun c => (c - 48).toNat) % 2 ^ 64)) := by
  have ⟨w, j, a1, a2, a3, a4, a5⟩ := integer_spec h 10 (ds := ascii10 t) (fun d hd => by
    unfold ascii10 at hd
    have ⟨k, _, e⟩ := List.mem_map.1 hd
    subst e
    exact charSub_takes t _) hi
  have ⟨b1, b2⟩ := written_ascii (t := t) _ i rfl
  have ⟨e1, e2⟩ := written_unique a1 a2 b1 b2
  rw [a5]
  subst e1 e2
  dsimp only
  cases (List.drop i t).takeWhile isDec <;> simp

theorem positional_snoc (b : Nat) (w : List Nat) (d : Nat) : positional b (w ++ [d]) = positional b w * b + d := by
  have := positional_foldl b (w ++ [d]) 0
  rw [List.foldl_append, List.foldl_cons, List.foldl_nil, positional_foldl] at this
  simpa using this.symm

/-- The decimal representation of a number, as text. -/
def decText (n : Nat) : List Int := (Nat.toDigits 10 n).map fun c : Char => (c.toNat : Int)

theorem decText_spec (n : Nat) : decText n ≠ [] ∧ (∀ c ∈ decText n, isDec c = true) ∧ positional 10 ((decText n).map fun c => (c - 48).toNat) = n := by
  have key : ∀ n : Nat, (∀ c ∈ decText n, isDec c = true) ∧ positional 10 ((decText n).map fun c => (c - 48).toNat) = n := by
    intro n
    unfold decText
    induction n using Nat.strongRecOn with
    | _ n ih =>
      have one : ∀ d, d < 10 → isDec ((Nat.digitChar d).toNat : Int) = true ∧ (((Nat.digitChar d).toNat : Int) - 48).toNat = d := by decide
      by_cases hl : n < 10
      · rw [Nat.toDigits_of_lt_base hl]
        have ⟨a, b⟩ := one n hl
        simp only [List.map_cons, List.map_nil, b]
        refine ⟨?_, by simp [positional]⟩
        intro c hc
        rw [List.mem_singleton.1 hc]
        exact a
      · have hq : n / 10 < n := by omega
        have ⟨a, b⟩ := ih (n / 10) hq
        have ⟨a2, b2⟩ := one (n % 10) (by omega)
        rw [Nat.toDigits_of_base_le (by omega) (by omega), List.map_append, List.map_append, List.map_cons, List.map_nil, List.map_cons, List.map_nil, b2, positional_snoc, b]
        refine ⟨?_, by omega⟩
        intro c hc
        rcases List.mem_append.1 hc with q | q
        · exact a c q
        · rw [List.mem_singleton.1 q]; exact a2
  refine ⟨?_, key n⟩
  intro q
  unfold decText at q
  rw [List.map_eq_nil_iff] at q
  have := Nat.length_toDigits_pos (b := 10) (n := n)
  rw [q] at this
  exact absurd this (by simp)

theorem takeWhile_run {r rest : List Int} (h : ∀ c ∈ r, isDec c = true) (h2 : ∀ c, rest.head? = some c → isDec c = false) : (r ++ rest).takeWhile isDec = r := by
  rw [List.takeWhile_append_of_pos h]
  cases rest with
  | nil => simp
  | cons c rest => rw [List.takeWhile_cons_of_neg (by rw [h2 c rfl]; simp)]; simp

/-- **C73** The decimal representation of every number below 2⁶⁴ is read back as the number. -/
theorem integer10_roundtrip {v : Env} {n : Nat} {t : List Int} (ht : t = (Nat.toDigits 10 n).map fun c : Char => (c.toNat : Int)) (h : v.Ok t) (hn : n < 2 ^ 64) :
    integer v 10 (ascii10 t) 0 = some (some (t.length, n)) := by
  have ⟨ne, a, b⟩ := decText_spec n
  have ht : t = decText n := ht
  rw [← ht] at a b ne
  rw [integer10_ascii h (Nat.zero_le _), List.drop_zero]
  have e := takeWhile_run (rest := []) a (fun c q => nomatch q)
  rw [List.append_nil] at e
  rw [e]
  dsimp only
  rw [if_neg ne, b, Nat.mod_eq_of_lt hn, Nat.zero_add]

/-! ### Thousands separators -/

/-- A group at `j` is a separator with this hit offset, or any, and a numeral of three code units. -/
def GroupAt (digits sep : Nat → Option (Nat × Nat)) (hit : Option Nat) (j : Nat) (h val e : Nat) : Prop :=
  ∃ e1, sep j = some (e1, h) ∧ (hit = none ∨ hit = some h) ∧ digits e1 = some (e, val) ∧ e - e1 = 3

/-- The groups of values `vals` follow from `j` to `e`, all with the same separator, and no other group follows. -/
inductive Groups (digits sep : Nat → Option (Nat × Nat)) : Option Nat → Nat → List Nat → Nat → Prop
  | nil {hit : Option Nat} {j : Nat} : (∀ h val e, ¬ GroupAt digits sep hit j h val e) → Groups digits sep hit j [] j
  | cons {hit : Option Nat} {j h val e e' : Nat} {vals : List Nat} : GroupAt digits sep hit j h val e → Groups digits sep (some h) e vals e' → Groups digits sep hit j (val :: vals) e'

theorem tsLoop_spec {n : Nat} {digits sep : Nat → Option (Nat × Nat)} (hd : ∀ i ≤ n, ∀ j x, digits i = some (j, x) → i < j ∧ j ≤ n)
    (hs : ∀ i ≤ n, ∀ j x, sep i = some (j, x) → i ≤ j ∧ j ≤ n) : ∀ (fuel : Nat) (hit : Option Nat) (g : Grouped) (value : Nat), g.fin ≤ n → n - g.fin < fuel → g.value = value % 2 ^ 64 →
    ∃ vals e, Groups digits sep hit g.fin vals e ∧ e ≤ n ∧
      tsLoop digits sep fuel hit g = some ⟨e, vals.foldl (fun a d => a * 1000 + d) value % 2 ^ 64, g.count + 3 * vals.length, g.seps || !vals.isEmpty⟩ := by
  intro fuel
  induction fuel with
  | zero => intro _ g _ _ q; omega
  | succ fuel ih =>
    intro hit g value hg hf hv
    have stop : (∀ h val e, ¬ GroupAt digits sep hit g.fin h val e) → ∃ vals e, Groups digits sep hit g.fin vals e ∧ e ≤ n ∧
        some g = some (Grouped.mk e (vals.foldl (fun a d => a * 1000 + d) value % 2 ^ 64) (g.count + 3 * vals.length) (g.seps || !vals.isEmpty)) := by
      intro q
      refine ⟨[], g.fin, .nil q, hg, ?_⟩
      rw [List.foldl_nil, ← hv]
      simp
    rw [tsLoop]
    cases q1 : sep g.fin with
    | none => exact stop fun h val e ⟨e1, a, _⟩ => by rw [q1] at a; cases a
    | some p =>
      obtain ⟨e1, h⟩ := p
      dsimp only
      by_cases c : hit = none ∨ hit = some h
      · rw [if_pos c]
        have ⟨g1, g2⟩ := hs g.fin hg e1 h q1
        cases q2 : digits e1 with
        | none => exact stop fun h val e ⟨e1', a, _, b, _⟩ => by rw [q1] at a; cases a; rw [q2] at b; cases b
        | some p =>
          obtain ⟨e2, val⟩ := p
          dsimp only
          by_cases c3 : e2 - e1 = 3
          · rw [if_pos c3]
            have ⟨g3, g4⟩ := hd e1 g2 e2 val q2
            have ⟨vals, e, a1, a2, a3⟩ := ih (some h) ⟨e2, (g.value * 1000 + val) % 2 ^ 64, g.count + 3, true⟩ (value * 1000 + val) g4
              (by dsimp only; omega) (by dsimp only; rw [hv, Nat.add_mod, Nat.mul_mod, Nat.mod_mod, ← Nat.mul_mod, ← Nat.add_mod])
            refine ⟨val :: vals, e, .cons ⟨e1, q1, c, q2, c3⟩ a1, a2, ?_⟩
            rw [a3]
            simp only [List.foldl_cons, List.length_cons, List.isEmpty_cons, Bool.true_or, Bool.not_false, Bool.or_true]
            congr 2
            omega
          · rw [if_neg c3]
            exact stop fun h val e ⟨e1', a, _, b, d⟩ => by rw [q1] at a; cases a; rw [q2] at b; cases b; exact c3 d
      · rw [if_neg c]
        exact stop fun h val e ⟨e1', a, b, _⟩ => by rw [q1] at a; cases a; exact c b

/-- **C73** An integer with thousands separators: after a first group of at most three digits, all the groups of three digits that
follow with one and the same separator; the value is that of the digits, modulo 2⁶⁴, and `digit_count` the number of digits. -/
theorem integerTs_spec {n : Nat} {digits sep : Nat → Option (Nat × Nat)} (hd : ∀ i ≤ n, ∀ j x, digits i = some (j, x) → i < j ∧ j ≤ n)
    (hs : ∀ i ≤ n, ∀ j x, sep i = some (j, x) → i ≤ j ∧ j ≤ n) (hx : ∀ i j x, digits i = some (j, x) → x < 2 ^ 64) {i : Nat} (hi : i ≤ n) :
    (digits i = none → integerTs n digits sep i = some none) ∧
    ∀ e val, digits i = some (e, val) → ∃ vals j, (if e - i ≤ 3 then Groups digits sep none e vals j else vals = [] ∧ j = e) ∧
      integerTs n digits sep i = some (some ⟨j, positional 1000 (val :: vals) % 2 ^ 64, e - i + 3 * vals.length, !vals.isEmpty⟩) := by
  unfold integerTs
  refine ⟨fun q => by rw [q], fun e val q => ?_⟩
  rw [q]
  dsimp only
  have hv := hx i e val q
  by_cases c : e - i ≤ 3
  · rw [if_pos c]
    have ⟨_, g⟩ := hd i hi e val q
    have ⟨vals, j, a1, a2, a3⟩ := tsLoop_spec hd hs (n + 1) none ⟨e, val, e - i, false⟩ val g (by dsimp only; omega) (by dsimp only; rw [Nat.mod_eq_of_lt hv])
    refine ⟨vals, j, by rw [if_pos c]; exact a1, ?_⟩
    rw [a3, positional_foldl, positional]
    simp
  · rw [if_neg c]
    refine ⟨[], e, by rw [if_neg c]; exact ⟨rfl, rfl⟩, ?_⟩
    simp [positional, Nat.mod_eq_of_lt hv]

/-! ### Examples -/

/-- `42 ` -/
def ndemo : Env := ⟨[52, 50, 32, 0], none, false, false, id, isspace, ispunct⟩

theorem ndemo_ok : ndemo.Ok [52, 50, 32] := ⟨.inl (by decide), by decide, (fun n q => nomatch q), fun _ => Iff.rfl⟩

example : integer ndemo 10 (ascii10 [52, 50, 32]) 0 = some (some (2, 42)) := by decide
/-- With base 16 and sixteen digits, of which ten are given here. -/
example : integer ndemo 16 (ascii10 [52, 50, 32]) 0 = some (some (2, 0x42)) := by decide

/-- A number that does not fit wraps. -/
theorem integer10_wraps : ∃ v t, Env.Ok v t ∧ t = (Nat.toDigits 10 (2 ^ 64)).map (fun c : Char => (c.toNat : Int)) ∧
    integer v 10 (ascii10 t) 0 = some (some (t.length, 0)) :=
  ⟨⟨(Nat.toDigits 10 (2 ^ 64)).map (fun c : Char => (c.toNat : Int)) ++ [0], none, false, false, id, isspace, ispunct⟩, _,
    ⟨.inl (by decide +kernel), by decide +kernel, (fun n q => nomatch q), fun _ => Iff.rfl⟩, rfl, by decide +kernel⟩

/-- `1.234.56` with the separator `.`: 1234. -/
example : integerTs 8 (fun i => ((integer ⟨[49, 46, 50, 51, 52, 46, 53, 54, 0], none, false, false, id, isspace, ispunct⟩ 10 (ascii10 [49, 46, 50, 51, 52, 46, 53, 54]) i).getD none))
    (fun i => (charSub [49, 46, 50, 51, 52, 46, 53, 54] 46 i).map fun j => (j, 0)) 0 = some (some ⟨5, 1234, 4, true⟩) := by decide

end Verif.Parser
