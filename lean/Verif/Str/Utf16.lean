import Verif.Str.Compare
import Verif.Str.Crlf
/-
UTF-16 (include/stdex/string.hpp 43-107, 222-280, 980-1007, 1647-1660, 1726-1743). Conventions as in `Verif.Str.Find`; code
units and code points are integers.
-/
namespace Verif.Str

/-- `is_high_surrogate`, 43-46. -/
def isHigh (c : Int) : Bool := 0xd800 ≤ c ∧ c < 0xdc00

/-- `is_low_surrogate`, 53-56. -/
def isLow (c : Int) : Bool := 0xdc00 ≤ c ∧ c < 0xe000

/-- `surrogate_pair_to_ucs4`, 73-80: the shift is a multiplication, as the operand is not negative. -/
def fromPair (hi lo : Int) : Int := (hi - 0xd800) * 2 ^ 10 + (lo - 0xdc00) + 0x10000

/-- `ucs4_to_surrogate_pair`, 87-93. -/
def toPair (c : Int) : Int × Int :=
  let c' := (c - 0x10000).toNat
  (0xd800 + ((c' >>> 10) &&& 0x3ff : Nat), 0xdc00 + (c' &&& 0x3ff : Nat))

/-- `is_surrogate_pair`, 63-66: the second unit is read only if the first is a high surrogate. -/
def isPair (s : List Int) (i : Nat) : Option Bool :=
  match rd s i with
  | none => none
  | some a => if isHigh a then (rd s (i + 1)).map isLow else some false

/-- The condition of the conversions: `i + 1 < count && is_surrogate_pair(&src[i])`. -/
def pairAt (s : List Int) (count : Option Nat) (i : Nat) : Option Bool := if below count (i + 1) then isPair s i else some false

/-- The code point at `i`, and the number of its units. -/
def pointAt (s : List Int) (count : Option Nat) (i : Nat) : Option (Int × Nat) :=
  match pairAt s count i, rd s i with
  | some true, some a => (rd s (i + 1)).map fun b => (fromPair a b, 2)
  | some false, some a => some (a, 1)
  | _, _ => none

theorem pointAt_lt {s : List Int} {count : Option Nat} {i : Nat} {r : Int × Nat} (h : pointAt s count i = some r) : i < s.length ∧ 1 ≤ r.2 := by
  unfold pointAt at h
  split at h
  · rename_i a _ ha
    refine ⟨(List.getElem?_eq_some_iff.1 ha).1, ?_⟩
    cases hb : rd s (i + 1) with
    | none => rw [hb] at h; cases h
    | some b => rw [hb] at h; cases h; exact Nat.le_add_left 1 1
  · rename_i a _ ha
    refine ⟨(List.getElem?_eq_some_iff.1 ha).1, ?_⟩
    cases h; exact Nat.le_refl 1
  · cases h

/-- `strcpy` 1647-1660 (no counts, `pad` false) and `strncpy` 1726-1743 (`pad` true) of UTF-16 to UTF-32. -/
def utf16Copy (src : List Int) (cs cd : Option Nat) (pad : Bool) (d : List Int) (i j : Nat) : Option (List Int × Nat) :=
  if below cd j then
    if below cs i then
      match h : pointAt src cs i with
      | none => none
      | some r =>
        match wr d j r.1 with
        | none => none
        | some d' => if r.1 = 0 then some (d', j) else utf16Copy src cs cd pad d' (i + r.2) (j + 1)
    else if pad then (wr d j 0).map fun d' => (d', j)
    else some (d, j)
  else some (d, j)
termination_by src.length - i
decreasing_by have := pointAt_lt h; omega

/-- After the loop of `strncmp`, 1004-1006. -/
def utf16CmpEnd (s1 : List Int) (c1 : Option Nat) (s2 : List Int) (c2 : Option Nat) (i j : Nat) : Option Int :=
  match cond s1 c1 i with
  | none => none
  | some (some _) => some 1
  | some none =>
    match cond s2 c2 j with
    | none => none
    | some (some _) => some (-1)
    | some none => some 0

/-- `strncmp` of UTF-32 and UTF-16, 980-1007. -/
def utf16Cmp (s1 : List Int) (c1 : Option Nat) (s2 : List Int) (c2 : Option Nat) (i j : Nat) : Option Int :=
  if below c1 i && below c2 j then
    match rd s1 i with
    | none => none
    | some a =>
      if a = 0 then utf16CmpEnd s1 c1 s2 c2 i j
      else
        match h : pointAt s2 c2 j with
        | none => none
        | some r =>
          if r.1 = 0 then utf16CmpEnd s1 c1 s2 c2 i j
          else if a > r.1 then some 1
          else if a < r.1 then some (-1)
          else utf16Cmp s1 c1 s2 c2 (i + 1) (j + r.2)
  else utf16CmpEnd s1 c1 s2 c2 i j
termination_by s2.length - j
decreasing_by have := pointAt_lt h; omega

/-! ### Specification -/

/-- The UTF-16 encoding of a code point (RFC 2781, 2.1). -/
def encode1 (c : Int) : List Int := if c < 0x10000 then [c] else [0xd800 + (c - 0x10000) / 0x400, 0xdc00 + (c - 0x10000) % 0x400]

/-- A Unicode scalar value other than NUL. -/
def Scalar (c : Int) : Prop := 0 < c ∧ c < 0x110000 ∧ ¬ (0xd800 ≤ c ∧ c < 0xe000)

/-- The code points of a text: a high surrogate followed by a low one is one code point, any other unit is one. -/
def decode : List Int → List Int
  | [] => []
  | [a] => [a]
  | a :: b :: r => if isHigh a ∧ isLow b then fromPair a b :: decode r else a :: decode (b :: r)

/-! ### Proofs -/

theorem pair_range {a b : Int} (ha : isHigh a = true) (hb : isLow b = true) : 0x10000 ≤ fromPair a b ∧ fromPair a b < 0x110000 := by
  simp only [isHigh, isLow, decide_eq_true_eq] at ha hb
  unfold fromPair
  omega

theorem toPair_eq {c : Int} (h1 : 0x10000 ≤ c) (h2 : c < 0x110000) :
    toPair c = (0xd800 + (c - 0x10000) / 0x400, 0xdc00 + (c - 0x10000) % 0x400) := by
  unfold toPair
  obtain ⟨n, hn⟩ : ∃ n : Nat, c - 0x10000 = n := ⟨(c - 0x10000).toNat, by omega⟩
  have hlt : n < 0x100000 := by omega
  simp only [hn, Int.toNat_natCast]
  rw [show (0x3ff : Nat) = 2 ^ 10 - 1 from rfl, Nat.and_two_pow_sub_one_eq_mod, Nat.and_two_pow_sub_one_eq_mod, Nat.shiftRight_eq_div_pow]
  have e1 : n / 2 ^ 10 % 2 ^ 10 = n / 1024 := by rw [Nat.mod_eq_of_lt]; omega
  rw [e1]
  refine Prod.ext ?_ ?_ <;> simp only <;> omega

/-- What `decode` does at an index. -/
theorem decode_drop (t : List Int) (j : Nat) : decode (t.drop j) = match t[j]? with
    | none => []
    | some a => match t[j + 1]? with
      | none => a :: decode (t.drop (j + 1))
      | some b => if isHigh a ∧ isLow b then fromPair a b :: decode (t.drop (j + 2)) else a :: decode (t.drop (j + 1)) := by
  cases h : t[j]? with
  | none => rw [List.drop_of_length_le (List.getElem?_eq_none_iff.1 h)]; rfl
  | some c =>
    obtain ⟨hl, e⟩ := List.getElem?_eq_some_iff.1 h
    rw [List.drop_eq_getElem_cons hl, e]
    cases h2 : t[j + 1]? with
    | none =>
      rw [List.drop_of_length_le (List.getElem?_eq_none_iff.1 h2)]
      simp [decode]
    | some c2 =>
      obtain ⟨hl2, e2⟩ := List.getElem?_eq_some_iff.1 h2
      rw [List.drop_eq_getElem_cons hl2, e2]
      simp only [decode]

/-- In the text, the code point at an index is that of `decode`. -/
theorem pointAt_text {s : List Int} {count : Option Nat} (hv : Valid s count) {j : Nat} (hj : j < (text s count).length) :
    ∃ r, pointAt s count j = some r ∧ r.1 ≠ 0 ∧ j + r.2 ≤ (text s count).length ∧
      decode ((text s count).drop j) = r.1 :: decode ((text s count).drop (j + r.2)) := by
  have hb : below count j = true := by
    cases count with
    | none => rfl
    | some n => have := text_length_take s n; simp only [below, decide_eq_true_eq]; omega
  have hr := rd_eq hv (Nat.le_of_lt hj) hb
  have ht : (text s count)[j]? = some (text s count)[j] := List.getElem?_eq_getElem hj
  have hne : (text s count)[j] ≠ 0 := text_ne_zero (List.getElem_mem hj)
  rw [ht] at hr
  simp only [Option.getD_some] at hr
  have hd := decode_drop (text s count) j
  rw [ht] at hd
  simp only at hd
  generalize (text s count)[j] = a at *
  unfold pointAt pairAt
  by_cases hb2 : below count (j + 1) = true
  · rw [if_pos hb2]
    have hr2 := rd_eq hv hj hb2
    unfold isPair
    rw [hr]
    simp only
    by_cases hh : isHigh a = true
    · rw [if_pos hh, hr2]
      cases ht2 : (text s count)[j + 1]? with
      | none =>
        rw [ht2] at hd
        refine ⟨(a, 1), ?_, hne, hj, hd⟩
        simp [isLow]
      | some b =>
        rw [ht2] at hd
        have hj2 := (List.getElem?_eq_some_iff.1 ht2).1
        simp only [Option.getD_some, Option.map_some]
        cases hl : isLow b with
        | true =>
          simp only at hd
          rw [if_pos ⟨hh, hl⟩] at hd
          refine ⟨(fromPair a b, 2), rfl, ?_, hj2, hd⟩
          have := (pair_range hh hl).1
          simp only; omega
        | false =>
          simp only at hd
          rw [if_neg (by simp [hl])] at hd
          exact ⟨(a, 1), rfl, hne, hj, hd⟩
    · rw [if_neg hh]
      refine ⟨(a, 1), rfl, hne, hj, ?_⟩
      rw [hd]
      cases (text s count)[j + 1]? with
      | none => rfl
      | some b => simp only; rw [if_neg (by simp [hh])]
  · rw [if_neg hb2, hr]
    refine ⟨(a, 1), rfl, hne, hj, ?_⟩
    have : (text s count)[j + 1]? = none := not_below hj (by simpa using hb2)
    rw [hd, this]

theorem pointAt_end {s : List Int} {count : Option Nat} (hv : Valid s count) (hb : below count (text s count).length = true) :
    pointAt s count (text s count).length = some (0, 1) := by
  have hr := rd_eq hv (Nat.le_refl _) hb
  rw [List.getElem?_eq_none_iff.2 (Nat.le_refl _)] at hr
  simp only [Option.getD_none] at hr
  unfold pointAt pairAt isPair
  rw [hr]
  simp only [show isHigh 0 = false from rfl, Bool.false_eq_true, if_false, ite_self]

theorem utf16Copy_from {src : List Int} {cs cd : Option Nat} {pad : Bool} (hv : Valid src cs)
    (d : List Int) (i j : Nat) (hi : i ≤ (text src cs).length)
    (hd : match cd with | none => j + (decode ((text src cs).drop i)).length < d.length | some m => m ≤ d.length) :
    utf16Copy src cs cd pad d i j =
      let p := decode ((text src cs).drop i)
      let r := p.take (fit cd j p.length)
      let t := if r.length = p.length then term cd pad (below cs (text src cs).length) (j + r.length) else []
      some (put d j (r ++ t), j + r.length) := by
  unfold utf16Copy
  by_cases hb : below cd j = true
  · rw [if_pos hb]
    have hjd : j < d.length := by
      cases cd with
      | none => simp only at hd; omega
      | some m => simp only [below, decide_eq_true_eq] at hb; simp only at hd; omega
    by_cases hit : i < (text src cs).length
    · have hbs : below cs i = true := by
        cases cs with
        | none => rfl
        | some n => have := text_length_take src n; simp only [below, decide_eq_true_eq]; omega
      rw [if_pos hbs]
      obtain ⟨r, e1, e2, e3, e4⟩ := pointAt_text hv hit
      split
      · rename_i q; rw [e1] at q; cases q
      · rename_i r' q
        rw [e1] at q
        cases q
        unfold wr
        rw [if_pos hjd]
        simp only [if_neg e2]
        rw [e4] at hd ⊢
        rw [utf16Copy_from hv (d.set j r.1) (i + r.2) (j + 1) e3 (by
            cases cd with
            | none => simp only [List.length_set, List.length_cons] at hd ⊢; omega
            | some m => simpa using hd)]
        simp only [List.length_cons]
        generalize decode ((text src cs).drop (i + r.2)) = p
        have ef : fit cd j (p.length + 1) = fit cd (j + 1) p.length + 1 := by
          cases cd with
          | none => simp only [fit]
          | some m => simp only [below, decide_eq_true_eq] at hb; simp only [fit]; omega
        rw [ef]
        simp only [List.take_succ_cons, List.length_cons]
        obtain ⟨x, hx⟩ : ∃ x, p.take (fit cd (j + 1) p.length) = x := ⟨_, rfl⟩
        simp only [hx]
        have e5 : (x.length + 1 = p.length + 1) ↔ (x.length = p.length) := by omega
        have e6 : j + 1 + x.length = j + (x.length + 1) := by omega
        simp only [e5, e6]
        rw [put_set d j _ _ hjd, List.cons_append]
    · have hl : i = (text src cs).length := by omega
      subst hl
      simp only [List.drop_length, decode, List.take_nil, List.length_nil, if_true, List.nil_append, Nat.add_zero]
      by_cases hbs : below cs (text src cs).length = true
      · rw [if_pos hbs]
        have e1 := pointAt_end hv hbs
        split
        · rename_i q; rw [e1] at q; cases q
        · rename_i r' q
          rw [e1] at q
          cases q
          unfold wr term
          rw [if_pos hjd, hb, hbs]
          simp only [if_true, Bool.or_true, Bool.and_self]
          rw [← put_set d j 0 [] hjd, put_nil]
      · rw [if_neg hbs]
        have hbf : below cs (text src cs).length = false := by simpa using hbs
        unfold term
        rw [hb, hbf]
        cases pad with
        | true =>
          unfold wr
          rw [if_pos hjd]
          simp only [if_true, Option.map_some, Bool.or_false, Bool.and_self]
          rw [← put_set d j 0 [] hjd, put_nil]
        | false => simp [put_nil]
  · rw [if_neg hb]
    have hr : ∀ p : List Int, p.take (fit cd j p.length) = [] := by
      intro p
      cases cd with
      | none => exact absurd rfl hb
      | some m =>
        simp only [below, decide_eq_true_eq] at hb
        simp only [fit, show min p.length (m - j) = 0 by omega, List.take_zero]
    simp only [hr]
    simp only [List.length_nil, List.nil_append, Nat.add_zero]
    have : term cd pad (below cs (text src cs).length) j = [] := by unfold term; simp [hb]
    rw [this]
    simp [put_nil]
termination_by src.length - i
decreasing_by have := pointAt_lt e1; omega

theorem utf16Cmp_from {s1 s2 : List Int} {c1 c2 : Option Nat} (h1 : Valid s1 c1) (h2 : Valid s2 c2) (i j : Nat)
    (i1 : i ≤ (text s1 c1).length) (j2 : j ≤ (text s2 c2).length) :
    utf16Cmp s1 c1 s2 c2 i j = some (cmpL ((text s1 c1).drop i) (decode ((text s2 c2).drop j))) := by
  have ended : (text s1 c1)[i]? = none ∨ (text s2 c2)[j]? = none →
      utf16CmpEnd s1 c1 s2 c2 i j = some (cmpL ((text s1 c1).drop i) (decode ((text s2 c2).drop j))) := by
    intro hn
    unfold utf16CmpEnd
    rw [cond_eq h1 i1, cond_eq h2 j2]
    rw [drop_get (text s1 c1) i]
    cases t1 : (text s1 c1)[i]? with
    | none =>
      cases t2 : (text s2 c2)[j]? with
      | none => rw [List.drop_of_length_le (List.getElem?_eq_none_iff.1 t2)]; rfl
      | some y =>
        obtain ⟨r, _, _, _, e4⟩ := pointAt_text h2 (List.getElem?_eq_some_iff.1 t2).1
        rw [e4]; rfl
    | some x =>
      rcases hn with q | q
      · rw [t1] at q; cases q
      · rw [List.drop_of_length_le (List.getElem?_eq_none_iff.1 q)]; rfl
  unfold utf16Cmp
  by_cases hb : (below c1 i && below c2 j) = true
  · rw [if_pos hb]
    rw [Bool.and_eq_true] at hb
    have r1 := rd_eq h1 i1 hb.1
    rw [r1]
    simp only
    cases t1 : (text s1 c1)[i]? with
    | none =>
      simp only [Option.getD_none, if_true]
      exact ended (Or.inl t1)
    | some a =>
      simp only [Option.getD_some]
      have hlt1 := (List.getElem?_eq_some_iff.1 t1).1
      have hne : a ≠ 0 := text_ne_zero (List.mem_of_getElem? t1)
      rw [if_neg hne]
      by_cases hjl : j < (text s2 c2).length
      · obtain ⟨r, e1, e2, e3, e4⟩ := pointAt_text h2 hjl
        split
        · rename_i q; rw [e1] at q; cases q
        · rename_i r' q
          rw [e1] at q
          cases q
          rw [if_neg e2, e4, drop_get (text s1 c1) i, t1]
          simp only [cmpL]
          by_cases q : a > r.1
          · rw [if_pos q, if_pos q]
          · rw [if_neg q, if_neg q]
            by_cases q2 : a < r.1
            · rw [if_pos q2, if_pos q2]
            · rw [if_neg q2, if_neg q2]
              exact utf16Cmp_from h1 h2 (i + 1) (j + r.2) hlt1 e3
      · have ej : j = (text s2 c2).length := by omega
        subst ej
        have e1 := pointAt_end h2 hb.2
        split
        · rename_i q; rw [e1] at q; cases q
        · rename_i r' q
          rw [e1] at q
          cases q
          simp only [if_true]
          exact ended (Or.inr (List.getElem?_eq_none_iff.2 (Nat.le_refl _)))
  · rw [if_neg hb]
    refine ended ?_
    cases hc : below c1 i with
    | false => exact Or.inl (not_below i1 hc)
    | true =>
      rw [hc] at hb
      exact Or.inr (not_below j2 (by simpa using hb))
termination_by s2.length - j
decreasing_by have := pointAt_lt e1; omega

/-! ### Properties -/

/-- **C50** A supplementary code point becomes the surrogate pair of the standard, which is recognised and converted back
to it. -/
theorem toPair_roundtrip {c : Int} (h1 : 0x10000 ≤ c) (h2 : c < 0x110000) :
    [(toPair c).1, (toPair c).2] = encode1 c ∧ isHigh (toPair c).1 = true ∧ isLow (toPair c).2 = true ∧
    fromPair (toPair c).1 (toPair c).2 = c := by
  rw [toPair_eq h1 h2]
  unfold encode1 isHigh isLow fromPair
  rw [if_neg (by omega)]
  simp only [decide_eq_true_eq]
  refine ⟨trivial, ?_, ?_, ?_⟩ <;> omega

/-- **C50** A surrogate pair converted to a code point, and back, is itself. -/
theorem fromPair_roundtrip {a b : Int} (ha : isHigh a = true) (hb : isLow b = true) :
    toPair (fromPair a b) = (a, b) ∧ 0x10000 ≤ fromPair a b ∧ fromPair a b < 0x110000 := by
  have h := pair_range ha hb
  refine ⟨?_, h⟩
  rw [toPair_eq h.1 h.2]
  simp only [isHigh, isLow, decide_eq_true_eq] at ha hb
  unfold fromPair
  refine Prod.ext ?_ ?_ <;> simp only <;> omega

/-- **C50** High and low surrogates are disjoint, and neither is a scalar value. -/
theorem surrogates (c : Int) : ¬ (isHigh c ∧ isLow c) ∧ ((isHigh c ∨ isLow c) ↔ 0xd800 ≤ c ∧ c < 0xe000) := by
  simp only [isHigh, isLow, decide_eq_true_eq]
  omega

/-- **C50** The specification `decode` is a left inverse of the encoding: a well-formed text has the code points it
encodes. -/
theorem decode_encode : ∀ cs : List Int, (∀ c ∈ cs, Scalar c) → decode (cs.flatMap encode1) = cs
  | [], _ => rfl
  | c :: cs, h => by
    have hc := h c (List.mem_cons_self ..)
    have ih := decode_encode cs fun x hx => h x (List.mem_cons_of_mem _ hx)
    rw [List.flatMap_cons]
    unfold Scalar at hc
    by_cases hb : c < 0x10000
    · have e : encode1 c = [c] := by unfold encode1; rw [if_pos hb]
      rw [e, List.cons_append, List.nil_append]
      cases hx : cs.flatMap encode1 with
      | nil => rw [hx] at ih; rw [← ih]; rfl
      | cons y ys =>
        rw [hx] at ih
        unfold decode
        rw [if_neg, ih]
        simp only [isHigh, decide_eq_true_eq]; omega
    · have h1 : 0x10000 ≤ c := by omega
      obtain ⟨r1, r2, r3, r4⟩ := toPair_roundtrip h1 hc.2.1
      rw [← r1]
      simp only [List.cons_append, List.nil_append]
      unfold decode
      rw [if_pos ⟨r2, r3⟩, r4, ih]

/-- **C50** `strncpy` from UTF-16 to UTF-32: as many of the code points of the text as fit are written, a terminator if
there is room for it, and nothing else; their number is returned. -/
theorem utf16_strncpy {d src : List Int} {cd : Nat} {cs : Option Nat} (hs : Valid src cs) (hd : cd ≤ d.length) :
    utf16Copy src cs (some cd) true d 0 0 =
      some (put d 0 ((decode (text src cs)).take cd ++ (if (decode (text src cs)).length < cd then [0] else [])), min cd (decode (text src cs)).length) := by
  rw [utf16Copy_from hs d 0 0 (Nat.zero_le _) hd]
  simp only [List.drop_zero, fit, Nat.sub_zero, term, below, Nat.zero_add, List.length_take, Bool.true_or, Bool.and_true]
  generalize decode (text src cs) = p
  by_cases h : p.length < cd
  · have e : min p.length cd = p.length := by omega
    rw [if_pos h]
    simp only [e, Nat.min_self, if_true, decide_eq_true h]
    rw [List.take_of_length_le (Nat.le_refl _), List.take_of_length_le (by omega)]
    simp only [show min cd p.length = p.length by omega]
  · have e : min p.length cd = cd := by omega
    rw [if_neg h]
    simp only [e, show min cd p.length = cd by omega, Nat.lt_irrefl, decide_false, Bool.false_eq_true, if_false, ite_self]

/-- **C50** `strcpy` from UTF-16 to UTF-32 with room. -/
theorem utf16_strcpy {d src : List Int} (hs : 0 ∈ src) (hd : (decode (text src none)).length < d.length) :
    utf16Copy src none none false d 0 0 = some (put d 0 (decode (text src none) ++ [0]), (decode (text src none)).length) := by
  rw [utf16Copy_from (Or.inl hs) d 0 0 (Nat.zero_le _) (by simp only [List.drop_zero]; omega)]
  simp [fit, term, below]

/-- **C50** A well-formed terminated text: the code points come out. -/
theorem utf16_strcpy_encoded {d : List Int} (cs rest : List Int) (h : ∀ c ∈ cs, Scalar c) (hd : cs.length < d.length) :
    utf16Copy (cs.flatMap encode1 ++ 0 :: rest) none none false d 0 0 = some (put d 0 (cs ++ [0]), cs.length) := by
  have ht : text (cs.flatMap encode1 ++ 0 :: rest) none = cs.flatMap encode1 := by
    show List.takeWhile _ _ = _
    rw [List.takeWhile_append_of_pos]
    · simp
    · intro u hu
      obtain ⟨c, hc, hu⟩ := List.mem_flatMap.1 hu
      have hs := h c hc
      unfold Scalar at hs
      simp only [decide_eq_true_eq]
      unfold encode1 at hu
      split at hu
      · rw [List.mem_singleton] at hu; omega
      · simp only [List.mem_cons, List.not_mem_nil, or_false] at hu; omega
  have he := decode_encode cs h
  have := utf16_strcpy (d := d) (src := cs.flatMap encode1 ++ 0 :: rest) (by simp) (by rw [ht, he]; exact hd)
  rwa [ht, he] at this

/-- **C50** Comparison of UTF-32 with UTF-16 text is the sign of the lexicographic order of their code points. -/
theorem utf16_strncmp {s1 s2 : List Int} {c1 c2 : Option Nat} (h1 : Valid s1 c1) (h2 : Valid s2 c2) :
    ∃ r, utf16Cmp s1 c1 s2 c2 0 0 = some r ∧ Sgn r (text s1 c1) (decode (text s2 c2)) := by
  refine ⟨_, utf16Cmp_from h1 h2 0 0 (Nat.zero_le _) (Nat.zero_le _), ?_⟩
  rw [List.drop_zero, List.drop_zero]
  exact cmpL_sgn _ _

/-- Non-vacuity: U+1F600 and 'a'; a lone surrogate at the end. -/
example : toPair 0x1f600 = (0xd83d, 0xde00) ∧ utf16Copy [0xd83d, 0xde00, 97, 0xd800, 0] none (some 4) true [9, 9, 9, 9] 0 0 = some ([0x1f600, 97, 0xd800, 0], 3) ∧
    utf16Cmp [0x1f600, 0] none [0xd83d, 0xde00, 97] (some 3) 0 0 = some (-1) ∧ Scalar 0x1f600 := by
  refine ⟨by decide +kernel, by decide +kernel, by decide +kernel, by unfold Scalar; omega⟩

/-! ### Glyphs -/

/-- `iscombining`, 100-107. -/
def iscombining (c : Int) : Bool :=
  (0x0300 ≤ c ∧ c < 0x0370) ∨ (0x1dc0 ≤ c ∧ c < 0x1e00) ∨ (0x20d0 ≤ c ∧ c < 0x2100) ∨ (0xfe20 ≤ c ∧ c < 0xfe30)

/-- The blocks of combining marks: Combining Diacritical Marks, the same Supplement, for Symbols, and Combining Half Marks; sixteen to a row of the table. -/
theorem iscombining_spec (c : Int) : iscombining c = true ↔ ∃ row ∈ [0x030, 0x031, 0x032, 0x033, 0x034, 0x035, 0x036, 0x1dc, 0x1dd, 0x1de, 0x1df, 0x20d, 0x20e, 0x20f, 0xfe2], c / 16 = row := by
  simp only [iscombining, decide_eq_true_eq, List.mem_cons, List.not_mem_nil, or_false, exists_eq_or_imp, exists_eq_left]
  omega

/-- `for (; i < count && iscombining(glyph[i]); ++i);` -/
def skipMarks (s : List Int) (count i : Nat) : Option Nat :=
  if i < count then
    match h : rd s i with
    | none => none
    | some c => if iscombining c then skipMarks s count (i + 1) else some i
  else some i
termination_by s.length - i
decreasing_by have := (List.getElem?_eq_some_iff.1 h).1; omega

/-- `glyphlen` of UTF-16, 222-231. -/
def glyphlen16 (s : List Int) (count : Nat) : Option Nat :=
  if count = 0 then some 0
  else if count < 2 then skipMarks s count 1
  else
    match isPair s 0 with
    | none => none
    | some true => skipMarks s count 2
    | some false => skipMarks s count 1

/-- `glyphlen` of UTF-32, 239-248. -/
def glyphlen32 (s : List Int) (count : Nat) : Option Nat := if count = 0 then some 0 else skipMarks s count 1

/-- The loop of `glyphrlen` of UTF-16, 259-263; the argument is `i + 1`. -/
def glyphrlen16 (s : List Int) (count : Nat) : Nat → Option Nat
  | 0 => some count
  | i + 1 =>
    match rd s i with
    | none => none
    | some c =>
      if iscombining c then glyphrlen16 s count i
      else if !isLow c || i = 0 then some (count - i)
      else (rd s (i - 1)).map fun b => if isHigh b then count - (i - 1) else count - i

/-- The loop of `glyphrlen` of UTF-32, 275-279. -/
def glyphrlen32 (s : List Int) (count : Nat) : Nat → Option Nat
  | 0 => some count
  | i + 1 =>
    match rd s i with
    | none => none
    | some c => if iscombining c then glyphrlen32 s count i else some (count - (if i = 0 then i else i - 1))

theorem skip_from (pre marks rest : List Int) (i count : Nat) (hm : ∀ c ∈ marks, iscombining c = true)
    (hr : ∀ c, rest.head? = some c → iscombining c = false) (hi : pre.length ≤ i) (hi2 : i ≤ (pre ++ marks).length) (hc : count = (pre ++ marks ++ rest).length) :
    skipMarks (pre ++ marks ++ rest) count i = some (pre ++ marks).length := by
  unfold skipMarks
  by_cases h : i < (pre ++ marks).length
  · have hlt : i < count := by rw [hc, List.length_append]; omega
    rw [if_pos hlt]
    have hrd : rd (pre ++ marks ++ rest) i = some (pre ++ marks)[i] := by
      unfold rd; rw [List.getElem?_append_left h, List.getElem?_eq_getElem h]
    have hcm : iscombining (pre ++ marks)[i] = true := by
      apply hm
      rw [List.getElem_append_right hi]
      exact List.getElem_mem _
    split
    · rename_i q; rw [hrd] at q; cases q
    · rename_i c q
      rw [hrd] at q
      cases q
      rw [if_pos hcm]
      exact skip_from pre marks rest (i + 1) count hm hr (by omega) h hc
  · have e : i = (pre ++ marks).length := by omega
    by_cases hlt : i < count
    · rw [if_pos hlt]
      cases rest with
      | nil => rw [hc, List.append_nil] at hlt; omega
      | cons x xs =>
        have hrd : rd (pre ++ marks ++ x :: xs) i = some x := by
          unfold rd; rw [List.getElem?_append_right (by omega), e, Nat.sub_self]; rfl
        split
        · rename_i q; rw [hrd] at q; cases q
        · rename_i c q
          rw [hrd] at q
          cases q
          rw [if_neg (by simp [hr x rfl]), e]
    · rw [if_neg hlt, e]
termination_by count - i
decreasing_by omega

/-- **C62** (first glyph) The first glyph of UTF-16 text is a code point - one unit, or a surrogate pair - with the
combining marks that follow; its length is returned. -/
theorem glyphlen16_spec (base marks rest : List Int)
    (hb : (∃ c, base = [c] ∧ ¬ (isHigh c ∧ ∃ d, (marks ++ rest).head? = some d ∧ isLow d)) ∨ ∃ a b, base = [a, b] ∧ isHigh a = true ∧ isLow b = true)
    (hm : ∀ c ∈ marks, iscombining c = true) (hr : ∀ c, rest.head? = some c → iscombining c = false) :
    glyphlen16 (base ++ marks ++ rest) (base ++ marks ++ rest).length = some (base ++ marks).length := by
  unfold glyphlen16
  rcases hb with ⟨c, rfl, hb⟩ | ⟨a, b, rfl, ha, hl⟩
  · rw [if_neg (by simp)]
    by_cases h2 : ([c] ++ marks ++ rest).length < 2
    · rw [if_pos h2]
      exact skip_from [c] marks rest 1 _ hm hr (Nat.le_refl _) (by simp) rfl
    · rw [if_neg h2]
      have hp : isPair ([c] ++ marks ++ rest) 0 = some false := by
        unfold isPair rd
        simp only [List.append_assoc, List.cons_append, List.nil_append, List.getElem?_cons_zero]
        by_cases hh : isHigh c = true
        · rw [if_pos hh]
          cases hx : marks ++ rest with
          | nil => rw [List.append_assoc, hx] at h2; simp at h2
          | cons y ys =>
            simp only [List.getElem?_cons_succ, List.getElem?_cons_zero, Option.map_some]
            congr 1
            cases hy : isLow y with
            | false => rfl
            | true => exact absurd ⟨hh, y, by rw [hx]; rfl, hy⟩ hb
        · rw [if_neg hh]
      rw [hp]
      exact skip_from [c] marks rest 1 _ hm hr (Nat.le_refl _) (by simp) rfl
  · rw [if_neg (by simp), if_neg (by simp)]
    have hp : isPair ([a, b] ++ marks ++ rest) 0 = some true := by
      unfold isPair rd
      simp [ha, hl]
    rw [hp]
    exact skip_from [a, b] marks rest 2 _ hm hr (Nat.le_refl _) (by simp) rfl

/-- **C62** (first glyph) of UTF-32 text. -/
theorem glyphlen32_spec (c : Int) (marks rest : List Int) (hm : ∀ c ∈ marks, iscombining c = true)
    (hr : ∀ c, rest.head? = some c → iscombining c = false) :
    glyphlen32 ([c] ++ marks ++ rest) ([c] ++ marks ++ rest).length = some (1 + marks.length) := by
  unfold glyphlen32
  rw [if_neg (by simp), skip_from [c] marks rest 1 _ hm hr (Nat.le_refl _) (by simp) rfl]
  simp; omega

theorem low_not_combining {c : Int} (h : isLow c = true) : iscombining c = false := by
  simp only [isLow, iscombining, decide_eq_true_eq, decide_eq_false_iff_not] at *
  omega

theorem rlen16_from (pre base marks : List Int) (n : Nat)
    (hb : (∃ c, base = [c] ∧ iscombining c = false ∧ ¬ (isLow c ∧ ∃ d, pre.getLast? = some d ∧ isHigh d)) ∨ ∃ a b, base = [a, b] ∧ isHigh a = true ∧ isLow b = true)
    (hm : ∀ c ∈ marks, iscombining c = true) (count : Nat) (hc : count = (pre ++ base ++ marks).length) :
    ∀ k, k ≤ marks.length → n = (pre ++ base).length + k → glyphrlen16 (pre ++ base ++ marks) count n = some (base ++ marks).length := by
  intro k
  induction k generalizing n with
  | zero =>
    intro _ hn
    have hlen : (base ++ marks).length = count - pre.length := by rw [hc]; simp only [List.length_append]; omega
    rcases hb with ⟨c, rfl, h1, h2⟩ | ⟨a, b, rfl, h1, h2⟩
    · have e : n = pre.length + 1 := by rw [hn]; simp
      subst e
      unfold glyphrlen16
      have hrd : rd (pre ++ [c] ++ marks) pre.length = some c := by unfold rd; simp
      rw [hrd]
      simp only
      rw [if_neg (by simp [h1])]
      by_cases hlow : isLow c = true
      · by_cases hz : pre = []
        · subst hz; rw [if_pos (by simp), hlen]
        · have hpl : 0 < pre.length := List.length_pos_iff.2 hz
          rw [if_neg (by simp [hlow]; exact hz)]
          have hrd2 : rd (pre ++ [c] ++ marks) (pre.length - 1) = pre.getLast? := by
            unfold rd
            rw [List.append_assoc, List.getElem?_append_left (by omega), List.getLast?_eq_getElem?]
          rw [hrd2]
          cases hg : pre.getLast? with
          | none => rw [List.getLast?_eq_none_iff] at hg; exact absurd hg hz
          | some d =>
            simp only [Option.map_some]
            rw [if_neg (fun q => h2 ⟨hlow, d, hg, q⟩), hlen]
      · rw [if_pos (by simp [hlow]), hlen]
    · have e : n = pre.length + 1 + 1 := by rw [hn]; simp
      subst e
      unfold glyphrlen16
      have hrd : rd (pre ++ [a, b] ++ marks) (pre.length + 1) = some b := by unfold rd; simp
      have hrd2 : rd (pre ++ [a, b] ++ marks) pre.length = some a := by unfold rd; simp
      rw [hrd]
      simp only
      rw [if_neg (by simp [low_not_combining h2]), if_neg (by simp [h2]), Nat.add_sub_cancel, hrd2]
      simp only [Option.map_some, h1, if_true, hlen]
  | succ k ih =>
    intro hk hn
    have hlt : n - 1 < (pre ++ base ++ marks).length := by rw [hn]; simp only [List.length_append] at *; omega
    obtain ⟨m, rfl⟩ : ∃ m, n = m + 1 := ⟨n - 1, by omega⟩
    have hmk : marks[k]? = some (marks[k]'(by omega)) := List.getElem?_eq_getElem _
    have hrd : rd (pre ++ base ++ marks) m = some (marks[k]'(by omega)) := by
      unfold rd
      rw [List.getElem?_append_right (by omega), show m - (pre ++ base).length = k by omega, hmk]
    unfold glyphrlen16
    rw [hrd]
    simp only
    rw [if_pos (hm _ (List.getElem_mem _))]
    exact ih m (by omega) (by omega)

/-- **C62** (last glyph) The length of the last glyph of UTF-16 text. -/
theorem glyphrlen16_spec (pre base marks : List Int)
    (hb : (∃ c, base = [c] ∧ iscombining c = false ∧ ¬ (isLow c ∧ ∃ d, pre.getLast? = some d ∧ isHigh d)) ∨ ∃ a b, base = [a, b] ∧ isHigh a = true ∧ isLow b = true)
    (hm : ∀ c ∈ marks, iscombining c = true) :
    glyphrlen16 (pre ++ base ++ marks) (pre ++ base ++ marks).length (pre ++ base ++ marks).length = some (base ++ marks).length :=
  rlen16_from pre base marks _ hb hm _ rfl marks.length (Nat.le_refl _) (by simp only [List.length_append])

theorem rlen32_from (pre marks : List Int) (c : Int) (n : Nat) (hc : iscombining c = false)
    (hm : ∀ c ∈ marks, iscombining c = true) (count : Nat) :
    ∀ k, k ≤ marks.length → n = (pre ++ [c]).length + k →
      glyphrlen32 (pre ++ [c] ++ marks) count n = some (count - (if pre.length = 0 then pre.length else pre.length - 1)) := by
  intro k
  induction k generalizing n with
  | zero =>
    intro _ hn
    have e : n = pre.length + 1 := by rw [hn]; simp
    subst e
    unfold glyphrlen32
    have hrd : rd (pre ++ [c] ++ marks) pre.length = some c := by unfold rd; simp
    rw [hrd]
    simp only
    rw [if_neg (by simp [hc])]
  | succ k ih =>
    intro hk hn
    obtain ⟨m, rfl⟩ : ∃ m, n = m + 1 := ⟨n - 1, by omega⟩
    have hmk : marks[k]? = some (marks[k]'(by omega)) := List.getElem?_eq_getElem _
    have hrd : rd (pre ++ [c] ++ marks) m = some (marks[k]'(by omega)) := by
      unfold rd
      rw [List.getElem?_append_right (by omega), show m - (pre ++ [c]).length = k by omega, hmk]
    unfold glyphrlen32
    rw [hrd]
    simp only
    rw [if_pos (hm _ (List.getElem_mem _))]
    exact ih m (by omega) (by omega)

/-- **C62** (last glyph of UTF-32; partial: a text of one glyph) Missing: longer texts, for which the result is wrong, see
`glyphrlen32_wrong`. -/
theorem glyphrlen32_partial (c : Int) (marks : List Int) (hc : iscombining c = false) (hm : ∀ c ∈ marks, iscombining c = true) :
    glyphrlen32 ([c] ++ marks) ([c] ++ marks).length ([c] ++ marks).length = some (1 + marks.length) := by
  have := rlen32_from [] marks c (([c] ++ marks).length) hc hm ([c] ++ marks).length marks.length (Nat.le_refl _) (by simp; omega)
  simp only [List.nil_append] at this
  rw [this]
  simp; omega

/-- **C62** (defect) With anything before the last glyph, the result is one too many: it includes the code point before. -/
theorem glyphrlen32_wrong (pre marks : List Int) (c : Int) (hp : pre ≠ []) (hc : iscombining c = false) (hm : ∀ c ∈ marks, iscombining c = true) :
    glyphrlen32 (pre ++ [c] ++ marks) (pre ++ [c] ++ marks).length (pre ++ [c] ++ marks).length = some (1 + marks.length + 1) := by
  have hl : 0 < pre.length := List.length_pos_iff.2 hp
  rw [rlen32_from pre marks c _ hc hm _ marks.length (Nat.le_refl _) (by simp only [List.length_append]), if_neg (by omega)]
  simp only [List.length_append, List.length_cons, List.length_nil]
  exact congrArg some (by omega)

example : glyphlen16 [0xd83d, 0xde00, 0x301, 97] 4 = some 3 ∧ glyphrlen16 [97, 0xd83d, 0xde00, 0x301] 4 4 = some 3 ∧
    glyphlen32 [0x1f600, 0x301, 97] 3 = some 2 ∧ glyphrlen32 [97, 98] 2 2 = some 2 := by decide +kernel

end Verif.Str
