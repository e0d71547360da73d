import Verif.Str.Copy
/-
Line-break conversion and line-break recognition (include/stdex/string.hpp 114-137, 1903-1962). Conventions as in
`Verif.Str.Find`.
-/
namespace Verif.Str

/-- `src[j] != '\r' || src[j + 1] != '\n'`, with `c = src[j]`; undefined if it reads past the memory. -/
def notCrLf (src : List Int) (j : Nat) (c : Int) : Option Bool :=
  if c ≠ 13 then some true else (rd src (j + 1)).map fun c2 => decide (c2 ≠ 10)

/-- `crlf2nl` to a buffer, 1904-1919. -/
def crlf2nl (d src : List Int) (i j : Nat) : Option (List Int × Nat) :=
  match h : rd src j with
  | none => none
  | some c =>
    if c = 0 then (wr d i 0).map fun d' => (d', i)
    else
      match notCrLf src j c with
      | none => none
      | some true => (wr d i c).bind fun d' => crlf2nl d' src (i + 1) (j + 1)
      | some false => (wr d i 10).bind fun d' => crlf2nl d' src (i + 1) (j + 2)
termination_by src.length - j
decreasing_by all_goals (have := (List.getElem?_eq_some_iff.1 h).1; omega)

/-- `crlf2nl` to a `std::basic_string`, 1928-1942. -/
def crlf2nlS (src : List Int) (dst : List Int) (j : Nat) : Option (List Int) :=
  match h : rd src j with
  | none => none
  | some c =>
    if c = 0 then some dst
    else
      match notCrLf src j c with
      | none => none
      | some true => crlf2nlS src (dst ++ [c]) (j + 1)
      | some false => crlf2nlS src (dst ++ [10]) (j + 2)
termination_by src.length - j
decreasing_by all_goals (have := (List.getElem?_eq_some_iff.1 h).1; omega)

/-- `str[j]` of a `std::basic_string`: index `size()` is the terminator. -/
def rdS (s : List Int) (j : Nat) : Option Int := (s ++ [0])[j]?

/-- `crlf2nl` within a `std::basic_string`, 1950-1962. -/
def crlf2nlIn (s : List Int) (i j : Nat) : Option (List Int) :=
  if h : j < s.length then
    match rdS s j with
    | none => none
    | some c =>
      if c ≠ 13 then crlf2nlIn (s.set i c) (i + 1) (j + 1)
      else
        match rdS s (j + 1) with
        | none => none
        | some c2 => if c2 ≠ 10 then crlf2nlIn (s.set i c) (i + 1) (j + 1) else crlf2nlIn (s.set i 10) (i + 1) (j + 2)
  else some (s.take i)
termination_by s.length - j
decreasing_by all_goals (simp only [List.length_set]; omega)

/-! ### Specification -/

/-- The text with each CR LF pair replaced by LF. -/
def collapse : List Int → List Int
  | [] => []
  | [c] => [c]
  | a :: b :: r => if a = 13 ∧ b = 10 then 10 :: collapse r else a :: collapse (b :: r)

/-! ### Proofs -/

theorem collapse_length : ∀ t : List Int, (collapse t).length ≤ t.length
  | [] => Nat.le_refl _
  | [c] => Nat.le_refl _
  | a :: b :: r => by
    unfold collapse
    split
    · have := collapse_length r; simp only [List.length_cons]; omega
    · have := collapse_length (b :: r); simp only [List.length_cons] at *; omega

/-- What `collapse` does at an index. -/
theorem collapse_drop (t : List Int) (j : Nat) : collapse (t.drop j) = match t[j]? with
    | none => []
    | some c => if c = 13 ∧ t[j + 1]? = some 10 then 10 :: collapse (t.drop (j + 2)) else c :: collapse (t.drop (j + 1)) := by
  cases h : t[j]? with
  | none => rw [List.drop_of_length_le (List.getElem?_eq_none_iff.1 h)]; rfl
  | some c =>
    obtain ⟨hl, e⟩ := List.getElem?_eq_some_iff.1 h
    rw [List.drop_eq_getElem_cons hl, e]
    cases h2 : t[j + 1]? with
    | none =>
      rw [List.drop_of_length_le (List.getElem?_eq_none_iff.1 h2)]
      simp [collapse]
    | some c2 =>
      obtain ⟨hl2, e2⟩ := List.getElem?_eq_some_iff.1 h2
      rw [List.drop_eq_getElem_cons hl2, e2]
      simp only [collapse, Option.some.injEq]

theorem rd_text {s : List Int} (hv : 0 ∈ s) {i : Nat} (hi : i ≤ (text s none).length) : rd s i = some ((text s none)[i]?.getD 0) := by
  have h := cond_eq (Or.inl hv : Valid s none) hi
  unfold cond at h
  rw [if_pos (show below none i = true from rfl)] at h
  cases hr : rd s i with
  | none => rw [hr] at h; cases h
  | some c =>
    rw [hr] at h
    simp only [Option.map_some, Option.some.injEq] at h
    rw [← h]
    by_cases q : c = 0 <;> simp [q]

theorem notCrLf_text {src : List Int} (hv : 0 ∈ src) {j : Nat} {c : Int} (hc : (text src none)[j]? = some c) :
    notCrLf src j c = some (!decide (c = 13 ∧ (text src none)[j + 1]? = some 10)) := by
  have hlt := (List.getElem?_eq_some_iff.1 hc).1
  unfold notCrLf
  by_cases h : c = 13
  · rw [if_neg (by simpa using h), rd_text hv hlt]
    cases h2 : (text src none)[j + 1]? with
    | none => simp [h]
    | some c2 => simp [h]
  · rw [if_pos h]; simp [h]

theorem crlf_from {src : List Int} (hv : 0 ∈ src) (d : List Int) (i j : Nat) (hj : j ≤ (text src none).length)
    (hd : i + (collapse ((text src none).drop j)).length < d.length) :
    crlf2nl d src i j = some (put d i (collapse ((text src none).drop j) ++ [0]), i + (collapse ((text src none).drop j)).length) := by
  have hr := rd_text hv hj
  have hcd := collapse_drop (text src none) j
  unfold crlf2nl
  split
  · rename_i q; rw [hr] at q; cases q
  · rename_i c q
    rw [hr] at q
    simp only [Option.some.injEq] at q
    cases ht : (text src none)[j]? with
    | none =>
      rw [ht] at q hcd; simp only [Option.getD_none] at q; subst q
      rw [hcd] at hd ⊢
      simp only [List.length_nil, Nat.add_zero] at hd
      rw [if_pos rfl]
      unfold wr
      rw [if_pos hd, Option.map_some, List.nil_append, ← put_set d i 0 [] hd, put_nil]; rfl
    | some c' =>
      rw [ht] at q hcd; simp only [Option.getD_some] at q; subst q
      have hlt := (List.getElem?_eq_some_iff.1 ht).1
      have hne : c' ≠ 0 := text_ne_zero (List.mem_of_getElem? ht)
      rw [if_neg hne, notCrLf_text hv ht]
      simp only at hcd
      by_cases hp : c' = 13 ∧ (text src none)[j + 1]? = some 10
      · rw [if_pos hp] at hcd
        rw [hcd] at hd ⊢
        simp only [List.length_cons] at hd
        have hlt2 := (List.getElem?_eq_some_iff.1 hp.2).1
        rw [decide_eq_true hp]
        have hid : i < d.length := by omega
        simp only [Bool.not_true]
        unfold wr
        rw [if_pos hid, Option.bind_some, crlf_from hv (d.set i 10) (i + 1) (j + 2) (by omega) (by simp only [List.length_set]; omega)]
        rw [put_set d i _ _ hid, List.cons_append, List.length_cons, show i + 1 + (collapse (List.drop (j + 2) (text src none))).length = i + ((collapse (List.drop (j + 2) (text src none))).length + 1) by omega]
      · rw [if_neg hp] at hcd
        rw [hcd] at hd ⊢
        simp only [List.length_cons] at hd
        rw [decide_eq_false hp]
        have hid : i < d.length := by omega
        simp only [Bool.not_false]
        unfold wr
        rw [if_pos hid, Option.bind_some, crlf_from hv (d.set i c') (i + 1) (j + 1) hlt (by simp only [List.length_set]; omega)]
        rw [put_set d i _ _ hid, List.cons_append, List.length_cons, show i + 1 + (collapse (List.drop (j + 1) (text src none))).length = i + ((collapse (List.drop (j + 1) (text src none))).length + 1) by omega]
termination_by src.length - j
decreasing_by all_goals (have := text_length_le src none; omega)

theorem crlfS_from {src : List Int} (hv : 0 ∈ src) (dst : List Int) (j : Nat) (hj : j ≤ (text src none).length) :
    crlf2nlS src dst j = some (dst ++ collapse ((text src none).drop j)) := by
  have hr := rd_text hv hj
  have hcd := collapse_drop (text src none) j
  unfold crlf2nlS
  split
  · rename_i q; rw [hr] at q; cases q
  · rename_i c q
    rw [hr] at q
    simp only [Option.some.injEq] at q
    cases ht : (text src none)[j]? with
    | none =>
      rw [ht] at q hcd; simp only [Option.getD_none] at q; subst q
      rw [hcd, if_pos rfl, List.append_nil]
    | some c' =>
      rw [ht] at q hcd; simp only [Option.getD_some] at q; subst q
      have hlt := (List.getElem?_eq_some_iff.1 ht).1
      rw [if_neg (text_ne_zero (List.mem_of_getElem? ht)), notCrLf_text hv ht]
      simp only at hcd
      by_cases hp : c' = 13 ∧ (text src none)[j + 1]? = some 10
      · have hlt2 := (List.getElem?_eq_some_iff.1 hp.2).1
        rw [if_pos hp] at hcd
        rw [hcd, decide_eq_true hp]
        simp only [Bool.not_true]
        rw [crlfS_from hv (dst ++ [10]) (j + 2) (by omega), List.append_assoc]; rfl
      · rw [if_neg hp] at hcd
        rw [hcd, decide_eq_false hp]
        simp only [Bool.not_false]
        rw [crlfS_from hv (dst ++ [c']) (j + 1) hlt, List.append_assoc]; rfl
termination_by src.length - j
decreasing_by all_goals (have := text_length_le src none; omega)

theorem take_set_succ (s : List Int) (i : Nat) (c : Int) (h : i < s.length) : (s.set i c).take (i + 1) = s.take i ++ [c] := by
  rw [List.take_succ_eq_append_getElem (by simpa using h), List.take_set_of_le (Nat.le_refl _)]
  simp

theorem crlfIn_from (s : List Int) (i j : Nat) (hij : i ≤ j) : crlf2nlIn s i j = some (s.take i ++ collapse (s.drop j)) := by
  have hcd := collapse_drop s j
  unfold crlf2nlIn
  by_cases h : j < s.length
  · rw [dif_pos h]
    have hr : rdS s j = some s[j] := by unfold rdS; rw [List.getElem?_append_left h, List.getElem?_eq_getElem h]
    rw [List.getElem?_eq_getElem h] at hcd
    simp only at hcd
    rw [hr]
    simp only
    generalize s[j] = c at *
    have step1 : ¬ (c = 13 ∧ s[j + 1]? = some 10) → crlf2nlIn (s.set i c) (i + 1) (j + 1) = some (s.take i ++ collapse (s.drop j)) := by
      intro hp
      rw [if_neg hp] at hcd
      rw [hcd, crlfIn_from (s.set i c) (i + 1) (j + 1) (by omega), take_set_succ s i c (by omega), List.drop_set_of_lt (by omega), List.append_assoc]; rfl
    by_cases hc : c = 13
    · rw [if_neg (by simpa using hc)]
      have hr2 : rdS s (j + 1) = some (s[j + 1]?.getD 0) := by
        unfold rdS
        by_cases q : j + 1 < s.length
        · rw [List.getElem?_append_left q, List.getElem?_eq_getElem q]; rfl
        · rw [List.getElem?_append_right (by omega), List.getElem?_eq_none_iff.2 (show s.length ≤ j + 1 by omega), show j + 1 - s.length = 0 by omega]; rfl
      rw [hr2]
      simp only
      by_cases hp : s[j + 1]? = some 10
      · rw [hp]
        simp only [Option.getD_some, ne_eq, not_true, if_false]
        rw [if_pos ⟨hc, hp⟩] at hcd
        have hlt2 := (List.getElem?_eq_some_iff.1 hp).1
        rw [hcd, crlfIn_from (s.set i 10) (i + 1) (j + 2) (by omega), take_set_succ s i 10 (by omega), List.drop_set_of_lt (by omega), List.append_assoc]; rfl
      · rw [if_pos, step1 (fun q => hp q.2)]
        intro q
        cases hq : s[j + 1]? with
        | none => rw [hq] at q; cases q
        | some x => rw [hq] at q hp; simp only [Option.getD_some] at q; exact hp (congrArg some q)
    · rw [if_pos hc, step1 (fun q => hc q.1)]
  · rw [dif_neg h, List.getElem?_eq_none_iff.2 (by omega)] at *
    rw [hcd, List.append_nil]
termination_by s.length - j
decreasing_by all_goals (simp only [List.length_set]; omega)

/-! ### Properties -/

/-- **C48** To a buffer as long as the source with its terminator: the converted text and a terminator are written, nothing
else, and its length is returned; it is never longer than the source. -/
theorem crlf2nl_spec {d src : List Int} (hv : 0 ∈ src) (hd : (text src none).length < d.length) :
    crlf2nl d src 0 0 = some (put d 0 (collapse (text src none) ++ [0]), (collapse (text src none)).length) ∧
    (collapse (text src none)).length ≤ (text src none).length := by
  have hl := collapse_length (text src none)
  refine ⟨?_, hl⟩
  have := crlf_from hv d 0 0 (Nat.zero_le _) (by rw [List.drop_zero]; omega)
  rwa [List.drop_zero, Nat.zero_add] at this

/-- **C48** To a `std::basic_string`. -/
theorem crlf2nlS_spec {src : List Int} (hv : 0 ∈ src) : crlf2nlS src [] 0 = some (collapse (text src none)) := by
  have := crlfS_from hv [] 0 (Nat.zero_le _)
  rwa [List.drop_zero, List.nil_append] at this

/-- **C48** Within a `std::basic_string`, NUL characters included. -/
theorem crlf2nlIn_spec (s : List Int) : crlf2nlIn s 0 0 = some (collapse s) := by
  have := crlfIn_from s 0 0 (Nat.le_refl _)
  rwa [List.drop_zero, List.take_zero, List.nil_append] at this

/-- **C48** The specification, in words: characters before a pair, the pair, and the rest are converted in turn; a text
without a pair is unchanged. -/
theorem collapse_pair (a b : List Int) (ha : ∀ i : Nat, ¬ (a[i]? = some 13 ∧ a[i + 1]? = some 10)) (hl : a.getLast? ≠ some 13 ∨ b.head? ≠ some 10) :
    collapse (a ++ b) = a ++ collapse b := by
  induction a with
  | nil => rfl
  | cons x xs ih =>
    have hx : ∀ i : Nat, ¬ (xs[i]? = some 13 ∧ xs[i + 1]? = some 10) := fun i => ha (i + 1)
    cases xs with
    | nil =>
      cases b with
      | nil => rfl
      | cons y ys =>
        simp only [List.cons_append, List.nil_append, collapse]
        rw [if_neg]
        rintro ⟨rfl, rfl⟩
        simp at hl
    | cons y ys =>
      have hl' : (y :: ys).getLast? ≠ some 13 ∨ b.head? ≠ some 10 := by simpa using hl
      have := ih hx hl'
      simp only [List.cons_append, collapse] at this ⊢
      rw [if_neg (by have := ha 0; simpa using this), this]

theorem collapse_crlf (b : List Int) : collapse (13 :: 10 :: b) = 10 :: collapse b := by simp [collapse]

theorem collapse_none (a : List Int) (ha : ∀ i : Nat, ¬ (a[i]? = some 13 ∧ a[i + 1]? = some 10)) : collapse a = a := by
  have := collapse_pair a [] ha (Or.inr (by simp))
  simpa [collapse] using this

/-- Non-vacuity: CR CR LF a LF CR. -/
example : crlf2nl [9, 9, 9, 9, 9, 9, 9] [13, 13, 10, 97, 10, 13, 0] 0 0 = some ([13, 10, 97, 10, 13, 0, 9], 5) ∧
    crlf2nlIn [13, 10, 0, 13, 10] 0 0 = some [10, 0, 10] := by decide +kernel

/-! ### `islbreak` -/

/-- `islbreak` of a pointer and a count, 129-137; the second character is read only behind CR or LF. -/
def islbreakN (s : List Int) (count : Nat) : Option Nat :=
  if 2 ≤ count then
    match rd s 0 with
    | none => none
    | some a =>
      if a = 13 ∨ a = 10 then
        match rd s 1 with
        | none => none
        | some b => if (a = 13 ∧ b = 10) ∨ (a = 10 ∧ b = 13) then some 2 else some 1
      else some 0
  else some 0

/-- **C62** (line breaks; partial: two or more characters) With two characters or more, `islbreak` returns the length of
the line break at the start: CR LF and LF CR are one. Missing: a line break as the only character, see
`islbreak_last`. -/
theorem islbreak_partial (a b : Int) (r : List Int) (n : Nat) (hn : 2 ≤ n) :
    islbreakN (a :: b :: r) n = some (if islbreak a ∧ islbreak b ∧ a ≠ b then 2 else if islbreak a then 1 else 0) := by
  unfold islbreakN islbreak rd
  rw [if_pos hn]
  simp only [List.getElem?_cons_zero, List.getElem?_cons_succ, decide_eq_true_eq]
  by_cases h2 : a = 13 ∨ a = 10
  · rw [if_pos h2]
    by_cases h : (a = 13 ∧ b = 10) ∨ (a = 10 ∧ b = 13)
    · rw [if_pos h, if_pos (by omega)]
    · rw [if_neg h, if_neg (by omega), if_pos (by omega)]
  · rw [if_neg h2, if_neg (by omega), if_neg (by omega)]

/-- **C62** (defect) A line break that is the last character is not recognised. -/
theorem islbreak_last : islbreakN [10] 1 = some 0 := rfl

end Verif.Str
