import Verif.Str.Find
/-
Comparison functions (include/stdex/string.hpp 885-968, 1033-1125, 1135-1329). Conventions as in `Verif.Str.Find`.

Characters of two types are compared as the integers they are promoted to; comparing a signed type with a 32-bit
unsigned one, where the promotion wraps, is not modelled. `strnicmp` for arrays (1306-1329) lacks its return
statement: not modelled.
-/
namespace Verif.Str

/-- `strcmp` 886-898, `strncmp` with one count 910-922. -/
def strncmp1 (s1 s2 : List Int) (count : Option Nat) (i : Nat := 0) : Option Int :=
  if below count i then
    match h : rd s1 i, rd s2 i with
    | some a, some b =>
      if a ≠ 0 ∨ b ≠ 0 then
        if a > b then some 1
        else if a < b then some (-1)
        else strncmp1 s1 s2 count (i + 1)
      else if a ≠ 0 then some 1 else if b ≠ 0 then some (-1) else some 0
    | _, _ => none
  else some 0
termination_by s1.length - i
decreasing_by have := (List.getElem?_eq_some_iff.1 h).1; omega

/-- After the loop of `strncmp2`, 949-951. -/
def strncmp2End (s1 : List Int) (c1 : Option Nat) (s2 : List Int) (c2 : Option Nat) (i : Nat) : Option Int :=
  match cond s1 c1 i with
  | none => none
  | some (some _) => some 1
  | some none =>
    match cond s2 c2 i with
    | none => none
    | some (some _) => some (-1)
    | some none => some 0

/-- `strncmp` with two counts 935-952; with `f`, `g` the `tolower` of each string: `stricmp` 1136-1174, `strnicmp`
1186-1295 (where there is one count it is `c1 = c2`). -/
def strncmp2 (f g : Int → Int) (s1 : List Int) (c1 : Option Nat) (s2 : List Int) (c2 : Option Nat) (i : Nat := 0) : Option Int :=
  if below c1 i && below c2 i then
    match h : rd s1 i, rd s2 i with
    | some a, some b =>
      if f a = 0 ∧ g b = 0 then some 0
      else if f a > g b then some 1
      else if f a < g b then some (-1)
      else strncmp2 f g s1 c1 s2 c2 (i + 1)
    | _, _ => none
  else strncmp2End s1 c1 s2 c2 i
termination_by s1.length - i
decreasing_by have := (List.getElem?_eq_some_iff.1 h).1; omega

/-- The loop of `strrcmp`, 1042-1049. -/
def strrcmpGo (s1 s2 : List Int) : Nat → Nat → Option Int
  | i + 1, j + 1 =>
    match rd s1 i, rd s2 j with
    | some a, some b =>
      if a > b then some 1
      else if a < b then some (-1)
      else strrcmpGo s1 s2 i j
    | _, _ => none
  | i, j => if i ≠ 0 ∧ j = 0 then some 1 else if i = 0 ∧ j ≠ 0 then some (-1) else some 0

/-- `strrcmp` 1034-1050, `strrncmp` 1062-1109. -/
def strrcmp (s1 : List Int) (c1 : Option Nat) (s2 : List Int) (c2 : Option Nat) : Option Int :=
  match strnlen s1 c1, strnlen s2 c2 with
  | some i, some j => strrcmpGo s1 s2 i j
  | _, _ => none

/-! ### Specification -/

/-- The sign of a comparison, by the lexicographic order of lists. -/
def Sgn (r : Int) (a b : List Int) : Prop := (r = -1 ∧ a < b) ∨ (r = 0 ∧ a = b) ∨ (r = 1 ∧ b < a)

/-! ### Proofs -/

/-- Comparison by structural recursion. -/
def cmpL : List Int → List Int → Int
  | [], [] => 0
  | [], _ :: _ => -1
  | _ :: _, [] => 1
  | a :: x, b :: y => if a > b then 1 else if a < b then -1 else cmpL x y

theorem cmpL_sgn : ∀ a b : List Int, Sgn (cmpL a b) a b
  | [], [] => Or.inr (Or.inl ⟨rfl, rfl⟩)
  | [], _ :: _ => Or.inl ⟨rfl, List.nil_lt_cons _ _⟩
  | _ :: _, [] => Or.inr (Or.inr ⟨rfl, List.nil_lt_cons _ _⟩)
  | a :: x, b :: y => by
    unfold cmpL
    by_cases h : a > b
    · rw [if_pos h]; exact Or.inr (Or.inr ⟨rfl, List.cons_lt_cons_iff.2 (Or.inl h)⟩)
    · rw [if_neg h]
      by_cases h2 : a < b
      · rw [if_pos h2]; exact Or.inl ⟨rfl, List.cons_lt_cons_iff.2 (Or.inl h2)⟩
      · rw [if_neg h2]
        have e : a = b := by omega
        subst e
        rcases cmpL_sgn x y with ⟨q, h⟩ | ⟨q, h⟩ | ⟨q, h⟩
        · exact Or.inl ⟨q, List.cons_lt_cons_iff.2 (Or.inr ⟨rfl, h⟩)⟩
        · exact Or.inr (Or.inl ⟨q, by rw [h]⟩)
        · exact Or.inr (Or.inr ⟨q, List.cons_lt_cons_iff.2 (Or.inr ⟨rfl, h⟩)⟩)

/-- A read at the end of the text, or before, is of the text or the terminator. -/
theorem rd_eq {s : List Int} {count : Option Nat} (hv : Valid s count) {i : Nat} (hi : i ≤ (text s count).length)
    (hb : below count i = true) : rd s i = some ((text s count)[i]?.getD 0) := by
  have h := cond_eq hv hi
  unfold cond at h
  rw [if_pos hb] at h
  cases hr : rd s i with
  | none => rw [hr] at h; cases h
  | some c =>
    rw [hr] at h
    simp only [Option.map_some, Option.some.injEq] at h
    rw [← h]
    by_cases q : c = 0 <;> simp [q]

theorem not_below {s : List Int} {count : Option Nat} {i : Nat} (hi : i ≤ (text s count).length)
    (hb : below count i = false) : (text s count)[i]? = none := by
  cases count with
  | none => cases hb
  | some n =>
    simp only [below, decide_eq_false_iff_not] at hb
    have := text_length_take s n
    exact List.getElem?_eq_none_iff.2 (by omega)

theorem drop_get (l : List Int) (i : Nat) : l.drop i = match l[i]? with | none => [] | some c => c :: l.drop (i + 1) := by
  cases h : l[i]? with
  | none => exact List.drop_of_length_le (List.getElem?_eq_none_iff.1 h)
  | some c =>
    obtain ⟨hl, e⟩ := List.getElem?_eq_some_iff.1 h
    rw [List.drop_eq_getElem_cons hl, e]

/-- What the code computes: as `cmpL`, but a string that ends before the other one does is compared as if a 0 followed, if
it ends in a terminator (`p`, `q`) and not by its count. -/
def cmpR (p q : Bool) : List Int → List Int → Int
  | [], [] => 0
  | [], b :: _ => if p ∧ 0 > b then 1 else -1
  | a :: _, [] => if q ∧ a < 0 then -1 else 1
  | a :: x, b :: y => if a > b then 1 else if a < b then -1 else cmpR p q x y

/-- The string ends in a terminator before its count. -/
def Terminated (s : List Int) (count : Option Nat) : Bool := below count (text s count).length

theorem strncmp2_from (f g : Int → Int) {s1 s2 : List Int} {c1 c2 : Option Nat} (h1 : Valid s1 c1) (h2 : Valid s2 c2)
    (hf : ∀ c ∈ text s1 c1, f c ≠ 0) (hg : ∀ c ∈ text s2 c2, g c ≠ 0) (f0 : f 0 = 0) (g0 : g 0 = 0) (i : Nat)
    (i1 : i ≤ (text s1 c1).length) (i2 : i ≤ (text s2 c2).length) :
    strncmp2 f g s1 c1 s2 c2 i =
      some (cmpR (Terminated s1 c1) (Terminated s2 c2) (((text s1 c1).drop i).map f) (((text s2 c2).drop i).map g)) := by
  have d1 := drop_get (text s1 c1) i
  have d2 := drop_get (text s2 c2) i
  unfold strncmp2
  by_cases hb : (below c1 i && below c2 i) = true
  · rw [if_pos hb]
    rw [Bool.and_eq_true] at hb
    have r1 := rd_eq h1 i1 hb.1
    have r2 := rd_eq h2 i2 hb.2
    split
    · rename_i a b ha hb'
      rw [r1] at ha; rw [r2] at hb'
      simp only [Option.some.injEq] at ha hb'
      cases t1 : (text s1 c1)[i]? with
      | none =>
        have e1 : Terminated s1 c1 = true := by
          have : i = (text s1 c1).length := by have := List.getElem?_eq_none_iff.1 t1; omega
          unfold Terminated; rw [← this]; exact hb.1
        rw [t1] at d1 ha; simp only [Option.getD_none] at ha; subst ha
        cases t2 : (text s2 c2)[i]? with
        | none =>
          rw [t2] at d2 hb'; simp only [Option.getD_none] at hb'; subst hb'
          rw [d1, d2, if_pos ⟨f0, g0⟩]; rfl
        | some y =>
          rw [t2] at d2 hb'; simp only [Option.getD_some] at hb'; subst hb'
          have := hg y (List.mem_of_getElem? t2)
          rw [d1, d2, if_neg (fun q => this q.2), f0, e1]
          simp only [List.map_nil, List.map_cons, cmpR, true_and]
          by_cases q : (0 : Int) > g y
          · rw [if_pos q, if_pos q]
          · rw [if_neg q, if_neg q, if_pos (by omega)]
      | some x =>
        rw [t1] at d1 ha; simp only [Option.getD_some] at ha; subst ha
        have hx := hf x (List.mem_of_getElem? t1)
        cases t2 : (text s2 c2)[i]? with
        | none =>
          have e2 : Terminated s2 c2 = true := by
            have : i = (text s2 c2).length := by have := List.getElem?_eq_none_iff.1 t2; omega
            unfold Terminated; rw [← this]; exact hb.2
          rw [t2] at d2 hb'; simp only [Option.getD_none] at hb'; subst hb'
          rw [d1, d2, if_neg (fun q => hx q.1), g0, e2]
          simp only [List.map_nil, List.map_cons, cmpR, true_and]
          by_cases q : f x > 0
          · rw [if_pos q, if_neg (by omega)]
          · rw [if_neg q, if_pos (by omega), if_pos (by omega)]
        | some y =>
          rw [t2] at d2 hb'; simp only [Option.getD_some] at hb'; subst hb'
          have hlt1 := (List.getElem?_eq_some_iff.1 t1).1
          have hlt2 := (List.getElem?_eq_some_iff.1 t2).1
          rw [d1, d2, if_neg (fun q => hx q.1)]
          simp only [List.map_cons, cmpR]
          by_cases q : f x > g y
          · rw [if_pos q, if_pos q]
          · rw [if_neg q, if_neg q]
            by_cases q2 : f x < g y
            · rw [if_pos q2, if_pos q2]
            · rw [if_neg q2, if_neg q2]
              exact strncmp2_from f g h1 h2 hf hg f0 g0 (i + 1) hlt1 hlt2
    · rename_i hx
      exact (hx _ _ r1 r2).elim
  · rw [if_neg hb]
    unfold strncmp2End
    rw [cond_eq h1 i1, cond_eq h2 i2, d1, d2]
    cases hc : below c1 i with
    | false =>
      rw [not_below i1 hc]
      cases t2 : (text s2 c2)[i]? with
      | none => rfl
      | some y =>
        have e : Terminated s1 c1 = false := by
          have := List.getElem?_eq_none_iff.1 (not_below i1 hc)
          have : i = (text s1 c1).length := by omega
          unfold Terminated; rw [← this]; exact hc
        rw [e]; simp [cmpR]
    | true =>
      have hc2 : below c2 i = false := by rw [hc] at hb; simpa using hb
      rw [not_below i2 hc2]
      cases t1 : (text s1 c1)[i]? with
      | none => rfl
      | some x =>
        have e : Terminated s2 c2 = false := by
          have := List.getElem?_eq_none_iff.1 (not_below i2 hc2)
          have : i = (text s2 c2).length := by omega
          unfold Terminated; rw [← this]; exact hc2
        rw [e]; simp [cmpR]
termination_by s1.length - i
decreasing_by have := text_length_le s1 c1; omega

/-- `strcmp` and the one-count `strncmp` compute what the other form does. -/
theorem strncmp1_eq (s1 s2 : List Int) (count : Option Nat) (i : Nat) :
    strncmp1 s1 s2 count i = strncmp2 id id s1 count s2 count i := by
  unfold strncmp1 strncmp2
  by_cases hb : below count i = true
  · rw [if_pos hb, if_pos (by simp [hb])]
    cases h1 : rd s1 i with
    | none => rfl
    | some a =>
      cases h2 : rd s2 i with
      | none => rfl
      | some b =>
        simp only [id]
        by_cases hz : a = 0 ∧ b = 0
        · obtain ⟨rfl, rfl⟩ := hz; simp
        · rw [if_pos (by omega), if_neg hz]
          by_cases q : a > b
          · rw [if_pos q, if_pos q]
          · rw [if_neg q, if_neg q]
            by_cases q2 : a < b
            · rw [if_pos q2, if_pos q2]
            · rw [if_neg q2, if_neg q2]
              exact strncmp1_eq s1 s2 count (i + 1)
  · rw [if_neg hb, if_neg (by simp [hb])]
    unfold strncmp2End cond
    rw [if_neg hb, if_neg hb]
termination_by s1.length - i
decreasing_by have := (List.getElem?_eq_some_iff.1 h1).1; omega

theorem cmpR_pos (p q : Bool) : ∀ a b : List Int, (∀ c ∈ a, 0 < c) → (∀ c ∈ b, 0 < c) → cmpR p q a b = cmpL a b
  | [], [], _, _ => rfl
  | [], b :: y, _, h2 => by
    have := h2 b (List.mem_cons_self ..)
    unfold cmpR cmpL
    rw [if_neg (by omega)]
  | a :: x, [], h1, _ => by
    have := h1 a (List.mem_cons_self ..)
    unfold cmpR cmpL
    rw [if_neg (by omega)]
  | a :: x, b :: y, h1, h2 => by
    unfold cmpR cmpL
    rw [cmpR_pos p q x y (fun c hc => h1 c (List.mem_cons_of_mem _ hc)) (fun c hc => h2 c (List.mem_cons_of_mem _ hc))]

theorem cmpR_terminated : ∀ a b : List Int, (∀ c ∈ a, c ≠ 0) → (∀ c ∈ b, c ≠ 0) → cmpR true true a b = cmpL (a ++ [0]) (b ++ [0])
  | [], [], _, _ => rfl
  | [], b :: y, _, h2 => by
    have := h2 b (List.mem_cons_self ..)
    simp only [cmpR, List.nil_append, List.cons_append, cmpL, true_and]
    by_cases q : (0 : Int) > b
    · rw [if_pos q, if_pos q]
    · rw [if_neg q, if_neg q, if_pos (by omega)]
  | a :: x, [], h1, _ => by
    have := h1 a (List.mem_cons_self ..)
    simp only [cmpR, List.nil_append, List.cons_append, cmpL, true_and]
    by_cases q : a > 0
    · rw [if_neg (by omega), if_pos q]
    · rw [if_pos (by omega), if_neg q, if_pos (by omega)]
  | a :: x, b :: y, h1, h2 => by
    simp only [cmpR, List.cons_append, cmpL]
    rw [cmpR_terminated x y (fun c hc => h1 c (List.mem_cons_of_mem _ hc)) (fun c hc => h2 c (List.mem_cons_of_mem _ hc))]

theorem cmpR_zero (p q : Bool) : ∀ a b : List Int, cmpR p q a b = 0 ↔ a = b
  | [], [] => by simp [cmpR]
  | [], b :: y => by unfold cmpR; split <;> simp
  | a :: x, [] => by unfold cmpR; split <;> simp
  | a :: x, b :: y => by
    unfold cmpR
    by_cases h : a > b
    · rw [if_pos h]; simp; omega
    · rw [if_neg h]
      by_cases h2 : a < b
      · rw [if_pos h2]; simp; omega
      · rw [if_neg h2, cmpR_zero p q x y]
        have : a = b := by omega
        simp [this]

theorem cmpR_swap (p q : Bool) : ∀ a b : List Int, cmpR q p b a = - cmpR p q a b
  | [], [] => rfl
  | [], b :: y => by unfold cmpR; simp only [gt_iff_lt]; split <;> rfl
  | a :: x, [] => by unfold cmpR; simp only [gt_iff_lt]; split <;> rfl
  | a :: x, b :: y => by
    unfold cmpR
    by_cases h : a > b
    · simp [h, show ¬ a < b by omega]
    · by_cases h2 : a < b
      · simp [h2, show ¬ b < a by omega]
      · simp [show ¬ b < a by omega, h2, cmpR_swap p q x y]

/-- Characters are positive: those of an unsigned type, or ASCII. -/
def Positive (s : List Int) (count : Option Nat) : Prop := ∀ c ∈ text s count, 0 < c

/-- **C43** (partial: characters of an unsigned type, or ASCII) The two-count comparison, plain or case-insensitive, is
the sign of the lexicographic order of the (mapped) texts. Missing: negative characters of a signed type, for which it
is false, see `strncmp_signed_order`; what is true for them: `strcmp_terminated`, `strncmp_equal`, `strncmp_swap`. -/
theorem strncmp_spec_partial (f g : Int → Int) {s1 s2 : List Int} {c1 c2 : Option Nat} (h1 : Valid s1 c1) (h2 : Valid s2 c2)
    (hf : ∀ c ∈ text s1 c1, 0 < f c) (hg : ∀ c ∈ text s2 c2, 0 < g c) (f0 : f 0 = 0) (g0 : g 0 = 0) :
    ∃ r, strncmp2 f g s1 c1 s2 c2 = some r ∧ Sgn r ((text s1 c1).map f) ((text s2 c2).map g) := by
  refine ⟨_, strncmp2_from f g h1 h2 (fun c hc => ?_) (fun c hc => ?_) f0 g0 0 (Nat.zero_le _) (Nat.zero_le _), ?_⟩
  · have := hf c hc; omega
  · have := hg c hc; omega
  · rw [List.drop_zero, List.drop_zero, cmpR_pos]
    · exact cmpL_sgn _ _
    · intro c hc; obtain ⟨x, hx, rfl⟩ := List.mem_map.1 hc; exact hf x hx
    · intro c hc; obtain ⟨x, hx, rfl⟩ := List.mem_map.1 hc; exact hg x hx

/-- **C43** (partial, as above) The same for `strcmp` and the one-count `strncmp`. -/
theorem strcmp_spec_partial {s1 s2 : List Int} {count : Option Nat} (h1 : Valid s1 count) (h2 : Valid s2 count)
    (p1 : Positive s1 count) (p2 : Positive s2 count) :
    ∃ r, strncmp1 s1 s2 count = some r ∧ Sgn r (text s1 count) (text s2 count) := by
  rw [strncmp1_eq]
  have := strncmp_spec_partial id id h1 h2 p1 p2 rfl rfl
  simpa using this

/-- **C43** For terminated strings of any character type, `strcmp` and the others are the sign of the lexicographic
order of the texts with their terminators: a total order. -/
theorem strcmp_terminated {s1 s2 : List Int} {c1 c2 : Option Nat} (h1 : Valid s1 c1) (h2 : Valid s2 c2)
    (t1 : Terminated s1 c1 = true) (t2 : Terminated s2 c2 = true) :
    ∃ r, strncmp2 id id s1 c1 s2 c2 = some r ∧ Sgn r (text s1 c1 ++ [0]) (text s2 c2 ++ [0]) := by
  refine ⟨_, strncmp2_from id id h1 h2 (fun c hc => text_ne_zero hc) (fun c hc => text_ne_zero hc) rfl rfl 0 (Nat.zero_le _) (Nat.zero_le _), ?_⟩
  rw [t1, t2, List.drop_zero, List.drop_zero, List.map_id, List.map_id, cmpR_terminated _ _ (fun c hc => text_ne_zero hc) (fun c hc => text_ne_zero hc)]
  exact cmpL_sgn _ _

/-- **C43** For any character type a comparison is zero iff the (mapped) texts are equal, and swapping the strings
negates it. -/
theorem strncmp_equal (f g : Int → Int) {s1 s2 : List Int} {c1 c2 : Option Nat} (h1 : Valid s1 c1) (h2 : Valid s2 c2)
    (hf : ∀ c, f c = 0 ↔ c = 0) (hg : ∀ c, g c = 0 ↔ c = 0) :
    ∃ r, strncmp2 f g s1 c1 s2 c2 = some r ∧ (r = 0 ↔ (text s1 c1).map f = (text s2 c2).map g) ∧
      strncmp2 g f s2 c2 s1 c1 = some (-r) := by
  have nf : ∀ c ∈ text s1 c1, f c ≠ 0 := fun c hc q => text_ne_zero hc ((hf c).1 q)
  have ng : ∀ c ∈ text s2 c2, g c ≠ 0 := fun c hc q => text_ne_zero hc ((hg c).1 q)
  have f0 := (hf 0).2 rfl
  have g0 := (hg 0).2 rfl
  refine ⟨_, strncmp2_from f g h1 h2 nf ng f0 g0 0 (Nat.zero_le _) (Nat.zero_le _), ?_, ?_⟩
  · rw [cmpR_zero]; simp
  · rw [strncmp2_from g f h2 h1 ng nf g0 f0 0 (Nat.zero_le _) (Nat.zero_le _), cmpR_swap]

/-- **C43** (defect) With a signed character type, `strncmp` is not even transitive: an empty string given by its count
equals an empty string given by its terminator, is less than "\xff", and the terminated one is greater than "\xff". -/
theorem strncmp_signed_order :
    strncmp2 id id [] (some 0) [0] (some 1) = some 0 ∧ strncmp2 id id [] (some 0) [-1, 0] (some 2) = some (-1) ∧
    strncmp2 id id [0] (some 1) [-1, 0] (some 2) = some 1 := by decide +kernel

/-- **C43** (defect) `strcmp("", "\xff")` says that the empty string is the greater. -/
theorem strcmp_signed_order : strncmp1 [0] [-1, 0] none = some 1 ∧ text [0] none < text [-1, 0] none := by
  refine ⟨by decide +kernel, List.nil_lt_cons _ _⟩

theorem take_rev (l : List Int) (i : Nat) (h : i < l.length) : (l.take (i + 1)).reverse = l[i] :: (l.take i).reverse := by
  rw [List.take_succ_eq_append_getElem h, List.reverse_append]; rfl

theorem text_rd {s : List Int} {count : Option Nat} {i : Nat} (h : i < (text s count).length) : rd s i = some (text s count)[i] := by
  have p : text s count <+: s := by
    cases count with
    | none => exact List.takeWhile_prefix _
    | some n => exact (List.takeWhile_prefix _).trans (List.take_prefix _ _)
  obtain ⟨t, e⟩ := p
  unfold rd
  rw [show s[i]? = (text s count ++ t)[i]? by rw [e], List.getElem?_append_left h, List.getElem?_eq_getElem h]

theorem strrcmp_from (s1 s2 : List Int) (c1 c2 : Option Nat) : ∀ i j, i ≤ (text s1 c1).length → j ≤ (text s2 c2).length →
    strrcmpGo s1 s2 i j = some (cmpL ((text s1 c1).take i).reverse ((text s2 c2).take j).reverse)
  | 0, 0, _, _ => rfl
  | 0, j + 1, _, h => by rw [take_rev _ j h]; rfl
  | i + 1, 0, h, _ => by rw [take_rev _ i h]; rfl
  | i + 1, j + 1, h1, h2 => by
    unfold strrcmpGo
    rw [text_rd h1, text_rd h2, take_rev _ i h1, take_rev _ j h2]
    simp only [cmpL]
    rw [strrcmp_from s1 s2 c1 c2 i j (by omega) (by omega)]
    split
    · rfl
    · split <;> rfl

/-- **C43** (reverse) `strrcmp`/`strrncmp` are the sign of the lexicographic order of the reversed texts, for every
character type. -/
theorem strrcmp_spec {s1 s2 : List Int} {c1 c2 : Option Nat} (h1 : Valid s1 c1) (h2 : Valid s2 c2) :
    ∃ r, strrcmp s1 c1 s2 c2 = some r ∧ Sgn r (text s1 c1).reverse (text s2 c2).reverse := by
  refine ⟨cmpL (text s1 c1).reverse (text s2 c2).reverse, ?_, cmpL_sgn _ _⟩
  unfold strrcmp
  rw [strnlen_spec h1, strnlen_spec h2]
  simp only
  rw [strrcmp_from s1 s2 c1 c2 _ _ (Nat.le_refl _) (Nat.le_refl _), List.take_length, List.take_length]

/-- The sign determines the order: exactly one of the three. -/
theorem sgn_unique {r r' : Int} {a b : List Int} (h : Sgn r a b) (h' : Sgn r' a b) : r = r' := by
  have irr : ∀ x : List Int, ¬ x < x := fun x => List.lt_irrefl x
  have asym : ∀ {x y : List Int}, x < y → ¬ y < x := fun p q => List.lt_asymm p q
  rcases h with ⟨e, p⟩ | ⟨e, p⟩ | ⟨e, p⟩ <;> rcases h' with ⟨e', q⟩ | ⟨e', q⟩ | ⟨e', q⟩ <;> subst e <;> subst e' <;> try rfl
  · subst q; exact absurd p (irr _)
  · exact absurd p (asym q)
  · subst p; exact absurd q (irr _)
  · subst p; exact absurd q (irr _)
  · exact absurd p (asym q)
  · subst q; exact absurd p (irr _)

/-- Non-vacuity: "ab" < "abc" < "b", with a terminator and by count. -/
example : strncmp1 [97, 98, 0] [97, 98, 99, 0] none = some (-1) ∧ strncmp2 id id [98, 7] (some 1) [97, 98, 99, 0] none = some 1 ∧
    strncmp2 (tolower ⟨8, true⟩) (tolower ⟨8, true⟩) [65, 98, 0] none [97, 66] (some 2) = some 0 ∧
    strrcmp [97, 98, 0] none [98, 98, 0] none = some (-1) ∧ Valid [98, 7] (some 1) ∧ Positive [98, 7] (some 1) := by
  refine ⟨by decide +kernel, by decide +kernel, by decide +kernel, by decide +kernel, Or.inr ⟨1, rfl, by decide⟩, ?_⟩
  intro c hc
  simp [text] at hc
  omega

end Verif.Str
