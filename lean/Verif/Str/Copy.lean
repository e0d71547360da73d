import Verif.Str.Find
/-
Copying and concatenation (include/stdex/string.hpp 1626-1637, 1671-1714, 1753-1892). Conventions as in
`Verif.Str.Find`; source and destination do not overlap. A write outside the memory of the destination is undefined
behaviour, and makes the result `none`. The conversion of characters to the type of the destination is an arbitrary
function.
-/
namespace Verif.Str

/-- `dst[i] = c` -/
def wr (d : List Int) (i : Nat) (c : Int) : Option (List Int) := if i < d.length then some (d.set i c) else none

/-- The copying loops, with `i` in the source and `j` in the destination; they return the destination and `j`.
`strcpy` 1633-1636: no counts. `strncpy` with one count 1678-1683: it is `cs`, and `pad` is false. `strncpy` with two
counts 1703-1713: `pad` is true. `strcat` 1776-1779, `strncat` 1798-1803 and 1823-1833: the same from another `j`. -/
def copyGo (conv : Int → Int) (src : List Int) (cs cd : Option Nat) (pad : Bool) (d : List Int) (i j : Nat) : Option (List Int × Nat) :=
  if below cd j then
    if below cs i then
      match h : rd src i with
      | none => none
      | some c =>
        match wr d j (conv c) with
        | none => none
        | some d' => if conv c = 0 then some (d', j) else copyGo conv src cs cd pad d' (i + 1) (j + 1)
    else if pad then (wr d j 0).map fun d' => (d', j)
    else some (d, j)
  else some (d, j)
termination_by src.length - i
decreasing_by have := (List.getElem?_eq_some_iff.1 h).1; omega

/-- `strcpy`, 1626-1637. -/
def strcpy (conv : Int → Int) (d src : List Int) : Option (List Int × Nat) := copyGo conv src none none false d 0 0

/-- `strncpy`, one count, 1671-1684. -/
def strncpy1 (conv : Int → Int) (d src : List Int) (count : Nat) : Option (List Int × Nat) := copyGo conv src (some count) none false d 0 0

/-- `strncpy`, two counts, 1696-1714. -/
def strncpy (conv : Int → Int) (d : List Int) (cd : Nat) (src : List Int) (cs : Option Nat) : Option (List Int × Nat) :=
  copyGo conv src cs (some cd) true d 0 0

/-- `strcat`, 1769-1780. -/
def strcat (conv : Int → Int) (d src : List Int) : Option (List Int × Nat) :=
  match strnlen d none with
  | none => none
  | some j => copyGo conv src none none false d 0 j

/-- `strncat`, one count, 1791-1804. -/
def strncat1 (conv : Int → Int) (d src : List Int) (count : Nat) : Option (List Int × Nat) :=
  match strnlen d none with
  | none => none
  | some j => copyGo conv src (some count) none false d 0 j

/-- `strncat`, two counts, 1816-1834. -/
def strncat (conv : Int → Int) (d : List Int) (cd : Nat) (src : List Int) (cs : Option Nat) : Option (List Int × Nat) :=
  match strnlen d (some cd) with
  | none => none
  | some j => copyGo conv src cs (some cd) true d 0 j

/-- `strdup`, 1846-1855, of a pointer that is not null; `junk` is what the allocated memory contains. SIZE_MAX as the count
is no count. -/
def strdup (str : List Int) (junk : Nat → Int) : Option (List Int) :=
  match strnlen str none with
  | none => none
  | some n => (strncpy id ((List.range (n + 1)).map junk) (n + 1) str none).map (·.1)

/-- `strndup`, 1868-1876. -/
def strndup (str : List Int) (count : Nat) (junk : Nat → Int) : Option (List Int) :=
  (strncpy id ((List.range count).map junk) count str none).map (·.1)

/-! ### Specification -/

/-- How many of `n` characters fit from `j` on. -/
def fit (cd : Option Nat) (j n : Nat) : Nat :=
  match cd with
  | none => n
  | some m => min n (m - j)

/-- The memory `d` with the characters `r` put at `j`. -/
def put (d : List Int) (j : Nat) (r : List Int) : List Int := d.take j ++ r ++ d.drop (j + r.length)

/-! ### Proofs -/

theorem put_nil (d : List Int) (j : Nat) : put d j [] = d := by simp [put]

theorem put_set (d : List Int) (j : Nat) (c : Int) (r : List Int) (h : j < d.length) : put (d.set j c) (j + 1) r = put d j (c :: r) := by
  unfold put
  have e1 : (d.set j c).take (j + 1) = d.take j ++ [c] := by
    rw [List.take_succ_eq_append_getElem (by simpa using h), List.take_set_of_le (Nat.le_refl _)]
    simp
  have e2 : (d.set j c).drop (j + 1 + r.length) = d.drop (j + (c :: r).length) := by
    rw [List.drop_set_of_lt (by omega)]
    exact congrArg (fun n => d.drop n) (by simp only [List.length_cons]; omega)
  rw [e1, e2]; simp

/-- The terminator written, if any: in the room left by `k` characters at `j`, when the source has one or padding is
asked for. -/
def term (cd : Option Nat) (pad ended : Bool) (p : Nat) : List Int := if below cd p && (pad || ended) then [0] else []

theorem copy_from (conv : Int → Int) {src : List Int} {cs cd : Option Nat} {pad : Bool} (hv : Valid src cs)
    (hc : ∀ c ∈ text src cs, conv c ≠ 0) (c0 : conv 0 = 0) (d : List Int) (i j : Nat) (hi : i ≤ (text src cs).length)
    (hd : match cd with | none => j + ((text src cs).length - i) < d.length | some m => m ≤ d.length) :
    copyGo conv src cs cd pad d i j =
      let r := (((text src cs).drop i).map conv).take (fit cd j ((text src cs).length - i))
      let t := if r.length = (text src cs).length - i then term cd pad (below cs (text src cs).length) (j + r.length) else []
      some (put d j (r ++ t), j + r.length) := by
  unfold copyGo
  by_cases hb : below cd j = true
  · rw [if_pos hb]
    have hjd : j < d.length := by
      cases cd with
      | none => simp only at hd; omega
      | some m => simp only [below, decide_eq_true_eq] at hb; simp only at hd; omega
    by_cases hbs : below cs i = true
    · rw [if_pos hbs]
      have hr := cond_eq hv hi
      unfold cond at hr
      rw [if_pos hbs] at hr
      split
      · rename_i q; rw [q] at hr; cases hr
      · rename_i c q
        rw [q] at hr
        unfold wr
        rw [if_pos hjd]
        simp only [Option.map_some, Option.some.injEq] at hr
        by_cases hz : c = 0
        · subst hz
          simp only [if_true] at hr
          have hl : i = (text src cs).length := by have := List.getElem?_eq_none_iff.1 hr.symm; omega
          simp only [c0, if_true]
          subst hl
          simp only [Nat.sub_self, List.drop_length, List.map_nil, List.take_nil, List.length_nil, if_true, List.nil_append, Nat.add_zero]
          unfold term
          rw [hb, hbs]
          simp only [Bool.or_true, Bool.and_self, if_true]
          rw [← put_set d j 0 [] hjd, put_nil]
        · rw [if_neg hz] at hr
          have hlt := (List.getElem?_eq_some_iff.1 hr.symm).1
          have hcn : conv c ≠ 0 := hc c (List.mem_of_getElem? hr.symm)
          simp only [if_neg hcn]
          rw [copy_from conv hv hc c0 (d.set j (conv c)) (i + 1) (j + 1) hlt (by
            cases cd with
            | none => simp only [List.length_set] at hd ⊢; omega
            | some m => simpa using hd)]
          have ed : (text src cs).drop i = c :: (text src cs).drop (i + 1) := by
            obtain ⟨hl, e⟩ := List.getElem?_eq_some_iff.1 hr.symm
            rw [List.drop_eq_getElem_cons hl, e]
          have ef : fit cd j ((text src cs).length - i) = fit cd (j + 1) ((text src cs).length - (i + 1)) + 1 := by
            cases cd with
            | none => simp only [fit]; omega
            | some m => simp only [below, decide_eq_true_eq] at hb; simp only [fit]; omega
          rw [ed, ef]
          simp only [List.map_cons, List.take_succ_cons, List.length_cons]
          generalize List.take (fit cd (j + 1) ((text src cs).length - (i + 1))) (List.map conv (List.drop (i + 1) (text src cs))) = r
          have e3 : (r.length + 1 = (text src cs).length - i) ↔ (r.length = (text src cs).length - (i + 1)) := by omega
          have e4 : j + 1 + r.length = j + (r.length + 1) := by omega
          simp only [e3, e4]
          rw [put_set d j _ _ hjd, List.cons_append]
    · rw [if_neg hbs]
      have hn : (text src cs)[i]? = none := by
        cases cs with
        | none => exact absurd rfl hbs
        | some n =>
          simp only [below, decide_eq_true_eq] at hbs
          have := text_length_take src n
          exact List.getElem?_eq_none_iff.2 (by omega)
      have hl : i = (text src cs).length := by have := List.getElem?_eq_none_iff.1 hn; omega
      subst hl
      have hbf : below cs (text src cs).length = false := by simpa using hbs
      simp only [Nat.sub_self, List.drop_length, List.map_nil, List.take_nil, List.length_nil, if_true, List.nil_append, Nat.add_zero]
      unfold term
      rw [hb, hbf]
      cases pad with
      | true =>
        unfold wr
        rw [if_pos hjd]
        simp only [if_true, Option.map_some, Bool.or_false, Bool.and_self]
        rw [← put_set d j 0 [] hjd, put_nil]
      | false => simp [put_nil]
  · rw [if_neg hb]
    have hr : (((text src cs).drop i).map conv).take (fit cd j ((text src cs).length - i)) = [] := by
      cases cd with
      | none => exact absurd rfl hb
      | some m =>
        simp only [below, decide_eq_true_eq] at hb
        simp only [fit, show min ((text src cs).length - i) (m - j) = 0 by omega, List.take_zero]
    rw [hr]
    simp only [List.length_nil, List.nil_append, Nat.add_zero]
    have : term cd pad (below cs (text src cs).length) j = [] := by unfold term; simp [hb]
    rw [this]
    simp [put_nil]
termination_by src.length - i
decreasing_by have := text_length_le src cs; omega

/-! ### Properties -/

/-- **C46** `strcpy` into a buffer with room for the text and its terminator: exactly these are written, at the start. -/
theorem strcpy_spec (conv : Int → Int) {d src : List Int} (hs : 0 ∈ src) (hc : ∀ c ∈ text src none, conv c ≠ 0) (c0 : conv 0 = 0)
    (hd : (text src none).length < d.length) :
    strcpy conv d src = some (put d 0 ((text src none).map conv ++ [0]), (text src none).length) := by
  unfold strcpy
  rw [copy_from conv (Or.inl hs) hc c0 d 0 0 (Nat.zero_le _) (by simp only; omega)]
  simp [fit, term, below, List.take_of_length_le]

/-- **C46** `strncpy` with two counts, into a buffer of `cd` characters: the longest prefix of the text that fits is
written, a terminator if there is room for it, and nothing else; the number of characters without the terminator is
returned. -/
theorem strncpy_spec (conv : Int → Int) {d src : List Int} {cd : Nat} {cs : Option Nat} (hs : Valid src cs)
    (hc : ∀ c ∈ text src cs, conv c ≠ 0) (c0 : conv 0 = 0) (hd : cd ≤ d.length) :
    strncpy conv d cd src cs = some (put d 0 (((text src cs).map conv).take cd ++ (if (text src cs).length < cd then [0] else [])),
      min cd (text src cs).length) := by
  unfold strncpy
  rw [copy_from conv hs hc c0 d 0 0 (Nat.zero_le _) hd]
  simp only [List.drop_zero, Nat.sub_zero, fit, term, below, Nat.zero_add, List.length_take, List.length_map, Bool.true_or, Bool.and_true]
  by_cases h : (text src cs).length < cd
  · have e : min (text src cs).length cd = (text src cs).length := by omega
    rw [if_pos h]
    simp only [e, Nat.min_self, if_true, decide_eq_true h]
    rw [List.take_of_length_le (by simp), List.take_of_length_le (by simp; omega)]
    simp only [show min cd (text src cs).length = (text src cs).length by omega]
  · have e : min (text src cs).length cd = cd := by omega
    rw [if_neg h]
    simp only [e, show min cd (text src cs).length = cd by omega, Nat.lt_irrefl, decide_false, Bool.false_eq_true, if_false, ite_self]

/-- **C46** `strncpy` with one count writes the text, of at most `count` characters, and its terminator if it has one
before `count`. -/
theorem strncpy1_spec (conv : Int → Int) {d src : List Int} {count : Nat} (hs : Valid src (some count))
    (hc : ∀ c ∈ text src (some count), conv c ≠ 0) (c0 : conv 0 = 0) (hd : count ≤ d.length) :
    strncpy1 conv d src count = some (put d 0 ((text src (some count)).map conv ++ (if (text src (some count)).length < count then [0] else [])),
      (text src (some count)).length) := by
  have key : copyGo conv src (some count) none false d 0 0 = copyGo conv src (some count) (some count) false d 0 0 := by
    have gen : ∀ (n i : Nat) (d : List Int), src.length - i = n → copyGo conv src (some count) none false d i i = copyGo conv src (some count) (some count) false d i i := by
      intro n
      induction n with
      | zero =>
        intro i d hn
        unfold copyGo
        by_cases hb : below (some count) i = true
        · simp only [hb, show below none i = true from rfl, if_true]
          have : rd src i = none := List.getElem?_eq_none_iff.2 (by omega)
          split
          · rfl
          · rename_i q; rw [this] at q; cases q
        · simp [hb, show below none i = true from rfl]
      | succ n ih =>
        intro i d hn
        unfold copyGo
        by_cases hb : below (some count) i = true
        · simp only [hb, show below none i = true from rfl, if_true]
          split
          · rfl
          · cases wr d i (conv _) with
            | none => rfl
            | some d' =>
              simp only
              rw [ih (i + 1) d' (by omega)]
        · simp [hb, show below none i = true from rfl]
    exact gen _ 0 d rfl
  unfold strncpy1
  rw [key, copy_from conv hs hc c0 d 0 0 (Nat.zero_le _) hd]
  have hl := text_length_take src count
  have e : min (text src (some count)).length count = (text src (some count)).length := by omega
  simp only [List.drop_zero, Nat.sub_zero, fit, term, below, Nat.zero_add, List.length_take, List.length_map, Bool.false_or, e, Nat.min_self, if_true, Bool.and_self, decide_eq_true_eq]
  rw [List.take_of_length_le (by simp)]

/-- **C46** `strcat` to a buffer with room: the text is put where the terminator was, with a terminator behind. -/
theorem strcat_spec (conv : Int → Int) {d src : List Int} (hd0 : 0 ∈ d) (hs : 0 ∈ src) (hc : ∀ c ∈ text src none, conv c ≠ 0) (c0 : conv 0 = 0)
    (hd : (text d none).length + (text src none).length < d.length) :
    strcat conv d src = some (put d (text d none).length ((text src none).map conv ++ [0]), (text d none).length + (text src none).length) := by
  unfold strcat
  rw [strnlen_spec (Or.inl hd0)]
  simp only
  rw [copy_from conv (Or.inl hs) hc c0 d 0 _ (Nat.zero_le _) (by simp only; omega)]
  simp [fit, term, below, List.take_of_length_le]

/-- **C46** `strncat` with two counts, to a buffer of `cd` characters: the longest prefix that fits behind the text
already there is written, a terminator if there is room for it, and nothing else. -/
theorem strncat_spec (conv : Int → Int) {d src : List Int} {cd : Nat} {cs : Option Nat} (hs : Valid src cs)
    (hc : ∀ c ∈ text src cs, conv c ≠ 0) (c0 : conv 0 = 0) (hd : cd ≤ d.length) :
    strncat conv d cd src cs = some (put d (text d (some cd)).length (((text src cs).map conv).take (cd - (text d (some cd)).length) ++
      (if (text d (some cd)).length + (text src cs).length < cd then [0] else [])),
      min cd ((text d (some cd)).length + (text src cs).length)) := by
  unfold strncat
  rw [strnlen_spec (Or.inr ⟨cd, rfl, hd⟩)]
  simp only
  have hl := text_length_take d cd
  generalize (text d (some cd)).length = j at hl
  rw [copy_from conv hs hc c0 d 0 j (Nat.zero_le _) hd]
  simp only [List.drop_zero, Nat.sub_zero, fit, term, below, List.length_take, List.length_map, Bool.true_or, Bool.and_true]
  by_cases h : j + (text src cs).length < cd
  · have e : min (text src cs).length (cd - j) = (text src cs).length := by omega
    rw [if_pos h]
    simp only [e, Nat.min_self, if_true, decide_eq_true h]
    rw [List.take_of_length_le (by simp), List.take_of_length_le (by simp; omega)]
    simp only [show min cd (j + (text src cs).length) = j + (text src cs).length by omega]
  · have e : min (text src cs).length (cd - j) = cd - j := by omega
    rw [if_neg h]
    simp only [e, show min (cd - j) (text src cs).length = cd - j by omega]
    have e2 : ¬ (j + (cd - j) < cd) := by omega
    simp only [e2, decide_false, Bool.false_eq_true, if_false, ite_self]
    simp only [show j + (cd - j) = min cd (j + (text src cs).length) by omega]

/-- **C46** `strdup` returns the text with a terminator. -/
theorem strdup_spec {str : List Int} (hs : 0 ∈ str) (junk : Nat → Int) : strdup str junk = some (text str none ++ [0]) := by
  unfold strdup
  rw [strnlen_spec (Or.inl hs)]
  simp only
  rw [strncpy_spec id (Or.inl hs) (fun c hc => text_ne_zero hc) rfl (by simp)]
  rw [List.take_of_length_le (by simp), if_pos (by omega), List.map_id]
  simp [put]

/-- **C46** (the part of `strndup` that holds) A text shorter than `count` is returned with a terminator, followed by
what was in memory. -/
theorem strndup_partial {str : List Int} {count : Nat} (hs : 0 ∈ str) (hl : (text str none).length < count) (junk : Nat → Int) :
    ∃ rest, strndup str count junk = some (text str none ++ [0] ++ rest) := by
  unfold strndup
  rw [strncpy_spec id (Or.inl hs) (fun c hc => text_ne_zero hc) rfl (by simp)]
  rw [List.take_of_length_le (by simp; omega), if_pos hl]
  exact ⟨((List.range count).map junk).drop (0 + (text str none ++ [0]).length), by
    simp only [put, Option.map_some, List.take_zero, List.nil_append, List.map_id]⟩

/-- **C46** (defect) A text of `count` characters or more, which the documentation allows, is returned without a
terminator. -/
theorem strndup_unterminated {str : List Int} {count : Nat} (hs : 0 ∈ str) (hl : count ≤ (text str none).length) (junk : Nat → Int) :
    strndup str count junk = some ((text str none).take count) ∧ 0 ∉ (text str none).take count := by
  unfold strndup
  rw [strncpy_spec id (Or.inl hs) (fun c hc => text_ne_zero hc) rfl (by simp)]
  rw [if_neg (by omega)]
  constructor
  · simp [put, Nat.min_eq_left hl]
  · intro q; exact text_ne_zero (List.mem_of_mem_take q) rfl

/-- **C46** (defect) The one-count `strncat` does not terminate a string of `count` characters: "a" and "bc" give "abc"
followed by what was in memory. -/
theorem strncat1_unterminated : strncat1 id [97, 0, 9, 9, 9] [98, 99, 0] 2 = some ([97, 98, 99, 9, 9], 3) := by decide +kernel

/-- **C46** (defect) The end of the source is tested after the conversion: U+0100 converted to `char` ends the copy. -/
theorem strncpy_narrowing : strncpy (fun c => (CT.mk 8 true).wrap c) [9, 9, 9, 9] 4 [97, 0x100, 98, 0] none = some ([97, 0, 9, 9], 1) := by
  decide +kernel

/-- Non-vacuity: a copy that fits, one that does not, and a concatenation. -/
example : strncpy id [9, 9, 9, 9] 4 [97, 98] (some 2) = some ([97, 98, 0, 9], 2) ∧ strncpy id [9, 9, 9, 9] 2 [97, 98, 99, 0] none = some ([97, 98, 9, 9], 2) ∧
    strncat id [97, 0, 9, 9] 3 [98, 99, 0] none = some ([97, 98, 99, 9], 3) := by decide +kernel

end Verif.Str
