import Verif.Str.Collate
/-
Unicode normalization (include/stdex/unicode.hpp 839-981, Windows branch). The system's `NormalizeString` is any function that does what its
documentation says. Conventions as in `Verif.Str.Find`.
-/
namespace Verif.Str

/-- `NormalizeString(NormalizationC, text, …, buffer, capacity)`: what it returns, and the characters it stored (in case of failure, any). -/
abbrev NormLib := List Int → Nat → Int × List Int

/-- `normalizecat`, unicode.hpp 839-856: the string afterwards. The characters stored beyond the size of the string, the one for the
terminator, do not belong to it: growing the string sets them to zero. The overloads for arrays (866-872) and strings (882-888) pass on. -/
def normalizecat (lib : NormLib) (dst src : List Int) (count : Option Nat) : Option (List Int) :=
  (strnlen src count).bind fun n => (firstN src n).map fun t =>
    -- dst.resize(count_dst + count_src)
    let room := List.replicate n (0 : Int)
    let r := lib t (n + 1)
    let stored := r.2.take n ++ room.drop r.2.length
    if 0 ≤ r.1 then dst ++ (stored ++ List.replicate (r.1.toNat - n) 0).take r.1.toNat
    else dst ++ t

/-- `normalize`, 899-906 and 948-953: into a cleared string. -/
def normalize (lib : NormLib) (_dst src : List Int) (count : Option Nat) : Option (List Int) := normalizecat lib [] src count

/-! ### Specification -/

/-- What the documentation says: `form t` is the normalized text, `none` if `t` is not valid Unicode. If it fits, it is stored, and the number of its
characters returned; else the result is negative (an estimate). For invalid text the result is not positive. -/
structure NormOk (form : List Int → Option (List Int)) (lib : NormLib) : Prop where
  fits : ∀ t cap u, form t = some u → u.length ≤ cap → lib t cap = ((u.length : Int), u)
  large : ∀ t cap u, form t = some u → cap < u.length → (lib t cap).1 < 0
  invalid : ∀ t cap, form t = none → (lib t cap).1 ≤ 0

/-! ### Properties -/

theorem normalizecat_eq (lib : NormLib) (dst : List Int) {src : List Int} {count : Option Nat} (hv : Valid src count) :
    normalizecat lib dst src count =
      some (if 0 ≤ (lib (text src count) ((text src count).length + 1)).1 then
        dst ++ (((lib (text src count) ((text src count).length + 1)).2.take (text src count).length ++
          (List.replicate (text src count).length (0 : Int)).drop (lib (text src count) ((text src count).length + 1)).2.length) ++
          List.replicate ((lib (text src count) ((text src count).length + 1)).1.toNat - (text src count).length) 0).take
          (lib (text src count) ((text src count).length + 1)).1.toNat
      else dst ++ text src count) := by
  unfold normalizecat
  rw [strnlen_spec hv, Option.bind_some, firstN_text]
  rfl

/-- **C150** The normalized text is appended, if it is not longer than the text; text whose normalized form is longer by more than one character is
appended as it is, and so is invalid text for which the system's result is negative. Nothing of the string before changes, and nothing behind the count
or the zero is looked at. (`_partial`: not for a form that is longer by exactly one character, nor for a result of zero for invalid text.) -/
theorem normalizecat_partial {form : List Int → Option (List Int)} {lib : NormLib} (hl : NormOk form lib) (dst : List Int) {src : List Int}
    {count : Option Nat} (hv : Valid src count)
    (h1 : ∀ u, form (text src count) = some u → u.length ≠ (text src count).length + 1)
    (h2 : form (text src count) = none → (lib (text src count) ((text src count).length + 1)).1 ≠ 0) :
    normalizecat lib dst src count = some (dst ++ match form (text src count) with
      | some u => if u.length ≤ (text src count).length then u else text src count
      | none => text src count) := by
  rw [normalizecat_eq lib dst hv]
  generalize text src count = t at *
  cases hf : form t with
  | none =>
    have a := hl.invalid t (t.length + 1) hf
    have b := h2 hf
    rw [if_neg (by omega)]
  | some u =>
    have a := h1 u hf
    simp only
    by_cases c : u.length ≤ t.length
    · have e := hl.fits t (t.length + 1) u hf (by omega)
      rw [if_pos c, e]
      simp only [Int.toNat_natCast]
      rw [if_pos (by omega), Nat.sub_eq_zero_of_le c, List.replicate_zero, List.append_nil, List.take_of_length_le c]
      rw [List.take_left' rfl]
    · have e := hl.large t (t.length + 1) u hf (by omega)
      rw [if_neg (by omega), if_neg c]

/-- (defect) If the normalized form is longer by exactly one character, its last character is replaced by a zero: the system is told that there is room
for it where the string's terminator is. U+0958 in the middle of other text is such a case: it normalizes to U+0915 U+093C. -/
theorem normalizecat_one_longer {form : List Int → Option (List Int)} {lib : NormLib} (hl : NormOk form lib) (dst : List Int) {src : List Int}
    {count : Option Nat} (hv : Valid src count) {u : List Int} (hu : form (text src count) = some u) (h1 : u.length = (text src count).length + 1) :
    normalizecat lib dst src count = some (dst ++ u.dropLast ++ [0]) := by
  rw [normalizecat_eq lib dst hv]
  generalize text src count = t at *
  have e := hl.fits t (t.length + 1) u hu (by omega)
  rw [e]
  simp only [Int.toNat_natCast]
  rw [if_pos (by omega), h1, List.drop_of_length_le (by rw [List.length_replicate]; omega), List.append_nil]
  rw [show t.length + 1 - t.length = 1 by omega]
  have : u.take t.length = u.dropLast := by rw [List.dropLast_eq_take, h1]; rfl
  rw [this, List.take_of_length_le (by rw [List.length_append, List.length_dropLast, h1]; simp)]
  rw [List.append_assoc]
  rfl

/-- (defect) Invalid text for which the system returns zero is dropped. -/
theorem normalizecat_drops {lib : NormLib} (dst : List Int) {src : List Int} {count : Option Nat} (hv : Valid src count)
    (h : (lib (text src count) ((text src count).length + 1)).1 = 0) : normalizecat lib dst src count = some dst := by
  rw [normalizecat_eq lib dst hv, h]
  simp

/-- **C150** `normalize` gives what `normalizecat` appends, whatever was in the string. -/
theorem normalize_spec (lib : NormLib) (dst : List Int) (src : List Int) (count : Option Nat) :
    normalizecat lib dst src count = (normalize lib dst src count).map (dst ++ ·) := by
  unfold normalize normalizecat
  cases strnlen src count with
  | none => rfl
  | some n =>
    cases h : firstN src n with
    | none => simp [h]
    | some t =>
      simp only [h, Option.bind_some, Option.map_some, Option.some.injEq]
      split <;> simp

/-! ### Examples -/

/-- A form for the examples: 0x0958 is decomposed, `e` with an acute accent is composed, 55296 is invalid. -/
def demoForm : List Int → Option (List Int)
  | [] => some []
  | 55296 :: _ => none
  | 0x958 :: t => (demoForm t).map ([0x915, 0x93c] ++ ·)
  | 101 :: 0x301 :: t => (demoForm t).map (233 :: ·)
  | c :: t => (demoForm t).map (c :: ·)

/-- A system that normalizes so. -/
def demoLib : NormLib := fun t cap =>
  match demoForm t with
  | some u => if u.length ≤ cap then (u.length, u) else (-1, [])
  | none => (-1, [])

theorem demoLib_ok : NormOk demoForm demoLib := by
  refine ⟨fun t cap u h hl => ?_, fun t cap u h hl => ?_, fun t cap h => ?_⟩
  · unfold demoLib; rw [h]; simp only; rw [if_pos hl]
  · unfold demoLib; rw [h]; simp only; rw [if_neg (by omega)]; decide
  · unfold demoLib; rw [h]; simp

example : normalizecat demoLib [120] [97, 101, 0x301, 98, 0, 7] none = some [120, 97, 233, 98] ∧
    normalizecat demoLib [120] [97, 0x958, 98] (some 3) = some [120, 97, 0x915, 0x93c, 0] ∧
    normalizecat demoLib [120] [0x958, 0x958, 98] (some 3) = some [120, 0x958, 0x958, 98] ∧
    normalizecat demoLib [120] [55296, 98] (some 2) = some [120, 55296, 98] := by decide +kernel

end Verif.Str
