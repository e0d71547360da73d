import Verif.Str.Trim
/-
Comparison by locale (include/stdex/string.hpp 1340-1391) and floating-point numbers (2584-2630): what the functions of the
C++ and C libraries are given. Conventions as in `Verif.Str.Find`.
-/
namespace Verif.Str

/-- The `n` characters from the beginning of a buffer: `none` when the buffer ends before. -/
def firstN (s : List Int) (n : Nat) : Option (List Int) := if n ≤ s.length then some (s.take n) else none

/-- `strcoll`, 1340-1350, with the `compare` of the locale's `collate`. -/
def strcoll (compare : List Int → List Int → Int) (s1 s2 : List Int) : Option Int :=
  (strnlen s1 none).bind fun n1 => (strnlen s2 none).bind fun n2 =>
    (firstN s1 n1).bind fun t1 => (firstN s2 n2).map fun t2 => compare t1 t2

/-- `strncoll`, 1363-1373, and that of arrays, 1384-1391: the counts are used as they are. -/
def strncoll (compare : List Int → List Int → Int) (s1 : List Int) (c1 : Nat) (s2 : List Int) (c2 : Nat) : Option Int :=
  (firstN s1 c1).bind fun t1 => (firstN s2 c2).map fun t2 => compare t1 t2

/-- `strtod`, 2584-2601 and 2613-2630, with the C library's function: that gets a zero-terminated copy and gives the number and the
number of characters it used. -/
def strtod {V : Type} (lib : List Int → V × Nat) (s : List Int) (count : Option Nat) : Option (V × Nat) :=
  (strnlen s count).bind fun n => (firstN s n).map fun tmp => lib (text (tmp ++ [0]) none)

theorem firstN_text (s : List Int) (count : Option Nat) : firstN s (text s count).length = some (text s count) := by
  rw [firstN, if_pos (text_length_le s count), ← List.prefix_iff_eq_take.1 (text_prefix s count)]

/-- **C143** `strcoll` compares the two texts as the locale does. -/
theorem strcoll_spec (compare : List Int → List Int → Int) {s1 s2 : List Int} (h1 : Valid s1 none) (h2 : Valid s2 none) :
    strcoll compare s1 s2 = some (compare (text s1 none) (text s2 none)) := by
  unfold strcoll
  rw [strnlen_spec h1, strnlen_spec h2, Option.bind_some, Option.bind_some, firstN_text, firstN_text]
  rfl

/-- `strncoll` compares the texts as the locale does. (`_partial`: when they fill the counts.) -/
theorem strncoll_partial (compare : List Int → List Int → Int) {s1 s2 : List Int} {c1 c2 : Nat} (h1 : (text s1 (some c1)).length = c1)
    (h2 : (text s2 (some c2)).length = c2) :
    strncoll compare s1 c1 s2 c2 = some (compare (text s1 (some c1)) (text s2 (some c2))) := by
  have a := firstN_text s1 (some c1)
  have b := firstN_text s2 (some c2)
  rw [h1] at a
  rw [h2] at b
  unfold strncoll
  rw [a, b]
  rfl

/-- What `strncoll` does in general: it compares the whole buffers, the zero and whatever is behind it included, and reads them to
the count. -/
theorem strncoll_whole (compare : List Int → List Int → Int) (s1 : List Int) (c1 : Nat) (s2 : List Int) (c2 : Nat) :
    (c1 ≤ s1.length ∧ c2 ≤ s2.length → strncoll compare s1 c1 s2 c2 = some (compare (s1.take c1) (s2.take c2))) ∧
    (s1.length < c1 ∨ s2.length < c2 → strncoll compare s1 c1 s2 c2 = none) := by
  unfold strncoll firstN
  refine ⟨fun ⟨a, b⟩ => by rw [if_pos a, if_pos b]; rfl, fun h => ?_⟩
  rcases h with h | h
  · rw [if_neg (by omega)]; rfl
  · by_cases a : c1 ≤ s1.length
    · rw [if_pos a, if_neg (by omega)]; rfl
    · rw [if_neg a]; rfl

/-- So with a count larger than a zero-terminated text - which the parameter's annotation allows, and which all other functions of
the header accept - `strncoll` reads beyond the text, even beyond the memory; and equal texts in buffers of different size compare
as different, under every order that tells different buffers apart. -/
theorem strncoll_reads_on (compare : List Int → List Int → Int) (hc : ∀ a b, compare a b = 0 → a = b) :
    Valid [97, 0] (some 5) ∧ strncoll compare [97, 0] 5 [97, 0] 5 = none ∧
    ∃ r, strncoll compare [97, 0] 2 [97, 0, 7] 3 = some r ∧ r ≠ 0 ∧ text [97, 0] (some 2) = text [97, 0, 7] (some 3) :=
  ⟨Or.inl (by decide), rfl, _, rfl, (fun h => by have := hc _ _ h; revert this; decide), by decide⟩

/-- **C143** `strtod` gives the number, and the number of characters used, that the C library finds in the text: nothing behind the
count or the zero is looked at, and nothing that is not there. -/
theorem strtod_spec {V : Type} (lib : List Int → V × Nat) {s : List Int} {count : Option Nat} (hv : Valid s count) :
    strtod lib s count = some (lib (text s count)) := by
  unfold strtod
  rw [strnlen_spec hv, Option.bind_some, firstN_text, Option.map_some]
  congr 2
  exact text_eq_of (fun c hc => text_ne_zero hc) (List.prefix_append _ _) (Or.inl (by simp)) (fun n hn => nomatch hn)

/-- In particular the reported end is in the text if the library's is. -/
theorem strtod_end {V : Type} (lib : List Int → V × Nat) (hl : ∀ t, (lib t).2 ≤ t.length) {s : List Int} {count : Option Nat} (hv : Valid s count) :
    ∃ r, strtod lib s count = some r ∧ r.2 ≤ (text s count).length ∧ ∀ n, count = some n → r.2 ≤ n :=
  ⟨_, strtod_spec lib hv, hl _, fun n hn => Nat.le_trans (hl _) (by rw [hn]; exact text_length_take s n)⟩

/-- Not vacuous: "1.5" in the middle of "1.57". -/
example : strtod (fun t => (t, t.length)) [49, 46, 53, 55, 0] (some 3) = some ([49, 46, 53], 3) ∧ Valid [49, 46, 53, 55, 0] (some 3) :=
  ⟨strtod_spec _ (Or.inl (by decide)), Or.inl (by decide)⟩
example : strcoll (fun a b => a.length - b.length) [97, 98, 0, 99] [97, 0] = some 1 ∧ strncoll (fun a b => a.length - b.length) [97, 98, 99] 2 [97] 1 = some 1 := by
  constructor
  · exact strcoll_spec _ (Or.inl (by decide)) (Or.inl (by decide))
  · exact strncoll_partial _ (by decide) (by decide)

end Verif.Str
