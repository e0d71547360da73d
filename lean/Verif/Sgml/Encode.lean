import Verif.Sgml.Decode
import Verif.Str.Utf16
/-
Encoding to SGML: `str2sgmlcat` of include/stdex/sgml.hpp (565-648) for 32-bit wide characters, and the round trip with `sgml2str`.
-/
namespace Verif.Sgml
open Verif.Str

set_option maxRecDepth 20000
attribute [local irreducible] chr2sgml nameOf uniOf

/-! ### Model -/

/-- `is7bit`, string.hpp 211-214. -/
def is7bit (c : Int) : Bool := decide (0 ≤ c) && decide (c ≤ 0x7f)

/-- The tests of sgml.hpp 592-604 (flags 574-585): ASCII that is to be copied. -/
def mayCopy (what : Nat) (c : Int) : Bool :=
  what &&& 0x40000000 == 0 && is7bit c && c != 38 &&
  (what &&& 0x1 == 0 || c != 34) &&
  (what &&& 0x2 == 0 || c != 39) &&
  (what &&& 0x8 == 0 || (c != 60 && c != 62)) &&
  (what &&& 0x10 == 0 || c != 92) &&
  (what &&& 0x20 == 0 || c != 36) &&
  (what &&& 0x40 == 0 || c != 37) &&
  (what &&& 0x80 == 0 || c != 64) &&
  (what &&& 0x100 == 0 || c != 35) &&
  (what &&& 0x200 == 0 || (c != 40 && c != 41)) &&
  (what &&& 0x400 == 0 || (c != 123 && c != 125)) &&
  (what &&& 0x800 == 0 || (c != 91 && c != 93))

/-- A lower-case hexadecimal digit. -/
def lowDigit (d : Nat) : Int := if d < 10 then 48 + d else 87 + d

/-- `%x`. -/
def hexLow (n : Nat) : List Int := if n < 16 then [lowDigit n] else hexLow (n / 16) ++ [lowDigit (n % 16)]
termination_by n

/-- `"&#x%x;"` of a character as `unsigned int`, sgml.hpp 623, 641. -/
def numEntity (c : Int) : List Int := [38, 35, 120] ++ hexLow (c % 2 ^ 32).toNat ++ [59]

/-- An entity by name, sgml.hpp 612-614, 632-634. -/
def named (e : List Int) : List Int := 38 :: e ++ [59]

/-- The loop over the characters of a glyph, sgml.hpp 630-644. -/
def decompose (s : List Int) (e i : Nat) (dst : List Int) : Option (List Int) :=
  if i < e then
    match chr2sgml (s.drop i) 1 with
    | none => none
    | some (some n) => decompose s e (i + 1) (dst ++ named n)
    | some none =>
      match rd s i with
      | none => none
      | some c => decompose s e (i + 1) (if is7bit c then dst ++ [c] else dst ++ numEntity c)
  else some dst
termination_by e - i

theorem skipMarks_ge {s : List Int} {count i n : Nat} (h : skipMarks s count i = some n) : i ≤ n := by
  induction i using skipMarks.induct (s := s) (count := count) with
  | case1 i c e =>
    rw [skipMarks, if_pos c] at h
    split at h
    · cases h
    · next q => rw [e] at q; cases q
  | case2 i c x e hx ih =>
    rw [skipMarks, if_pos c] at h
    split at h
    · cases h
    · next y q =>
      rw [e] at q
      injection q with q
      subst q
      rw [if_pos hx] at h
      have := ih h; omega
  | case3 i c x e hx =>
    rw [skipMarks, if_pos c] at h
    split at h
    · cases h
    · next y q =>
      rw [e] at q
      injection q with q
      subst q
      rw [if_neg hx] at h
      injection h with h; omega
  | case4 i c =>
    rw [skipMarks, if_neg c] at h
    injection h with h; omega

theorem glyphlen32_pos {s : List Int} {count n : Nat} (h : glyphlen32 s count = some n) (hc : 0 < count) : 1 ≤ n := by
  unfold glyphlen32 at h
  rw [if_neg (by omega)] at h
  exact skipMarks_ge h

/-- The loop of `str2sgmlcat`, sgml.hpp 589-647; `n` is the length of the source. -/
def encLoop (s : List Int) (n what i : Nat) (dst : List Int) : Option (List Int) :=
  if hi : i < n then
    match h : glyphlen32 (s.drop i) (n - i) with
    | none => none
    | some g =>
      match rd s i with
      | none => none
      | some c =>
        if g = 1 ∧ mayCopy what c = true then encLoop s n what (i + 1) (dst ++ [c])
        else
          match chr2sgml (s.drop i) g with
          | none => none
          | some (some e) => encLoop s n what (i + g) (dst ++ named e)
          | some none =>
            if g = 1 then encLoop s n what (i + 1) (if is7bit c then dst ++ [c] else dst ++ numEntity c)
            else
              match decompose s (i + g) i dst with
              | none => none
              | some d => encLoop s n what (i + g) d
  else some dst
termination_by n - i
decreasing_by all_goals (have := glyphlen32_pos h (by omega); omega)

/-- `str2sgmlcat`, sgml.hpp 565-648. -/
def str2sgmlcat (s : List Int) (count what : Nat) (dst : List Int) : Option (List Int) :=
  match strnlen s (some count) with
  | none => none
  | some n => encLoop s n what 0 dst

/-! ### Specification -/

/-- Glyphs: a character and the combining marks that follow. -/
def glyphs (t : List Int) : List (List Int) :=
  match t with
  | [] => []
  | c :: r => (c :: r.takeWhile iscombining) :: glyphs (r.dropWhile iscombining)
termination_by t.length
decreasing_by
  have := (List.dropWhile_suffix iscombining (l := r)).length_le
  rw [List.length_cons]; omega

/-- ASCII that need not be encoded: no ampersand, nothing that is flagged; nothing at all if bit 30 is set. -/
def copied (what : Nat) (c : Int) : Bool := !what.testBit 30 && decide (0 ≤ c ∧ c < 128 ∧ c ≠ ('&' : Char).toNat) && !flagged what c

/-- A character on its own: its entity; or else itself, if it is ASCII; or else its number. -/
def encChar (c : Int) : List Int :=
  match nameOf [c] with
  | some e => [38] ++ e ++ [59]
  | none => if 0 ≤ c ∧ c < 128 then [c] else numEntity c

/-- A glyph that need not be encoded. -/
def plain (what : Nat) : List Int → Bool
  | [c] => copied what c
  | _ => false

/-- A glyph: itself, if it need not be encoded; or else its entity; or else its characters. -/
def encGlyph (what : Nat) (g : List Int) : List Int :=
  if plain what g then g
  else
    match nameOf g with
    | some e => [38] ++ e ++ [59]
    | none => g.flatMap encChar

/-- Texts whose preferred entity stands for another text: its name occurs twice in the table. -/
def lossy : List (List Nat) := [
  [65, 768], [65, 769], [65, 770], [65, 771], [65, 772], [65, 774], [65, 776], [67, 769], [67, 770], [67, 775], [67, 780], [68, 780], [69, 768],
  [69, 769], [69, 770], [69, 772], [69, 775], [69, 776], [69, 780], [71, 770], [71, 774], [71, 775], [72, 770], [73, 768], [73, 769], [73, 770],
  [73, 771], [73, 772], [73, 775], [73, 776], [74, 770], [76, 769], [76, 780], [78, 769], [78, 771], [78, 780], [79, 768], [79, 769], [79, 770],
  [79, 771], [79, 772], [79, 776], [79, 780], [82, 769], [82, 780], [83, 769], [83, 770], [83, 780], [84, 780], [85, 768], [85, 769], [85, 770],
  [85, 771], [85, 772], [85, 774], [85, 776], [87, 770], [89, 769], [89, 770], [89, 776], [90, 769], [90, 775], [90, 780], [97, 768], [97, 769],
  [97, 770], [97, 771], [97, 772], [97, 774], [97, 776], [99, 769], [99, 770], [99, 775], [99, 780], [100, 780], [101, 768], [101, 769], [101, 770],
  [101, 772], [101, 775], [101, 776], [101, 780], [103, 769], [103, 770], [103, 774], [103, 775], [104, 770], [105, 768], [105, 769], [105, 770],
  [105, 771], [105, 772], [105, 776], [106, 770], [108, 769], [108, 775], [108, 780], [110, 769], [110, 771], [110, 780], [111, 768], [111, 769],
  [111, 770], [111, 771], [111, 772], [111, 775], [111, 776], [111, 780], [114, 769], [114, 780], [115, 769], [115, 770], [115, 775], [115, 780],
  [116, 775], [116, 780], [117, 768], [117, 769], [117, 770], [117, 771], [117, 772], [117, 774], [117, 776], [119, 770], [120, 770], [121, 769],
  [121, 770], [121, 776], [122, 769], [122, 775], [122, 780], [700], [10023]]

/-! ### Proofs: encoding -/

theorem mayCopy_eq (what : Nat) (c : Int) : mayCopy what c = copied what c := by
  have h30 : (what &&& 0x40000000 == 0) = !what.testBit 30 := flagBit what 30
  unfold copied
  rw [← mayDecode_eq, ← h30]
  by_cases h : c = 38
  · subst h
    have : decide ((0 : Int) ≤ 38 ∧ (38 : Int) < 128 ∧ (38 : Int) ≠ (('&' : Char).toNat : Int)) = false := by decide
    rw [this]
    simp [mayCopy]
  · have h7 : decide (0 ≤ c ∧ c < 128 ∧ c ≠ (('&' : Char).toNat : Int)) = is7bit c := by
      unfold is7bit
      rw [← Bool.decide_and]
      apply decide_eq_decide.2
      have : (('&' : Char).toNat : Int) = 38 := by decide
      omega
    have hb : (c != 38) = true := by simpa using h
    rw [h7]
    unfold mayCopy mayDecode
    simp only [hb, Bool.or_true, Bool.and_true, Bool.and_assoc]

theorem is7bit_eq (c : Int) : is7bit c = true ↔ 0 ≤ c ∧ c < 128 := by
  unfold is7bit; simp; omega

theorem glyphs_cons (c : Int) (r : List Int) : glyphs (c :: r) = (c :: r.takeWhile iscombining) :: glyphs (r.dropWhile iscombining) := by rw [glyphs]

theorem glyphs_flatten : ∀ t : List Int, (glyphs t).flatten = t := by
  intro t
  induction h : t.length using Nat.strongRecOn generalizing t with
  | _ n ih =>
    cases t with
    | nil => rw [glyphs]; rfl
    | cons c r =>
      have := (List.dropWhile_suffix iscombining (l := r)).length_le
      rw [List.length_cons] at h
      rw [glyphs_cons, List.flatten_cons, ih _ (by omega) _ rfl, List.cons_append, List.takeWhile_append_dropWhile]

theorem valid_len {s : List Int} {k : Nat} (h : k ≤ s.length) : Valid s (some k) := Or.inr ⟨k, rfl, h⟩

theorem skipMarks_append {l : List Int} (q : List Int) {count : Nat} (h : count ≤ l.length) : ∀ i, skipMarks (l ++ q) count i = skipMarks l count i := by
  intro i
  induction hd : count - i generalizing i with
  | zero =>
    have h1 : skipMarks (l ++ q) count i = some i := by rw [skipMarks, if_neg (by omega)]
    have h2 : skipMarks l count i = some i := by rw [skipMarks, if_neg (by omega)]
    rw [h1, h2]
  | succ d ih =>
    have e1 : rd (l ++ q) i = some (l[i]'(by omega)) := by
      unfold rd; rw [List.getElem?_append_left (by omega), List.getElem?_eq_getElem (by omega)]
    have e2 : rd l i = some (l[i]'(by omega)) := by unfold rd; rw [List.getElem?_eq_getElem (by omega)]
    have h1 : ∀ (m : List Int) (c : Int), rd m i = some c → skipMarks m count i = if iscombining c then skipMarks m count (i + 1) else some i := by
      intro m c hm
      rw [skipMarks, if_pos (by omega)]
      split
      · next p => rw [hm] at p; cases p
      · next c' p => rw [hm] at p; injection p with p; subst p; rfl
    rw [h1 _ _ e1, h1 _ _ e2, ih (i + 1) (by omega)]

theorem decompose_spec {s : List Int} {e : Nat} (he : e ≤ s.length) (hz : ∀ c ∈ s.take e, c ≠ 0) : ∀ (d i : Nat), i + d = e → ∀ dst,
    decompose s e i dst = some (dst ++ ((s.take e).drop i).flatMap encChar) := by
  intro d
  induction d with
  | zero =>
    intro i hi dst
    rw [decompose, if_neg (by omega), List.drop_of_length_le (by rw [List.length_take]; omega)]; simp
  | succ d ih =>
    intro i hi dst
    have hlt : i < (s.take e).length := by rw [List.length_take]; omega
    have hls : i < s.length := by omega
    have hnz := hz _ (List.getElem_mem hlt)
    have ht : text (s.drop i) (some 1) = [(s.take e)[i]] := by
      rw [List.getElem_take] at hnz ⊢
      rw [text_take] <;> rw [List.drop_eq_getElem_cons hls]
      · rfl
      · intro c hc
        simp only [List.take_succ_cons, List.take_zero, List.mem_singleton] at hc
        rw [hc]; exact hnz
    have hrd : rd s i = some (s.take e)[i] := by unfold rd; rw [List.getElem_take, List.getElem?_eq_getElem hls]
    rw [decompose, if_pos (by omega), chr2sgml_spec (valid_len (by rw [List.length_drop]; omega)) (by decide) (by rw [ht]; simp), ht, List.drop_eq_getElem_cons hlt]
    rw [List.flatMap_cons]
    generalize (s.take e)[i] = c at *
    cases hn : nameOf [c] with
    | some n => dsimp only; rw [ih (i + 1) (by omega)]; simp [encChar, hn, named]
    | none =>
      dsimp only
      rw [hrd]
      dsimp only
      rw [ih (i + 1) (by omega)]
      by_cases q : 0 ≤ c ∧ c < 128
      · rw [if_pos ((is7bit_eq c).2 q)]; simp [encChar, hn, q]
      · rw [if_neg (fun p => q ((is7bit_eq c).1 p))]; simp only [encChar, hn, if_neg q]; simp

theorem encLoop_spec {s : List Int} {n what : Nat} (hn : n < 2 ^ 64) (hl : n ≤ s.length) (hz : ∀ c ∈ s.take n, c ≠ 0) : ∀ (d i : Nat), i + d = n → ∀ dst,
    encLoop s n what i dst = some (dst ++ (glyphs ((s.take n).drop i)).flatMap (encGlyph what)) := by
  intro d
  induction d using Nat.strongRecOn with
  | _ d ih =>
    intro i hi dst
    rw [encLoop]
    by_cases c : i < n
    · rw [dif_pos c]
      have hlt : i < (s.take n).length := by rw [List.length_take]; omega
      have hls : i < s.length := by omega
      have hrd : rd s i = some (s.take n)[i] := by unfold rd; rw [List.getElem_take, List.getElem?_eq_getElem hls]
      have hdrop : (s.take n).drop i = (s.take n)[i] :: (s.take n).drop (i + 1) := List.drop_eq_getElem_cons hlt
      have hxz := hz _ (List.getElem_mem hlt)
      generalize (s.take n)[i] = x at *
      obtain ⟨r, hr⟩ : ∃ r, r = (s.take n).drop (i + 1) := ⟨_, rfl⟩
      rw [← hr] at hdrop
      have hsplit : (s.take n).drop i = [x] ++ r.takeWhile iscombining ++ r.dropWhile iscombining := by
        rw [hdrop, List.append_assoc, List.takeWhile_append_dropWhile]; rfl
      have hlen : n - i = ([x] ++ r.takeWhile iscombining ++ r.dropWhile iscombining).length := by
        rw [← hsplit, List.length_drop, List.length_take]; omega
      -- the glyph
      have hsd : s.drop i = ((s.take n).drop i) ++ s.drop n := by
        conv => lhs; rw [← List.take_append_drop n s]
        rw [List.drop_append_of_le_length (by omega)]
      have hg : glyphlen32 (s.drop i) (n - i) = some (1 + (r.takeWhile iscombining).length) := by
        have h1 := glyphlen32_spec x (r.takeWhile iscombining) (r.dropWhile iscombining) (fun c hc => List.all_eq_true.1 List.all_takeWhile c hc) (by
          intro c hc
          have := List.head?_dropWhile_not iscombining r
          rw [hc] at this
          simpa using this)
        rw [← hlen, ← hsplit] at h1
        unfold glyphlen32 at h1 ⊢
        rw [if_neg (by omega)] at h1 ⊢
        rw [hsd, skipMarks_append _ (by rw [List.length_drop, List.length_take]; omega)]
        exact h1
      obtain ⟨m, hm⟩ : ∃ m, m = r.takeWhile iscombining := ⟨_, rfl⟩
      rw [← hm] at hg hsplit hlen
      have hlm : (s.take n).length = n := by rw [List.length_take]; omega
      have hrest : (s.take n).drop (i + (1 + m.length)) = r.dropWhile iscombining := by
        rw [← List.drop_drop, hsplit, List.drop_append_of_le_length (by simp; omega)]
        rw [List.drop_of_length_le (by simp; omega)]; rfl
      have hmlen : 1 + m.length ≤ n - i := by rw [hlen]; simp; omega
      have htake : ((s.take n).drop i).take (1 + m.length) = x :: m := by
        rw [hsplit, List.take_append_of_le_length (by simp; omega), List.take_of_length_le (by simp; omega)]; rfl
      have htk : (s.drop i).take (1 + m.length) = x :: m := by
        rw [hsd, List.take_append_of_le_length (by rw [List.length_drop, hlm]; omega), htake]
      have htext : text (s.drop i) (some (1 + m.length)) = x :: m := by
        rw [text_take] <;> rw [htk]
        intro c hc
        apply hz
        rw [← htake] at hc
        exact List.mem_of_mem_drop (List.mem_of_mem_take hc)
      have hchr := chr2sgml_spec (ent := s.drop i) (count := 1 + m.length) (valid_len (by rw [List.length_drop]; omega)) (by omega) (by rw [htext]; simp)
      rw [htext] at hchr
      have hgl : glyphs ((s.take n).drop i) = (x :: m) :: glyphs (r.dropWhile iscombining) := by rw [hdrop, glyphs_cons, hm]
      rw [hgl, List.flatMap_cons]
      split
      · next q => rw [hg] at q; cases q
      · next g q =>
        rw [hg] at q
        injection q with q
        subst q
        rw [hrd]
        dsimp only
        rw [mayCopy_eq]
        by_cases hcopy : 1 + m.length = 1 ∧ copied what x = true
        · rw [if_pos hcopy]
          have hm0 : m = [] := List.length_eq_zero_iff.1 (by omega)
          rw [hm0] at hrest
          rw [ih (d - 1) (by omega) (i + 1) (by omega), show i + 1 = i + (1 + ([] : List Int).length) from rfl, hrest, hm0, encGlyph]
          simp [plain, hcopy.2]
        · rw [if_neg hcopy, hchr]
          have hnc : plain what (x :: m) = false := by
            cases hq : m with
            | nil =>
              cases hx : copied what x with
              | false => exact hx
              | true => exact absurd ⟨by rw [hq]; rfl, hx⟩ hcopy
            | cons y m => rfl
          have henc : encGlyph what (x :: m) = match nameOf (x :: m) with | some e => [38] ++ e ++ [59] | none => (x :: m).flatMap encChar := by
            rw [encGlyph]
            rw [hnc, if_neg (by decide)]
          rw [henc]
          cases hnm : nameOf (x :: m) with
          | some e =>
            dsimp only
            rw [ih (d - (1 + m.length)) (by omega) (i + (1 + m.length)) (by omega), hrest]
            simp [named]
          | none =>
            dsimp only
            by_cases h1 : 1 + m.length = 1
            · rw [if_pos h1]
              have hm0 : m = [] := List.length_eq_zero_iff.1 (by omega)
              rw [hm0] at hrest hnm ⊢
              rw [ih (d - 1) (by omega) (i + 1) (by omega), show i + 1 = i + (1 + ([] : List Int).length) from rfl, hrest]
              by_cases q : 0 ≤ x ∧ x < 128
              · rw [if_pos ((is7bit_eq x).2 q)]; simp [encChar, hnm, q]
              · rw [if_neg (fun p => q ((is7bit_eq x).1 p))]; simp only [List.flatMap_cons, encChar, hnm, if_neg q]; simp
            · rw [if_neg h1]
              have hdec := decompose_spec (s := s) (e := i + (1 + m.length)) (by omega) (by
                intro c hc
                apply hz
                exact (List.take_prefix_take_left (by omega)).subset hc) (1 + m.length) i rfl dst
              have : (s.take (i + (1 + m.length))).drop i = x :: m := by
                rw [List.drop_take, show i + (1 + m.length) - i = 1 + m.length by omega, htk]
              rw [this] at hdec
              rw [hdec]
              dsimp only
              rw [ih (d - (1 + m.length)) (by omega) (i + (1 + m.length)) (by omega), hrest]
              simp
    · rw [dif_neg c, List.drop_of_length_le (by rw [List.length_take]; omega), glyphs]; simp

end Verif.Sgml
