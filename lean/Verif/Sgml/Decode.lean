import Verif.Sgml.Lookup
import Verif.Container.Mapping
/-
Decoding of SGML: `sgmlend`, `sgmlerr`, `sgml2strcat` of include/stdex/sgml.hpp (84-95, 126-164, 192-252). The destination is a string of 32-bit wide
characters, the source is any string (characters as integers).
-/
namespace Verif.Sgml
open Verif.Str

/-! ### Model -/

/-- `sgmlend`, sgml.hpp 84-95, of the string at `base`: the index behind `base` of the end. -/
def sgmlend (s : List Int) (base count : Nat) (i : Nat := 0) : Option (Option Nat) :=
  if i < count then
    match h : rd s (base + i) with
    | none => none
    | some c =>
      if c = 59 then some (some i)
      else if c = 0 ∨ c = 38 ∨ isspace c then some none
      else sgmlend s base count (i + 1)
  else some none
termination_by s.length - (base + i)
decreasing_by have := (List.getElem?_eq_some_iff.1 h).1; omega

/-- The tests of sgml.hpp 228-239 (flags 203-214): may an entity that stands for a text beginning with `c` be converted? -/
def mayDecode (skip : Nat) (c : Int) : Bool :=
  (skip &&& 0x1 == 0 || c != 34) &&
  (skip &&& 0x2 == 0 || c != 39) &&
  (skip &&& 0x4 == 0 || c != 38) &&
  (skip &&& 0x8 == 0 || (c != 60 && c != 62)) &&
  (skip &&& 0x10 == 0 || c != 92) &&
  (skip &&& 0x20 == 0 || c != 36) &&
  (skip &&& 0x40 == 0 || c != 37) &&
  (skip &&& 0x80 == 0 || c != 64) &&
  (skip &&& 0x100 == 0 || c != 35) &&
  (skip &&& 0x200 == 0 || (c != 40 && c != 41)) &&
  (skip &&& 0x400 == 0 || (c != 123 && c != 125)) &&
  (skip &&& 0x800 == 0 || (c != 91 && c != 93))

/-- The entity at `i`, where `src[i]` is an ampersand, if there is one to convert: its text, and where it ends. sgml.hpp 220-239. -/
def entityAt (s : List Int) (n skip i : Nat) : Option (Option (List Int × Nat)) :=
  match sgmlend s (i + 1) (n - i - 1) with
  | none => none
  | some none => some none
  | some (some k) =>
    match sgml2uni (s.drop (i + 1)) k with
    | none => none
    | some none => some none
    | some (some u) => if mayDecode skip (u.headD 0) then some (some (u, i + 1 + k + 1)) else some none

theorem sgmlend_le {s : List Int} {base count i k : Nat} (h : sgmlend s base count i = some (some k)) : k < count := by
  induction i using sgmlend.induct (s := s) (base := base) (count := count) with
  | case1 i c e => rw [sgmlend, if_pos c] at h; split at h <;> simp_all
  | case2 i c e => rw [sgmlend, if_pos c] at h; split at h <;> simp_all
  | case3 i c x e h1 h2 => rw [sgmlend, if_pos c] at h; split at h <;> simp_all
  | case4 i c x e h1 h2 ih =>
    rw [sgmlend, if_pos c] at h
    split at h
    · cases h
    · next y q =>
      rw [e] at q
      injection q with q
      subst q
      rw [if_neg h1, if_neg h2] at h
      exact ih h
  | case5 i c => rw [sgmlend, if_neg c] at h; cases h

theorem entityAt_gt {s : List Int} {n skip i j : Nat} {u : List Int} (h : entityAt s n skip i = some (some (u, j))) : i < j := by
  unfold entityAt at h
  split at h
  · cases h
  · cases h
  · split at h
    · cases h
    · cases h
    · split at h
      · simp only [Option.some.injEq, Prod.mk.injEq] at h; omega
      · cases h

/-- The loop of `sgml2strcat`, sgml.hpp 218-251. `n` is the length of the source; the result is the destination and the pairs pushed to the map (offsets from the
start, without `offset`). -/
def decLoop (s : List Int) (n skip i : Nat) (dst : List Int) (map : List (Nat × Nat)) : Option (List Int × List (Nat × Nat)) :=
  if hi : i < n then
    match rd s i with
    | none => none
    | some c =>
      if c = 38 then
        match h : entityAt s n skip i with
        | none => none
        | some (some (u, j)) => decLoop s n skip j (dst ++ u) (map ++ [(i, dst.length), (j, (dst ++ u).length)])
        | some none => decLoop s n skip (i + 1) (dst ++ [c]) map
      else decLoop s n skip (i + 1) (dst ++ [c]) map
  else some (dst, map)
termination_by n - i
decreasing_by all_goals (first | (have := entityAt_gt h; omega) | omega)

/-- `sgml2strcat`, sgml.hpp 192-252. -/
def sgml2strcat (s : List Int) (count : Nat) (skip : Nat) (dst : List Int) : Option (List Int × List (Nat × Nat)) :=
  match strnlen s (some count) with
  | none => none
  | some n => decLoop s n skip 0 dst []

/-- The loop of `sgmlerr`, sgml.hpp 136-163; `none` is undefined behaviour, `some none` is `npos`. -/
def errLoop (s : List Int) (count : Nat) (ascii : Bool) (i : Nat) : Option (Option Nat) :=
  if hi : i < count then
    match rd s i with
    | none => none
    | some c =>
      if c = 0 then some none
      else if c = 38 then
        match h : entityAt s count 0 i with
        | none => none
        | some (some (_, j)) => errLoop s count ascii j
        | some none => some (some i)
      else if ascii && !(decide (0 ≤ c) && decide (c ≤ 127)) then some (some i)
      else errLoop s count ascii (i + 1)
  else some none
termination_by count - i
decreasing_by all_goals (first | (have := entityAt_gt h; omega) | omega)

/-- `sgmlerr`, sgml.hpp 126-164. -/
def sgmlerr (s : List Int) (count what : Nat) : Option (Option Nat) := errLoop s count (what &&& 0x40000000 == 0) 0

/-! ### Specification -/

/-- A character that can be part of an entity. -/
def inName (c : Int) : Bool := c ≠ 59 ∧ c ≠ 0 ∧ c ≠ 38 ∧ ¬ isspace c

/-- What follows an ampersand, as entity name and rest, if it is terminated. -/
def splitEntity (r : List Int) : Option (List Int × List Int) :=
  match r.dropWhile inName with
  | 59 :: rest => some (r.takeWhile inName, rest)
  | _ => none

/-- The value of a number of 32 bits, as `strtou32` reads it (C49). -/
def num32 (radix : Nat) (t : List Int) : Nat :=
  if (readSpec radix t).neg then 2 ^ 32 - 1 - min (readSpec radix t).value (2 ^ 32 - 1) else min (readSpec radix t).value (2 ^ 32 - 1)

/-- As a character of 32 bits; nothing if it is NUL. -/
def char32 (n : Nat) : List Int := if n = 0 then [] else if n < 2 ^ 31 then [(n : Int)] else [(n : Int) - 2 ^ 32]

/-- What an entity stands for. -/
def meaning : List Int → Option (List Int)
  | 35 :: 120 :: t => some (char32 (num32 16 t))
  | 35 :: 88 :: t => some (char32 (num32 16 t))
  | 35 :: c :: t => some (char32 (num32 10 (c :: t)))
  | name => uniOf name

/-- The characters that bit `b` of the flags stands for. -/
def flagChars : Nat → List Char
  | 0 => ['"'] | 1 => ['\''] | 2 => ['&'] | 3 => ['<', '>'] | 4 => ['\\'] | 5 => ['$'] | 6 => ['%'] | 7 => ['@'] | 8 => ['#'] | 9 => ['(', ')']
  | 10 => ['{', '}'] | 11 => ['[', ']'] | _ => []

/-- The flags name this character. -/
def flagged (flags : Nat) (c : Int) : Bool := (List.range 12).any fun b => flags.testBit b && (flagChars b).any fun x => c == x.toNat

theorem splitEntity_spec {r name rest : List Int} (h : splitEntity r = some (name, rest)) : r = name ++ 59 :: rest ∧ (∀ c ∈ name, inName c = true) := by
  unfold splitEntity at h
  split at h
  · next q =>
    simp only [Option.some.injEq, Prod.mk.injEq] at h
    obtain ⟨rfl, rfl⟩ := h
    refine ⟨?_, fun c hc => ?_⟩
    · rw [← q]; exact (List.takeWhile_append_dropWhile).symm
    · exact List.all_eq_true.1 (List.all_takeWhile (p := inName) (l := r)) c hc
  · cases h

/-- A piece of SGML text: a character, or an entity and the text it stands for. -/
inductive Piece
  | chr (c : Int)
  | ent (name u : List Int)

/-- How a piece is written. -/
def Piece.src : Piece → List Int
  | .chr c => [c]
  | .ent name _ => 38 :: name ++ [59]

/-- What a piece stands for. -/
def Piece.out : Piece → List Int
  | .chr c => [c]
  | .ent _ u => u

/-- The pieces of SGML text. Whatever is not an entity, or is the entity of a flagged character, is just characters. -/
def pieces (skip : Nat) (t : List Int) : List Piece :=
  match t with
  | [] => []
  | c :: r =>
    if c = 38 then
      match h : splitEntity r with
      | some (name, rest) =>
        match meaning name with
        | some u => if flagged skip (u.headD 0) then .chr c :: pieces skip r else .ent name u :: pieces skip rest
        | none => .chr c :: pieces skip r
      | none => .chr c :: pieces skip r
    else .chr c :: pieces skip r
termination_by t.length
decreasing_by all_goals (first | (have := (splitEntity_spec h).1; subst this; simp; omega) | simp)

/-- The text that SGML text stands for. -/
def decodeSpec (skip : Nat) (t : List Int) : List Int := (pieces skip t).flatMap Piece.out

/-- The points of the map of a sequence of pieces that begins at `i` in the source, at `j` in the destination: both ends of every entity. -/
def points : List Piece → Nat → Nat → List (Nat × Nat)
  | [], _, _ => []
  | .chr _ :: ps, i, j => points ps (i + 1) (j + 1)
  | .ent name u :: ps, i, j => (i, j) :: (i + name.length + 2, j + u.length) :: points ps (i + name.length + 2) (j + u.length)

/-- The offset of the first error in a sequence of pieces that begins at `i`: an ampersand that is not part of an entity or, if only ASCII is allowed, a
character beyond. -/
def firstErr (ascii : Bool) : List Piece → Nat → Option Nat
  | [], _ => none
  | .chr c :: ps, i => if c = 38 ∨ (ascii = true ∧ ¬ (0 ≤ c ∧ c < 128)) then some i else firstErr ascii ps (i + 1)
  | .ent name _ :: ps, i => firstErr ascii ps (i + name.length + 2)

/-! ### Proofs -/

theorem rd_text {s : List Int} {count : Nat} (hv : Valid s (some count)) {i : Nat} (hi : i ≤ (text s (some count)).length) (hc : i < count) :
    rd s i = some ((text s (some count))[i]?.getD 0) := by
  have h := cond_eq hv hi
  unfold Str.cond at h
  rw [if_pos (by simpa [below] using hc)] at h
  cases hr : rd s i with
  | none => rw [hr] at h; cases h
  | some c =>
    rw [hr, Option.map_some, Option.some.injEq] at h
    by_cases q : c = 0
    · rw [if_pos q] at h; rw [← h, q]; rfl
    · rw [if_neg q] at h; rw [← h]; rfl

theorem sgmlend_from {s : List Int} {base count : Nat} (hv : Valid (s.drop base) (some count)) : ∀ (d i : Nat), i + d = (text (s.drop base) (some count)).length →
    sgmlend s base count i = some (match splitEntity ((text (s.drop base) (some count)).drop i) with | some (name, _) => some (i + name.length) | none => none) := by
  intro d
  have hrd : ∀ i, rd s (base + i) = rd (s.drop base) i := fun i => by unfold rd; rw [List.getElem?_drop]
  have hlen := text_length_take (s.drop base) count
  induction d with
  | zero =>
    intro i hi
    rw [sgmlend, List.drop_of_length_le (by omega)]
    by_cases c : i < count
    · rw [if_pos c]
      have := rd_text hv (i := i) (by omega) c
      rw [List.getElem?_eq_none (by omega), ← hrd] at this
      split
      · next q => rw [this] at q; cases q
      · next x q => rw [this] at q; injection q with q; subst q; rfl
    · rw [if_neg c]; rfl
  | succ d ih =>
    intro i hi
    have hlt : i < (text (s.drop base) (some count)).length := by omega
    have c : i < count := by omega
    have hx := rd_text hv (i := i) (by omega) c
    rw [List.getElem?_eq_getElem hlt, ← hrd, Option.getD_some] at hx
    rw [sgmlend, if_pos c, List.drop_eq_getElem_cons hlt]
    have hnz := text_ne_zero (List.getElem_mem hlt)
    generalize (text (s.drop base) (some count))[i] = x at hx hnz ⊢
    split
    · next q => rw [hx] at q; cases q
    · next y q =>
      rw [hx] at q
      injection q with q
      subst q
      by_cases c1 : x = 59
      · rw [if_pos c1]
        subst c1
        unfold splitEntity
        rw [List.dropWhile_cons_of_neg (by decide), List.takeWhile_cons_of_neg (by decide)]
        rfl
      · rw [if_neg c1]
        by_cases c2 : x = 0 ∨ x = 38 ∨ isspace x = true
        · rw [if_pos c2]
          have hn : inName x = false := by unfold inName; simp only [decide_eq_false_iff_not]; intro h; rcases c2 with h2 | h2 | h2 <;> simp_all
          unfold splitEntity
          rw [List.dropWhile_cons_of_neg (by simp [hn])]
          split
          · next e => split at e
                      · next e2 => injection e2 with e2; omega
                      · cases e
          · rfl
        · rw [if_neg c2, ih (i + 1) (by omega)]
          have hn : inName x = true := by unfold inName; simp only [decide_eq_true_iff]; exact ⟨c1, fun h => c2 (Or.inl h), fun h => c2 (Or.inr (Or.inl h)), fun h => c2 (Or.inr (Or.inr h))⟩
          unfold splitEntity
          rw [List.dropWhile_cons_of_pos hn, List.takeWhile_cons_of_pos hn]
          split <;> (rename_i h; split at h) <;> simp_all
          omega


theorem strtou32_spec {s : List Int} {count radix : Nat} (hv : Valid s (some count)) (hr : 2 ≤ radix) :
    ∃ e, strtouint s (some count) 32 radix = some (num32 radix (text s (some count)), e) := by
  obtain ⟨p, h1, h2, h3, h4, h5, h6⟩ := parse_spec (w := 32) hv (Or.inr hr)
  refine ⟨p.stop, ?_⟩
  unfold strtouint num32
  rw [h1, Option.map_some, ← h2]
  refine congrArg some (Prod.ext ?_ rfl)
  dsimp only
  cases ho : p.ovf with
  | true =>
    have := h3.1 ho
    rw [Nat.min_eq_right (by omega)]
    cases p.neg <;> simp
  | false =>
    have := h4 ho
    have h7 : (readSpec radix (text s (some count))).value ≤ 2 ^ 32 - 1 := by
      apply Nat.le_of_not_lt
      intro q
      have := h3.2 (by omega)
      rw [ho] at this; cases this
    rw [Nat.min_eq_left h7, this]
    cases p.neg <;> simp

theorem num32_lt (radix : Nat) (t : List Int) : num32 radix t < 2 ^ 32 := by unfold num32; split <;> omega

theorem char32_eq {n : Nat} (h : n < 2 ^ 32) : ([Int.bmod (n : Int) (2 ^ 32)].takeWhile fun c => decide (c ≠ 0)) = char32 n := by
  have : Int.bmod (n : Int) (2 ^ 32) = if n < 2 ^ 31 then (n : Int) else (n : Int) - 2 ^ 32 := by
    unfold Int.bmod
    have : (n : Int) % ((2 ^ 32 : Nat) : Int) = n := by omega
    rw [this]
    by_cases c : n < 2 ^ 31
    · rw [if_pos c, if_pos (by omega)]
    · rw [if_neg c, if_neg (by omega)]; omega
  rw [this]
  unfold char32
  by_cases c0 : n = 0
  · subst c0; rfl
  · rw [if_neg c0]
    by_cases c : n < 2 ^ 31
    · rw [if_pos c, if_pos c, List.takeWhile_cons_of_pos (by simp; omega), List.takeWhile_nil]
    · rw [if_neg c, if_neg c, List.takeWhile_cons_of_pos (by simp; omega), List.takeWhile_nil]

/-- What `meaning` says about names that are not numbers. -/
theorem meaning_name {name : List Int} (h : name.length < 2 ∨ name.head? ≠ some 35) : meaning name = uniOf name := by
  unfold meaning
  split
  · exact absurd h (by simp)
  · exact absurd h (by simp)
  · exact absurd h (by simp)
  · rfl

theorem text_take {s : List Int} {k : Nat} (h : ∀ c ∈ s.take k, c ≠ 0) : text s (some k) = s.take k := by
  unfold text
  dsimp only
  generalize s.take k = l at h
  induction l with
  | nil => rfl
  | cons x l ih =>
    rw [List.takeWhile_cons_of_pos (by simpa using h x (by simp)), ih fun c hc => h c (by simp [hc])]

theorem uniOf_empty : uniOf [] = none := by
  unfold uniOf
  rw [find_none]
  · rfl
  · intro m x hx
    obtain ⟨h1, _⟩ := entry_ok hx
    cases hq : x.1 with
    | nil => exact absurd hq h1
    | cons a l => rfl

/-- `&;` is not an entity: no name begins with a semicolon. -/
theorem findName_empty (r : List Int) : findName (59 :: r) 0 = some none := by
  unfold findName
  refine bisect_none (F := fun m => if (pairs.getD m ([], [])).1.headD 0 < 59 then -1 else 1) (n := 1535) ?_ ?_ _ _ (Nat.le_refl _)
  · intro m hm
    have hlt : m < pairs.length := by rw [pairs_length]; exact hm
    have hp : pairs[m]? = some pairs[m] := List.getElem?_eq_getElem hlt
    have hg : pairs.getD m ([], []) = pairs[m] := by rw [List.getD_eq_getElem?_getD, hp]; rfl
    obtain ⟨h1, _, _, _, h5, _⟩ := entry_ok hp
    rw [hp, Option.bind_some]
    simp only [hg]
    generalize pairs[m] = e at *
    obtain ⟨nm, un⟩ := e
    cases nm with
    | nil => exact absurd rfl h1
    | cons a l =>
      have := h5 a (by simp)
      unfold cmpHead
      rw [show rd (nameCells (a :: l, un)) 0 = some (a : Int) from rfl, show rd (59 :: r) 0 = some 59 from rfl]
      show _ = some (if a < 59 then (-1 : Int) else 1)
      dsimp only
      by_cases c : a < 59
      · rw [if_pos (by omega), if_pos c]
      · rw [if_neg (by omega), if_pos (by omega), if_neg c]
  · intro m hm
    split <;> decide

theorem sgml2uni_spec {ent : List Int} {k : Nat} (hk : k < 2 ^ 64) (hn : ∀ c ∈ ent.take k, inName c = true) (he : ent[k]? = some 59) :
    sgml2uni ent k = some (meaning (ent.take k)) := by
  have hkl : k < ent.length := (List.getElem?_eq_some_iff.1 he).1
  have hnz : ∀ c ∈ ent.take k, c ≠ 0 := fun c hc h0 => by have := hn c hc; subst h0; revert this; decide
  have ht := text_take hnz
  have hv : Valid ent (some k) := Or.inr ⟨k, rfl, by omega⟩
  cases ent with
  | nil => simp at hkl
  | cons c r =>
    unfold sgml2uni
    rw [show rd (c :: r) 0 = some c from rfl]
    dsimp only
    by_cases h1 : k < 2 ∨ c ≠ 35
    · rw [if_pos h1]
      have hm : meaning ((c :: r).take k) = uniOf ((c :: r).take k) := by
        apply meaning_name
        rcases h1 with h1 | h1
        · left; rw [List.length_take]; omega
        · cases k with
          | zero => left; simp
          | succ k => right; simpa using h1
      rw [hm]
      cases k with
      | zero =>
        rw [List.getElem?_cons_zero] at he
        have he : c = 59 := Option.some.inj he
        subst he
        rw [findName_empty, List.take_zero, uniOf_empty]; rfl
      | succ k =>
        rw [findName_spec hv hk (by rw [ht]; simp), ht]
    · rw [if_neg h1]
      obtain ⟨h2, h3⟩ : 2 ≤ k ∧ c = 35 := by
        constructor
        · exact Nat.le_of_not_lt fun q => h1 (Or.inl q)
        · exact Classical.not_not.1 fun q => h1 (Or.inr q)
      subst h3
      cases r with
      | nil => simp at hkl; omega
      | cons x r =>
        rw [show rd (35 :: x :: r) 1 = some x from rfl]
        dsimp only
        obtain ⟨k, rfl⟩ : ∃ j, k = j + 2 := ⟨k - 2, by omega⟩
        have hd2 : ((35 : Int) :: x :: r).drop 2 = r := rfl
        have hd1 : ((35 : Int) :: x :: r).drop 1 = x :: r := rfl
        rw [List.length_cons, List.length_cons] at hkl
        have v2 : Valid r (some k) := Or.inr ⟨k, rfl, by omega⟩
        have v1 : Valid (x :: r) (some (k + 1)) := Or.inr ⟨k + 1, rfl, by rw [List.length_cons]; omega⟩
        simp only [List.take_succ_cons] at ht hnz ⊢
        have t2 : text r (some k) = r.take k := text_take fun c hc => hnz c (by simp [hc])
        have t1 : text (x :: r) (some (k + 1)) = x :: r.take k := text_take fun c hc => hnz c (List.mem_cons_of_mem _ hc)
        rw [hd2, hd1, show k + 2 - 2 = k from rfl, show k + 2 - 1 = k + 1 from rfl]
        by_cases c1 : x = 120 ∨ x = 88
        · rw [if_pos c1]
          obtain ⟨e, hs⟩ := strtou32_spec (radix := 16) v2 (by decide)
          rw [hs, Option.map_some]
          dsimp only
          rw [char32_eq (num32_lt _ _), t2]
          rcases c1 with rfl | rfl <;> rfl
        · rw [if_neg c1]
          obtain ⟨e, hs⟩ := strtou32_spec (radix := 10) v1 (by decide)
          rw [hs, Option.map_some]
          dsimp only
          rw [char32_eq (num32_lt _ _), t1]
          unfold meaning
          split
          · next q => simp_all
          · next q => simp_all
          · next q => simp_all
          · next q => simp_all

theorem flagBit (skip b : Nat) : (skip &&& 2 ^ b == 0) = !skip.testBit b := by
  cases hb : skip.testBit b with
  | true =>
    have h : (skip &&& 2 ^ b).testBit b = true := by rw [Nat.testBit_and, Nat.testBit_two_pow, hb]; simp
    have h2 : skip &&& 2 ^ b ≠ 0 := fun q => by rw [q, Nat.zero_testBit] at h; cases h
    simp [h2]
  | false =>
    have h : skip &&& 2 ^ b = 0 := by
      apply Nat.eq_of_testBit_eq
      intro i
      rw [Nat.testBit_and, Nat.testBit_two_pow, Nat.zero_testBit]
      by_cases c : b = i
      · rw [← c, hb]; rfl
      · simp [c]
    simp [h]

theorem mayDecode_eq (skip : Nat) (c : Int) : mayDecode skip c = !flagged skip c := by
  have hb := flagBit skip
  have := hb 0; have := hb 1; have := hb 2; have := hb 3; have := hb 4; have := hb 5; have := hb 6; have := hb 7; have := hb 8; have := hb 9; have := hb 10; have := hb 11
  unfold mayDecode flagged
  simp only [Nat.reducePow] at *
  simp only [*]
  simp [List.range, List.range.loop, flagChars, bne]
  grind


/-! ### Proofs: decoding -/

theorem pieces_chr (skip : Nat) {c : Int} (r : List Int) (hc : c ≠ 38) : pieces skip (c :: r) = .chr c :: pieces skip r := by
  rw [pieces, if_neg hc]

/-- The equations of `pieces` at an ampersand. -/
theorem pieces_amp (skip : Nat) (r : List Int) : pieces skip (38 :: r) =
    match splitEntity r with
    | some (name, rest) =>
      match meaning name with
      | some u => if flagged skip (u.headD 0) then .chr 38 :: pieces skip r else .ent name u :: pieces skip rest
      | none => .chr 38 :: pieces skip r
    | none => .chr 38 :: pieces skip r := by
  rw [pieces, if_pos rfl]
  cases h : splitEntity r with
  | none => rfl
  | some p => rfl

theorem entityAt_spec {s : List Int} {n i skip : Nat} (hn : n < 2 ^ 64) (hv : Valid (s.drop (i + 1)) (some (n - i - 1))) :
    entityAt s n skip i = some (match splitEntity (text (s.drop (i + 1)) (some (n - i - 1))) with
      | some (name, _) =>
        match meaning name with
        | some u => if flagged skip (u.headD 0) then none else some (u, i + name.length + 2)
        | none => none
      | none => none) := by
  unfold entityAt
  rw [sgmlend_from hv _ 0 (Nat.zero_add _), List.drop_zero]
  cases h : splitEntity (text (s.drop (i + 1)) (some (n - i - 1))) with
  | none => rfl
  | some p =>
    obtain ⟨name, rest⟩ := p
    obtain ⟨h1, h2⟩ := splitEntity_spec h
    have hpre : text (s.drop (i + 1)) (some (n - i - 1)) <+: s.drop (i + 1) := (List.takeWhile_prefix _).trans (List.take_prefix _ _)
    obtain ⟨q, hq⟩ := hpre
    rw [h1] at hq
    have ht : (s.drop (i + 1)).take name.length = name := by rw [← hq, List.append_assoc, List.take_left]
    have he : (s.drop (i + 1))[name.length]? = some 59 := by rw [← hq]; simp
    have hl : name.length < 2 ^ 64 := by
      have := text_length_take (s.drop (i + 1)) (n - i - 1)
      rw [h1, List.length_append] at this; omega
    dsimp only
    rw [Nat.zero_add, sgml2uni_spec hl (by rw [ht]; exact h2) he, ht]
    cases meaning name with
    | none => rfl
    | some u =>
      dsimp only
      rw [mayDecode_eq]
      cases flagged skip (u.headD 0)
      · simp; omega
      · simp

theorem decLoop_spec {s : List Int} {n skip : Nat} (hn : n < 2 ^ 64) (hv : n ≤ s.length) (hz : ∀ c ∈ s.take n, c ≠ 0) : ∀ (d i : Nat), i + d = n → ∀ dst map,
    decLoop s n skip i dst map =
      some (dst ++ decodeSpec skip ((s.take n).drop i), map ++ points (pieces skip ((s.take n).drop i)) i dst.length) := by
  intro d
  induction d using Nat.strongRecOn with
  | _ d ih =>
    intro i hi dst map
    rw [decLoop]
    by_cases c : i < n
    · rw [dif_pos c]
      have hlt : i < (s.take n).length := by rw [List.length_take]; omega
      have hrd : rd s i = some (s.take n)[i] := by
        unfold rd; rw [List.getElem_take, List.getElem?_eq_getElem (by omega)]
      have hdrop : (s.take n).drop i = (s.take n)[i] :: (s.take n).drop (i + 1) := List.drop_eq_getElem_cons hlt
      rw [hrd, hdrop]
      generalize (s.take n)[i] = x at *
      dsimp only
      have hchr : ∀ p, decLoop s n skip (i + 1) (dst ++ [x]) map = p → p = some (dst ++ (x :: decodeSpec skip ((s.take n).drop (i + 1))),
          map ++ points (.chr x :: pieces skip ((s.take n).drop (i + 1))) i dst.length) := by
        intro p hp
        rw [← hp, ih (d - 1) (by omega) (i + 1) (by omega)]
        simp [points]
      by_cases h38 : x = 38
      · rw [if_pos h38]
        subst h38
        have hv2 : Valid (s.drop (i + 1)) (some (n - i - 1)) := Or.inr ⟨_, rfl, by rw [List.length_drop]; omega⟩
        have ht : text (s.drop (i + 1)) (some (n - i - 1)) = (s.take n).drop (i + 1) := by
          rw [text_take, List.drop_take, Nat.sub_sub]
          intro c hc
          apply hz
          have : c ∈ (s.take n).drop (i + 1) := by rw [List.drop_take]; rwa [Nat.sub_sub] at hc
          exact List.mem_of_mem_drop this
        have hE := entityAt_spec (skip := skip) hn hv2
        rw [ht] at hE
        rw [decodeSpec, pieces_amp]
        cases hs : splitEntity ((s.take n).drop (i + 1)) with
        | none =>
          rw [hs] at hE
          dsimp only at hE ⊢
          split
          · next q => rw [hE] at q; cases q
          · next q => rw [hE] at q; cases q
          · exact hchr _ rfl
        | some p =>
          obtain ⟨name, rest⟩ := p
          rw [hs] at hE
          dsimp only at hE ⊢
          cases hm : meaning name with
          | none =>
            rw [hm] at hE
            dsimp only at hE ⊢
            split
            · next q => rw [hE] at q; cases q
            · next q => rw [hE] at q; cases q
            · exact hchr _ rfl
          | some u =>
            rw [hm] at hE
            dsimp only at hE ⊢
            by_cases hf : flagged skip (u.headD 0) = true
            · rw [if_pos hf] at hE ⊢
              split
              · next q => rw [hE] at q; cases q
              · next q => rw [hE] at q; cases q
              · exact hchr _ rfl
            · rw [if_neg hf] at hE ⊢
              split
              · next q => rw [hE] at q; cases q
              · next u' j q =>
                rw [hE] at q
                simp only [Option.some.injEq, Prod.mk.injEq] at q
                obtain ⟨rfl, rfl⟩ := q
                obtain ⟨h1, h2⟩ := splitEntity_spec hs
                have hlen : (s.take n).length = n := by rw [List.length_take]; omega
                have hl := congrArg List.length h1
                rw [List.length_drop, hlen, List.length_append, List.length_cons] at hl
                have hr : (s.take n).drop (i + name.length + 2) = rest := by
                  rw [show i + name.length + 2 = (i + 1) + (name.length + 1) by omega, ← List.drop_drop, h1]
                  simp
                rw [ih (d - name.length - 2) (by omega) (i + name.length + 2) (by omega), hr]
                simp [points, Piece.out, decodeSpec, Nat.add_assoc]
              · next q => rw [hE] at q; cases q
      · rw [if_neg h38, decodeSpec, pieces_chr _ _ h38]
        exact hchr _ rfl
    · rw [dif_neg c, List.drop_of_length_le (by rw [List.length_take]; omega)]
      simp [decodeSpec, pieces, points]

/-- The text up to a terminator or `count` is what is decoded. -/
theorem sgml2strcat_pieces {s : List Int} {count skip : Nat} (hv : Valid s (some count)) (hc : count < 2 ^ 64) (dst : List Int) :
    sgml2strcat s count skip dst = some (dst ++ decodeSpec skip (text s (some count)), points (pieces skip (text s (some count))) 0 dst.length) := by
  unfold sgml2strcat
  rw [strnlen_spec hv]
  dsimp only
  have hpre : text s (some count) <+: s := (List.takeWhile_prefix _).trans (List.take_prefix _ _)
  have ht : s.take (text s (some count)).length = text s (some count) := by
    obtain ⟨q, hq⟩ := hpre
    conv => lhs; arg 2; rw [← hq]
    rw [List.take_left]
  have := text_length_take s count
  rw [decLoop_spec (by omega) hpre.length_le (by rw [ht]; exact fun c hc => text_ne_zero hc) _ 0 (Nat.zero_add _), ht]
  simp


/-! ### Proofs: checking -/

theorem flagged_zero (c : Int) : flagged 0 c = false := by simp [flagged]

theorem errLoop_spec {s : List Int} {count : Nat} (hc : count < 2 ^ 64) (hv : Valid s (some count)) (ascii : Bool) : ∀ (d i : Nat), i + d = (text s (some count)).length →
    errLoop s count ascii i = some (firstErr ascii (pieces 0 ((text s (some count)).drop i)) i) := by
  intro d
  have hlen := text_length_take s count
  induction d using Nat.strongRecOn with
  | _ d ih =>
    intro i hi
    rw [errLoop]
    by_cases c : i < count
    · rw [dif_pos c, rd_text hv (by omega) c]
      dsimp only
      by_cases h0 : i = (text s (some count)).length
      · rw [List.getElem?_eq_none (by omega), Option.getD_none, if_pos rfl, List.drop_of_length_le (by omega), pieces]; rfl
      · have hlt : i < (text s (some count)).length := by omega
        rw [List.getElem?_eq_getElem hlt, Option.getD_some, List.drop_eq_getElem_cons hlt]
        have hnz := text_ne_zero (List.getElem_mem hlt)
        generalize (text s (some count))[i] = x at *
        rw [if_neg hnz]
        by_cases h38 : x = 38
        · rw [if_pos h38]
          subst h38
          have hv2 := valid_drop hv (i := i + 1) (by omega)
          have ht := text_drop (i + 1) s count (by omega)
          have hE := entityAt_spec (s := s) (n := count) (i := i) (skip := 0) hc (by rwa [Nat.sub_sub])
          rw [Nat.sub_sub, ht] at hE
          rw [pieces_amp]
          cases hs : splitEntity ((text s (some count)).drop (i + 1)) with
          | none =>
            rw [hs] at hE
            dsimp only at hE ⊢
            split
            · next q => rw [hE] at q; cases q
            · next q => rw [hE] at q; cases q
            · simp [firstErr]
          | some p =>
            obtain ⟨name, rest⟩ := p
            rw [hs] at hE
            dsimp only at hE ⊢
            cases hm : meaning name with
            | none =>
              rw [hm] at hE
              dsimp only at hE ⊢
              split
              · next q => rw [hE] at q; cases q
              · next q => rw [hE] at q; cases q
              · simp [firstErr]
            | some u =>
              rw [hm] at hE
              dsimp only at hE ⊢
              rw [flagged_zero, if_neg (by decide)] at hE ⊢
              split
              · next q => rw [hE] at q; cases q
              · next u' j q =>
                rw [hE] at q
                simp only [Option.some.injEq, Prod.mk.injEq] at q
                obtain ⟨rfl, rfl⟩ := q
                obtain ⟨h1, h2⟩ := splitEntity_spec hs
                have hl := congrArg List.length h1
                rw [List.length_drop, List.length_append, List.length_cons] at hl
                have hr : (text s (some count)).drop (i + name.length + 2) = rest := by
                  rw [show i + name.length + 2 = (i + 1) + (name.length + 1) by omega, ← List.drop_drop, h1]
                  simp
                rw [ih (d - name.length - 2) (by omega) (i + name.length + 2) (by omega), hr]
                rfl
              · next q => rw [hE] at q; cases q
        · rw [if_neg h38, pieces_chr _ _ h38, firstErr, ih (d - 1) (by omega) (i + 1) (by omega)]
          cases ascii with
          | false => simp [h38]
          | true =>
            by_cases q : 0 ≤ x ∧ x < 128
            · rw [if_neg (by simp; omega), if_neg (by simp; omega)]
            · rw [if_pos (by simp; omega), if_pos (by simp; omega)]
    · rw [dif_neg c, List.drop_of_length_le (by omega), pieces]; rfl

/-! ### Properties -/

/-- **C60** (decoding) Decoding appends, for every piece of the source up to its end, what the piece stands for. -/
theorem sgml2str_decodes {s : List Int} {count skip : Nat} (hv : Valid s (some count)) (hc : count < 2 ^ 64) (dst : List Int) :
    (sgml2strcat s count skip dst).map Prod.fst = some (dst ++ (pieces skip (text s (some count))).flatMap Piece.out) := by
  rw [sgml2strcat_pieces hv hc]; rfl

/-- The pieces make up the source. -/
theorem pieces_src (skip : Nat) : ∀ t : List Int, (pieces skip t).flatMap Piece.src = t := by
  intro t
  induction h : t.length using Nat.strongRecOn generalizing t with
  | _ n ih =>
    cases t with
    | nil => rw [pieces]; rfl
    | cons c r =>
      rw [List.length_cons] at h
      have ih1 := ih r.length (by omega) r rfl
      by_cases hc : c = 38
      · subst hc
        have hchr : (Piece.chr 38 :: pieces skip r).flatMap Piece.src = 38 :: r := by rw [List.flatMap_cons, ih1]; rfl
        rw [pieces_amp]
        cases hs : splitEntity r with
        | none => exact hchr
        | some p =>
          obtain ⟨name, rest⟩ := p
          dsimp only
          cases hm : meaning name with
          | none => exact hchr
          | some u =>
            dsimp only
            by_cases hf : flagged skip (u.headD 0) = true
            · rw [if_pos hf]; exact hchr
            · rw [if_neg hf]
              have h1 := (splitEntity_spec hs).1
              have hl := congrArg List.length h1
              rw [List.length_append, List.length_cons] at hl
              rw [List.flatMap_cons, ih rest.length (by omega) rest rfl, h1]
              simp [Piece.src]
      · rw [pieces_chr _ _ hc, List.flatMap_cons, ih1]; rfl

/-- Every entity piece is one: a name of the table, or a number, and not flagged. -/
theorem pieces_ent (skip : Nat) : ∀ (t : List Int) (name u : List Int), .ent name u ∈ pieces skip t → meaning name = some u ∧ flagged skip (u.headD 0) = false ∧
    ∀ c ∈ name, inName c = true := by
  intro t
  induction h : t.length using Nat.strongRecOn generalizing t with
  | _ n ih =>
    intro name u hmem
    cases t with
    | nil => rw [pieces] at hmem; cases hmem
    | cons c r =>
      rw [List.length_cons] at h
      have hchr : ∀ c, Piece.ent name u ∈ (Piece.chr c :: pieces skip r) → meaning name = some u ∧ flagged skip (u.headD 0) = false ∧ ∀ c ∈ name, inName c = true := by
        intro c q
        rcases List.mem_cons.1 q with q | q
        · cases q
        · exact ih r.length (by omega) r rfl name u q
      by_cases hc : c = 38
      · subst hc
        rw [pieces_amp] at hmem
        cases hs : splitEntity r with
        | none => rw [hs] at hmem; exact hchr _ hmem
        | some p =>
          obtain ⟨name', rest⟩ := p
          rw [hs] at hmem
          dsimp only at hmem
          cases hm : meaning name' with
          | none => rw [hm] at hmem; exact hchr _ hmem
          | some u' =>
            rw [hm] at hmem
            dsimp only at hmem
            by_cases hf : flagged skip (u'.headD 0) = true
            · rw [if_pos hf] at hmem; exact hchr _ hmem
            · rw [if_neg hf] at hmem
              obtain ⟨h1, h2⟩ := splitEntity_spec hs
              rcases List.mem_cons.1 hmem with q | q
              · injection q with q1 q2
                subst q1 q2
                exact ⟨hm, by simpa using hf, h2⟩
              · have hl := congrArg List.length h1
                rw [List.length_append, List.length_cons] at hl
                exact ih rest.length (by omega) rest rfl name u q
      · rw [pieces_chr _ _ hc] at hmem
        exact hchr _ hmem

theorem pieces_plain (skip : Nat) : ∀ {t : List Int}, 38 ∉ t → pieces skip t = t.map Piece.chr
  | [], _ => by rw [pieces]; rfl
  | c :: r, h => by
    rw [pieces_chr _ _ (fun q => h (by rw [q]; exact List.mem_cons_self)), pieces_plain skip (fun q => h (List.mem_cons_of_mem _ q)), List.map_cons]

/-- **C60** (plain text) Text without an ampersand is copied unchanged, and no point is added to the map. -/
theorem sgml2str_plain {s : List Int} {count skip : Nat} (hv : Valid s (some count)) (hc : count < 2 ^ 64) (dst : List Int) (h : 38 ∉ text s (some count)) :
    sgml2strcat s count skip dst = some (dst ++ text s (some count), []) := by
  rw [sgml2strcat_pieces hv hc, decodeSpec, pieces_plain skip h]
  have h1 : ∀ t : List Int, (t.map Piece.chr).flatMap Piece.out = t := by
    intro t
    induction t with
    | nil => rfl
    | cons c t ih => rw [List.map_cons, List.flatMap_cons, ih]; rfl
  have h2 : ∀ (t : List Int) i j, points (t.map Piece.chr) i j = [] := by
    intro t
    induction t with
    | nil => intros; rfl
    | cons c t ih => intro i j; exact ih _ _
  rw [h1, h2]

/-- **C60** (malformed) An ampersand that does not begin an entity - it is not terminated, or unknown - is copied literally, and decoding goes on right
behind it. -/
theorem decode_literal (skip : Nat) (r : List Int) (h : ∀ name rest, r = name ++ 59 :: rest → (∀ c ∈ name, inName c = true) → meaning name = none) :
    decodeSpec skip (38 :: r) = 38 :: decodeSpec skip r := by
  unfold decodeSpec
  rw [pieces_amp]
  cases hs : splitEntity r with
  | none => rfl
  | some p =>
    obtain ⟨name, rest⟩ := p
    dsimp only
    rw [h name rest (splitEntity_spec hs).1 (splitEntity_spec hs).2]
    rfl

/-- A piece that is an error. -/
def Piece.bad (ascii : Bool) : Piece → Prop
  | .chr c => c = 38 ∨ (ascii = true ∧ ¬ (0 ≤ c ∧ c < 128))
  | .ent _ _ => False

theorem firstErr_none (ascii : Bool) : ∀ (ps : List Piece) (i : Nat), firstErr ascii ps i = none ↔ ∀ p ∈ ps, ¬ p.bad ascii
  | [], i => by simp [firstErr]
  | .chr c :: ps, i => by
    rw [firstErr, List.forall_mem_cons]
    by_cases h : c = 38 ∨ (ascii = true ∧ ¬ (0 ≤ c ∧ c < 128))
    · rw [if_pos h]; exact ⟨fun q => (nomatch q), fun q => absurd h q.1⟩
    · rw [if_neg h, firstErr_none ascii ps]; simp only [Piece.bad, h, not_false_eq_true, true_and]
  | .ent name u :: ps, i => by
    rw [firstErr, List.forall_mem_cons, firstErr_none ascii ps]; simp [Piece.bad]

theorem firstErr_some (ascii : Bool) : ∀ (ps : List Piece) (i k : Nat), firstErr ascii ps i = some k ↔
    ∃ a p b, ps = a ++ p :: b ∧ (∀ q ∈ a, ¬ q.bad ascii) ∧ p.bad ascii ∧ k = i + (a.flatMap Piece.src).length := by
  intro ps
  induction ps with
  | nil => intro i k; simp [firstErr]
  | cons x ps ih =>
    intro i k
    have step : ¬ x.bad ascii → ((∃ a p b, ps = a ++ p :: b ∧ (∀ q ∈ a, ¬ q.bad ascii) ∧ p.bad ascii ∧ k = i + x.src.length + (a.flatMap Piece.src).length) ↔
        ∃ a p b, x :: ps = a ++ p :: b ∧ (∀ q ∈ a, ¬ q.bad ascii) ∧ p.bad ascii ∧ k = i + (a.flatMap Piece.src).length) := by
      intro hx
      constructor
      · rintro ⟨a, p, b, rfl, h1, h2, h3⟩
        refine ⟨x :: a, p, b, rfl, List.forall_mem_cons.2 ⟨hx, h1⟩, h2, ?_⟩
        rw [List.flatMap_cons, List.length_append]; omega
      · rintro ⟨a, p, b, h0, h1, h2, h3⟩
        cases a with
        | nil => rw [List.nil_append] at h0; injection h0 with e1 e2; subst e1; exact absurd h2 hx
        | cons y a =>
          rw [List.cons_append] at h0
          injection h0 with e1 e2
          subst e1 e2
          refine ⟨a, p, b, rfl, fun q hq => h1 q (List.mem_cons_of_mem _ hq), h2, ?_⟩
          rw [List.flatMap_cons, List.length_append] at h3; omega
    have hit : x.bad ascii → (some i = some k ↔ ∃ a p b, x :: ps = a ++ p :: b ∧ (∀ q ∈ a, ¬ q.bad ascii) ∧ p.bad ascii ∧ k = i + (a.flatMap Piece.src).length) := by
      intro hx
      constructor
      · intro h
        injection h with h
        exact ⟨[], x, ps, rfl, fun q hq => (nomatch hq), hx, by rw [← h]; rfl⟩
      · rintro ⟨a, p, b, h0, h1, h2, h3⟩
        cases a with
        | nil => rw [h3]; rfl
        | cons y a =>
          rw [List.cons_append] at h0
          injection h0 with e1 e2
          subst e1
          exact absurd hx (h1 x List.mem_cons_self)
    cases x with
    | chr c =>
      rw [firstErr]
      by_cases h : c = 38 ∨ (ascii = true ∧ ¬ (0 ≤ c ∧ c < 128))
      · rw [if_pos h]; exact hit h
      · rw [if_neg h, ih (i + 1) k]; exact step h
    | ent name u =>
      rw [firstErr, ih, ← step (fun h => h)]
      simp only [Piece.src, List.cons_append, List.length_cons, List.length_append, List.length_nil]
      constructor <;> rintro ⟨a, p, b, h0, h1, h2, h3⟩ <;> exact ⟨a, p, b, h0, h1, h2, by omega⟩

theorem sgmlerr_eq {s : List Int} {count what : Nat} (hv : Valid s (some count)) (hc : count < 2 ^ 64) :
    sgmlerr s count what = some (firstErr (!what.testBit 30) (pieces 0 (text s (some count))) 0) := by
  unfold sgmlerr
  have : (what &&& 0x40000000 == 0) = !what.testBit 30 := flagBit what 30
  rw [errLoop_spec hc hv _ _ 0 (Nat.zero_add _), List.drop_zero, this]

/-- **C66** `sgmlerr` returns `k` exactly if the first piece that is neither an entity nor an allowed character is at offset `k`. -/
theorem sgmlerr_first {s : List Int} {count what : Nat} (hv : Valid s (some count)) (hc : count < 2 ^ 64) (k : Nat) :
    sgmlerr s count what = some (some k) ↔ ∃ a p b, pieces 0 (text s (some count)) = a ++ p :: b ∧ (∀ q ∈ a, ¬ q.bad (!what.testBit 30)) ∧
      p.bad (!what.testBit 30) ∧ k = (a.flatMap Piece.src).length := by
  rw [sgmlerr_eq hv hc, Option.some.injEq, firstErr_some]
  simp only [Nat.zero_add]

/-- **C66** `sgmlerr` returns `npos` exactly if there is no such piece. -/
theorem sgmlerr_npos {s : List Int} {count what : Nat} (hv : Valid s (some count)) (hc : count < 2 ^ 64) :
    sgmlerr s count what = some none ↔ ∀ p ∈ pieces 0 (text s (some count)), ¬ p.bad (!what.testBit 30) := by
  rw [sgmlerr_eq hv hc, Option.some.injEq, firstErr_none]

/-- Text of the ASCII characters of a string. -/
def asc (s : String) : List Int := s.toList.map fun c : Char => (c.toNat : Int)

/-- Non-vacuity: an unknown entity; a name followed by text; a number; an unterminated entity; a flag. -/
example : sgmlerr (asc "a&lt;b&zz;") 10 0 = some (some 6) ∧ sgmlerr (asc "a&lt;b") 6 0 = some none ∧
    sgml2strcat (asc "a&lt;&#x41;b&zz;&") 17 0 [] = some (asc "a<Ab&zz;&", [(1, 1), (5, 2), (5, 2), (11, 3)]) ∧
    sgml2strcat (asc "a&lt;&#x41;") 11 8 [] = some (asc "a&lt;A", [(5, 5), (11, 6)]) := by
  refine ⟨?_, ?_, ?_, ?_⟩ <;> decide +kernel

end Verif.Sgml
