import Verif.Sgml.Encode
/-
What `str2sgml` writes, `sgml2str` reads: sgml.hpp 192-252 and 565-648.
-/
namespace Verif.Sgml
open Verif.Str

set_option maxRecDepth 20000
attribute [local irreducible] chr2sgml

/-! ### Proofs: the table -/

/-- Entries with the same name as the one in front. -/
def nonFirst : List (List Nat × List Nat) → List (List Nat × List Nat)
  | x :: y :: l => if x.1 == y.1 then y :: nonFirst (y :: l) else nonFirst (y :: l)
  | _ => []

theorem leL_antisymm : ∀ a b : List Nat, leL a b = true → leL b a = true → a = b
  | [], [], _, _ => rfl
  | [], _ :: _, _, h => by cases h
  | _ :: _, [], h, _ => by cases h
  | a :: x, b :: y, h1, h2 => by
    rw [show leL (a :: x) (b :: y) = if a < b then true else if b < a then false else leL x y from rfl] at h1
    rw [show leL (b :: y) (a :: x) = if b < a then true else if a < b then false else leL y x from rfl] at h2
    by_cases p : a < b
    · rw [if_neg (by omega), if_pos p] at h2; cases h2
    · rw [if_neg p] at h1
      by_cases q : b < a
      · rw [if_pos q] at h1; cases h1
      · rw [if_neg q] at h1
        rw [if_neg q, if_neg p] at h2
        rw [leL_antisymm x y h1 h2, show a = b by omega]

theorem first_or_not : ∀ (l : List (List Nat × List Nat)), sortedB (l.map fun e => e.1) = true → ∀ p ∈ l, p ∈ nonFirst l ∨ l.find? (fun e => e.1 == p.1) = some p := by
  intro l
  induction l with
  | nil => intro _ p hp; cases hp
  | cons x l ih =>
    intro hs p hp
    cases l with
    | nil =>
      have : p = x := by simpa using hp
      subst this
      right; simp
    | cons y l =>
      have hs' : sortedB ((y :: l).map fun e => e.1) = true := by
        simp only [List.map_cons, sortedB, Bool.and_eq_true] at hs
        simpa [List.map_cons] using hs.2
      by_cases hx : x.1 = p.1
      · rcases List.mem_cons.1 hp with e | e
        · right; rw [e]; simp
        · -- then the second entry has the name, too
          have g1 := sorted_get _ hs 0 1 (by omega) x.1 y.1 rfl rfl
          obtain ⟨k, hk⟩ := List.mem_iff_getElem?.1 e
          have g2 := sorted_get _ hs' 0 k (Nat.zero_le _) y.1 p.1 rfl (by rw [List.getElem?_map, hk]; rfl)
          rw [hx] at g1
          have hy : y.1 = p.1 := leL_antisymm _ _ g2 g1
          left
          rw [nonFirst, if_pos (by rw [hx, hy]; simp)]
          rcases ih hs' p e with h | h
          · exact List.mem_cons_of_mem _ h
          · rw [List.find?_cons_of_pos (by simp [hy])] at h
            injection h with h
            rw [h]; exact List.mem_cons_self
      · rcases List.mem_cons.1 hp with e | e
        · exact absurd (by rw [e]) hx
        · rcases ih hs' p e with h | h
          · left
            rw [nonFirst]
            split
            · exact List.mem_cons_of_mem _ h
            · exact h
          · right
            rw [List.find?_cons_of_neg (by simpa using hx)]; exact h

/-- A faster form of `byUni`. -/
def byUniF : List (List Nat × List Nat) := order.map fun k => (chunkGet pairChunks k).getD ([], [])

theorem byUniF_eq : byUni = byUniF := by
  unfold byUni byUniF
  apply List.map_congr_left
  intro k _
  rw [List.getD_eq_getElem?_getD, pairs_get]

theorem nonFirst_lossy : (nonFirst pairs).all (fun p => lossy.contains p.2 || p == ([105, 110, 111, 100, 111, 116], [305])) = true := by decide +kernel

theorem find_castL (l : List (List Nat × List Nat)) (f : List Nat × List Nat → List Nat) (g : List Nat) :
    l.find? (fun e => castL (f e) == castL g) = l.find? fun e => f e == g := by
  congr 1
  funext e
  by_cases h : f e = g
  · rw [h]; simp
  · have : castL (f e) ≠ castL g := fun q => h (castL_inj q)
    rw [beq_eq_false_iff_ne.2 h, beq_eq_false_iff_ne.2 this]

theorem inodot : pairs.find? (fun e => e.1 == [105, 110, 111, 100, 111, 116]) = some ([105, 110, 111, 100, 111, 116], [305]) := by decide +kernel

theorem nameOf_entry {g e : List Int} (h : nameOf g = some e) : ∃ p ∈ pairs, castL p.1 = e ∧ castL p.2 = g ∧ byUni.find? (fun e => e.2 == p.2) = some p := by
  unfold nameOf at h
  cases hf : byUni.find? (fun e => castL e.2 == g) with
  | none => rw [hf] at h; cases h
  | some p =>
    rw [hf, Option.map_some, Option.some.injEq] at h
    have h1 := List.find?_some hf
    simp only [beq_iff_eq] at h1
    obtain ⟨k, hk⟩ := List.mem_iff_getElem?.1 (List.mem_of_find?_eq_some hf)
    obtain ⟨j, hj⟩ := byUni_mem hk
    refine ⟨p, List.mem_of_getElem? hj, h, h1, ?_⟩
    rw [← h1, find_castL byUni (fun e => e.2)] at hf
    exact hf

/-- The entity of a text that is not lossy stands for the text. -/
theorem uniOf_nameOf {g e : List Int} (h : nameOf g = some e) (hl : ∀ l ∈ lossy, g ≠ castL l) : uniOf e = some g := by
  obtain ⟨p, hp, rfl, rfl, hf⟩ := nameOf_entry h
  rcases first_or_not pairs names_sorted p hp with q | q
  · have := List.all_eq_true.1 nonFirst_lossy p q
    rw [Bool.or_eq_true] at this
    rcases this with q2 | q2
    · exact absurd rfl (hl p.2 (by simpa using q2))
    · simp only [beq_iff_eq] at q2
      subst q2
      unfold uniOf
      rw [find_castL pairs (fun e => e.1), inodot]; rfl
  · unfold uniOf
    rw [find_castL pairs (fun e => e.1), q]; rfl

theorem nameOf_chars {g e : List Int} (h : nameOf g = some e) : e ≠ [] ∧ ∀ c ∈ e, 40 ≤ c ∧ c < 127 ∧ c ≠ 59 := by
  obtain ⟨p, hp, rfl, rfl, _⟩ := nameOf_entry h
  obtain ⟨k, hk⟩ := List.mem_iff_getElem?.1 hp
  have := entry_ok hk
  refine ⟨fun q => this.1 (castL_inj (b := []) q), ?_⟩
  intro c hc
  obtain ⟨n, hn, rfl⟩ := List.mem_map.1 hc
  have := this.2.2.2.2.1 n hn
  omega

theorem inName_of {c : Int} (h : 35 ≤ c ∧ c < 127 ∧ c ≠ 59 ∧ c ≠ 38) : inName c = true := by
  unfold inName isspace
  simp; omega

/-! ### Proofs: decoding of what is encoded -/

theorem splitEntity_name {e : List Int} (h : ∀ c ∈ e, inName c = true) (r : List Int) : splitEntity (e ++ 59 :: r) = some (e, r) := by
  obtain ⟨h1, h2⟩ := takeWhile_stop inName (c := 59) (by decide) r e h
  unfold splitEntity
  rw [h2, h1]
  rfl

theorem decode_entity {e u : List Int} (h : ∀ c ∈ e, inName c = true) (hm : meaning e = some u) (r : List Int) :
    decodeSpec 0 ([38] ++ e ++ [59] ++ r) = u ++ decodeSpec 0 r := by
  rw [show [38] ++ e ++ [59] ++ r = 38 :: (e ++ 59 :: r) by simp]
  unfold decodeSpec
  rw [pieces_amp, splitEntity_name h]
  dsimp only
  rw [hm]
  dsimp only
  rw [flagged_zero, if_neg (by decide)]
  rfl

theorem decode_chr {c : Int} (h : c ≠ 38) (r : List Int) : decodeSpec 0 (c :: r) = c :: decodeSpec 0 r := by
  unfold decodeSpec
  rw [pieces_chr _ _ h]
  rfl

theorem decode_named {g e : List Int} (h : nameOf g = some e) {u : List Int} (hu : uniOf e = some u) (r : List Int) :
    decodeSpec 0 ([38] ++ e ++ [59] ++ r) = u ++ decodeSpec 0 r := by
  obtain ⟨h1, h2⟩ := nameOf_chars h
  refine decode_entity (fun c hc => inName_of (by have := h2 c hc; omega)) ?_ r
  rw [meaning_name, hu]
  right
  cases e with
  | nil => exact absurd rfl h1
  | cons c e =>
    have := h2 c List.mem_cons_self
    simp; omega

/-- A digit of `%x`. -/
def IsLow (x : Int) : Prop := (48 ≤ x ∧ x ≤ 57) ∨ (97 ≤ x ∧ x ≤ 102)

theorem lowDigit_low {d : Nat} (h : d < 16) : IsLow (lowDigit d) := by
  unfold lowDigit IsLow
  by_cases c : d < 10
  · rw [if_pos c]; omega
  · rw [if_neg c]; omega

theorem lowDigit_digit : ∀ d : Fin 16, digitIn 16 (lowDigit d.val) = some d.val := by decide +kernel

theorem hexLow_props (n : Nat) : hexLow n ≠ [] ∧ (∀ x ∈ hexLow n, IsLow x) ∧ (∀ x ∈ hexLow n, (digitIn 16 x).isSome = true) ∧ number 16 (hexLow n) = n := by
  induction n using Nat.strongRecOn with
  | _ n ih =>
    rw [hexLow]
    have hd : ∀ d, d < 16 → digitIn 16 (lowDigit d) = some d := fun d h => lowDigit_digit ⟨d, h⟩
    have h1 : ∀ d, d < 16 → number 16 [lowDigit d] = d := fun d h => by simp [number, hd d h]
    by_cases c : n < 16
    · rw [if_pos c]
      refine ⟨by simp, ?_, ?_, h1 n c⟩
      · intro x hx; rw [List.mem_singleton.1 hx]; exact lowDigit_low c
      · intro x hx; rw [List.mem_singleton.1 hx, hd n c]; rfl
    · rw [if_neg c]
      obtain ⟨i1, i2, i3, i4⟩ := ih (n / 16) (by omega)
      have hm : n % 16 < 16 := by omega
      refine ⟨by simp, ?_, ?_, ?_⟩
      · intro x hx
        rcases List.mem_append.1 hx with hx | hx
        · exact i2 x hx
        · rw [List.mem_singleton.1 hx]; exact lowDigit_low hm
      · intro x hx
        rcases List.mem_append.1 hx with hx | hx
        · exact i3 x hx
        · rw [List.mem_singleton.1 hx, hd _ hm]; rfl
      · rw [number_append, i4, h1 _ hm]
        simp only [List.length_singleton]; omega

theorem takeWhile_all {p : Int → Bool} {l : List Int} (h : ∀ x ∈ l, p x = true) : l.takeWhile p = l := by
  induction l with
  | nil => rfl
  | cons x l ih => rw [List.takeWhile_cons_of_pos (h x List.mem_cons_self), ih fun y hy => h y (List.mem_cons_of_mem _ hy)]

theorem readSpec_low {ds : List Int} (hl : ∀ x ∈ ds, IsLow x) (hd : ∀ x ∈ ds, (digitIn 16 x).isSome = true) :
    (readSpec 16 ds).neg = false ∧ (readSpec 16 ds).value = number 16 ds := by
  cases ds with
  | nil => exact ⟨rfl, rfl⟩
  | cons d ds =>
    have h0 := hl d List.mem_cons_self
    unfold IsLow at h0
    have e1 : (d :: ds).dropWhile isspace = d :: ds := by
      rw [List.dropWhile_cons_of_neg]
      unfold isspace
      simp; omega
    have e2 : signSpec (d :: ds) = (false, d :: ds) := by
      rw [show signSpec (d :: ds) = if d = 45 then (true, ds) else if d = 43 then (false, ds) else (false, d :: ds) from rfl, if_neg (by omega), if_neg (by omega)]
    have e3 : prefixSpec 16 (d :: ds) = (16, d :: ds) := by
      unfold prefixSpec
      split
      · next x r e =>
        injection e with _ e
        subst e
        have := hl x (by simp)
        unfold IsLow at this
        rw [if_neg (by omega), if_neg (by decide)]
      · next e => rw [if_neg (by decide)]
      · rfl
    unfold readSpec
    dsimp only
    rw [e1, e2]
    dsimp only
    rw [e3]
    dsimp only
    rw [takeWhile_all hd]
    exact ⟨rfl, rfl⟩

theorem decode_num {c : Int} (h1 : -2 ^ 31 ≤ c) (h2 : c < 2 ^ 31) (h0 : c ≠ 0) (r : List Int) : decodeSpec 0 (numEntity c ++ r) = c :: decodeSpec 0 r := by
  obtain ⟨n, hn⟩ : ∃ n, n = (c % 2 ^ 32).toNat := ⟨_, rfl⟩
  have hlt : n < 2 ^ 32 := by omega
  obtain ⟨p1, p2, p3, p4⟩ := hexLow_props n
  have hm : meaning (35 :: 120 :: hexLow n) = some [c] := by
    obtain ⟨r1, r2⟩ := readSpec_low p2 p3
    have hnum : num32 16 (hexLow n) = n := by
      unfold num32
      rw [r1, r2, p4, if_neg (by decide), Nat.min_eq_left (by omega)]
    rw [show meaning (35 :: 120 :: hexLow n) = some (char32 (num32 16 (hexLow n))) from rfl, hnum]
    unfold char32
    rw [if_neg (by omega)]
    by_cases q : n < 2 ^ 31
    · rw [if_pos q]; congr 2; omega
    · rw [if_neg q]; congr 2; omega
  have hin : ∀ x ∈ (35 : Int) :: 120 :: hexLow n, inName x = true := by
    intro x hx
    apply inName_of
    rcases List.mem_cons.1 hx with rfl | hx
    · omega
    · rcases List.mem_cons.1 hx with rfl | hx
      · omega
      · have := p2 x hx; unfold IsLow at this; omega
  have := decode_entity hin hm r
  rw [show numEntity c ++ r = [38] ++ (35 :: 120 :: hexLow n) ++ [59] ++ r by unfold numEntity; rw [← hn]; simp, this]
  rfl

theorem nameOf_amp : nameOf [38] = some (asc "amp") := by
  unfold nameOf
  rw [show ([38] : List Int) = castL [38] from rfl, find_castL byUni (fun e => e.2), byUniF_eq]
  have : byUniF.find? (fun e => e.2 == [38]) = some ([97, 109, 112], [38]) := by decide +kernel
  rw [this]; rfl

theorem single_lossy : ∀ l ∈ lossy, l.length = 1 → l = [700] ∨ l = [10023] := by decide +kernel

/-- A character, encoded on its own. -/
theorem decode_encChar {c : Int} (h1 : -2 ^ 31 ≤ c) (h2 : c < 2 ^ 31) (h0 : c ≠ 0) (hl : c ≠ 700 ∧ c ≠ 10023) (r : List Int) :
    decodeSpec 0 (encChar c ++ r) = c :: decodeSpec 0 r := by
  unfold encChar
  cases hn : nameOf [c] with
  | some e =>
    dsimp only
    have := uniOf_nameOf hn (by
      intro l hl' q
      have hlen : l.length = 1 := by
        have := congrArg List.length q
        simp [castL] at this; omega
      rcases single_lossy l hl' hlen with rfl | rfl
      · injection q with q; exact hl.1 q
      · injection q with q; exact hl.2 q)
    exact decode_named hn this r
  | none =>
    dsimp only
    by_cases q : 0 ≤ c ∧ c < 128
    · rw [if_pos q]
      exact decode_chr (fun p => by rw [p, nameOf_amp] at hn; cases hn) r
    · rw [if_neg q]
      exact decode_num h1 h2 h0 r

theorem decode_chars : ∀ (g : List Int) (r : List Int), (∀ c ∈ g, -2 ^ 31 ≤ c ∧ c < 2 ^ 31 ∧ c ≠ 0 ∧ c ≠ 700 ∧ c ≠ 10023) →
    decodeSpec 0 (g.flatMap encChar ++ r) = g ++ decodeSpec 0 r
  | [], r, _ => rfl
  | c :: g, r, h => by
    have hc := h c List.mem_cons_self
    rw [List.flatMap_cons, List.append_assoc, decode_encChar hc.1 hc.2.1 hc.2.2.1 hc.2.2.2, decode_chars g r fun x hx => h x (List.mem_cons_of_mem _ hx)]
    rfl

theorem decode_encGlyph (what : Nat) {g : List Int} (h : ∀ c ∈ g, -2 ^ 31 ≤ c ∧ c < 2 ^ 31 ∧ c ≠ 0 ∧ c ≠ 700 ∧ c ≠ 10023) (hl : ∀ l ∈ lossy, g ≠ castL l) (r : List Int) :
    decodeSpec 0 (encGlyph what g ++ r) = g ++ decodeSpec 0 r := by
  unfold encGlyph
  by_cases hp : plain what g = true
  · rw [if_pos hp]
    unfold plain at hp
    split at hp
    · next c =>
      refine decode_chr ?_ r
      intro q
      subst q
      unfold copied at hp
      simp at hp
    · cases hp
  · rw [if_neg hp]
    cases hn : nameOf g with
    | some e => exact decode_named hn (uniOf_nameOf hn hl) r
    | none => exact decode_chars g r h

theorem decode_glyphs (what : Nat) : ∀ (gs : List (List Int)), (∀ g ∈ gs, ∀ c ∈ g, -2 ^ 31 ≤ c ∧ c < 2 ^ 31 ∧ c ≠ 0 ∧ c ≠ 700 ∧ c ≠ 10023) →
    (∀ g ∈ gs, ∀ l ∈ lossy, g ≠ castL l) → decodeSpec 0 (gs.flatMap (encGlyph what)) = gs.flatten
  | [], _, _ => by simp [decodeSpec, pieces]
  | g :: gs, h1, h2 => by
    rw [List.flatMap_cons, decode_encGlyph what (h1 g List.mem_cons_self) (h2 g List.mem_cons_self),
      decode_glyphs what gs (fun g hg => h1 g (List.mem_cons_of_mem _ hg)) (fun g hg => h2 g (List.mem_cons_of_mem _ hg)), List.flatten_cons]

/-- Nothing in the encoding is a terminator, and all is ASCII. -/
theorem encChar_ascii (c : Int) (h0 : c ≠ 0) : ∀ x ∈ encChar c, 0 < x ∧ x < 128 := by
  intro x hx
  unfold encChar at hx
  cases hn : nameOf [c] with
  | some e =>
    rw [hn] at hx
    obtain ⟨_, h2⟩ := nameOf_chars hn
    simp only [List.mem_append, List.mem_singleton] at hx
    rcases hx with (rfl | hx) | rfl
    · omega
    · have := h2 x hx; omega
    · omega
  | none =>
    rw [hn] at hx
    dsimp only at hx
    by_cases q : 0 ≤ c ∧ c < 128
    · rw [if_pos q] at hx
      rw [List.mem_singleton.1 hx]; omega
    · rw [if_neg q] at hx
      obtain ⟨_, p2, _⟩ := hexLow_props (c % 2 ^ 32).toNat
      unfold numEntity at hx
      simp only [List.mem_append, List.mem_cons, List.not_mem_nil, or_false] at hx
      rcases hx with ((rfl | rfl | rfl) | hx) | rfl
      · omega
      · omega
      · omega
      · have := p2 x hx; unfold IsLow at this; omega
      · omega

theorem encGlyph_ascii (what : Nat) (g : List Int) (h0 : ∀ c ∈ g, c ≠ 0) : ∀ x ∈ encGlyph what g, 0 < x ∧ x < 128 := by
  intro x hx
  unfold encGlyph at hx
  by_cases hp : plain what g = true
  · rw [if_pos hp] at hx
    unfold plain at hp
    split at hp
    · next c =>
      unfold copied at hp
      simp at hp
      have := h0 c (by simp)
      rw [List.mem_singleton.1 hx]; omega
    · cases hp
  · rw [if_neg hp] at hx
    cases hn : nameOf g with
    | some e =>
      rw [hn] at hx
      obtain ⟨_, h2⟩ := nameOf_chars hn
      simp only [List.mem_append, List.mem_singleton] at hx
      rcases hx with (rfl | hx) | rfl
      · omega
      · have := h2 x hx; omega
      · omega
    | none =>
      rw [hn] at hx
      obtain ⟨c, hc, hx⟩ := List.mem_flatMap.1 hx
      exact encChar_ascii c (h0 c hc) x hx

/-- Letters, digits and the full stop. -/
def nameChar (c : Nat) : Bool := decide ((48 ≤ c ∧ c ≤ 57) ∨ (65 ≤ c ∧ c ≤ 90) ∨ (97 ≤ c ∧ c ≤ 122) ∨ c = 46)

theorem names_plain : pairs.all (fun p => p.1.all nameChar) = true := by decide +kernel

theorem nameOf_plain {g e : List Int} (h : nameOf g = some e) : ∀ c ∈ e, (48 ≤ c ∧ c ≤ 57) ∨ (65 ≤ c ∧ c ≤ 90) ∨ (97 ≤ c ∧ c ≤ 122) ∨ c = 46 := by
  obtain ⟨p, hp, rfl, rfl, _⟩ := nameOf_entry h
  have := List.all_eq_true.1 (List.all_eq_true.1 names_plain p hp)
  intro c hc
  obtain ⟨n, hn, rfl⟩ := List.mem_map.1 hc
  have := this n hn
  simp only [nameChar, decide_eq_true_iff] at this
  omega

/-- The characters that can be asked to be encoded, apart from those that make up an entity. -/
def special : List Nat := [34, 39, 60, 62, 92, 36, 37, 64, 40, 41, 123, 125, 91, 93]

theorem special_named : special.all (fun c => (byUniF.find? fun e => e.2 == [c]).isSome) = true := by decide +kernel

theorem nameOf_special {c : Nat} (h : c ∈ special) : ∃ e, nameOf [(c : Int)] = some e := by
  have := List.all_eq_true.1 special_named c h
  unfold nameOf
  rw [show [(c : Int)] = castL [c] from rfl, find_castL byUni (fun e => e.2), byUniF_eq]
  cases q : byUniF.find? (fun e => e.2 == [c]) with
  | none => rw [q] at this; cases this
  | some p => exact ⟨_, rfl⟩

theorem flagged_special {what : Nat} {c : Int} (h : flagged what c = true) (h1 : c ≠ 35) (h2 : c ≠ 38) : ∃ n ∈ special, c = (n : Nat) := by
  unfold flagged at h
  simp only [List.any_eq_true, Bool.and_eq_true, beq_iff_eq] at h
  obtain ⟨b, hb, _, x, hx, rfl⟩ := h
  refine ⟨x.toNat, ?_, rfl⟩
  have hb : b < 12 := List.mem_range.1 hb
  have key : ∀ b : Fin 12, ∀ x ∈ flagChars b.val, x.toNat ∈ special ∨ x.toNat = 35 ∨ x.toNat = 38 := by decide +kernel
  rcases key ⟨b, hb⟩ x hx with q | q | q
  · exact q
  · omega
  · omega

theorem encChar_special {n : Nat} (hn : n ∈ special) (c : Int) : (n : Int) ∉ encChar c := by
  have hs : ∀ n ∈ special, ¬ ((48 ≤ n ∧ n ≤ 57) ∨ (65 ≤ n ∧ n ≤ 90) ∨ (97 ≤ n ∧ n ≤ 122) ∨ n = 46 ∨ n = 38 ∨ n = 59 ∨ n = 35) := by decide
  have hs := hs n hn
  intro hx
  unfold encChar at hx
  cases hq : nameOf [c] with
  | some e =>
    rw [hq] at hx
    simp only [List.mem_append, List.mem_singleton] at hx
    rcases hx with (h | h) | h
    · omega
    · have := nameOf_plain hq _ h; omega
    · omega
  | none =>
    rw [hq] at hx
    dsimp only at hx
    by_cases q : 0 ≤ c ∧ c < 128
    · rw [if_pos q, List.mem_singleton] at hx
      obtain ⟨e, he⟩ := nameOf_special hn
      rw [← hx, he] at hq
      cases hq
    · rw [if_neg q] at hx
      obtain ⟨_, p2, _⟩ := hexLow_props (c % 2 ^ 32).toNat
      unfold numEntity at hx
      simp only [List.mem_append, List.mem_cons, List.not_mem_nil, or_false] at hx
      rcases hx with ((h | h | h) | hx) | h
      · omega
      · omega
      · omega
      · have := p2 _ hx; unfold IsLow at this; omega
      · omega

theorem encGlyph_special {what n : Nat} (hn : n ∈ special) (hf : flagged what n = true) (g : List Int) : (n : Int) ∉ encGlyph what g := by
  have hs : ∀ n ∈ special, ¬ ((48 ≤ n ∧ n ≤ 57) ∨ (65 ≤ n ∧ n ≤ 90) ∨ (97 ≤ n ∧ n ≤ 122) ∨ n = 46 ∨ n = 38 ∨ n = 59) := by decide
  have hs := hs n hn
  intro hx
  unfold encGlyph at hx
  by_cases hp : plain what g = true
  · rw [if_pos hp] at hx
    unfold plain at hp
    split at hp
    · next c =>
      rw [List.mem_singleton] at hx
      rw [← hx] at hp
      unfold copied at hp
      rw [hf] at hp
      simp at hp
    · cases hp
  · rw [if_neg hp] at hx
    cases hq : nameOf g with
    | some e =>
      rw [hq] at hx
      simp only [List.mem_append, List.mem_singleton] at hx
      rcases hx with (h | h) | h
      · omega
      · have := nameOf_plain hq _ h; omega
      · omega
    | none =>
      rw [hq] at hx
      obtain ⟨c, _, hx⟩ := List.mem_flatMap.1 hx
      exact encChar_special hn c hx

theorem lowDigit_char : ∀ d : Fin 16, lowDigit d.val = ((Nat.digitChar d.val).toNat : Int) := by decide +kernel
theorem hexLow_digits (n : Nat) : hexLow n = (Nat.toDigits 16 n).map fun c : Char => (c.toNat : Int) := by
  induction n using Nat.strongRecOn with
  | _ n ih =>
    rw [hexLow]
    by_cases c : n < 16
    · rw [if_pos c, Nat.toDigits_of_lt_base c, lowDigit_char ⟨n, c⟩]; rfl
    · rw [if_neg c, ih (n / 16) (by omega), lowDigit_char ⟨n % 16, by omega⟩]
      have := Nat.toDigits_append_toDigits (b := 16) (n := n / 16) (d := n % 16) (by decide) (by omega) (by omega)
      rw [Nat.div_add_mod n 16, Nat.toDigits_of_lt_base (b := 16) (show n % 16 < 16 by omega)] at this
      rw [← this, List.map_append]; rfl
/-! ### Properties -/

/-- **C60** (numbers) Characters by number are written as `&#x1f600;`. -/
theorem numEntity_digits (c : Int) : numEntity c = asc "&#x" ++ ((Nat.toDigits 16 (c % 2 ^ 32).toNat).map fun c : Char => (c.toNat : Int)) ++ asc ";" := by
  unfold numEntity
  rw [hexLow_digits]; rfl

/-- **C60** (encoding) Encoding appends the encoding of every glyph of the source up to its end. -/
theorem str2sgml_encodes {s : List Int} {count what : Nat} (hv : Valid s (some count)) (hc : count < 2 ^ 64) (dst : List Int) :
    str2sgmlcat s count what dst = some (dst ++ (glyphs (text s (some count))).flatMap (encGlyph what)) := by
  unfold str2sgmlcat
  rw [strnlen_spec hv]
  dsimp only
  have hpre : text s (some count) <+: s := (List.takeWhile_prefix _).trans (List.take_prefix _ _)
  have ht : s.take (text s (some count)).length = text s (some count) := by
    obtain ⟨q, hq⟩ := hpre
    conv => lhs; arg 2; rw [← hq]
    rw [List.take_left]
  have := text_length_take s count
  rw [encLoop_spec (by omega) hpre.length_le (by rw [ht]; exact fun c hc => text_ne_zero hc) _ 0 (Nat.zero_add _), ht, List.drop_zero]

/-- **C68** The encoding of text is ASCII, without terminators. -/
theorem str2sgml_ascii {s : List Int} {count what : Nat} (hv : Valid s (some count)) (hc : count < 2 ^ 64) :
    ∃ e, str2sgmlcat s count what [] = some e ∧ ∀ x ∈ e, 0 < x ∧ x < 128 := by
  refine ⟨_, str2sgml_encodes hv hc [], ?_⟩
  intro x hx
  rw [List.nil_append] at hx
  obtain ⟨g, hg, hx⟩ := List.mem_flatMap.1 hx
  refine encGlyph_ascii what g ?_ x hx
  intro c hcg
  have : c ∈ text s (some count) := by rw [← glyphs_flatten (text s (some count))]; exact List.mem_flatten.2 ⟨g, hg, hcg⟩
  exact text_ne_zero this

/-- **C68** (flags) A character that is asked to be encoded does not occur in the encoding, apart from the characters `&` and `#` of entities. So text that is
encoded with `sgml_lt_gt` has no tags, and text encoded with `sgml_quot_apos` does not end a quoted attribute. -/
theorem str2sgml_no_flagged {s : List Int} {count what : Nat} (hv : Valid s (some count)) (hc : count < 2 ^ 64) {c : Int} (hf : flagged what c = true)
    (h1 : c ≠ ('#' : Char).toNat) (h2 : c ≠ ('&' : Char).toNat) : ∃ e, str2sgmlcat s count what [] = some e ∧ c ∉ e := by
  refine ⟨_, str2sgml_encodes hv hc [], ?_⟩
  intro hx
  rw [List.nil_append] at hx
  obtain ⟨n, hn, rfl⟩ := flagged_special hf h1 h2
  obtain ⟨g, _, hx⟩ := List.mem_flatMap.1 hx
  exact encGlyph_special hn hf g hx

/-- Non-vacuity: the flags of an attribute and of tags. -/
example : flagged 0x3 34 = true ∧ flagged 0x3 39 = true ∧ flagged 0x8 60 = true ∧ flagged 0x8 62 = true ∧ flagged 0x8 39 = false := by decide

/-- **C60** (round trip; partial) Decoding the encoding of a text of 32-bit characters gives the text, for all flags. Missing: texts with U+02BC or U+2727, or
with one of the glyphs of a letter and a mark that `lossy` lists: their entities are read as other characters, see `sgml_lossy`. -/
theorem sgml_round_trip_partial {s : List Int} {count what : Nat} (hv : Valid s (some count)) (hc : count < 2 ^ 64)
    (h32 : ∀ c ∈ text s (some count), -2 ^ 31 ≤ c ∧ c < 2 ^ 31) (h1 : 0x2bc ∉ text s (some count)) (h2 : 0x2727 ∉ text s (some count))
    (hl : ∀ g ∈ glyphs (text s (some count)), ∀ l ∈ lossy, g ≠ castL l) :
    ∃ e, str2sgmlcat s count what [] = some e ∧ (e.length < 2 ^ 64 → (sgml2strcat e e.length 0 []).map Prod.fst = some (text s (some count))) := by
  obtain ⟨e, he, ha⟩ := str2sgml_ascii (what := what) hv hc
  refine ⟨e, he, fun hlen => ?_⟩
  have hE := str2sgml_encodes (what := what) hv hc []
  rw [he, List.nil_append, Option.some.injEq] at hE
  have hte : text e (some e.length) = e := by
    rw [text_take, List.take_length]
    rw [List.take_length]
    intro c hc; have := ha c hc; omega
  rw [sgml2strcat_pieces (valid_len (Nat.le_refl _)) hlen, hte, Option.map_some, List.nil_append]
  dsimp only
  rw [hE, decode_glyphs what _ ?_ hl, glyphs_flatten]
  intro g hg c hcg
  have hm : c ∈ text s (some count) := by rw [← glyphs_flatten (text s (some count))]; exact List.mem_flatten.2 ⟨g, hg, hcg⟩
  exact ⟨(h32 c hm).1, (h32 c hm).2, text_ne_zero hm, fun q => h1 (by rw [← q]; exact hm), fun q => h2 (by rw [← q]; exact hm)⟩

/-- A text, its entity, and another text for which this stands. -/
def lossyCheck (g : List Nat) : Bool :=
  match byUniF.find? fun e => e.2 == g with
  | none => false
  | some p =>
    match pairs.find? fun e => e.1 == p.1 with
    | none => false
    | some q => q.2 != g

theorem lossy_checked : lossy.all lossyCheck = true := by decide +kernel

theorem lossy_glyph : lossy.all (fun g => match g with | [a] => decide (128 ≤ a) | [_, b] => decide (0x300 ≤ b ∧ b < 0x370) | _ => false) = true := by decide +kernel

/-- **C60** (defect) Each of the listed texts is encoded by an entity that decodes to something else. -/
theorem sgml_lossy (what : Nat) {g : List Nat} (hg : g ∈ lossy) : ∃ e u, str2sgmlcat (castL g) g.length what [] = some e ∧
    (sgml2strcat e e.length 0 []).map Prod.fst = some u ∧ u ≠ castL g := by
  have hck := List.all_eq_true.1 lossy_checked g hg
  have hgl := List.all_eq_true.1 lossy_glyph g hg
  have hlen : (castL g).length = g.length := List.length_map _
  -- its entity
  unfold lossyCheck at hck
  cases hf : byUniF.find? (fun e => e.2 == g) with
  | none => rw [hf] at hck; cases hck
  | some p =>
    rw [hf] at hck
    dsimp only at hck
    cases hq : pairs.find? (fun e => e.1 == p.1) with
    | none => rw [hq] at hck; cases hck
    | some q =>
      rw [hq] at hck
      dsimp only at hck
      have hne : q.2 ≠ g := by simpa using hck
      have hn : nameOf (castL g) = some (castL p.1) := by
        unfold nameOf
        rw [find_castL byUni (fun e => e.2), byUniF_eq, hf]; rfl
      have hu : uniOf (castL p.1) = some (castL q.2) := by
        unfold uniOf
        rw [find_castL pairs (fun e => e.1), hq]; rfl
      -- it is one glyph
      have hshape : castL g ≠ [] ∧ (∀ c ∈ castL g, c ≠ 0) ∧ glyphs (castL g) = [castL g] ∧ plain what (castL g) = false ∧ g.length < 2 ^ 64 := by
        obtain ⟨pp, hpp, hp1, hp2, _⟩ := nameOf_entry hn
        obtain ⟨k, hk⟩ := List.mem_iff_getElem?.1 hpp
        have hok := entry_ok hk
        have hpe : pp.2 = g := castL_inj hp2
        rw [hpe] at hok
        refine ⟨fun q => hok.2.1 (castL_inj (b := []) q), fun c hc => by have := castL_pos hok.2.2.2.2.2 c hc; omega, ?_, ?_, by have := hok.2.2.2.1; omega⟩
        · split at hgl
          · next a => rw [show castL [a] = [(a : Int)] from rfl, glyphs_cons]; simp [glyphs]
          · next a b =>
            have hb : iscombining (b : Int) = true := by unfold iscombining; simp only [decide_eq_true_iff] at hgl ⊢; omega
            rw [show castL [a, b] = [(a : Int), (b : Int)] from rfl, glyphs_cons]
            simp [hb, glyphs]
          · cases hgl
        · split at hgl
          · next a =>
            simp only [decide_eq_true_iff] at hgl
            show copied what a = false
            unfold copied
            rw [decide_eq_false (by omega)]; simp
          · rfl
          · cases hgl
      obtain ⟨s1, s2, s3, s4, s5⟩ := hshape
      have hv : Valid (castL g) (some g.length) := valid_len (by omega)
      have ht : text (castL g) (some g.length) = castL g := by
        rw [text_take] <;> rw [List.take_of_length_le (by omega)]
        exact s2
      have hE := str2sgml_encodes (what := what) hv s5 []
      rw [ht, s3] at hE
      have henc : [castL g].flatMap (encGlyph what) = [38] ++ castL p.1 ++ [59] := by
        rw [List.flatMap_cons, List.flatMap_nil, List.append_nil, encGlyph, s4, if_neg (by decide), hn]
      rw [henc, List.nil_append] at hE
      refine ⟨_, castL q.2, hE, ?_, fun q => hne (castL_inj q)⟩
      obtain ⟨c1, c2⟩ := nameOf_chars hn
      have hz : ∀ c ∈ [38] ++ castL p.1 ++ [59], c ≠ 0 := by
        intro c hc
        simp only [List.mem_append, List.mem_singleton] at hc
        rcases hc with (rfl | hc) | rfl
        · decide
        · have := c2 c hc; omega
        · decide
      have hte : text ([38] ++ castL p.1 ++ [59]) (some ([38] ++ castL p.1 ++ [59]).length) = [38] ++ castL p.1 ++ [59] := by
        rw [text_take] <;> rw [List.take_length]
        exact hz
      have hpl : (castL p.1).length < 12 := by
        obtain ⟨pp, hpp, hp1, hp2, _⟩ := nameOf_entry hn
        obtain ⟨k, hk⟩ := List.mem_iff_getElem?.1 hpp
        rw [← hp1]
        have := (entry_ok hk).2.2.1
        unfold castL
        rw [List.length_map]; exact this
      rw [sgml2strcat_pieces (valid_len (Nat.le_refl _)) (by simp; omega), hte, Option.map_some, List.nil_append]
      have := decode_named hn hu []
      rw [List.append_nil] at this
      dsimp only
      rw [this]
      simp [decodeSpec, pieces]

/-- Non-vacuity: `a<é😀` with the flag for `<` set. -/
example : str2sgmlcat [97, 60, 233, 0x1f600, 0] 10 8 [] = some (asc "a&lt;&eacute;&#x1f600;") ∧ glyphs [97, 60, 233, 0x1f600] = [[97], [60], [233], [0x1f600]] ∧
    (glyphs [97, 60, 233, 0x1f600]).all (fun g => lossy.all fun l => g != castL l) = true := by
  refine ⟨by decide +kernel, by decide +kernel, by decide +kernel⟩

end Verif.Sgml
