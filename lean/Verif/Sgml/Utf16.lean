import Verif.Sgml.RoundTrip
/-
SGML with UTF-16 text: the variants of include/stdex/sgml.hpp for `utf16_t` (`wchar_t` on Windows, `char16_t` elsewhere): `utf32_to_wstr` 59-75,
`sgml2strcat` 192-252 with `T_to = utf16_t`, `chr2sgml` 475-509, `wstr_to_utf32` 538-547, `str2sgmlcat` 565-648 with `T_from = utf16_t`.
-/
namespace Verif.Sgml
open Verif.Str

set_option maxRecDepth 20000

/-! ### Model -/

/-- The comparison of sgml.hpp 480-502: the first character of the entry with the first of the text - the one or two units of 482-489 -, then the rest
(`strncmp` of UTF-32 with UTF-16). -/
def cmpHead16 (cells ent : List Int) (count : Nat) : Option Int :=
  match rd cells 0, pointAt ent (some count) 0 with
  | some a, some (b, off) =>
    if a < b then some (-1)
    else if a > b then some 1
    else utf16Cmp (cells.drop 1) (some 2) (ent.drop off) (some (count - off)) 0 0
  | _, _ => none

/-- `chr2sgml` (UTF-16), sgml.hpp 475-509: the entity name of the first `count` units. -/
def chr2sgml16 (ent : List Int) (count : Nat) : Option (Option (List Int)) :=
  (bisect (fun m => (ordered m).bind fun e => cmpHead16 (uniCells e) ent count)
    (fun m => (ordered m).bind fun e => (cmpHead16 (uniCells e) ent count).map fun r => r == 0) 0 1535).map fun r =>
      r.map fun m => castL ((ordered m).getD ([], [])).1

attribute [local irreducible] chr2sgml chr2sgml16 nameOf uniOf

/-- The loop over the units of a glyph, sgml.hpp 630-644: a name is looked up for one unit; the number is that of the character (`wstr_to_utf32` 538-547). -/
def decompose16 (s : List Int) (e i : Nat) (dst : List Int) : Option (List Int) :=
  if i < e then
    match chr2sgml16 (s.drop i) 1 with
    | none => none
    | some (some n) => decompose16 s e (i + 1) (dst ++ named n)
    | some none =>
      match rd s i with
      | none => none
      | some c =>
        if is7bit c then decompose16 s e (i + 1) (dst ++ [c])
        else
          match h : pointAt s (some e) i with
          | none => none
          | some r => decompose16 s e (i + r.2) (dst ++ numEntity r.1)
  else some dst
termination_by e - i
decreasing_by all_goals (first | (have := pointAt_lt h; omega) | omega)

theorem glyphlen16_pos {s : List Int} {count n : Nat} (h : glyphlen16 s count = some n) (hc : 0 < count) : 1 ≤ n := by
  unfold glyphlen16 at h
  rw [if_neg (by omega)] at h
  split at h
  · exact skipMarks_ge h
  · split at h
    · cases h
    · have := skipMarks_ge h; omega
    · exact skipMarks_ge h

/-- The loop of `str2sgmlcat`, sgml.hpp 589-647; `n` is the length of the source. -/
def encLoop16 (s : List Int) (n what i : Nat) (dst : List Int) : Option (List Int) :=
  if hi : i < n then
    match h : glyphlen16 (s.drop i) (n - i) with
    | none => none
    | some g =>
      match rd s i with
      | none => none
      | some c =>
        if g = 1 ∧ mayCopy what c = true then encLoop16 s n what (i + 1) (dst ++ [c])
        else
          match chr2sgml16 (s.drop i) g with
          | none => none
          | some (some e) => encLoop16 s n what (i + g) (dst ++ named e)
          | some none =>
            if g = 1 then encLoop16 s n what (i + 1) (if is7bit c then dst ++ [c] else dst ++ numEntity c)
            else
              match decompose16 s (i + g) i dst with
              | none => none
              | some d => encLoop16 s n what (i + g) d
  else some dst
termination_by n - i
decreasing_by all_goals (have := glyphlen16_pos h (by omega); omega)

/-- `str2sgmlcat` of UTF-16, sgml.hpp 565-648. -/
def str2sgmlcat16 (s : List Int) (count what : Nat) (dst : List Int) : Option (List Int) :=
  match strnlen s (some count) with
  | none => none
  | some n => encLoop16 s n what 0 dst

/-- `utf32_to_wstr`, sgml.hpp 59-75, as the string that `dst.append(entity_w)` sees: up to a zero unit. `utf32_t` is the signed 32-bit `wchar_t`, so numbers from
`2 ^ 31` are cut to 16 bits. -/
def wide (u : List Int) : List Int :=
  (u.flatMap fun c => if c < 0x10000 then [c % 0x10000] else [(toPair c).1, (toPair c).2]).takeWhile fun c => decide (c ≠ 0)

/-- The entity at `i`, where `src[i]` is an ampersand, if there is one to convert, sgml.hpp 220-239 with `T_to = utf16_t`. -/
def entityAt16 (s : List Int) (n skip i : Nat) : Option (Option (List Int × Nat)) :=
  match sgmlend s (i + 1) (n - i - 1) with
  | none => none
  | some none => some none
  | some (some k) =>
    match sgml2uni (s.drop (i + 1)) k with
    | none => none
    | some none => some none
    | some (some u) => if mayDecode skip ((wide u).headD 0) then some (some (wide u, i + 1 + k + 1)) else some none

theorem entityAt16_gt {s : List Int} {n skip i j : Nat} {u : List Int} (h : entityAt16 s n skip i = some (some (u, j))) : i < j := by
  unfold entityAt16 at h
  split at h
  · cases h
  · cases h
  · split at h
    · cases h
    · cases h
    · split at h
      · simp only [Option.some.injEq, Prod.mk.injEq] at h; omega
      · cases h

/-- The loop of `sgml2strcat`, sgml.hpp 218-251, with `T_to = utf16_t`. -/
def decLoop16 (s : List Int) (n skip i : Nat) (dst : List Int) (map : List (Nat × Nat)) : Option (List Int × List (Nat × Nat)) :=
  if hi : i < n then
    match rd s i with
    | none => none
    | some c =>
      if c = 38 then
        match h : entityAt16 s n skip i with
        | none => none
        | some (some (u, j)) => decLoop16 s n skip j (dst ++ u) (map ++ [(i, dst.length), (j, (dst ++ u).length)])
        | some none => decLoop16 s n skip (i + 1) (dst ++ [c]) map
      else decLoop16 s n skip (i + 1) (dst ++ [c]) map
  else some (dst, map)
termination_by n - i
decreasing_by all_goals (first | (have := entityAt16_gt h; omega) | omega)

/-- `sgml2strcat` to UTF-16, sgml.hpp 192-252. -/
def sgml2strcat16 (s : List Int) (count : Nat) (skip : Nat) (dst : List Int) : Option (List Int × List (Nat × Nat)) :=
  match strnlen s (some count) with
  | none => none
  | some n => decLoop16 s n skip 0 dst []

/-! ### Specification -/

/-- The piece, with the text of an entity in UTF-16. -/
def Piece.in16 : Piece → Piece
  | .chr c => .chr c
  | .ent name u => .ent name (u.flatMap encode1)

/-! ### Proofs: lookup -/

theorem cmpR_cmpL (p q : Bool) : ∀ (a : List Nat) (k : List Int), (∀ c ∈ k, 0 ≤ c) → cmpR p q (castL a) k = cmpL (castL a) k
  | [], [], _ => rfl
  | [], b :: y, h => by
    have := h b List.mem_cons_self
    simp only [castL, List.map_nil, cmpR, cmpL]
    rw [if_neg (by omega)]
  | a :: x, [], _ => by
    simp only [castL, List.map_cons, cmpR, cmpL]
    rw [if_neg (by omega)]
  | a :: x, b :: y, h => by
    simp only [castL, List.map_cons, cmpR, cmpL]
    rw [show (x.map fun n : Nat => (n : Int)) = castL x from rfl, cmpR_cmpL p q x y fun c hc => h c (List.mem_cons_of_mem _ hc)]

theorem decode_nonneg : ∀ t : List Int, (∀ c ∈ t, 0 ≤ c) → ∀ c ∈ decode t, 0 ≤ c
  | [], _, c, hc => by cases hc
  | [a], h, c, hc => h c hc
  | a :: b :: r, h, c, hc => by
    unfold decode at hc
    split at hc
    · next q =>
      rcases List.mem_cons.1 hc with rfl | hc
      · have := (pair_range q.1 q.2).1; omega
      · exact decode_nonneg r (fun x hx => h x (List.mem_cons_of_mem _ (List.mem_cons_of_mem _ hx))) c hc
    · rcases List.mem_cons.1 hc with rfl | hc
      · exact h _ List.mem_cons_self
      · exact decode_nonneg (b :: r) (fun x hx => h x (List.mem_cons_of_mem _ hx)) c hc

theorem cmpHead16_eq {l : List Nat} (hp : ∀ c ∈ l, 0 < c) (hl : l.length < 3) (hne : l ≠ []) {ent : List Int} {count : Nat}
    (hv : Valid ent (some count)) (he : text ent (some count) ≠ []) :
    cmpHead16 (castL l ++ List.replicate (3 - l.length) 0) ent count = some (cmpL (castL l) (decode (text ent (some count)))) := by
  cases l with
  | nil => exact absurd rfl hne
  | cons a x =>
    obtain ⟨r, h1, h2, h3, h4⟩ := pointAt_text hv (j := 0) (List.length_pos_iff.2 he)
    rw [List.drop_zero, Nat.zero_add] at h4
    rw [Nat.zero_add] at h3
    unfold cmpHead16
    have h0 : rd (castL (a :: x) ++ List.replicate (3 - (a :: x).length) 0) 0 = some (a : Int) := rfl
    rw [h0, h1]
    obtain ⟨b, off⟩ := r
    dsimp only at h2 h3 h4 ⊢
    have hcast : castL (a :: x) = (a : Int) :: castL x := rfl
    rw [hcast, h4, cmpL]
    by_cases c1 : (a : Int) < b
    · rw [if_pos c1, if_neg (show ¬ (a : Int) > b by omega), if_pos c1]
    · rw [if_neg c1]
      by_cases c2 : (a : Int) > b
      · rw [if_pos c2, if_pos c2]
      · rw [if_neg c2, if_neg c2, if_neg c1]
        have hl' : x.length < 2 := by rw [List.length_cons] at hl; omega
        obtain ⟨v1, t1, z1⟩ := cells_text (cap := 2) (fun c hc => hp c (List.mem_cons_of_mem _ hc)) hl'
        have hd : ((a : Int) :: castL x ++ List.replicate (3 - (a :: x).length) 0).drop 1 = castL x ++ List.replicate (2 - x.length) 0 := by
          rw [List.cons_append, List.drop_succ_cons, List.drop_zero, List.length_cons]
          congr 2
          omega
        rw [hd, utf16Cmp_from v1 (valid_drop hv h3) 0 0 (Nat.zero_le _) (Nat.zero_le _), t1, text_drop _ _ _ h3]
        simp only [List.drop_zero]

/-- The text search in UTF-16 finds the entity of the characters of the text, as the one in UTF-32 does. -/
theorem chr2sgml16_spec {ent : List Int} {count : Nat} (hv : Valid ent (some count)) (he : text ent (some count) ≠ []) (hu : ∀ c ∈ text ent (some count), 0 ≤ c) :
    chr2sgml16 ent count = some (nameOf (decode (text ent (some count)))) := by
  obtain ⟨F, hF⟩ : ∃ F : Nat → Int, F = fun m => cmpL (castL (byUni.getD m ([], [])).2) (decode (text ent (some count))) := ⟨_, rfl⟩
  have hk := decode_nonneg _ hu
  have hget : ∀ m, m < 1535 → ∃ e, byUni[m]? = some e ∧ byUni.getD m ([], []) = e := by
    intro m hm
    have hlt : m < byUni.length := by rw [byUni_length]; exact hm
    exact ⟨byUni[m], List.getElem?_eq_getElem hlt, by rw [List.getD_eq_getElem?_getD, List.getElem?_eq_getElem hlt]; rfl⟩
  have hok : ∀ {m : Nat} {e : List Nat × List Nat}, byUni[m]? = some e → e.2 ≠ [] ∧ e.2.length < 3 ∧ ∀ c ∈ e.2, 0 < c := by
    intro m e h
    obtain ⟨k, hk⟩ := byUni_mem h
    have := entry_ok hk
    exact ⟨this.2.1, this.2.2.2.1, this.2.2.2.2.2⟩
  have hf : ∀ m, m < 1535 → ((ordered m).bind fun e => cmpHead16 (uniCells e) ent count) = some (F m) := by
    intro m hm
    obtain ⟨e, h1, h2⟩ := hget m hm
    obtain ⟨o1, o2, o3⟩ := hok h1
    rw [ordered_eq, h1, Option.bind_some, uniCells, cmpHead16_eq o3 o2 o1 hv he, hF]
    simp only [h2]
  have hg : ∀ m, m < 1535 → ((ordered m).bind fun e => (cmpHead16 (uniCells e) ent count).map fun r => r == 0) = some (F m == 0) := by
    intro m hm
    obtain ⟨e, h1, h2⟩ := hget m hm
    obtain ⟨o1, o2, o3⟩ := hok h1
    rw [ordered_eq, h1, Option.bind_some, uniCells, cmpHead16_eq o3 o2 o1 hv he, hF]
    simp only [h2, Option.map_some]
  have hm : Mono F 1535 := by
    intro a b hab hb
    obtain ⟨ea, a1, a2⟩ := hget a (by omega)
    obtain ⟨eb, b1, b2⟩ := hget b hb
    rw [hF]
    simp only [a2, b2]
    rw [← cmpR_cmpL true true _ _ hk, ← cmpR_cmpL true true _ _ hk]
    refine cmpR_mono _ _ _ _ ?_ (hok a1).2.2 (hok b1).2.2
    exact sorted_get _ unis_sorted a b (by omega) _ _ (by rw [List.getElem?_map, a1]; rfl) (by rw [List.getElem?_map, b1]; rfl)
  have hz : ∀ {m : Nat} {e : List Nat × List Nat}, byUni[m]? = some e → byUni.getD m ([], []) = e → (F m = 0 ↔ castL e.2 = decode (text ent (some count))) := by
    intro m e h1 h2
    rw [hF]
    simp only [h2]
    rw [← cmpR_cmpL true true _ _ hk, cmpR_zero]
  unfold chr2sgml16 nameOf
  rcases bisect_spec hf hg hm 0 1535 (Nat.le_refl _) (fun m h => by omega) (fun m h1 h2 => by omega) with ⟨e1, e2⟩ | ⟨k, e1, e2, e3, e4⟩
  · rw [e1, Option.map_some, find_none]
    · rfl
    · intro m x hx
      have hlt : m < 1535 := by rw [← byUni_length]; exact (List.getElem?_eq_some_iff.1 hx).1
      have := e2 m hlt
      rw [ne_eq, hz hx (by rw [List.getD_eq_getElem?_getD, hx]; rfl)] at this
      simpa using this
  · obtain ⟨e, h1, h2⟩ := hget k e2
    rw [e1, Option.map_some, Option.map_some, ordered_eq, h1, Option.getD_some]
    rw [find_first h1 (by simpa using (hz h1 h2).1 e3)]
    · rfl
    · intro m x hmk hx
      have := e4 m hmk
      rw [ne_eq, hz hx (by rw [List.getD_eq_getElem?_getD, hx]; rfl)] at this
      simpa using this

/-! ### Proofs: encoding -/

/-- The table names neither surrogates nor characters beyond the basic plane. -/
theorem pairs_scalar : pairs.all (fun p => p.2.all fun c => decide (c < 0x10000 ∧ ¬ (0xd800 ≤ c ∧ c < 0xe000))) = true := by decide +kernel

theorem nameOf_scalar {g e : List Int} (h : nameOf g = some e) : ∀ c ∈ g, 0 < c ∧ c < 0x10000 ∧ ¬ (0xd800 ≤ c ∧ c < 0xe000) := by
  obtain ⟨p, hp, _, h2, _⟩ := nameOf_entry h
  obtain ⟨k, hk⟩ := List.mem_iff_getElem?.1 hp
  have hs := List.all_eq_true.1 pairs_scalar p hp
  intro c hc
  rw [← h2] at hc
  obtain ⟨n, hn, rfl⟩ := List.mem_map.1 hc
  have h3 := List.all_eq_true.1 hs n hn
  have h4 := (entry_ok hk).2.2.2.2.2 n hn
  simp only [decide_eq_true_iff] at h3
  omega

theorem encChar_big {c : Int} (h : 0x10000 ≤ c) : encChar c = numEntity c := by
  unfold encChar
  cases hn : nameOf [c] with
  | some e => have := nameOf_scalar hn c List.mem_cons_self; omega
  | none => dsimp only; rw [if_neg (by omega)]

theorem pointAt_unit {s : List Int} {count : Option Nat} {i : Nat} {r : Int × Nat} {a : Int} (h : pointAt s count i = some r) (ha : rd s i = some a) :
    r = (a, 1) ∨ (isHigh a = true ∧ ∃ b, isLow b = true ∧ r = (fromPair a b, 2)) := by
  unfold pointAt pairAt isPair at h
  rw [ha] at h
  dsimp only at h
  by_cases c : below count (i + 1) = true
  · rw [if_pos c] at h
    by_cases hh : isHigh a = true
    · rw [if_pos hh] at h
      cases hb : rd s (i + 1) with
      | none => rw [hb] at h; cases h
      | some b =>
        rw [hb] at h
        simp only [Option.map_some] at h
        cases hl : isLow b with
        | true => rw [hl] at h; injection h with h; exact Or.inr ⟨hh, b, hl, h.symm⟩
        | false => rw [hl] at h; injection h with h; exact Or.inl h.symm
    · rw [if_neg hh] at h
      injection h with h; exact Or.inl h.symm
  · rw [if_neg c] at h
    injection h with h; exact Or.inl h.symm

theorem decompose16_spec {s : List Int} {e : Nat} (he : e ≤ s.length) (hz : ∀ c ∈ s.take e, 0 < c ∧ c < 0x10000) : ∀ (d i : Nat), i + d = e → ∀ dst,
    decompose16 s e i dst = some (dst ++ (decode ((s.take e).drop i)).flatMap encChar) := by
  intro d
  induction d using Nat.strongRecOn with
  | _ d ih =>
    intro i hi dst
    rw [decompose16]
    by_cases c : i < e
    · rw [if_pos c]
      have hlt : i < (s.take e).length := by rw [List.length_take]; omega
      have hls : i < s.length := by omega
      have hpos := hz _ (List.getElem_mem hlt)
      have ht : text (s.drop i) (some 1) = [(s.take e)[i]] := by
        rw [List.getElem_take] at hpos ⊢
        rw [text_take] <;> rw [List.drop_eq_getElem_cons hls]
        · rfl
        · intro c hc
          simp only [List.take_succ_cons, List.take_zero, List.mem_singleton] at hc
          rw [hc]; omega
      have hrd : rd s i = some (s.take e)[i] := by unfold rd; rw [List.getElem_take, List.getElem?_eq_getElem hls]
      have hte : text s (some e) = s.take e := text_take fun c hc => by have := hz c hc; omega
      obtain ⟨r, p1, p2, p3, p4⟩ := pointAt_text (valid_len he) (j := i) (by rw [hte]; exact hlt)
      rw [hte] at p3 p4
      rw [List.length_take] at p3
      have hr1 := (pointAt_lt p1).2
      rw [chr2sgml16_spec (valid_len (by rw [List.length_drop]; omega)) (by rw [ht]; simp) (by rw [ht]; intro c hc; rw [List.mem_singleton] at hc; omega), ht, p4,
        List.flatMap_cons, hrd]
      have hu := pointAt_unit p1 hrd
      generalize (s.take e)[i] = u at *
      show (match some (nameOf [u]) with | none => _ | some (some n) => _ | some none => _) = _
      cases hn : nameOf [u] with
      | some n =>
        dsimp only
        have hr : r = (u, 1) := by
          rcases hu with q | ⟨q, _⟩
          · exact q
          · have := (nameOf_scalar hn u List.mem_cons_self).2.2
            simp only [isHigh, decide_eq_true_eq] at q
            omega
        subst hr
        rw [ih (d - 1) (by omega) (i + 1) (by omega)]
        have hlt16 : encChar u = named n := by
          simp [encChar, hn, named]
        rw [hlt16]
        simp
      | none =>
        dsimp only
        by_cases q : 0 ≤ u ∧ u < 128
        · rw [if_pos ((is7bit_eq u).2 q)]
          have hr : r = (u, 1) := by
            rcases hu with p | ⟨p, _⟩
            · exact p
            · simp only [isHigh, decide_eq_true_eq] at p
              omega
          subst hr
          rw [ih (d - 1) (by omega) (i + 1) (by omega)]
          have hlt16 : encChar u = [u] := by
            simp [encChar, hn, q]
          rw [hlt16]
          simp
        · rw [if_neg (fun p => q ((is7bit_eq u).1 p))]
          split
          · next p => rw [p1] at p; cases p
          · next r' p =>
            rw [p1] at p
            injection p with p
            subst p
            rw [ih (d - r.2) (by omega) (i + r.2) (by omega)]
            have hlt16 : encChar r.1 = numEntity r.1 := by
              rcases hu with p | ⟨ha, b, hb, p⟩
              · subst p
                dsimp only
                simp only [encChar, hn, if_neg q]
              · subst p
                dsimp only
                exact encChar_big (pair_range ha hb).1
            rw [hlt16]
            simp
    · rw [if_neg c, List.drop_of_length_le (by rw [List.length_take]; omega)]; simp [decode]

/-- The first character of a text, and its units. -/
theorem first16 : ∀ {t : List Int}, t ≠ [] → ∃ base r c, t = base ++ r ∧
    ((base = [c] ∧ ¬ (isHigh c ∧ ∃ d, r.head? = some d ∧ isLow d)) ∨ ∃ a b, base = [a, b] ∧ isHigh a = true ∧ isLow b = true ∧ c = fromPair a b)
  | [], h => absurd rfl h
  | [a], _ => ⟨[a], [], a, rfl, Or.inl ⟨rfl, by rintro ⟨_, d, h, _⟩; cases h⟩⟩
  | a :: b :: r, _ => by
    by_cases q : isHigh a ∧ isLow b
    · exact ⟨[a, b], r, _, rfl, Or.inr ⟨a, b, rfl, q.1, q.2, rfl⟩⟩
    · refine ⟨[a], b :: r, a, rfl, Or.inl ⟨rfl, ?_⟩⟩
      rintro ⟨h1, d, h2, h3⟩
      rw [List.head?_cons, Option.some.injEq] at h2
      subst h2
      exact q ⟨h1, h3⟩

theorem decode_first {base r : List Int} {c : Int}
    (h : (base = [c] ∧ ¬ (isHigh c ∧ ∃ d, r.head? = some d ∧ isLow d)) ∨ ∃ a b, base = [a, b] ∧ isHigh a = true ∧ isLow b = true ∧ c = fromPair a b) :
    decode (base ++ r) = c :: decode r := by
  rcases h with ⟨rfl, h⟩ | ⟨a, b, rfl, ha, hb, rfl⟩
  · cases r with
    | nil => rfl
    | cons d r =>
      show decode (c :: d :: r) = _
      rw [decode, if_neg]
      rintro ⟨h1, h2⟩
      exact h ⟨h1, d, rfl, h2⟩
  · show decode (a :: b :: r) = _
    rw [decode, if_pos ⟨ha, hb⟩]

theorem combining_unit {c : Int} (h : iscombining c = true) : isHigh c = false ∧ isLow c = false ∧ c < 0x10000 := by
  simp only [iscombining, decide_eq_true_eq] at h
  refine ⟨?_, ?_, by omega⟩
  · simp only [isHigh, decide_eq_false_iff_not]; omega
  · simp only [isLow, decide_eq_false_iff_not]; omega

theorem decode_cons_mark {c : Int} (h : iscombining c = true) (t : List Int) : decode (c :: t) = c :: decode t := by
  refine decode_first (base := [c]) (Or.inl ⟨rfl, ?_⟩)
  rintro ⟨q, _⟩
  rw [(combining_unit h).1] at q; cases q

/-- Marks are units of their own, so they are the same in the characters of a text. -/
theorem decode_marks : ∀ t : List Int, (decode t).takeWhile iscombining = t.takeWhile iscombining ∧ (decode t).dropWhile iscombining = decode (t.dropWhile iscombining)
  | [] => ⟨rfl, rfl⟩
  | x :: t => by
    by_cases h : iscombining x = true
    · rw [decode_cons_mark h, List.takeWhile_cons_of_pos h, List.takeWhile_cons_of_pos h, List.dropWhile_cons_of_pos h, List.dropWhile_cons_of_pos h,
        (decode_marks t).1, (decode_marks t).2]
      exact ⟨rfl, rfl⟩
    · obtain ⟨base, r, c, e1, e2⟩ := first16 (t := x :: t) (by simp)
      have hc : ¬ iscombining c = true := by
        rcases e2 with ⟨rfl, _⟩ | ⟨a, b, rfl, ha, hb, rfl⟩
        · injection e1 with e1 _
          rw [← e1]; exact h
        · have := (pair_range ha hb).1
          intro q
          have := (combining_unit q).2.2
          omega
      rw [List.takeWhile_cons_of_neg h, List.dropWhile_cons_of_neg h, e1, decode_first e2, List.takeWhile_cons_of_neg hc, List.dropWhile_cons_of_neg hc]
      exact ⟨rfl, rfl⟩

theorem decode_all_marks : ∀ {m : List Int}, (∀ c ∈ m, iscombining c = true) → decode m = m
  | [], _ => rfl
  | x :: m, h => by rw [decode_cons_mark (h x List.mem_cons_self), decode_all_marks fun c hc => h c (List.mem_cons_of_mem _ hc)]

theorem glyphlen16_append (l q : List Int) : glyphlen16 (l ++ q) l.length = glyphlen16 l l.length := by
  unfold glyphlen16
  by_cases h0 : l.length = 0
  · rw [if_pos h0, if_pos h0]
  · rw [if_neg h0, if_neg h0]
    by_cases h2 : l.length < 2
    · rw [if_pos h2, if_pos h2, skipMarks_append q (Nat.le_refl _)]
    · rw [if_neg h2, if_neg h2, skipMarks_append q (Nat.le_refl _), skipMarks_append q (Nat.le_refl _)]
      have : isPair (l ++ q) 0 = isPair l 0 := by
        unfold isPair rd
        rw [List.getElem?_append_left (by omega), List.getElem?_append_left (by omega)]
      rw [this]

theorem encLoop16_spec {s : List Int} {n what : Nat} (hl : n ≤ s.length) (hz : ∀ c ∈ s.take n, 0 < c ∧ c < 0x10000) : ∀ (d i : Nat), i + d = n → ∀ dst,
    encLoop16 s n what i dst = some (dst ++ (glyphs (decode ((s.take n).drop i))).flatMap (encGlyph what)) := by
  intro d
  induction d using Nat.strongRecOn with
  | _ d ih =>
    intro i hi dst
    rw [encLoop16]
    by_cases c : i < n
    · rw [dif_pos c]
      have hlm : (s.take n).length = n := by rw [List.length_take]; omega
      obtain ⟨base, r, x, hbr, hx⟩ := first16 (t := (s.take n).drop i) (by
        intro q; have := congrArg List.length q; rw [List.length_drop, hlm] at this; simp at this; omega)
      obtain ⟨m, hm⟩ : ∃ m, m = r.takeWhile iscombining := ⟨_, rfl⟩
      obtain ⟨q, hq⟩ : ∃ q, q = r.dropWhile iscombining := ⟨_, rfl⟩
      have hmq : r = m ++ q := by rw [hm, hq, List.takeWhile_append_dropWhile]
      have hmm : ∀ c ∈ m, iscombining c = true := by rw [hm]; exact fun c hc => List.all_eq_true.1 List.all_takeWhile c hc
      have hqq : ∀ c, q.head? = some c → iscombining c = false := by
        intro c hc
        have := List.head?_dropWhile_not iscombining r
        rw [← hq, hc] at this
        simpa using this
      have hsplit : (s.take n).drop i = base ++ m ++ q := by rw [hbr, hmq, List.append_assoc]
      have hlen : n - i = (base ++ m ++ q).length := by rw [← hsplit, List.length_drop, hlm]
      have hsd : s.drop i = (base ++ m ++ q) ++ s.drop n := by
        conv => lhs; rw [← List.take_append_drop n s]
        rw [List.drop_append_of_le_length (by omega), hsplit]
      have hxm : (base = [x] ∧ ¬ (isHigh x ∧ ∃ d, (m ++ q).head? = some d ∧ isLow d)) ∨ ∃ a b, base = [a, b] ∧ isHigh a = true ∧ isLow b = true ∧ x = fromPair a b := by
        rw [← hmq]; exact hx
      have hg : glyphlen16 (s.drop i) (n - i) = some (base ++ m).length := by
        rw [hsd, hlen, glyphlen16_append]
        refine glyphlen16_spec base m q ?_ hmm hqq
        rcases hxm with ⟨h1, h2⟩ | ⟨a, b, h1, h2, h3, _⟩
        · exact Or.inl ⟨x, h1, h2⟩
        · exact Or.inr ⟨a, b, h1, h2, h3⟩
      have hb0 : base ≠ [] := by rcases hx with ⟨h, _⟩ | ⟨a, b, h, _⟩ <;> rw [h] <;> simp
      have hbl : 1 ≤ base.length := List.length_pos_iff.2 hb0
      have hgl : (base ++ m).length = base.length + m.length := List.length_append
      have hle : (base ++ m).length ≤ n - i := by rw [hlen]; simp
      have hrest : (s.take n).drop (i + (base ++ m).length) = q := by
        rw [← List.drop_drop, hsplit, List.drop_left]
      have htk : (s.drop i).take (base ++ m).length = base ++ m := by
        rw [hsd, List.append_assoc, List.take_left]
      have hmem : ∀ c ∈ base ++ m, 0 < c ∧ c < 0x10000 := by
        intro c hc
        apply hz
        refine List.mem_of_mem_drop (i := i) ?_
        rw [hsplit]; exact List.mem_append_left _ hc
      have htext : text (s.drop i) (some (base ++ m).length) = base ++ m := by
        rw [text_take] <;> rw [htk]
        intro c hc
        have := hmem c hc; omega
      have hdec : decode (base ++ m) = x :: m := by
        rw [decode_first (c := x), decode_all_marks hmm]
        rcases hxm with ⟨h1, h2⟩ | h
        · refine Or.inl ⟨h1, ?_⟩
          rintro ⟨p1, d, p2, p3⟩
          have : d ∈ m := List.mem_of_mem_head? (by rw [p2]; rfl)
          rw [(combining_unit (hmm d this)).2.1] at p3; cases p3
        · exact Or.inr h
      have hchr := chr2sgml16_spec (ent := s.drop i) (count := (base ++ m).length) (valid_len (by rw [List.length_drop]; omega)) (by rw [htext]; simp [hb0])
        (by rw [htext]; intro c hc; have := hmem c hc; omega)
      rw [htext, hdec] at hchr
      have hall : decode ((s.take n).drop i) = x :: decode r := by rw [hbr, decode_first hx]
      have hglyph : glyphs (decode ((s.take n).drop i)) = (x :: m) :: glyphs (decode q) := by
        rw [hall, glyphs_cons, (decode_marks r).1, (decode_marks r).2, ← hm, ← hq]
      rw [hglyph, List.flatMap_cons]
      -- the first unit
      obtain ⟨u, hu⟩ : ∃ u, base.head? = some u := ⟨_, List.head?_eq_some_head hb0⟩
      have hrd : rd s i = some u := by
        unfold rd
        have : s[i]? = (s.drop i)[0]? := by rw [List.getElem?_drop, Nat.add_zero]
        rw [this, hsd, ← List.head?_eq_getElem?]
        cases base with
        | nil => exact absurd rfl hb0
        | cons y base => exact hu
      have hone : base.length + m.length = 1 → base = [x] ∧ u = x ∧ m = [] := by
        intro h1
        have hm0 : m = [] := List.length_eq_zero_iff.1 (by omega)
        rcases hx with ⟨h, _⟩ | ⟨a, b, h, _⟩
        · rw [h] at hu
          injection hu with hu
          exact ⟨h, hu.symm, hm0⟩
        · rw [h] at h1; simp at h1; omega
      split
      · next p => rw [hg] at p; cases p
      · next g p =>
        rw [hg] at p
        injection p with p
        subst p
        rw [hrd]
        dsimp only
        rw [mayCopy_eq]
        by_cases hcopy : (base ++ m).length = 1 ∧ copied what u = true
        · rw [if_pos hcopy]
          obtain ⟨o1, o2, o3⟩ := hone (by omega)
          rw [hcopy.1] at hrest
          rw [ih (d - 1) (by omega) (i + 1) (by omega), hrest, o3, encGlyph]
          simp [plain, ← o2, hcopy.2]
        · rw [if_neg hcopy, hchr]
          have hnc : plain what (x :: m) = false := by
            cases hq : m with
            | cons y m => rfl
            | nil =>
              show copied what x = false
              rcases hx with ⟨h, _⟩ | ⟨a, b, h, ha, hb, e⟩
              · rw [h] at hu
                injection hu with hu
                cases hc : copied what x with
                | false => rfl
                | true => exact absurd ⟨by rw [h, hq]; rfl, by rw [← hu]; exact hc⟩ hcopy
              · have := (pair_range ha hb).1
                unfold copied
                rw [decide_eq_false (by omega)]; simp
          have henc : encGlyph what (x :: m) = match nameOf (x :: m) with | some e => [38] ++ e ++ [59] | none => (x :: m).flatMap encChar := by
            rw [encGlyph]
            rw [hnc, if_neg (by decide)]
            cases nameOf (x :: m) <;> rfl
          clear hx hxm
          rw [henc]
          cases hnm : nameOf (x :: m) with
          | some e =>
            dsimp only
            rw [ih (d - (base ++ m).length) (by omega) (i + (base ++ m).length) (by omega), hrest]
            simp [named]
          | none =>
            dsimp only
            by_cases h1 : (base ++ m).length = 1
            · rw [if_pos h1]
              obtain ⟨o1, o2, o3⟩ := hone (by omega)
              rw [h1] at hrest
              rw [o3] at hnm ⊢
              rw [ih (d - 1) (by omega) (i + 1) (by omega), hrest, o2]
              by_cases p : 0 ≤ x ∧ x < 128
              · rw [if_pos ((is7bit_eq x).2 p)]; simp [encChar, hnm, p]
              · rw [if_neg (fun p' => p ((is7bit_eq x).1 p'))]
                simp only [List.flatMap_cons, encChar, hnm, if_neg p]; simp
            · rw [if_neg h1]
              have hd16 := decompose16_spec (s := s) (e := i + (base ++ m).length) (by omega) (by
                intro c hc
                apply hz
                exact (List.take_prefix_take_left (by omega)).subset hc) (base ++ m).length i rfl dst
              have : (s.take (i + (base ++ m).length)).drop i = base ++ m := by
                rw [List.drop_take, show i + (base ++ m).length - i = (base ++ m).length by omega, htk]
              rw [this, hdec] at hd16
              rw [hd16]
              dsimp only
              rw [ih (d - (base ++ m).length) (by omega) (i + (base ++ m).length) (by omega), hrest]
              simp
    · rw [dif_neg c, List.drop_of_length_le (by rw [List.length_take]; omega), decode, glyphs]; simp

/-! ### Proofs: decoding -/

theorem encode1_ne_zero {c x : Int} (h : 0 < c) (hx : x ∈ encode1 c) : x ≠ 0 := by
  unfold encode1 at hx
  split at hx
  · rw [List.mem_singleton] at hx; omega
  · simp only [List.mem_cons, List.not_mem_nil, or_false] at hx; omega

theorem wide_eq : ∀ {u : List Int}, (∀ c ∈ u, 0 < c ∧ c < 0x110000) → wide u = u.flatMap encode1 := by
  intro u h
  have he : (u.flatMap fun c => if c < 0x10000 then [c % 0x10000] else [(toPair c).1, (toPair c).2]) = u.flatMap encode1 := by
    induction u with
    | nil => rfl
    | cons c u ih =>
      rw [List.flatMap_cons, List.flatMap_cons, ih fun x hx => h x (List.mem_cons_of_mem _ hx)]
      have hc := h c List.mem_cons_self
      congr 1
      unfold encode1
      by_cases q : c < 0x10000
      · rw [if_pos q, if_pos q, Int.emod_eq_of_lt (by omega) q]
      · rw [if_neg q, if_neg q, toPair_eq (by omega) hc.2]
  unfold wide
  rw [he]
  refine takeWhile_all ?_
  intro x hx
  obtain ⟨c, hc, hx⟩ := List.mem_flatMap.1 hx
  simpa using encode1_ne_zero (h c hc).1 hx

theorem flagged_big {skip : Nat} {c : Int} (h : 128 ≤ c) : flagged skip c = false := by
  have hall : ∀ b, b < 12 → ∀ x ∈ flagChars b, (x.toNat : Int) < 128 := by decide +kernel
  unfold flagged
  rw [List.any_eq_false]
  intro b hb
  rw [List.mem_range] at hb
  rw [Bool.and_eq_true, List.any_eq_true]
  rintro ⟨_, x, hx, e⟩
  have := hall b hb x hx
  simp only [beq_iff_eq] at e
  omega

theorem flagged_head {skip : Nat} : ∀ {u : List Int}, (∀ c ∈ u, 0 < c ∧ c < 0x110000) → flagged skip ((u.flatMap encode1).headD 0) = flagged skip (u.headD 0)
  | [], _ => rfl
  | c :: u, h => by
    have hc := h c List.mem_cons_self
    rw [List.flatMap_cons]
    unfold encode1
    by_cases q : c < 0x10000
    · rw [if_pos q]; rfl
    · rw [if_neg q]
      show flagged skip (0xd800 + (c - 0x10000) / 0x400) = flagged skip c
      rw [flagged_big (by omega), flagged_big (by omega)]

theorem flagged_range {skip : Nat} {c : Int} (h : flagged skip c = true) : 0 < c ∧ c < 128 := by
  have hall : ∀ b, b < 12 → ∀ x ∈ flagChars b, (0 : Int) < x.toNat ∧ (x.toNat : Int) < 128 := by decide +kernel
  unfold flagged at h
  rw [List.any_eq_true] at h
  obtain ⟨b, hb, h⟩ := h
  rw [List.mem_range] at hb
  rw [Bool.and_eq_true, List.any_eq_true] at h
  obtain ⟨_, x, hx, e⟩ := h
  have := hall b hb x hx
  simp only [beq_iff_eq] at e
  omega

theorem flagged_wide {skip : Nat} : ∀ {u : List Int}, flagged skip (u.headD 0) = true → (wide u).headD 0 = u.headD 0
  | [], _ => rfl
  | c :: u, h => by
    have := flagged_range h
    have hc : 0 < c ∧ c < 128 := this
    unfold wide
    rw [List.flatMap_cons, if_pos (by omega), Int.emod_eq_of_lt (by omega) (by omega)]
    show ((c :: _).takeWhile _).headD 0 = c
    rw [List.takeWhile_cons_of_pos (by simp; omega)]
    rfl

/-- The characters that an entity stands for are characters of Unicode. -/
def InRange (u : List Int) : Prop := ∀ c ∈ u, 0 < c ∧ c < 0x110000

theorem entityAt16_spec {s : List Int} {n i skip : Nat} (hn : n < 2 ^ 64) (hv : Valid (s.drop (i + 1)) (some (n - i - 1)))
    (hr : ∀ name rest u, splitEntity (text (s.drop (i + 1)) (some (n - i - 1))) = some (name, rest) → meaning name = some u →
      flagged skip (u.headD 0) = false → InRange u) :
    entityAt16 s n skip i = some (match splitEntity (text (s.drop (i + 1)) (some (n - i - 1))) with
      | some (name, _) =>
        match meaning name with
        | some u => if flagged skip (u.headD 0) then none else some (u.flatMap encode1, i + name.length + 2)
        | none => none
      | none => none) := by
  unfold entityAt16
  rw [sgmlend_from hv _ 0 (Nat.zero_add _), List.drop_zero]
  cases h : splitEntity (text (s.drop (i + 1)) (some (n - i - 1))) with
  | none => rfl
  | some p =>
    obtain ⟨name, rest⟩ := p
    obtain ⟨h1, h2⟩ := splitEntity_spec h
    have hpre : text (s.drop (i + 1)) (some (n - i - 1)) <+: s.drop (i + 1) := (List.takeWhile_prefix _).trans (List.take_prefix _ _)
    obtain ⟨q, hq⟩ := hpre
    rw [h1] at hq
    have ht : (s.drop (i + 1)).take name.length = name := by rw [← hq, List.append_assoc, List.take_left]
    have he : (s.drop (i + 1))[name.length]? = some 59 := by rw [← hq]; simp
    have hl : name.length < 2 ^ 64 := by
      have := text_length_take (s.drop (i + 1)) (n - i - 1)
      rw [h1, List.length_append] at this; omega
    dsimp only
    rw [Nat.zero_add, sgml2uni_spec hl (by rw [ht]; exact h2) he, ht]
    cases hm : meaning name with
    | none => rfl
    | some u =>
      dsimp only
      rw [mayDecode_eq]
      cases hf : flagged skip (u.headD 0)
      · have hu := hr _ _ _ h hm hf
        rw [wide_eq hu, flagged_head hu, hf]
        simp; omega
      · rw [flagged_wide hf, hf]; simp

theorem decLoop16_spec {s : List Int} {n skip : Nat} (hn : n < 2 ^ 64) (hv : n ≤ s.length) (hz : ∀ c ∈ s.take n, c ≠ 0) : ∀ (d i : Nat), i + d = n →
    (∀ name u, .ent name u ∈ pieces skip ((s.take n).drop i) → InRange u) → ∀ dst map,
    decLoop16 s n skip i dst map =
      some (dst ++ ((pieces skip ((s.take n).drop i)).map Piece.in16).flatMap Piece.out, map ++ points ((pieces skip ((s.take n).drop i)).map Piece.in16) i dst.length) := by
  intro d
  induction d using Nat.strongRecOn with
  | _ d ih =>
    intro i hi hR dst map
    rw [decLoop16]
    by_cases c : i < n
    · rw [dif_pos c]
      have hlt : i < (s.take n).length := by rw [List.length_take]; omega
      have hrd : rd s i = some (s.take n)[i] := by
        unfold rd; rw [List.getElem_take, List.getElem?_eq_getElem (by omega)]
      have hdrop : (s.take n).drop i = (s.take n)[i] :: (s.take n).drop (i + 1) := List.drop_eq_getElem_cons hlt
      have hlen : (s.take n).length = n := by rw [List.length_take]; omega
      rw [hrd]
      rw [hdrop] at hR ⊢
      generalize (s.take n)[i] = x at *
      dsimp only
      have hchr : ∀ p, decLoop16 s n skip (i + 1) (dst ++ [x]) map = p → (∀ name u, .ent name u ∈ pieces skip ((s.take n).drop (i + 1)) → InRange u) → p = some (dst ++ (x :: ((pieces skip ((s.take n).drop (i + 1))).map Piece.in16).flatMap Piece.out),
          map ++ points (.chr x :: (pieces skip ((s.take n).drop (i + 1))).map Piece.in16) i dst.length) := by
        intro p hp hR'
        rw [← hp, ih (d - 1) (by omega) (i + 1) (by omega) hR']
        simp [points]
      by_cases h38 : x = 38
      · rw [if_pos h38]
        subst h38
        have hv2 : Valid (s.drop (i + 1)) (some (n - i - 1)) := Or.inr ⟨_, rfl, by rw [List.length_drop]; omega⟩
        have ht : text (s.drop (i + 1)) (some (n - i - 1)) = (s.take n).drop (i + 1) := by
          rw [text_take, List.drop_take, Nat.sub_sub]
          intro c hc
          apply hz
          have : c ∈ (s.take n).drop (i + 1) := by rw [List.drop_take]; rwa [Nat.sub_sub] at hc
          exact List.mem_of_mem_drop this
        have hE := entityAt16_spec (skip := skip) hn hv2 (by
          rw [ht]
          intro name rest u h1 h2 h3
          refine hR name u ?_
          rw [pieces_amp, h1]
          dsimp only
          rw [h2]
          dsimp only
          rw [h3]
          exact List.mem_cons_self)
        rw [ht] at hE
        rw [pieces_amp] at hR ⊢
        cases hs : splitEntity ((s.take n).drop (i + 1)) with
        | none =>
          rw [hs] at hE hR
          dsimp only at hE hR ⊢
          split
          · next q => rw [hE] at q; cases q
          · next q => rw [hE] at q; cases q
          · exact hchr _ rfl fun nm v hv => hR nm v (List.mem_cons_of_mem _ hv)
        | some p =>
          obtain ⟨name, rest⟩ := p
          rw [hs] at hE hR
          dsimp only at hE hR ⊢
          cases hm : meaning name with
          | none =>
            rw [hm] at hE hR
            dsimp only at hE hR ⊢
            split
            · next q => rw [hE] at q; cases q
            · next q => rw [hE] at q; cases q
            · exact hchr _ rfl fun nm v hv => hR nm v (List.mem_cons_of_mem _ hv)
          | some u =>
            rw [hm] at hE hR
            dsimp only at hE hR ⊢
            by_cases hf : flagged skip (u.headD 0) = true
            · rw [if_pos hf] at hE hR ⊢
              split
              · next q => rw [hE] at q; cases q
              · next q => rw [hE] at q; cases q
              · exact hchr _ rfl fun nm v hv => hR nm v (List.mem_cons_of_mem _ hv)
            · rw [if_neg hf] at hE hR ⊢
              split
              · next q => rw [hE] at q; cases q
              · next u' j q =>
                rw [hE] at q
                simp only [Option.some.injEq, Prod.mk.injEq] at q
                obtain ⟨rfl, rfl⟩ := q
                obtain ⟨h1, h2⟩ := splitEntity_spec hs
                have hl := congrArg List.length h1
                rw [List.length_drop, hlen, List.length_append, List.length_cons] at hl
                have hr : (s.take n).drop (i + name.length + 2) = rest := by
                  rw [show i + name.length + 2 = (i + 1) + (name.length + 1) by omega, ← List.drop_drop, h1]
                  simp
                rw [ih (d - name.length - 2) (by omega) (i + name.length + 2) (by omega) (by
                  rw [hr]; exact fun nm v hv => hR nm v (List.mem_cons_of_mem _ hv)), hr]
                simp [points, Piece.out, Piece.in16, Nat.add_assoc]
              · next q => rw [hE] at q; cases q
      · rw [pieces_chr _ _ h38] at hR
        rw [if_neg h38, pieces_chr _ _ h38]
        exact hchr _ rfl fun nm v hv => hR nm v (List.mem_cons_of_mem _ hv)
    · rw [dif_neg c, List.drop_of_length_le (by rw [List.length_take]; omega)]
      simp [pieces, points]

theorem fromUnits : ∀ t : List Int, (∀ c ∈ t, 0 ≤ c ∧ c < 0x10000) → (decode t).flatMap encode1 = t
  | [], _ => rfl
  | [a], h => by
    have := h a List.mem_cons_self
    simp [decode, encode1, this.2]
  | a :: b :: r, h => by
    rw [decode]
    by_cases q : isHigh a ∧ isLow b
    · rw [if_pos q, List.flatMap_cons, fromUnits r fun c hc => h c (List.mem_cons_of_mem _ (List.mem_cons_of_mem _ hc))]
      have h1 := pair_range q.1 q.2
      have h2 := fromPair_roundtrip q.1 q.2
      rw [toPair_eq h1.1 h1.2] at h2
      unfold encode1
      rw [if_neg (by omega)]
      have h3 := congrArg Prod.fst h2.1
      have h4 := congrArg Prod.snd h2.1
      dsimp only at h3 h4
      rw [h3, h4]
      rfl
    · have := h a List.mem_cons_self
      rw [if_neg q, List.flatMap_cons, fromUnits (b :: r) fun c hc => h c (List.mem_cons_of_mem _ hc)]
      unfold encode1
      rw [if_pos this.2]
      rfl

theorem decode_range : ∀ t : List Int, (∀ c ∈ t, 0 < c ∧ c < 0x10000) → ∀ c ∈ decode t, 0 < c ∧ c < 0x110000
  | [], _, c, hc => by cases hc
  | [a], h, c, hc => by have := h c hc; omega
  | a :: b :: r, h, c, hc => by
    unfold decode at hc
    split at hc
    · next q =>
      rcases List.mem_cons.1 hc with rfl | hc
      · have := pair_range q.1 q.2; omega
      · exact decode_range r (fun x hx => h x (List.mem_cons_of_mem _ (List.mem_cons_of_mem _ hx))) c hc
    · rcases List.mem_cons.1 hc with rfl | hc
      · have := h _ List.mem_cons_self; omega
      · exact decode_range (b :: r) (fun x hx => h x (List.mem_cons_of_mem _ hx)) c hc

theorem take_text {s : List Int} {count : Nat} : s.take (text s (some count)).length = text s (some count) ∧ (text s (some count)).length ≤ s.length := by
  have hpre : text s (some count) <+: s := (List.takeWhile_prefix _).trans (List.take_prefix _ _)
  refine ⟨?_, hpre.length_le⟩
  obtain ⟨q, hq⟩ := hpre
  conv => lhs; arg 2; rw [← hq]
  rw [List.take_left]

/-! ### Properties -/

/-- **C141** (encoding) Encoding UTF-16 text appends the encoding of every glyph of its characters, up to its end. A surrogate without its other half is a
character, too. -/
theorem str2sgml16_encodes {s : List Int} {count what : Nat} (hv : Valid s (some count)) (h16 : ∀ c ∈ s, 0 ≤ c ∧ c < 2 ^ 16) (dst : List Int) :
    str2sgmlcat16 s count what dst = some (dst ++ (glyphs (decode (text s (some count)))).flatMap (encGlyph what)) := by
  unfold str2sgmlcat16
  rw [strnlen_spec hv]
  dsimp only
  obtain ⟨ht, hl⟩ := take_text (s := s) (count := count)
  rw [encLoop16_spec hl ?_ _ 0 (Nat.zero_add _), ht, List.drop_zero]
  rw [ht]
  intro c hc
  have h1 : c ≠ 0 := text_ne_zero hc
  have h2 := h16 c (by rw [← ht] at hc; exact List.mem_of_mem_take hc)
  omega

/-- **C141** (same as UTF-32) Text is encoded the same in UTF-16 and in UTF-32. -/
theorem str2sgml16_same {cs : List Int} {what : Nat} (hs : ∀ c ∈ cs, Scalar c) (hl : (cs.flatMap encode1).length < 2 ^ 64) (dst : List Int) :
    str2sgmlcat16 (cs.flatMap encode1) (cs.flatMap encode1).length what dst = str2sgmlcat cs cs.length what dst := by
  have hlen : cs.length ≤ (cs.flatMap encode1).length := by
    clear hl
    induction cs with
    | nil => simp
    | cons c cs ih =>
      have := ih fun x hx => hs x (List.mem_cons_of_mem _ hx)
      rw [List.flatMap_cons, List.length_append, List.length_cons]
      have : 1 ≤ (encode1 c).length := by unfold encode1; split <;> simp
      omega
  have hu : ∀ x ∈ cs.flatMap encode1, 0 < x ∧ x < 2 ^ 16 := by
    intro x hx
    obtain ⟨c, hc, hx⟩ := List.mem_flatMap.1 hx
    have := hs c hc
    unfold Scalar at this
    unfold encode1 at hx
    split at hx
    · rw [List.mem_singleton] at hx; omega
    · simp only [List.mem_cons, List.not_mem_nil, or_false] at hx
      rcases hx with h | h <;> omega
  have ht16 : text (cs.flatMap encode1) (some (cs.flatMap encode1).length) = cs.flatMap encode1 := by
    rw [text_take] <;> rw [List.take_length]
    intro c hc; have := hu c hc; omega
  have ht : text cs (some cs.length) = cs := by
    rw [text_take] <;> rw [List.take_length]
    intro c hc; have := hs c hc; unfold Scalar at this; omega
  rw [str2sgml16_encodes (valid_len (Nat.le_refl _)) (fun c hc => by have := hu c hc; omega), ht16, decode_encode cs hs,
    str2sgml_encodes (valid_len (Nat.le_refl _)) (by omega), ht]

/-- **C141** The encoding is ASCII, without terminators; and a character that is asked to be encoded does not occur in it, apart from `&` and `#`. -/
theorem str2sgml16_safe {s : List Int} {count what : Nat} (hv : Valid s (some count)) (h16 : ∀ c ∈ s, 0 ≤ c ∧ c < 2 ^ 16) :
    ∃ e, str2sgmlcat16 s count what [] = some e ∧ (∀ x ∈ e, 0 < x ∧ x < 128) ∧
      ∀ c, flagged what c = true → c ≠ ('#' : Char).toNat → c ≠ ('&' : Char).toNat → c ∉ e := by
  refine ⟨_, str2sgml16_encodes hv h16 [], ?_, ?_⟩
  · intro x hx
    rw [List.nil_append] at hx
    obtain ⟨g, hg, hx⟩ := List.mem_flatMap.1 hx
    refine encGlyph_ascii what g ?_ x hx
    intro c hcg
    have hm : c ∈ decode (text s (some count)) := by rw [← glyphs_flatten (decode (text s (some count)))]; exact List.mem_flatten.2 ⟨g, hg, hcg⟩
    have := decode_range _ (fun y hy => by
      have h1 : y ≠ 0 := text_ne_zero hy
      have h2 := h16 y (by rw [← (take_text (s := s) (count := count)).1] at hy; exact List.mem_of_mem_take hy)
      omega) c hm
    omega
  · intro c hf h1 h2 hx
    rw [List.nil_append] at hx
    obtain ⟨n, hn, rfl⟩ := flagged_special hf h1 h2
    obtain ⟨g, _, hx⟩ := List.mem_flatMap.1 hx
    exact encGlyph_special hn hf g hx

/-- **C141** (decoding; partial) Decoding to UTF-16 appends, for every piece of the source up to its end, what it stands for, in UTF-16, and the map tells where.
Missing: sources with a number that is no code point, see `sgml16_bad_number`. -/
theorem sgml2str16_decodes_partial {s : List Int} {count skip : Nat} (hv : Valid s (some count)) (hc : count < 2 ^ 64)
    (hr : ∀ name u, .ent name u ∈ pieces skip (text s (some count)) → ∀ c ∈ u, 0 < c ∧ c < 0x110000)
    (dst : List Int) :
    sgml2strcat16 s count skip dst = some (dst ++ ((pieces skip (text s (some count))).map Piece.in16).flatMap Piece.out,
      points ((pieces skip (text s (some count))).map Piece.in16) 0 dst.length) := by
  unfold sgml2strcat16
  rw [strnlen_spec hv]
  dsimp only
  obtain ⟨ht, hl⟩ := take_text (s := s) (count := count)
  have := text_length_take s count
  rw [decLoop16_spec (by omega) hl (by rw [ht]; exact fun c hc => text_ne_zero hc) _ 0 (Nat.zero_add _) (by rw [ht, List.drop_zero]; exact hr), ht]
  simp

theorem out16 {ps : List Piece} (h : ∀ c, Piece.chr c ∈ ps → c < 0x10000) : (ps.map Piece.in16).flatMap Piece.out = (ps.flatMap Piece.out).flatMap encode1 := by
  induction ps with
  | nil => rfl
  | cons p ps ih =>
    rw [List.map_cons, List.flatMap_cons, List.flatMap_cons, List.flatMap_append, ih fun c hc => h c (List.mem_cons_of_mem _ hc)]
    congr 1
    cases p with
    | chr c =>
      have := h c List.mem_cons_self
      simp [Piece.in16, Piece.out, encode1, this]
    | ent name u => rfl

/-- **C141** (same as UTF-32) Decoding ASCII to UTF-16 gives the UTF-16 encoding of what decoding to UTF-32 gives. -/
theorem sgml2str16_same_partial {s : List Int} {count skip : Nat} (hv : Valid s (some count)) (hc : count < 2 ^ 64) (ha : ∀ c ∈ s, 0 ≤ c ∧ c < 128)
    (hr : ∀ name u, .ent name u ∈ pieces skip (text s (some count)) → ∀ c ∈ u, 0 < c ∧ c < 0x110000) :
    ∃ u, (sgml2strcat s count skip []).map Prod.fst = some u ∧ (sgml2strcat16 s count skip []).map Prod.fst = some (u.flatMap encode1) := by
  refine ⟨_, sgml2str_decodes hv hc [], ?_⟩
  rw [sgml2str16_decodes_partial hv hc hr, Option.map_some, List.nil_append, List.nil_append]
  congr 1
  refine out16 ?_
  intro c hm
  have hmem : c ∈ text s (some count) := by
    rw [← pieces_src skip (text s (some count))]
    exact List.mem_flatMap.2 ⟨_, hm, by simp [Piece.src]⟩
  rw [← (take_text (s := s) (count := count)).1] at hmem
  have := ha c (List.mem_of_mem_take hmem)
  omega

/-- **C141** (round trip; partial) Decoding the encoding of UTF-16 text gives the text, unit by unit, also if it has unpaired surrogates. Missing: the texts that
are lost in UTF-32, too (C60). -/
theorem sgml16_round_trip_partial {s : List Int} {count what : Nat} (hv : Valid s (some count)) (h16 : ∀ c ∈ s, 0 ≤ c ∧ c < 2 ^ 16)
    (h1 : 0x2bc ∉ text s (some count)) (h2 : 0x2727 ∉ text s (some count))
    (hl : ∀ g ∈ glyphs (decode (text s (some count))), ∀ l ∈ lossy, g ≠ castL l) :
    ∃ e, str2sgmlcat16 s count what [] = some e ∧ (e.length < 2 ^ 64 → (sgml2strcat16 e e.length 0 []).map Prod.fst = some (text s (some count))) := by
  obtain ⟨e, he, ha, _⟩ := str2sgml16_safe (what := what) hv h16
  refine ⟨e, he, fun hlen => ?_⟩
  have hE := str2sgml16_encodes (what := what) hv h16 []
  rw [he, List.nil_append, Option.some.injEq] at hE
  have hunits : ∀ c ∈ text s (some count), 0 < c ∧ c < 0x10000 := by
    intro y hy
    have h1 : y ≠ 0 := text_ne_zero hy
    have h2 := h16 y (by rw [← (take_text (s := s) (count := count)).1] at hy; exact List.mem_of_mem_take hy)
    omega
  have hback := fromUnits (text s (some count)) fun c hc => by have := hunits c hc; omega
  have hrange := decode_range _ hunits
  have hnot : ∀ x, x < 0x10000 → x ∉ text s (some count) → x ∉ decode (text s (some count)) := by
    intro x hx hn hm
    apply hn
    rw [← hback]
    exact List.mem_flatMap.2 ⟨x, hm, by simp [encode1, hx]⟩
  have hte : text e (some e.length) = e := by
    rw [text_take, List.take_length]
    rw [List.take_length]
    intro c hc; have := ha c hc; omega
  have hdec : decodeSpec 0 e = decode (text s (some count)) := by
    rw [hE, decode_glyphs what _ ?_ hl, glyphs_flatten]
    intro g hg c hcg
    have hm : c ∈ decode (text s (some count)) := by rw [← glyphs_flatten (decode (text s (some count)))]; exact List.mem_flatten.2 ⟨g, hg, hcg⟩
    have := hrange c hm
    exact ⟨by omega, by omega, by omega, fun q => hnot 700 (by decide) h1 (by rw [← q]; exact hm), fun q => hnot 10023 (by decide) h2 (by rw [← q]; exact hm)⟩
  have hunit : ∀ c, Piece.chr c ∈ pieces 0 e → c < 0x10000 := by
    intro c hm
    have hmem : c ∈ e := by
      rw [← pieces_src 0 e]
      exact List.mem_flatMap.2 ⟨_, hm, by simp [Piece.src]⟩
    have := ha c hmem
    omega
  rw [sgml2str16_decodes_partial (valid_len (Nat.le_refl _)) hlen, hte, Option.map_some, List.nil_append]
  · dsimp only
    rw [out16 hunit]
    show some ((decodeSpec 0 e).flatMap encode1) = _
    rw [hdec, hback]
  · rw [hte]
    intro name u hm c hcu
    refine hrange c ?_
    rw [← hdec]
    exact List.mem_flatMap.2 ⟨_, hm, hcu⟩

/-- **C141** (defect) A number beyond Unicode is not refused: it is decoded to the surrogates of another character. -/
theorem sgml16_bad_number : sgml2strcat16 (asc "&#x110000;") 10 0 [] = some ([0xd800, 0xdc00], [(0, 0), (10, 2)]) ∧ decode [0xd800, 0xdc00] = [0x10000] := by
  refine ⟨by decide +kernel, by decide⟩

/-- The buffer `T_to chr[5]` of sgml.hpp 225 is long enough for every entity. -/
theorem wide_fits {name u : List Int} (h : meaning name = some u) : (wide u).length < 5 := by
  have hu : u.length ≤ 2 := by
    have hn : ∀ k, (char32 k).length ≤ 2 := by intro k; unfold char32; split <;> (try split) <;> simp
    have ht : ∀ nm, uniOf nm = some u → u.length ≤ 2 := by
      intro nm hm
      unfold uniOf at hm
      cases hf : pairs.find? (fun e => castL e.1 == nm) with
      | none => rw [hf] at hm; cases hm
      | some p =>
        rw [hf, Option.map_some, Option.some.injEq] at hm
        obtain ⟨k, hk⟩ := List.mem_iff_getElem?.1 (List.mem_of_find?_eq_some hf)
        have := (entry_ok hk).2.2.2.1
        rw [← hm, castL, List.length_map]
        omega
    unfold meaning at h
    split at h
    · injection h with h; rw [← h]; exact hn _
    · injection h with h; rw [← h]; exact hn _
    · injection h with h; rw [← h]; exact hn _
    · exact ht _ h
  have hw : ∀ v : List Int, (v.flatMap fun c => if c < 0x10000 then [c % 0x10000] else [(toPair c).1, (toPair c).2]).length ≤ 2 * v.length := by
    intro v
    induction v with
    | nil => simp
    | cons c v ih =>
      rw [List.flatMap_cons, List.length_append, List.length_cons]
      have : (if c < 0x10000 then [c % 0x10000] else [(toPair c).1, (toPair c).2]).length ≤ 2 := by split <;> simp
      omega
  have h1 := hw u
  have h2 := (List.takeWhile_prefix (fun c : Int => decide (c ≠ 0)) (l := u.flatMap fun c => if c < 0x10000 then [c % 0x10000] else [(toPair c).1, (toPair c).2])).length_le
  unfold wide
  omega

/-- Non-vacuity: a smiley, its second half alone, `A` with a macron, and a smiley with a mark. -/
example : str2sgmlcat16 [0xd83d, 0xde00, 60, 0xde00, 65, 0x304, 0xd83d, 0xde00, 0x301, 0] 20 8 [] = some (asc "&#x1f600;&lt;&#xde00;&Amacr;&#x1f600;&#x301;") ∧
    sgml2strcat16 (asc "a&eacute;&#x1f600;") 18 0 [] = some ([97, 233, 0xd83d, 0xde00], [(1, 1), (9, 2), (9, 2), (18, 4)]) ∧
    decode [0xd83d, 0xde00, 60, 0xde00] = [0x1f600, 60, 0xde00] := by
  refine ⟨by decide +kernel, by decide +kernel, by decide⟩

end Verif.Sgml
