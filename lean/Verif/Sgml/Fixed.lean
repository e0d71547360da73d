import Verif.Sgml.RoundTrip
/-
The versions of `sgml2strcat` and `str2sgmlcat` that write to a buffer of fixed size: sgml.hpp 287-356 and 677-788.
-/
namespace Verif.Sgml
open Verif.Str

set_option maxRecDepth 20000
attribute [local irreducible] chr2sgml nameOf uniOf

/-! ### Model -/

/-- Write `l` at `j`, if `need` is below the size of the buffer; or else throw. The outer `none` is a write outside of the buffer, the inner is the exception
`buffer_overrun`. sgml.hpp 339-341, 348-350; 721-723, 729-733, 747-750. -/
def put (buf : List Int) (j need : Nat) (l : List Int) : Option (Option (List Int)) :=
  if need ≥ buf.length then some none
  else if j + l.length ≤ buf.length then some (some (buf.take j ++ l ++ buf.drop (j + l.length)))
  else none

/-- The end: sgml.hpp 352-355, 784-787. -/
def finish (buf : List Int) (j : Nat) : Option (Option (List Int × Nat)) :=
  if j ≥ buf.length then some none else some (some (buf.set j 0, j))

/-- The loop of `sgml2strcat`, sgml.hpp 315-355. The size of the buffer is `buf.length`. Simplification: the map is left out, as it is that of the other version. -/
def decFix (s : List Int) (n skip i : Nat) (buf : List Int) (j : Nat) : Option (Option (List Int × Nat)) :=
  if hi : i < n then
    match rd s i with
    | none => none
    | some c =>
      if c = 38 then
        match h : entityAt s n skip i with
        | none => none
        | some (some (u, k)) =>
          match put buf j (j + u.length) u with
          | none => none
          | some none => some none
          | some (some b) => decFix s n skip k b (j + u.length)
        | some none =>
          match put buf j (j + 1) [c] with
          | none => none
          | some none => some none
          | some (some b) => decFix s n skip (i + 1) b (j + 1)
      else
        match put buf j (j + 1) [c] with
        | none => none
        | some none => some none
        | some (some b) => decFix s n skip (i + 1) b (j + 1)
  else finish buf j
termination_by n - i
decreasing_by all_goals (first | (have := entityAt_gt h; omega) | omega)

/-- `sgml2strcat`, sgml.hpp 287-356. -/
def sgml2strcatFixed (buf s : List Int) (count skip : Nat) : Option (Option (List Int × Nat)) :=
  match strnlen buf (some buf.length), strnlen s (some count) with
  | some j, some n => decFix s n skip 0 buf j
  | _, _ => none

/-- `sgml2strcpy`, sgml.hpp 420-434. -/
def sgml2strcpyFixed (buf s : List Int) (count skip : Nat) : Option (Option (List Int × Nat)) :=
  sgml2strcatFixed (if buf.length ≠ 0 then buf.set 0 0 else buf) s count skip

/-- The loop over the characters of a glyph, sgml.hpp 756-780. -/
def decomposeFix (s : List Int) (e i : Nat) (buf : List Int) (j : Nat) : Option (Option (List Int × Nat)) :=
  if i < e then
    match chr2sgml (s.drop i) 1 with
    | none => none
    | some (some n) =>
      match put buf j (j + n.length + 2) (named n) with
      | none => none
      | some none => some none
      | some (some b) => decomposeFix s e (i + 1) b (j + n.length + 2)
    | some none =>
      match rd s i with
      | none => none
      | some c =>
        if is7bit c then
          match put buf j (j + 1) [c] with
          | none => none
          | some none => some none
          | some (some b) => decomposeFix s e (i + 1) b (j + 1)
        else
          match put buf j (numEntity c).length (numEntity c) with
          | none => none
          | some none => some none
          | some (some b) => decomposeFix s e (i + 1) b (j + (numEntity c).length)
  else some (some (buf, j))
termination_by e - i

/-- The loop of `str2sgmlcat`, sgml.hpp 703-787. -/
def encFix (s : List Int) (n what i : Nat) (buf : List Int) (j : Nat) : Option (Option (List Int × Nat)) :=
  if hi : i < n then
    match h : glyphlen32 (s.drop i) (n - i) with
    | none => none
    | some g =>
      match rd s i with
      | none => none
      | some c =>
        if g = 1 ∧ mayCopy what c = true then
          match put buf j (j + 1) [c] with
          | none => none
          | some none => some none
          | some (some b) => encFix s n what (i + 1) b (j + 1)
        else
          match chr2sgml (s.drop i) g with
          | none => none
          | some (some e) =>
            match put buf j (j + e.length + 2) (named e) with
            | none => none
            | some none => some none
            | some (some b) => encFix s n what (i + g) b (j + e.length + 2)
          | some none =>
            if g = 1 then
              if is7bit c then
                match put buf j (j + 1) [c] with
                | none => none
                | some none => some none
                | some (some b) => encFix s n what (i + 1) b (j + 1)
              else
                match put buf j (numEntity c).length (numEntity c) with
                | none => none
                | some none => some none
                | some (some b) => encFix s n what (i + 1) b (j + (numEntity c).length)
            else
              match decomposeFix s (i + g) i buf j with
              | none => none
              | some none => some none
              | some (some (b, k)) => encFix s n what (i + g) b k
  else finish buf j
termination_by n - i
decreasing_by all_goals (have := glyphlen32_pos h (by omega); omega)

/-- `str2sgmlcat`, sgml.hpp 677-788. -/
def str2sgmlcatFixed (buf s : List Int) (count what : Nat) : Option (Option (List Int × Nat)) :=
  match strnlen buf (some buf.length), strnlen s (some count) with
  | some j, some n => encFix s n what 0 buf j
  | _, _ => none

/-- `str2sgmlcpy`, sgml.hpp 835-845. -/
def str2sgmlcpyFixed (buf s : List Int) (count what : Nat) : Option (Option (List Int × Nat)) :=
  str2sgmlcatFixed (if buf.length ≠ 0 then buf.set 0 0 else buf) s count what

/-! ### Specification -/

/-- The text `t` in a buffer: with its terminator, if both fit, and the rest of the buffer as it was; or else the exception. -/
def stored (buf t : List Int) : Option (Option (List Int × Nat)) :=
  if t.length < buf.length then some (some (t ++ 0 :: buf.drop (t.length + 1), t.length)) else some none

/-! ### Proofs -/

/-- `b` is `buf` with `t` written to the start. -/
def Has (buf b t : List Int) : Prop := t.length ≤ buf.length ∧ b = t ++ buf.drop t.length

theorem put_fits {buf b t : List Int} (h : Has buf b t) {l : List Int} {need : Nat} (hn : need < buf.length) (hl : t.length + l.length ≤ buf.length) :
    ∃ b', put b t.length need l = some (some b') ∧ Has buf b' (t ++ l) := by
  obtain ⟨h1, rfl⟩ := h
  refine ⟨_, ?_, ?_, rfl⟩
  · unfold put
    rw [if_neg (by rw [List.length_append, List.length_drop]; omega), if_pos (by rw [List.length_append, List.length_drop]; omega)]
    rw [List.take_left, List.drop_append, List.drop_of_length_le (by omega), List.nil_append, List.drop_drop, List.length_append]
    congr 4; omega
  · rw [List.length_append]; exact hl

theorem put_throws {buf b t : List Int} (h : Has buf b t) {l : List Int} {need : Nat} (hn : buf.length ≤ need) : put b t.length need l = some none := by
  obtain ⟨h1, rfl⟩ := h
  unfold put
  rw [if_pos (by rw [List.length_append, List.length_drop]; omega)]

theorem finish_stored {buf b t : List Int} (h : Has buf b t) : finish b t.length = stored buf t := by
  obtain ⟨h1, rfl⟩ := h
  unfold finish stored
  have hl : (t ++ buf.drop t.length).length = buf.length := by rw [List.length_append, List.length_drop]; omega
  rw [hl]
  by_cases c : t.length < buf.length
  · rw [if_neg (by omega), if_pos c, List.set_append_right (h := Nat.le_refl _), Nat.sub_self, List.drop_eq_getElem_cons c, List.set_cons_zero]
  · rw [if_pos (by omega), if_neg c]

theorem decLoop_fix (s : List Int) (n skip : Nat) : ∀ (d i : Nat), n - i = d → ∀ (t : List Int) map D m, decLoop s n skip i t map = some (D, m) →
    t.length ≤ D.length ∧ ∀ buf b, Has buf b t → decFix s n skip i b t.length = stored buf D := by
  intro d
  induction d using Nat.strongRecOn with
  | _ d ih =>
    intro i hd t map D m h
    rw [decLoop] at h
    by_cases hi : i < n
    · rw [dif_pos hi] at h
      cases hr : rd s i with
      | none => rw [hr] at h; cases h
      | some c =>
        rw [hr] at h
        dsimp only at h
        -- a character
        have plainCase : ∀ mp, decLoop s n skip (i + 1) (t ++ [c]) mp = some (D, m) → t.length ≤ D.length ∧ ∀ buf b, Has buf b t →
            (match put b t.length (t.length + 1) [c] with
              | none => none
              | some none => some none
              | some (some b) => decFix s n skip (i + 1) b (t.length + 1)) = stored buf D := by
          intro mp hp
          obtain ⟨q1, q2⟩ := ih (n - (i + 1)) (by omega) (i + 1) rfl _ _ _ _ hp
          rw [List.length_append, List.length_singleton] at q1 q2
          refine ⟨by omega, fun buf b hb => ?_⟩
          by_cases hf : t.length + 1 < buf.length
          · obtain ⟨b', e, hb'⟩ := put_fits hb (l := [c]) hf (by simp; omega)
            rw [e]
            exact q2 buf b' hb'
          · rw [put_throws hb (by omega)]
            unfold stored
            rw [if_neg (by omega)]
        by_cases hc : c = 38
        · rw [if_pos hc] at h
          split at h
          · cases h
          · next u k he =>
            obtain ⟨q1, q2⟩ := ih (n - k) (by have := entityAt_gt he; omega) k rfl _ _ _ _ h
            rw [List.length_append] at q1 q2
            refine ⟨by omega, fun buf b hb => ?_⟩
            rw [decFix, dif_pos hi, hr]
            dsimp only
            rw [if_pos hc]
            split
            · next q => rw [he] at q; cases q
            · next u' k' q =>
              rw [he, Option.some.injEq, Option.some.injEq, Prod.mk.injEq] at q
              obtain ⟨rfl, rfl⟩ := q
              by_cases hf : t.length + u.length < buf.length
              · obtain ⟨b', e, hb'⟩ := put_fits hb (l := u) hf (by omega)
                rw [e]
                exact q2 buf b' hb'
              · rw [put_throws hb (by omega)]
                unfold stored
                rw [if_neg (by omega)]
            · next q => rw [he] at q; cases q
          · next he =>
            obtain ⟨q1, q2⟩ := plainCase _ h
            refine ⟨q1, fun buf b hb => ?_⟩
            rw [decFix, dif_pos hi, hr]
            dsimp only
            rw [if_pos hc]
            split
            · next q => rw [he] at q; cases q
            · next u' k' q => rw [he] at q; cases q
            · exact q2 buf b hb
        · rw [if_neg hc] at h
          obtain ⟨q1, q2⟩ := plainCase _ h
          refine ⟨q1, fun buf b hb => ?_⟩
          rw [decFix, dif_pos hi, hr]
          dsimp only
          rw [if_neg hc]
          exact q2 buf b hb
    · rw [dif_neg hi, Option.some.injEq, Prod.mk.injEq] at h
      obtain ⟨rfl, rfl⟩ := h
      refine ⟨Nat.le_refl _, fun buf b hb => ?_⟩
      rw [decFix, dif_neg hi]
      exact finish_stored hb

theorem has_self (buf : List Int) : Has buf buf (text buf (some buf.length)) := by
  have hp : text buf (some buf.length) <+: buf := (List.takeWhile_prefix _).trans (List.take_prefix _ _)
  refine ⟨hp.length_le, ?_⟩
  obtain ⟨q, hq⟩ := hp
  generalize text buf (some buf.length) = t at *
  subst hq
  rw [List.drop_left]

theorem text_reset {buf : List Int} : text (if buf.length ≠ 0 then buf.set 0 0 else buf) (some (if buf.length ≠ 0 then buf.set 0 0 else buf).length) = [] := by
  cases buf with
  | nil => rfl
  | cons x l => simp [text]

/-- Numeric entities are not needed: every character is ASCII or has an entity. -/
def NoNum (s : List Int) (n : Nat) : Prop := ∀ i c, i < n → chr2sgml (s.drop i) 1 = some none → rd s i = some c → is7bit c = true

theorem put_num {buf b t : List Int} (h : Has buf b t) {c : Int} {D : List Int} (hD : t.length + (numEntity c).length ≤ D.length) (hf : D.length < buf.length) :
    ∃ b', put b t.length (numEntity c).length (numEntity c) = some (some b') ∧ Has buf b' (t ++ numEntity c) := put_fits h (by omega) (by omega)

theorem named_length (e : List Int) : (named e).length = e.length + 2 := by simp [named]

theorem decompose_fix (s : List Int) (e n : Nat) (hen : e ≤ n) : ∀ (d i : Nat), e - i = d → ∀ (t D : List Int), decompose s e i t = some D →
    t.length ≤ D.length ∧ ∀ buf b, Has buf b t → D.length < buf.length ∨ NoNum s n →
      (∃ b', decomposeFix s e i b t.length = some (some (b', D.length)) ∧ Has buf b' D) ∨ (decomposeFix s e i b t.length = some none ∧ buf.length ≤ D.length) := by
  intro d
  induction d with
  | zero =>
    intro i hd t D h
    rw [decompose, if_neg (by omega), Option.some.injEq] at h
    subst h
    refine ⟨Nat.le_refl _, fun buf b hb _ => Or.inl ⟨b, ?_, hb⟩⟩
    rw [decomposeFix, if_neg (by omega)]
  | succ d ih =>
    intro i hd t D h
    have hi : i < e := by omega
    rw [decompose, if_pos hi] at h
    cases hchr : chr2sgml (s.drop i) 1 with
    | none => rw [hchr] at h; cases h
    | some o =>
      rw [hchr] at h
      cases o with
      | some nm =>
        dsimp only at h
        obtain ⟨q1, q2⟩ := ih (i + 1) (by omega) _ _ h
        have hlen : (t ++ named nm).length = t.length + nm.length + 2 := by rw [List.length_append, named_length]; omega
        rw [hlen] at q1 q2
        refine ⟨by omega, fun buf b hb hor => ?_⟩
        rw [decomposeFix, if_pos hi, hchr]
        dsimp only
        by_cases hf : t.length + nm.length + 2 < buf.length
        · obtain ⟨b', e1, hb'⟩ := put_fits hb (l := named nm) hf (by rw [named_length]; omega)
          rw [e1]
          exact q2 buf b' hb' hor
        · rw [put_throws hb (by omega)]
          exact Or.inr ⟨rfl, by omega⟩
      | none =>
        dsimp only at h
        cases hr : rd s i with
        | none => rw [hr] at h; cases h
        | some c =>
          rw [hr] at h
          dsimp only at h
          obtain ⟨q1, q2⟩ := ih (i + 1) (by omega) _ _ h
          by_cases h7 : is7bit c = true
          · rw [if_pos h7] at q1 q2
            rw [List.length_append, List.length_singleton] at q1 q2
            refine ⟨by omega, fun buf b hb hor => ?_⟩
            rw [decomposeFix, if_pos hi, hchr]
            dsimp only
            rw [hr]
            dsimp only
            rw [if_pos h7]
            by_cases hf : t.length + 1 < buf.length
            · obtain ⟨b', e1, hb'⟩ := put_fits hb (l := [c]) hf (by simp; omega)
              rw [e1]
              exact q2 buf b' hb' hor
            · rw [put_throws hb (by omega)]
              exact Or.inr ⟨rfl, by omega⟩
          · rw [if_neg h7] at q1 q2
            rw [List.length_append] at q1 q2
            refine ⟨by omega, fun buf b hb hor => ?_⟩
            rw [decomposeFix, if_pos hi, hchr]
            dsimp only
            rw [hr]
            dsimp only
            rw [if_neg h7]
            rcases hor with hf | hnn
            · obtain ⟨b', e1, hb'⟩ := put_num hb q1 hf
              rw [e1]
              exact q2 buf b' hb' (Or.inl hf)
            · exact absurd (hnn i c (by omega) hchr hr) h7

theorem encLoop_fix (s : List Int) (n what : Nat) (hgle : ∀ i g, glyphlen32 (s.drop i) (n - i) = some g → i < n → i + g ≤ n) : ∀ (d i : Nat), n - i = d →
    ∀ (t D : List Int), encLoop s n what i t = some D → t.length ≤ D.length ∧ ∀ buf b, Has buf b t → D.length < buf.length ∨ NoNum s n →
      encFix s n what i b t.length = stored buf D := by
  intro d
  induction d using Nat.strongRecOn with
  | _ d ih =>
    intro i hd t D h
    rw [encLoop] at h
    by_cases hi : i < n
    · rw [dif_pos hi] at h
      split at h
      · cases h
      · next g hg =>
        have hpos := glyphlen32_pos hg (by omega)
        cases hr : rd s i with
        | none => rw [hr] at h; cases h
        | some c =>
          rw [hr] at h
          dsimp only at h
          have unf : ∀ b j, encFix s n what i b j = (if g = 1 ∧ mayCopy what c = true then
              match put b j (j + 1) [c] with
              | none => none
              | some none => some none
              | some (some b) => encFix s n what (i + 1) b (j + 1)
            else
              match chr2sgml (s.drop i) g with
              | none => none
              | some (some e) =>
                match put b j (j + e.length + 2) (named e) with
                | none => none
                | some none => some none
                | some (some b) => encFix s n what (i + g) b (j + e.length + 2)
              | some none =>
                if g = 1 then
                  if is7bit c then
                    match put b j (j + 1) [c] with
                    | none => none
                    | some none => some none
                    | some (some b) => encFix s n what (i + 1) b (j + 1)
                  else
                    match put b j (numEntity c).length (numEntity c) with
                    | none => none
                    | some none => some none
                    | some (some b) => encFix s n what (i + 1) b (j + (numEntity c).length)
                else
                  match decomposeFix s (i + g) i b j with
                  | none => none
                  | some none => some none
                  | some (some (b, k)) => encFix s n what (i + g) b k) := by
            intro b j
            conv => lhs; rw [encFix]
            rw [dif_pos hi]
            split
            · next q => rw [hg] at q; cases q
            · next g' q =>
              rw [hg] at q
              injection q with q
              subst q
              rw [hr]
          have plainCase : encLoop s n what (i + 1) (t ++ [c]) = some D → t.length ≤ D.length ∧ ∀ buf b, Has buf b t → D.length < buf.length ∨ NoNum s n →
              (match put b t.length (t.length + 1) [c] with
                | none => none
                | some none => some none
                | some (some b) => encFix s n what (i + 1) b (t.length + 1)) = stored buf D := by
            intro hp
            obtain ⟨q1, q2⟩ := ih (n - (i + 1)) (by omega) (i + 1) rfl _ _ hp
            rw [List.length_append, List.length_singleton] at q1 q2
            refine ⟨by omega, fun buf b hb hor => ?_⟩
            by_cases hf : t.length + 1 < buf.length
            · obtain ⟨b', e, hb'⟩ := put_fits hb (l := [c]) hf (by simp; omega)
              rw [e]
              exact q2 buf b' hb' hor
            · rw [put_throws hb (by omega)]
              unfold stored
              rw [if_neg (by omega)]
          by_cases hcopy : g = 1 ∧ mayCopy what c = true
          · rw [if_pos hcopy] at h
            obtain ⟨q1, q2⟩ := plainCase h
            refine ⟨q1, fun buf b hb hor => ?_⟩
            rw [unf, if_pos hcopy]
            exact q2 buf b hb hor
          · rw [if_neg hcopy] at h
            cases hchr : chr2sgml (s.drop i) g with
            | none => rw [hchr] at h; cases h
            | some o =>
              rw [hchr] at h
              cases o with
              | some e =>
                dsimp only at h
                obtain ⟨q1, q2⟩ := ih (n - (i + g)) (by omega) (i + g) rfl _ _ h
                have hlen : (t ++ named e).length = t.length + e.length + 2 := by rw [List.length_append, named_length]; omega
                rw [hlen] at q1 q2
                refine ⟨by omega, fun buf b hb hor => ?_⟩
                rw [unf, if_neg hcopy, hchr]
                dsimp only
                by_cases hf : t.length + e.length + 2 < buf.length
                · obtain ⟨b', e1, hb'⟩ := put_fits hb (l := named e) hf (by rw [named_length]; omega)
                  rw [e1]
                  exact q2 buf b' hb' hor
                · rw [put_throws hb (by omega)]
                  unfold stored
                  rw [if_neg (by omega)]
              | none =>
                dsimp only at h
                by_cases g1 : g = 1
                · rw [if_pos g1] at h
                  by_cases h7 : is7bit c = true
                  · rw [if_pos h7] at h
                    obtain ⟨q1, q2⟩ := plainCase h
                    refine ⟨q1, fun buf b hb hor => ?_⟩
                    rw [unf, if_neg hcopy, hchr]
                    dsimp only
                    rw [if_pos g1, if_pos h7]
                    exact q2 buf b hb hor
                  · rw [if_neg h7] at h
                    obtain ⟨q1, q2⟩ := ih (n - (i + 1)) (by omega) (i + 1) rfl _ _ h
                    rw [List.length_append] at q1 q2
                    refine ⟨by omega, fun buf b hb hor => ?_⟩
                    rw [unf, if_neg hcopy, hchr]
                    dsimp only
                    rw [if_pos g1, if_neg h7]
                    rcases hor with hf | hnn
                    · obtain ⟨b', e1, hb'⟩ := put_num hb q1 hf
                      rw [e1]
                      exact q2 buf b' hb' (Or.inl hf)
                    · exact absurd (hnn i c (by omega) (by rw [← g1]; exact hchr) hr) h7
                · rw [if_neg g1] at h
                  cases hdc : decompose s (i + g) i t with
                  | none => rw [hdc] at h; cases h
                  | some d1 =>
                    rw [hdc] at h
                    dsimp only at h
                    obtain ⟨p1, p2⟩ := decompose_fix s (i + g) n (hgle i g hg hi) _ i rfl _ _ hdc
                    obtain ⟨q1, q2⟩ := ih (n - (i + g)) (by omega) (i + g) rfl _ _ h
                    refine ⟨by omega, fun buf b hb hor => ?_⟩
                    rw [unf, if_neg hcopy, hchr]
                    dsimp only
                    rw [if_neg g1]
                    rcases p2 buf b hb (hor.imp (fun q => by omega) id) with ⟨b', e1, hb'⟩ | ⟨e1, hl⟩
                    · rw [e1]
                      exact q2 buf b' hb' hor
                    · rw [e1]
                      unfold stored
                      rw [if_neg (by omega)]
    · rw [dif_neg hi, Option.some.injEq] at h
      subst h
      refine ⟨Nat.le_refl _, fun buf b hb _ => ?_⟩
      rw [encFix, dif_neg hi]
      exact finish_stored hb

theorem skipMarks_le {s : List Int} {count : Nat} : ∀ (d i n : Nat), count - i = d → skipMarks s count i = some n → i ≤ count → n ≤ count := by
  intro d
  induction d with
  | zero =>
    intro i n hd h hi
    rw [skipMarks, if_neg (by omega)] at h
    injection h with h; omega
  | succ d ih =>
    intro i n hd h hi
    rw [skipMarks, if_pos (by omega)] at h
    split at h
    · cases h
    · next c _ =>
      by_cases q : iscombining c = true
      · rw [if_pos q] at h
        exact ih (i + 1) n (by omega) h (by omega)
      · rw [if_neg q] at h
        injection h with h; omega

theorem glyphlen32_le {s : List Int} {count n : Nat} (h : glyphlen32 s count = some n) : n ≤ count := by
  unfold glyphlen32 at h
  by_cases c : count = 0
  · rw [if_pos c] at h; injection h with h; omega
  · rw [if_neg c] at h
    exact skipMarks_le _ 1 n rfl h (by omega)

/-! ### Properties -/

/-- **C69** (decoding) `sgml2strcat` to a buffer never writes outside of it. If the text in the buffer, the decoded text and a terminator fit, it leaves just these,
and the rest of the buffer as it was, and returns the length; or else it throws. -/
theorem sgml2str_fixed {buf s : List Int} {count skip : Nat} (hv : Valid s (some count)) (hc : count < 2 ^ 64) :
    sgml2strcatFixed buf s count skip = stored buf (text buf (some buf.length) ++ decodeSpec skip (text s (some count))) := by
  have hb : Valid buf (some buf.length) := Or.inr ⟨_, rfl, Nat.le_refl _⟩
  have hd := sgml2strcat_pieces (skip := skip) hv hc (text buf (some buf.length))
  unfold sgml2strcat at hd
  unfold sgml2strcatFixed
  rw [strnlen_spec hb]
  rw [strnlen_spec hv] at hd ⊢
  dsimp only at hd ⊢
  exact (decLoop_fix s _ skip _ 0 rfl _ _ _ _ hd).2 buf buf (has_self buf)

/-- **C69** (decoding, copy) As above, to an empty buffer. -/
theorem sgml2str_fixed_copy {buf s : List Int} {count skip : Nat} (hv : Valid s (some count)) (hc : count < 2 ^ 64) :
    sgml2strcpyFixed buf s count skip = stored (buf.set 0 0) (decodeSpec skip (text s (some count))) := by
  unfold sgml2strcpyFixed
  rw [sgml2str_fixed hv hc, text_reset, List.nil_append]
  cases buf <;> rfl

/-- **C69** (encoding, partial) `str2sgmlcat` to a buffer: if the text in the buffer, the encoded text and a terminator fit, it leaves just these, and returns the
length. Missing: what it does if they don't fit and there are characters written by number, see `str2sgml_overflow`. -/
theorem str2sgml_fixed_partial {buf s : List Int} {count what : Nat} (hv : Valid s (some count)) (hc : count < 2 ^ 64)
    (h : (text buf (some buf.length) ++ (glyphs (text s (some count))).flatMap (encGlyph what)).length < buf.length ∨
      ∀ c ∈ text s (some count), (0 ≤ c ∧ c < 128) ∨ nameOf [c] ≠ none) :
    str2sgmlcatFixed buf s count what = stored buf (text buf (some buf.length) ++ (glyphs (text s (some count))).flatMap (encGlyph what)) := by
  have hb : Valid buf (some buf.length) := Or.inr ⟨_, rfl, Nat.le_refl _⟩
  have hd := str2sgml_encodes (what := what) hv hc (text buf (some buf.length))
  unfold str2sgmlcat at hd
  unfold str2sgmlcatFixed
  rw [strnlen_spec hb]
  rw [strnlen_spec hv] at hd ⊢
  dsimp only at hd ⊢
  refine (encLoop_fix s _ what ?_ _ 0 rfl _ _ hd).2 buf buf (has_self buf) (h.imp id fun hn => ?_)
  · intro i g hg hi
    have := glyphlen32_le hg; omega
  · intro i c hi hchr hr
    have hpre : text s (some count) <+: s := (List.takeWhile_prefix _).trans (List.take_prefix _ _)
    have hls : i < s.length := Nat.lt_of_lt_of_le hi hpre.length_le
    have hci : s[i] = c := by
      unfold rd at hr
      rw [List.getElem?_eq_getElem hls, Option.some.injEq] at hr
      exact hr
    have hmem : c ∈ text s (some count) := by
      have : (text s (some count))[i]'hi = s[i] := hpre.getElem hi
      rw [← hci, ← this]; exact List.getElem_mem hi
    have ht : text (s.drop i) (some 1) = [c] := by
      rw [text_take] <;> rw [List.drop_eq_getElem_cons hls, hci]
      · rfl
      · intro x hx
        simp only [List.take_succ_cons, List.take_zero, List.mem_singleton] at hx
        rw [hx]; exact text_ne_zero hmem
    rw [chr2sgml_spec (valid_len (by rw [List.length_drop]; omega)) (by decide) (by rw [ht]; simp), ht, Option.some.injEq] at hchr
    rcases hn c hmem with q | q
    · exact (is7bit_eq c).2 q
    · exact absurd hchr q

/-- **C69** (defect) A character that is written by number is written outside of the buffer, if the buffer is longer than its entity but there isn't that much
space left in it: the check leaves out the text that is already there (sgml.hpp 747, 775). Here, an emoji is appended to 8 characters in a buffer of 10. -/
theorem str2sgml_overflow : str2sgmlcatFixed [97, 98, 99, 100, 101, 102, 103, 104, 0, 0] [0x1f600, 0] 1 0 = none := by decide +kernel

/-- Non-vacuity: entities to buffers that are large enough, and not. -/
example : sgml2strcatFixed [97, 0, 7, 7, 7] (asc "b&lt;") 5 0 = some (some ([97, 98, 60, 0, 7], 3)) ∧ sgml2strcatFixed [97, 0, 7] (asc "b&lt;") 5 0 = some none ∧
    str2sgmlcatFixed [97, 0, 7, 7, 7, 7, 7, 7, 7] [60, 98] 2 8 = some (some ([97, 38, 108, 116, 59, 98, 0, 7, 7], 6)) ∧
    str2sgmlcatFixed [97, 0, 7, 7, 7] [60, 98] 2 8 = some none := by decide +kernel

end Verif.Sgml
