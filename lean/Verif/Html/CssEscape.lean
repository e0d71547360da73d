import Verif.Html.UrlEscape
/-
CSS escaping: `css_unescape`, `css_escape` of include/stdex/html.hpp (388-556). `T` is the character type, `W` is `wchar_t`.
-/
namespace Verif.Html
open Verif.Str Verif.Sgml

/-! ### Model -/

/-- The loop over hexadecimal digits, html.hpp 428-433: where it ends, and the number, in a `wchar_t`. -/
def cssHex (W : CT) (s : List Int) (e i : Nat) (chr : Int) : Option (Nat × Int) :=
  if i < e then
    match rd s i with
    | none => none
    | some c =>
      if 48 ≤ c ∧ c ≤ 57 then cssHex W s e (i + 1) (W.wrap (chr * 0x10 + c - 48))
      else if 65 ≤ c ∧ c ≤ 70 then cssHex W s e (i + 1) (W.wrap (chr * 0x10 + c - 65 + 10))
      else if 97 ≤ c ∧ c ≤ 102 then cssHex W s e (i + 1) (W.wrap (chr * 0x10 + c - 97 + 10))
      else some (i, chr)
  else some (i, chr)
termination_by e - i

/-- What an iteration does. -/
inductive CssStep where
  /-- Undefined behaviour. -/
  | fault
  /-- The loop ends. -/
  | stop
  /-- It goes on. -/
  | next (i : Nat) (dst : List Int)
deriving DecidableEq

/-- An iteration of the loop of `css_unescape`, html.hpp 393-447. `i + 6` does not overflow: no buffer is that long. -/
def cssStep (W T : CT) (s : List Int) (count i : Nat) (dst : List Int) : CssStep :=
  match Str.cond s (some count) i with
  | none => .fault
  | some none => .stop
  | some (some c) =>
    if c ≠ 92 then .next (i + 1) (dst ++ [c])
    else if i + 1 < count then
      match rd s (i + 1) with
      | none => .fault
      | some b =>
        if b = 110 then .next (i + 2) (dst ++ [10])
        else if b = 114 then .next (i + 2) (dst ++ [13])
        else if b = 116 then .next (i + 2) (dst ++ [9])
        else if b = 10 then .next (i + 2) dst
        else if (48 ≤ b ∧ b ≤ 57) ∨ (65 ≤ b ∧ b ≤ 70) ∨ (97 ≤ b ∧ b ≤ 102) then
          match cssHex W s (min count (i + 1 + 6)) (i + 1) 0 with
          | none => .fault
          | some (j, chr) =>
            if j < min count (i + 1 + 6) then
              match rd s j with
              | none => .fault
              | some x => .next (if x = 32 then j + 1 else j) (dst ++ [T.wrap chr])
            else .next j (dst ++ [T.wrap chr])
        else .next (i + 2) (dst ++ [b])
    else .next i dst

/-- How a call goes on. -/
inductive CssRun where
  | fault
  | done (dst : List Int)
  /-- Not finished after that many iterations. -/
  | going
deriving DecidableEq

/-- `css_unescape`, html.hpp 388-448, as far as it comes in `fuel` iterations; overloads 457-476. -/
def cssUnescape (W T : CT) (s : List Int) (count : Nat) : Nat → Nat → List Int → CssRun
  | 0, _, _ => .going
  | fuel + 1, i, dst =>
    match cssStep W T s count i dst with
    | .fault => .fault
    | .stop => .done dst
    | .next i' dst' => cssUnescape W T s count fuel i' dst'

/-- The cases of `css_escape`, html.hpp 492-500 and 518-526. -/
def cssEscapeChar (c : Int) : List Int :=
  if c = 92 then [92, 92]
  else if c = 10 then [92, 110]
  else if c = 13 then [92, 114]
  else if c = 9 then [92, 116]
  else if c = 34 then [92, 34]
  else if c = 39 then [92, 39]
  else [c]

/-- `css_escape`, html.hpp 486-502 and 512-528; overloads 537-556. -/
def cssEscape (s : List Int) (count : Nat) (dst : List Int) : Option (List Int) := eachChar cssEscapeChar s count 0 dst

/-! ### Specification -/

/-- The number that hexadecimal digits make. -/
def hexNumber (ds : List Int) : Nat := ds.foldl (fun n c => 16 * n + (digitOf c).getD 0) 0

/-- The text an escaped text stands for. A backslash with `n`, `r`, `t` is a control character; in front of a line break it is nothing; with one to six hexadecimal digits it is
the character of that number, and a space behind fewer than six digits belongs to it; in front of anything else it is dropped. -/
inductive CssReads (W T : CT) : List Int → List Int → Prop
  | nil : CssReads W T [] []
  | same {c : Int} {t o : List Int} : c ≠ ('\\' : Char).toNat → CssReads W T t o → CssReads W T (c :: t) (c :: o)
  | ctrl {a x : Char} {t o : List Int} : (a, x) ∈ [('n', '\n'), ('r', '\r'), ('t', '\t')] → CssReads W T t o →
      CssReads W T ((('\\' : Char).toNat : Int) :: (a.toNat : Int) :: t) ((x.toNat : Int) :: o)
  | join {t o : List Int} : CssReads W T t o → CssReads W T ((('\\' : Char).toNat : Int) :: (('\n' : Char).toNat : Int) :: t) o
  | hexSpace {ds t o : List Int} : 1 ≤ ds.length → ds.length < 6 → (∀ c ∈ ds, (digitOf c).isSome = true) → CssReads W T t o →
      CssReads W T ((('\\' : Char).toNat : Int) :: (ds ++ ((' ' : Char).toNat : Int) :: t)) (T.wrap (W.wrap (hexNumber ds)) :: o)
  | hex {ds t o : List Int} : 1 ≤ ds.length → ds.length ≤ 6 → (∀ c ∈ ds, (digitOf c).isSome = true) →
      (ds.length < 6 → ∀ c ∈ t.head?, digitOf c = none ∧ c ≠ (' ' : Char).toNat) → CssReads W T t o →
      CssReads W T ((('\\' : Char).toNat : Int) :: (ds ++ t)) (T.wrap (W.wrap (hexNumber ds)) :: o)
  | other {c : Int} {t o : List Int} : digitOf c = none → c ∉ asc "nrt\n" → CssReads W T t o → CssReads W T ((('\\' : Char).toNat : Int) :: c :: t) (c :: o)

/-- Text that may stand in a CSS string: quotes and backslashes only behind a backslash, and no line breaks. -/
inductive CssInert : List Int → Prop
  | nil : CssInert []
  | plain {c : Int} {t : List Int} : c ∉ asc "\\\"'\n\r\t" → CssInert t → CssInert (c :: t)
  | pair {c : Int} {t : List Int} : c ∉ asc "\n\r\t" → CssInert t → CssInert ((('\\' : Char).toNat : Int) :: c :: t)

/-! ### Proofs -/

theorem wrap_add (W : CT) (x d : Int) : W.wrap (W.wrap x * 0x10 + d) = W.wrap (x * 0x10 + d) := by
  unfold CT.wrap
  split
  · rw [← Int.bmod_add_bmod, Int.bmod_mul_bmod, Int.bmod_add_bmod]
  · rw [Int.add_emod, Int.mul_emod, Int.emod_emod, ← Int.mul_emod, ← Int.add_emod]

theorem digitOf_zero : digitOf 0 = none := by decide +kernel
theorem wrap_zero (W : CT) : W.wrap 0 = 0 := by unfold CT.wrap; split <;> simp

theorem hexNumber_snoc (ds : List Int) (c : Int) : hexNumber (ds ++ [c]) = 16 * hexNumber ds + (digitOf c).getD 0 := by
  unfold hexNumber; rw [List.foldl_append]; rfl

/-- One digit. -/
theorem cssHex_digit {W : CT} {s : List Int} {e i : Nat} {chr c : Int} {x : Nat} (hi : i < e) (hr : rd s i = some c) (hd : digitOf c = some x) :
    cssHex W s e i chr = cssHex W s e (i + 1) (W.wrap (chr * 0x10 + x)) := by
  have hv := (digitOf_le hd).1
  unfold hexVal at hv
  rw [cssHex, if_pos hi, hr]
  dsimp only
  by_cases h1 : 48 ≤ c ∧ c ≤ 57
  · rw [if_pos h1] at hv ⊢
    injection hv with hv
    rw [← hv, Int.add_sub_assoc]
  rw [if_neg h1] at hv ⊢
  by_cases h2 : 65 ≤ c ∧ c ≤ 70
  · rw [if_pos h2] at hv ⊢
    injection hv with hv
    rw [← hv, show chr * 16 + c - 65 + 10 = chr * 16 + (c - 65 + 10) by omega]
  rw [if_neg h2] at hv ⊢
  by_cases h3 : 97 ≤ c ∧ c ≤ 102
  · rw [if_pos h3] at hv ⊢
    injection hv with hv
    rw [← hv, show chr * 16 + c - 97 + 10 = chr * 16 + (c - 97 + 10) by omega]
  · rw [if_neg h3] at hv; cases hv

theorem cssHex_stop {W : CT} {s : List Int} {e i : Nat} {chr c : Int} (hr : rd s i = some c) (hd : digitOf c = none) : cssHex W s e i chr = some (i, chr) := by
  have hv := hexVal_digit c
  rw [hd] at hv
  unfold hexVal at hv
  rw [cssHex]
  by_cases hi : i < e
  · rw [if_pos hi, hr]
    dsimp only
    by_cases h1 : 48 ≤ c ∧ c ≤ 57
    · rw [if_pos h1] at hv; cases hv
    rw [if_neg h1] at hv ⊢
    by_cases h2 : 65 ≤ c ∧ c ≤ 70
    · rw [if_pos h2] at hv; cases hv
    rw [if_neg h2] at hv ⊢
    by_cases h3 : 97 ≤ c ∧ c ≤ 102
    · rw [if_pos h3] at hv; cases hv
    · rw [if_neg h3]
  · rw [if_neg hi]

/-- The digits of a run. -/
theorem cssHex_run {W : CT} {s : List Int} {e : Nat} : ∀ (ds : List Int) (pre : List Int) (i : Nat), (∀ k, (hk : k < ds.length) → rd s (i + k) = some ds[k]) → (∀ c ∈ ds, (digitOf c).isSome = true) →
    i + ds.length ≤ e → cssHex W s e i (W.wrap (hexNumber pre)) = cssHex W s e (i + ds.length) (W.wrap (hexNumber (pre ++ ds)))
  | [], pre, i, _, _, _ => by simp
  | c :: ds, pre, i, hr, hd, he => by
    simp only [List.length_cons] at he
    have h0 : rd s i = some c := hr 0 (by simp)
    obtain ⟨x, hx⟩ := Option.isSome_iff_exists.1 (hd c List.mem_cons_self)
    rw [cssHex_digit (by omega) h0 hx, wrap_add]
    have e1 : ((hexNumber pre : Int) * 16 + x) = (hexNumber (pre ++ [c]) : Int) := by rw [hexNumber_snoc, hx, Option.getD_some]; omega
    rw [e1, cssHex_run ds (pre ++ [c]) (i + 1) (fun k hk => by
      have := hr (k + 1) (by simpa using hk)
      rw [show i + 1 + k = i + (k + 1) by omega, this]; rfl) (fun x hx => hd x (List.mem_cons_of_mem _ hx)) (by omega)]
    rw [List.append_assoc, List.length_cons, show i + 1 + ds.length = i + (ds.length + 1) by omega]; rfl

theorem digit_range {b : Int} : ((48 ≤ b ∧ b ≤ 57) ∨ (65 ≤ b ∧ b ≤ 70) ∨ (97 ≤ b ∧ b ≤ 102)) ↔ (digitOf b).isSome = true := by
  have hv := hexVal_digit b
  unfold hexVal at hv
  cases hd : digitOf b with
  | none =>
    rw [hd] at hv
    simp only [Option.isSome_none, Bool.false_eq_true, iff_false]
    intro h
    by_cases h1 : 48 ≤ b ∧ b ≤ 57
    · rw [if_pos h1] at hv; cases hv
    rw [if_neg h1] at hv
    by_cases h2 : 65 ≤ b ∧ b ≤ 70
    · rw [if_pos h2] at hv; cases hv
    rw [if_neg h2] at hv
    by_cases h3 : 97 ≤ b ∧ b ≤ 102
    · rw [if_pos h3] at hv; cases hv
    · omega
  | some x =>
    rw [hd] at hv
    simp only [Option.isSome_some, iff_true]
    by_cases h1 : 48 ≤ b ∧ b ≤ 57
    · exact Or.inl h1
    rw [if_neg h1] at hv
    by_cases h2 : 65 ≤ b ∧ b ≤ 70
    · exact Or.inr (Or.inl h2)
    rw [if_neg h2] at hv
    by_cases h3 : 97 ≤ b ∧ b ≤ 102
    · exact Or.inr (Or.inr h3)
    · rw [if_neg h3] at hv; cases hv

section
variable {W T : CT} {s : List Int} {count : Nat} (hv : Valid s (some count))
include hv

theorem drop_lt {i : Nat} {c : Int} {t : List Int} (hd : (text s (some count)).drop i = c :: t) : i < count := by
  obtain ⟨hl, _, _⟩ := drop_cons hd
  have := text_length_take s count
  omega

theorem step_same {i : Nat} {c : Int} {t dst : List Int} (hd : (text s (some count)).drop i = c :: t) (hc : c ≠ 92) :
    cssStep W T s count i dst = .next (i + 1) (dst ++ [c]) := by
  obtain ⟨hl, h1, _⟩ := drop_cons hd
  have e := cond_eq hv (i := i) (by omega)
  rw [h1] at e
  unfold cssStep
  rw [e]
  dsimp only
  rw [if_pos hc]

theorem step_back {i : Nat} {b : Int} {t dst : List Int} (hd : (text s (some count)).drop i = 92 :: b :: t) :
    cssStep W T s count i dst =
        if b = 110 then .next (i + 2) (dst ++ [10])
        else if b = 114 then .next (i + 2) (dst ++ [13])
        else if b = 116 then .next (i + 2) (dst ++ [9])
        else if b = 10 then .next (i + 2) dst
        else if (48 ≤ b ∧ b ≤ 57) ∨ (65 ≤ b ∧ b ≤ 70) ∨ (97 ≤ b ∧ b ≤ 102) then
          match cssHex W s (min count (i + 1 + 6)) (i + 1) 0 with
          | none => .fault
          | some (j, chr) =>
            if j < min count (i + 1 + 6) then
              match rd s j with
              | none => .fault
              | some x => .next (if x = 32 then j + 1 else j) (dst ++ [T.wrap chr])
            else .next j (dst ++ [T.wrap chr])
        else .next (i + 2) (dst ++ [b]) := by
  obtain ⟨hl, h1, hr⟩ := drop_cons hd
  obtain ⟨hl2, h2, _⟩ := drop_cons hr
  have := drop_lt hv hr
  have e := cond_eq hv (i := i) (by omega)
  rw [h1] at e
  unfold cssStep
  rw [e]
  dsimp only
  rw [if_neg (by decide), if_pos this, rd_at hv h2]

theorem run_get {ds t : List Int} {i : Nat} (hl : 1 ≤ ds.length) (hd : (text s (some count)).drop i = ds ++ t) :
    (∀ k, (hk : k < ds.length) → rd s (i + k) = some ds[k]) ∧ i + ds.length + t.length ≤ count ∧ (text s (some count)).drop (i + ds.length) = t ∧
    i + ds.length + t.length = (text s (some count)).length := by
  have h1 := text_length_take s count
  have h2 := congrArg List.length hd
  simp only [List.length_drop, List.length_append] at h2
  refine ⟨fun k hk => ?_, by omega, ?_, by omega⟩
  · apply rd_at hv
    rw [← List.getElem?_drop, hd, List.getElem?_append_left hk, List.getElem?_eq_getElem hk]
  · rw [← List.drop_drop, hd, List.drop_left]

theorem step_hex {i : Nat} {ds t dst : List Int} (hd : (text s (some count)).drop i = 92 :: (ds ++ t)) (h1 : 1 ≤ ds.length) (h6 : ds.length ≤ 6)
    (hx : ∀ c ∈ ds, (digitOf c).isSome = true) (hm : ds.length < 6 → ∀ c ∈ t.head?, digitOf c = none) :
    cssStep W T s count i dst = .next (i + 1 + ds.length + if ds.length < 6 ∧ t.head? = some 32 then 1 else 0) (dst ++ [T.wrap (W.wrap (hexNumber ds))]) := by
  obtain ⟨hl, _, hr⟩ := drop_cons hd
  obtain ⟨g1, g2, g3, g4⟩ := run_get hv h1 hr
  have run := cssHex_run (W := W) (s := s) (e := min count (i + 1 + 6)) ds [] (i + 1) g1 hx (by omega)
  rw [show hexNumber [] = 0 from rfl, show W.wrap ((0 : Nat) : Int) = 0 from wrap_zero W, List.nil_append] at run
  cases ds with
  | nil => simp at h1
  | cons b ds' =>
    have hb := hx b List.mem_cons_self
    obtain ⟨x, hbx⟩ := Option.isSome_iff_exists.1 hb
    have hb2 := digitOf_le hbx
    have hb3 := digit_range.2 hb
    rw [step_back hv hd, if_neg (by omega), if_neg (by omega), if_neg (by omega), if_neg (by omega), if_pos hb3, run]
    generalize hds : b :: ds' = ds at *
    by_cases c6 : ds.length < 6
    · -- the run ends in front of a character, or at the end of the text
      cases t with
      | cons y t =>
        have hy : (text s (some count))[i + 1 + ds.length]? = some y := (drop_cons g3).2.1
        simp only [List.length_cons] at g2
        have hn := hm c6 y (by simp)
        rw [cssHex_stop (rd_at hv hy) hn]
        dsimp only
        rw [if_pos (by omega), rd_at hv hy]
        dsimp only
        by_cases q : y = 32
        · rw [if_pos q, if_pos ⟨c6, by simp [q]⟩]
        · rw [if_neg q, if_neg (by simp [q])]; rfl
      | nil =>
        simp only [List.length_nil] at g2 g4
        rw [if_neg (by simp)]
        by_cases hc : i + 1 + ds.length < count
        · have hz : rd s (i + 1 + ds.length) = some 0 := by
            have := rd_eq hv (i := i + 1 + ds.length) (by omega) (by simpa [below] using hc)
            rw [this, List.getElem?_eq_none_iff.2 (by omega)]; rfl
          rw [cssHex_stop hz digitOf_zero]
          dsimp only
          rw [if_pos (by omega), hz]
          dsimp only
          rw [if_neg (by decide)]; rfl
        · rw [cssHex, if_neg (by omega)]
          dsimp only
          rw [if_neg (by omega)]; rfl
    · rw [if_neg (fun q => c6 q.1), cssHex, if_neg (by omega)]
      dsimp only
      rw [if_neg (by omega)]; rfl

/-- An iteration of the loop, for a rule of the specification: what stands in front of the rest is taken. -/
theorem step_reads {p o : List Int} (h : CssReads W T p o) (q : List Int) (hq : q = [] ∨ q = [92]) : ∀ (i : Nat) (dst : List Int), (text s (some count)).drop i = p ++ q → p ≠ [] →
    ∃ p' o' x n, 1 ≤ n ∧ cssStep W T s count i dst = .next (i + n) (dst ++ x) ∧ (text s (some count)).drop (i + n) = p' ++ q ∧ o = x ++ o' ∧ CssReads W T p' o' ∧ p'.length + n = p.length := by
  have h32 : ∀ c ∈ q.head?, digitOf c = none ∧ c ≠ 32 := by
    rcases hq with e | e <;> rw [e]
    · simp
    · intro c hc; simp at hc; rw [← hc]; decide +kernel
  intro i dst hd hp
  cases h with
  | nil => exact absurd rfl hp
  | same hc h =>
    exact ⟨_, _, [_], 1, by omega, step_same hv hd hc, (drop_cons hd).2.2, rfl, h, by simp⟩
  | @ctrl a x t o hm h =>
    refine ⟨t, o, [(x.toNat : Int)], 2, by omega, ?_, (drop_cons (drop_cons hd).2.2).2.2, rfl, h, by simp⟩
    rw [step_back hv hd]
    simp only [List.mem_cons, Prod.mk.injEq, List.not_mem_nil, or_false] at hm
    rcases hm with ⟨e1, e2⟩ | ⟨e1, e2⟩ | ⟨e1, e2⟩ <;> subst e1 <;> subst e2
    · rw [if_pos (by decide)]; rfl
    · rw [if_neg (by decide), if_pos (by decide)]; rfl
    · rw [if_neg (by decide), if_neg (by decide), if_pos (by decide)]; rfl
  | join h =>
    refine ⟨_, _, [], 2, by omega, ?_, (drop_cons (drop_cons hd).2.2).2.2, rfl, h, by simp⟩
    rw [step_back hv hd, if_neg (by decide), if_neg (by decide), if_neg (by decide), if_pos (by decide), List.append_nil]
  | @hexSpace ds t o h1 h6 hx h =>
    simp only [List.cons_append, List.append_assoc] at hd
    have st := step_hex (W := W) (T := T) (dst := dst) hv hd h1 (by omega) hx (fun _ c hc => by simp at hc; rw [← hc]; decide +kernel)
    obtain ⟨hl, _, hr⟩ := drop_cons hd
    obtain ⟨g1, g2, g3, g4⟩ := run_get hv h1 hr
    rw [if_pos ⟨h6, rfl⟩] at st
    refine ⟨t, o, [_], 1 + ds.length + 1, by omega, ?_, ?_, rfl, h, by simp; omega⟩
    · rw [st]; congr 1; omega
    · rw [show i + (1 + ds.length + 1) = i + 1 + ds.length + 1 by omega]
      exact (drop_cons g3).2.2
  | @hex ds t o h1 h6 hx hm h =>
    simp only [List.cons_append, List.append_assoc] at hd
    have hm' : ds.length < 6 → ∀ c ∈ (t ++ q).head?, digitOf c = none ∧ c ≠ 32 := by
      intro h6' c hc
      cases t with
      | nil => exact h32 c hc
      | cons y t => exact hm h6' c hc
    have st := step_hex (W := W) (T := T) (dst := dst) hv hd h1 h6 hx (fun h c hc => (hm' h c hc).1)
    obtain ⟨hl, _, hr⟩ := drop_cons hd
    obtain ⟨g1, g2, g3, g4⟩ := run_get hv h1 hr
    rw [if_neg (fun e => (hm' e.1 32 e.2).2 rfl)] at st
    refine ⟨t, o, [_], 1 + ds.length, by omega, ?_, ?_, rfl, h, by simp; omega⟩
    · rw [st]; congr 1; omega
    · rw [show i + (1 + ds.length) = i + 1 + ds.length by omega]
      exact g3
  | @other c t o hn hc h =>
    refine ⟨t, o, [c], 2, by omega, ?_, (drop_cons (drop_cons hd).2.2).2.2, rfl, h, by simp⟩
    have he : asc "nrt\n" = [110, 114, 116, 10] := by decide +kernel
    rw [he] at hc
    simp only [List.mem_cons, List.not_mem_nil, or_false, not_or] at hc
    rw [step_back hv hd, if_neg hc.1, if_neg hc.2.1, if_neg hc.2.2.1, if_neg hc.2.2.2, if_neg (fun r => by
      have := digit_range.1 r; rw [hn] at this; cases this)]

theorem cssUnescape_from : ∀ (k : Nat) {p o : List Int}, CssReads W T p o → p.length ≤ k → ∀ (i : Nat), i ≤ (text s (some count)).length → (text s (some count)).drop i = p → ∀ (fuel : Nat) (dst : List Int), p.length < fuel →
    cssUnescape W T s count fuel i dst = .done (dst ++ o) := by
  intro k
  induction k with
  | zero =>
    intro p o h hk i hi hd fuel dst hf
    cases p with
    | cons _ _ => simp at hk
    | nil =>
      cases h
      cases fuel with
      | zero => simp at hf
      | succ fuel =>
        have e := cond_eq hv hi
        rw [List.getElem?_eq_none_iff.2 (by have := congrArg List.length hd; simp at this; omega)] at e
        have : cssStep W T s count i dst = .stop := by unfold cssStep; rw [e]
        rw [cssUnescape, this, List.append_nil]
  | succ k ih =>
    intro p o h hk i hi hd fuel dst hf
    cases hp : p with
    | nil => subst hp; exact ih h (by simp) i hi hd fuel dst hf
    | cons c r =>
      cases fuel with
      | zero => simp at hf
      | succ fuel =>
        obtain ⟨p', o', x, n, hn, hs, hd', ho, h', hl⟩ := step_reads hv h [] (Or.inl rfl) i dst (by rw [hd, List.append_nil]) (by rw [hp]; simp)
        rw [List.append_nil] at hd'
        have hlen := congrArg List.length hd
        simp only [List.length_drop] at hlen
        rw [cssUnescape, hs]
        dsimp only
        rw [ih h' (by omega) (i + n) (by omega) hd' fuel _ (by omega), ho, List.append_assoc]

/-- The text in front of a lone backslash is taken. -/
theorem cssUnescape_lone : ∀ (k : Nat) {p o : List Int}, CssReads W T p o → p.length ≤ k → ∀ (i : Nat), (text s (some count)).drop i = p ++ [92] → ∀ (fuel : Nat) (dst : List Int),
    ∃ used, used ≤ p.length ∧ ∀ fuel, cssUnescape W T s count (fuel + used) i dst = cssUnescape W T s count fuel (i + p.length) (dst ++ o) := by
  intro k
  induction k with
  | zero =>
    intro p o h hk i hd fuel dst
    cases p with
    | cons _ _ => simp at hk
    | nil => cases h; exact ⟨0, by simp, fun fuel => by simp⟩
  | succ k ih =>
    intro p o h hk i hd fuel dst
    by_cases hp : p = []
    · subst hp; exact ih h (by simp) i hd fuel dst
    · obtain ⟨p', o', x, n, hn, hs, hd', ho, h', hl⟩ := step_reads hv h [92] (Or.inr rfl) i dst hd hp
      obtain ⟨u, hu, hf⟩ := ih h' (by omega) (i + n) hd' fuel (dst ++ x)
      refine ⟨u + 1, by omega, fun fuel => ?_⟩
      rw [← Nat.add_assoc, cssUnescape, hs]
      dsimp only
      rw [hf, ho, List.append_assoc, show i + n + p'.length = i + p.length by omega]

end

/-- Every text stands for something, unless it ends in a lone backslash. -/
theorem css_cases (W T : CT) : ∀ (k : Nat) (t : List Int), t.length ≤ k → (∃ o, CssReads W T t o) ∨ ∃ p o, t = p ++ [92] ∧ CssReads W T p o := by
  intro k
  induction k with
  | zero => intro t h; cases t with
    | nil => exact Or.inl ⟨[], .nil⟩
    | cons _ _ => simp at h
  | succ k ih =>
    intro t h
    cases t with
    | nil => exact Or.inl ⟨[], .nil⟩
    | cons c t =>
      simp only [List.length_cons] at h
      by_cases hc : c = 92
      · subst hc
        cases t with
        | nil => exact Or.inr ⟨[], [], rfl, .nil⟩
        | cons b t =>
          simp only [List.length_cons] at h
          have lift : ∀ (a : List Int) (x : List Int), (∀ p o, CssReads W T p o → (t = p ∨ t = p ++ [92]) → CssReads W T (a ++ p) (x ++ o)) → a = [92, b] →
              (∃ o, CssReads W T (92 :: b :: t) o) ∨ ∃ p o, 92 :: b :: t = p ++ [92] ∧ CssReads W T p o := by
            intro a x hl ha
            subst ha
            rcases ih t (by omega) with ⟨o, q⟩ | ⟨p, o, e, q⟩
            · exact Or.inl ⟨_, hl t o q (Or.inl rfl)⟩
            · exact Or.inr ⟨92 :: b :: p, _, by rw [e]; rfl, hl p o q (Or.inr e)⟩
          cases hb : digitOf b with
          | none =>
            by_cases h1 : b = 110
            · exact lift _ [10] (fun p o q _ => by rw [h1]; exact CssReads.ctrl (a := 'n') (x := '\n') (by simp) q) rfl
            by_cases h2 : b = 114
            · exact lift _ [13] (fun p o q _ => by rw [h2]; exact CssReads.ctrl (a := 'r') (x := '\r') (by simp) q) rfl
            by_cases h3 : b = 116
            · exact lift _ [9] (fun p o q _ => by rw [h3]; exact CssReads.ctrl (a := 't') (x := '\t') (by simp) q) rfl
            by_cases h4 : b = 10
            · exact lift _ [] (fun p o q _ => by rw [h4]; exact CssReads.join q) rfl
            have he : asc "nrt\n" = [110, 114, 116, 10] := by decide +kernel
            exact lift _ [b] (fun p o q _ => CssReads.other hb (by rw [he]; simp [h1, h2, h3, h4]) q) rfl
          | some x =>
            -- the longest run of at most six digits
            have run : ∀ (m : Nat) (l : List Int), ∃ ds r, l = ds ++ r ∧ ds.length ≤ m ∧ (∀ c ∈ ds, (digitOf c).isSome = true) ∧ (ds.length < m → ∀ c ∈ r.head?, digitOf c = none) := by
              intro m
              induction m with
              | zero => intro l; exact ⟨[], l, rfl, by simp, by simp, by simp⟩
              | succ m ihm =>
                intro l
                cases l with
                | nil => exact ⟨[], [], rfl, by simp, by simp, by simp⟩
                | cons c l =>
                  cases hcd : digitOf c with
                  | none => exact ⟨[], c :: l, rfl, by simp, by simp, fun _ y hy => by simp at hy; rw [← hy]; exact hcd⟩
                  | some y =>
                    obtain ⟨ds, r, e, h1, h2, h3⟩ := ihm l
                    refine ⟨c :: ds, r, by rw [e]; rfl, by simp; omega, ?_, fun q => h3 (by simp at q; omega)⟩
                    intro z hz
                    rcases List.mem_cons.1 hz with q | q
                    · rw [q, hcd]; rfl
                    · exact h2 z q
            obtain ⟨ds, r, e, h5, hds, hend⟩ := run 5 t
            subst e
            simp only [List.length_append] at h
            have hx : ∀ c ∈ b :: ds, (digitOf c).isSome = true := by
              intro z hz
              rcases List.mem_cons.1 hz with q | q
              · rw [q, hb]; rfl
              · exact hds z q
            by_cases sp : ds.length < 5 ∧ r.head? = some 32
            · obtain ⟨s5, sp⟩ := sp
              cases r with
              | nil => cases sp
              | cons y r =>
                simp only [List.head?_cons, Option.some.injEq] at sp
                subst sp
                simp only [List.length_cons] at h
                rcases ih r (by omega) with ⟨o, q⟩ | ⟨p, o, e, q⟩
                · exact Or.inl ⟨_, CssReads.hexSpace (ds := b :: ds) (by simp) (by simp; omega) hx q⟩
                · exact Or.inr ⟨(92 : Int) :: ((b :: ds) ++ 32 :: p), _, by rw [e]; simp, CssReads.hexSpace (ds := b :: ds) (by simp) (by simp; omega) hx q⟩
            · have hm : ds.length < 5 → ∀ c ∈ r.head?, digitOf c = none ∧ c ≠ 32 := fun h c hc => ⟨hend h c hc, fun e => sp ⟨h, by rw [← e]; exact hc⟩⟩
              rcases ih r (by omega) with ⟨o, q⟩ | ⟨p, o, e, q⟩
              · exact Or.inl ⟨_, CssReads.hex (ds := b :: ds) (by simp) (by simp; omega) hx (fun h => hm (by simp at h; omega)) q⟩
              · refine Or.inr ⟨(92 : Int) :: ((b :: ds) ++ p), _, by rw [e]; simp, CssReads.hex (ds := b :: ds) (by simp) (by simp; omega) hx (fun h c hc => ?_) q⟩
                refine hm (by simp at h; omega) c ?_
                rw [e]
                cases p with
                | nil => cases hc
                | cons y p => exact hc
      · rcases ih t (by omega) with ⟨o, q⟩ | ⟨p, o, e, q⟩
        · exact Or.inl ⟨_, CssReads.same hc q⟩
        · exact Or.inr ⟨c :: p, _, by rw [e]; rfl, CssReads.same hc q⟩

theorem cssReads_escape (W T : CT) : ∀ t : List Int, CssReads W T (t.flatMap cssEscapeChar) t
  | [] => .nil
  | c :: t => by
    have ih := cssReads_escape W T t
    have he : asc "nrt\n" = [110, 114, 116, 10] := by decide +kernel
    rw [List.flatMap_cons]
    unfold cssEscapeChar
    by_cases h1 : c = 92
    · rw [if_pos h1, h1]; exact .other (by decide +kernel) (by rw [he]; decide) ih
    rw [if_neg h1]
    by_cases h2 : c = 10
    · rw [if_pos h2, h2]; exact .ctrl (a := 'n') (x := '\n') (by simp) ih
    rw [if_neg h2]
    by_cases h3 : c = 13
    · rw [if_pos h3, h3]; exact .ctrl (a := 'r') (x := '\r') (by simp) ih
    rw [if_neg h3]
    by_cases h4 : c = 9
    · rw [if_pos h4, h4]; exact .ctrl (a := 't') (x := '\t') (by simp) ih
    rw [if_neg h4]
    by_cases h5 : c = 34
    · rw [if_pos h5, h5]; exact .other (by decide +kernel) (by rw [he]; decide) ih
    rw [if_neg h5]
    by_cases h6 : c = 39
    · rw [if_pos h6, h6]; exact .other (by decide +kernel) (by rw [he]; decide) ih
    rw [if_neg h6]
    exact .same h1 ih

theorem cssInert_escape : ∀ t : List Int, CssInert (t.flatMap cssEscapeChar)
  | [] => .nil
  | c :: t => by
    have ih := cssInert_escape t
    have he : asc "\\\"'\n\r\t" = [92, 34, 39, 10, 13, 9] := by decide +kernel
    rw [List.flatMap_cons]
    unfold cssEscapeChar
    by_cases h1 : c = 92
    · rw [if_pos h1]; exact .pair (by decide +kernel) ih
    rw [if_neg h1]
    by_cases h2 : c = 10
    · rw [if_pos h2]; exact .pair (by decide +kernel) ih
    rw [if_neg h2]
    by_cases h3 : c = 13
    · rw [if_pos h3]; exact .pair (by decide +kernel) ih
    rw [if_neg h3]
    by_cases h4 : c = 9
    · rw [if_pos h4]; exact .pair (by decide +kernel) ih
    rw [if_neg h4]
    by_cases h5 : c = 34
    · rw [if_pos h5]; exact .pair (by decide +kernel) ih
    rw [if_neg h5]
    by_cases h6 : c = 39
    · rw [if_pos h6]; exact .pair (by decide +kernel) ih
    rw [if_neg h6]
    exact .plain (by rw [he]; simp [h1, h2, h3, h4, h5, h6]) ih

theorem cssEscape_nonzero (c : Int) (hc : c ≠ 0) : ∀ x ∈ cssEscapeChar c, x ≠ 0 := by
  intro x
  unfold cssEscapeChar
  repeat (split; · simp; omega)
  simp; omega

/-! ### Properties -/

/-- **C102** `css_unescape` ends, without undefined behaviour, and appends the text that the source stands for, if there is one.
Missing: a source that ends in a lone backslash, see `css_unescape_hangs`, `css_unescape_past_end`. -/
theorem css_unescape_partial {W T : CT} {s : List Int} {count : Nat} (hv : Valid s (some count)) {o : List Int} (h : CssReads W T (text s (some count)) o) (dst : List Int) :
    ∃ n, ∀ fuel, n ≤ fuel → cssUnescape W T s count fuel 0 dst = .done (dst ++ o) :=
  ⟨_, fun fuel hf => cssUnescape_from hv _ h (Nat.le_refl _) 0 (Nat.zero_le _) rfl fuel dst (Nat.lt_of_lt_of_le (Nat.lt_succ_self _) hf)⟩

/-- **C102** Every text stands for something, unless it ends in a lone backslash. -/
theorem css_readable (W T : CT) (t : List Int) : (∃ o, CssReads W T t o) ∨ ∃ p o, t = p ++ asc "\\" ∧ CssReads W T p o := css_cases W T _ t (Nat.le_refl _)

/-- **C102** What `css_escape` appends can stand in a quoted CSS string, and `css_unescape` of it, whatever follows in memory, gives the source back. -/
theorem css_round_trip (W T : CT) {s : List Int} {count : Nat} (hv : Valid s (some count)) (dst : List Int) :
    ∃ o, cssEscape s count dst = some (dst ++ o) ∧ CssInert o ∧ CssReads W T o (text s (some count)) ∧
      ∀ (rest dst' : List Int), ∃ n, ∀ fuel, n ≤ fuel → cssUnescape W T (o ++ rest) o.length fuel 0 dst' = .done (dst' ++ text s (some count)) := by
  refine ⟨_, eachChar_eq cssEscapeChar hv dst, cssInert_escape _, cssReads_escape W T _, fun rest dst' => ?_⟩
  have hz : ∀ x ∈ (text s (some count)).flatMap cssEscapeChar, x ≠ 0 := flatMap_nonzero cssEscape_nonzero
  have hr := cssReads_escape W T (text s (some count))
  generalize (text s (some count)).flatMap cssEscapeChar = o at hz hr
  have et : text (o ++ rest) (some o.length) = o :=
    text_eq_of hz (List.prefix_append _ _) (Or.inr rfl) (by intro n e; cases e; exact Nat.le_refl _)
  exact css_unescape_partial (Or.inr ⟨_, rfl, by simp⟩) (by rw [et]; exact hr) dst'

/-- A text stands for one text only. -/
theorem css_reads_one {W T : CT} {t o o' : List Int} (h0 : ∀ c ∈ t, c ≠ 0) (h : CssReads W T t o) (h' : CssReads W T t o') : o = o' := by
  have hv : Valid t (some t.length) := Or.inr ⟨_, rfl, Nat.le_refl _⟩
  obtain ⟨n, e⟩ := css_unescape_partial hv (by rw [text_self h0]; exact h) []
  obtain ⟨n', e'⟩ := css_unescape_partial hv (by rw [text_self h0]; exact h') []
  have := (e (max n n') (by omega)).symm.trans (e' (max n n') (by omega))
  simpa using this

/-- Finding: a text that ends in a lone backslash at the limit: `css_unescape` never returns. -/
theorem css_unescape_hangs (W T : CT) {p o : List Int} (h : CssReads W T p o) (h0 : ∀ c ∈ p, c ≠ 0) (rest dst : List Int) (fuel : Nat) :
    cssUnescape W T (p ++ asc "\\" ++ rest) (p.length + 1) fuel 0 dst = .going := by
  rw [show asc "\\" = [92] by decide +kernel]
  have hz : ∀ c ∈ p ++ [92], c ≠ 0 := by
    intro c hc
    rcases List.mem_append.1 hc with q | q
    · exact h0 c q
    · rw [List.mem_singleton.1 q]; decide
  have et : text (p ++ [92] ++ rest) (some (p.length + 1)) = p ++ [92] :=
    text_eq_of hz (List.prefix_append _ _) (Or.inr (by simp)) (by intro n e; cases e; simp)
  have hv : Valid (p ++ [92] ++ rest) (some (p.length + 1)) := Or.inr ⟨_, rfl, by simp⟩
  obtain ⟨u, _, hf⟩ := cssUnescape_lone hv _ h (Nat.le_refl _) 0 (by rw [et]; rfl) 0 dst
  have stay : ∀ (fuel : Nat) (d : List Int), cssUnescape W T (p ++ [92] ++ rest) (p.length + 1) fuel (0 + p.length) d = .going := by
    intro fuel
    induction fuel with
    | zero => intro d; rfl
    | succ fuel ih =>
      intro d
      have e := cond_eq hv (i := 0 + p.length) (by rw [et]; simp)
      rw [et, Nat.zero_add, List.getElem?_append_right (Nat.le_refl _), Nat.sub_self] at e
      have : cssStep W T (p ++ [92] ++ rest) (p.length + 1) (0 + p.length) d = .next (0 + p.length) d := by
        unfold cssStep
        rw [Nat.zero_add, e]
        show (if (92 : Int) ≠ 92 then _ else _) = _
        rw [if_neg (by decide), if_neg (by omega)]
      rw [cssUnescape, this]
      exact ih d
  -- with more iterations it does not end either
  have mono : ∀ (a b i : Nat) (d : List Int), cssUnescape W T (p ++ [92] ++ rest) (p.length + 1) (a + b) i d = .going → cssUnescape W T (p ++ [92] ++ rest) (p.length + 1) a i d = .going := by
    intro a b
    induction a with
    | zero => intro i d _; rfl
    | succ a ih =>
      intro i d hg
      rw [show a + 1 + b = a + b + 1 by omega, cssUnescape] at hg
      rw [cssUnescape]
      cases hs : cssStep W T (p ++ [92] ++ rest) (p.length + 1) i d with
      | fault => rw [hs] at hg; cases hg
      | stop => rw [hs] at hg; cases hg
      | next i' d' => rw [hs] at hg; exact ih i' d' hg
  exact mono fuel u 0 dst (by rw [hf]; exact stay _ _)

/-- Finding: a terminated text that ends in a lone backslash, with a limit behind the terminator: the terminator is appended, and what follows it is read. -/
theorem css_unescape_past_end (W T : CT) {p o : List Int} (h : CssReads W T p o) (h0 : ∀ c ∈ p, c ≠ 0) (dst : List Int) {count : Nat} (hc : p.length + 2 < count) :
    ∃ n, cssUnescape W T (p ++ asc "\\" ++ [0]) count n 0 dst = .fault := by
  rw [show asc "\\" = [92] by decide +kernel]
  have hz : ∀ c ∈ p ++ [92], c ≠ 0 := by
    intro c hc
    rcases List.mem_append.1 hc with q | q
    · exact h0 c q
    · rw [List.mem_singleton.1 q]; decide
  have et : text (p ++ [92] ++ [0]) (some count) = p ++ [92] :=
    text_eq_of hz (List.prefix_append _ _) (Or.inl (by rw [List.getElem?_append_right (Nat.le_refl _), Nat.sub_self]; rfl)) (by intro n e; cases e; simp; omega)
  have hv : Valid (p ++ [92] ++ [0]) (some count) := Or.inl (by simp)
  obtain ⟨u, _, hf⟩ := cssUnescape_lone hv _ h (Nat.le_refl _) 0 (by rw [et]; rfl) 0 dst
  refine ⟨2 + u, ?_⟩
  rw [hf, Nat.zero_add]
  have e := cond_eq hv (i := p.length) (by rw [et]; simp)
  rw [et, List.getElem?_append_right (Nat.le_refl _), Nat.sub_self] at e
  have hr : rd (p ++ [92] ++ [0]) (p.length + 1) = some 0 := by
    unfold rd
    rw [List.getElem?_append_right (by simp)]
    simp
  have s1 : cssStep W T (p ++ [92] ++ [0]) count p.length (dst ++ o) = .next (p.length + 2) (dst ++ o ++ [0]) := by
    unfold cssStep
    rw [e]
    show (if (92 : Int) ≠ 92 then _ else _) = _
    rw [if_neg (by decide), if_pos (by omega), hr]
    rfl
  have s2 : cssStep W T (p ++ [92] ++ [0]) count (p.length + 2) (dst ++ o ++ [0]) = .fault := by
    have : Str.cond (p ++ [92] ++ [0]) (some count) (p.length + 2) = none := by
      unfold Str.cond below rd
      rw [if_pos (by simpa using hc), List.getElem?_eq_none_iff.2 (by simp)]
      rfl
    unfold cssStep
    rw [this]
  show cssUnescape W T _ count (1 + 1) _ _ = _
  rw [cssUnescape, s1]
  dsimp only
  rw [cssUnescape, s2]

/-- Finding: a space behind six digits is kept, contrary to CSS, where it ends the escape like behind fewer digits. -/
theorem css_unescape_six : cssUnescape ⟨32, true⟩ ⟨8, true⟩ (asc "\\000041 b") 9 20 0 [] = .done (asc "A b") ∧
    cssUnescape ⟨32, true⟩ ⟨8, true⟩ (asc "\\00041 b") 8 20 0 [] = .done (asc "Ab") := by decide +kernel

/-- Non-vacuity. -/
example : CssReads ⟨32, true⟩ ⟨8, true⟩ (asc "a\\n\\41 b") (asc "a\nAb") ∧ Valid (asc "a\\n\\41 b") (some 8) ∧
    cssUnescape ⟨32, true⟩ ⟨8, true⟩ (asc "a\\n\\41 b") 8 20 0 [] = .done (asc "a\nAb") ∧ cssEscape (asc "it's\n") 5 [] = some (asc "it\\'s\\n") := by
  refine ⟨?_, Or.inr ⟨_, rfl, by decide +kernel⟩, by decide +kernel, by decide +kernel⟩
  rw [show asc "a\\n\\41 b" = [97, 92, 110, 92, 52, 49, 32, 98] by decide +kernel,
    show asc "a\nAb" = [97, 10, (CT.mk 8 true).wrap ((CT.mk 32 true).wrap (hexNumber [52, 49])), 98] by decide +kernel]
  exact .same (by decide) (.ctrl (a := 'n') (x := '\n') (by simp) (.hexSpace (ds := [52, 49]) (by simp) (by simp) (by decide +kernel) (.same (by decide) .nil)))

end Verif.Html
