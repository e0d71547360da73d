import Verif.Html.DocEntities
import Verif.Sgml.RoundTrip
/-
Token tags: `token::append_tag` and `token::parse_tag`, lines 1972-2057 of include/stdex/html.hpp.
-/
namespace Verif.Html
open Verif.Str Verif.Sgml Verif.Parser

/-! ### Model -/

/-- A digit of `%X`. -/
def upDigit (d : Nat) : Int := if d < 10 then 48 + d else 55 + d

/-- `%zX`. -/
def hexUp (n : Nat) : List Int := if n < 16 then [upDigit n] else hexUp (n / 16) ++ [upDigit (n % 16)]
termination_by n

/-- What `token::append_tag` appends, 2013-2034: `token_tag_start` (1982), the address of the token in hexadecimal,
`token_tag_end` (1988). The address is a number here. -/
def tokenTag (addr : Nat) : List Int := 18 :: hexUp addr ++ [19]

/-- Locating the tag end, 2043-2049: where it is, or `none` at the terminator. -/
def tagClose (s : List Int) (i : Nat) : Option (Option Nat) :=
  match h : rd s i with
  | none => none
  | some c => if c = 0 then some none else if c = 19 then some (some i) else tagClose s (i + 1)
termination_by s.length - i
decreasing_by have := (List.getElem?_eq_some_iff.1 h).1; omega

/-- What `token::parse_tag` does: returns a null pointer, throws, or returns the pointer and the new offset. -/
inductive TagRes where
  | null
  | throws
  | tok (addr offset : Nat)
deriving DecidableEq

/-- `token::parse_tag`, 2036-2057. Pointers have `w` bits. -/
def parseTag (w : Nat) (s : List Int) (offset : Nat) : Option TagRes := do
  let c ← rd s offset
  if c ≠ 18 then pure .null
  else
    match ← tagClose s (offset + 1) with
    | none => pure .null
    | some e =>
      let v ← strtouint (s.drop (offset + 1)) (some (e - offset - 1)) w 16
      if v.1 = 0 then pure .throws else pure (.tok v.1 (e + 1))

/-! ### Proofs -/

/-- What `%X` writes. -/
def IsUp (x : Int) : Prop := (48 ≤ x ∧ x ≤ 57) ∨ (65 ≤ x ∧ x ≤ 70)

theorem upDigit_up {d : Nat} (h : d < 16) : IsUp (upDigit d) := by
  unfold upDigit IsUp
  by_cases c : d < 10
  · rw [if_pos c]; omega
  · rw [if_neg c]; omega

theorem upDigit_digit : ∀ d : Fin 16, digitIn 16 (upDigit d.val) = some d.val := by decide +kernel

theorem hexUp_props (n : Nat) : hexUp n ≠ [] ∧ (∀ x ∈ hexUp n, IsUp x) ∧ (∀ x ∈ hexUp n, (digitIn 16 x).isSome = true) ∧ number 16 (hexUp n) = n := by
  induction n using Nat.strongRecOn with
  | _ n ih =>
    rw [hexUp]
    have hd : ∀ d, d < 16 → digitIn 16 (upDigit d) = some d := fun d h => upDigit_digit ⟨d, h⟩
    have h1 : ∀ d, d < 16 → number 16 [upDigit d] = d := fun d h => by simp [Str.number, hd d h]
    by_cases c : n < 16
    · rw [if_pos c]
      refine ⟨by simp, ?_, ?_, h1 n c⟩
      · intro x hx; rw [List.mem_singleton.1 hx]; exact upDigit_up c
      · intro x hx; rw [List.mem_singleton.1 hx, hd n c]; rfl
    · rw [if_neg c]
      obtain ⟨i1, i2, i3, i4⟩ := ih (n / 16) (by omega)
      have hm : n % 16 < 16 := by omega
      refine ⟨by simp, ?_, ?_, ?_⟩
      · intro x hx
        rcases List.mem_append.1 hx with hx | hx
        · exact i2 x hx
        · rw [List.mem_singleton.1 hx]; exact upDigit_up hm
      · intro x hx
        rcases List.mem_append.1 hx with hx | hx
        · exact i3 x hx
        · rw [List.mem_singleton.1 hx, hd _ hm]; rfl
      · rw [number_append, i4, h1 _ hm]
        simp only [List.length_singleton]; omega

theorem readSpec_up {ds : List Int} (hl : ∀ x ∈ ds, IsUp x) (hd : ∀ x ∈ ds, (digitIn 16 x).isSome = true) :
    (readSpec 16 ds).neg = false ∧ (readSpec 16 ds).value = number 16 ds := by
  cases ds with
  | nil => exact ⟨rfl, rfl⟩
  | cons d ds =>
    have h0 := hl d List.mem_cons_self
    unfold IsUp at h0
    have e1 : (d :: ds).dropWhile isspace = d :: ds := by
      rw [List.dropWhile_cons_of_neg]
      unfold isspace
      simp; omega
    have e2 : signSpec (d :: ds) = (false, d :: ds) := by
      rw [show signSpec (d :: ds) = if d = 45 then (true, ds) else if d = 43 then (false, ds) else (false, d :: ds) from rfl, if_neg (by omega), if_neg (by omega)]
    have e3 : prefixSpec 16 (d :: ds) = (16, d :: ds) := by
      unfold prefixSpec
      split
      · next x r e =>
        injection e with _ e
        subst e
        have := hl x (by simp)
        unfold IsUp at this
        rw [if_neg (by omega), if_neg (by decide)]
      · next e => rw [if_neg (by decide)]
      · rfl
    unfold readSpec
    dsimp only
    rw [e1, e2]
    dsimp only
    rw [e3]
    dsimp only
    rw [takeWhile_all hd]
    exact ⟨rfl, rfl⟩

theorem tagClose_spec {ds : List Int} (h : ∀ x ∈ ds, x ≠ 0 ∧ x ≠ 19) (post : List Int) : ∀ (pre : List Int), tagClose (pre ++ (ds ++ 19 :: post)) pre.length = some (some (pre.length + ds.length)) := by
  induction ds with
  | nil =>
    intro pre
    have hr : rd (pre ++ ([] ++ 19 :: post)) pre.length = some 19 := by unfold rd; simp
    unfold tagClose
    split
    · next e => rw [hr] at e; exact absurd e (by simp)
    · next c e => rw [hr] at e; cases e; simp
  | cons d ds ih =>
    intro pre
    have hr : rd (pre ++ (d :: ds ++ 19 :: post)) pre.length = some d := by unfold rd; simp
    have hd := h d List.mem_cons_self
    unfold tagClose
    split
    · next e => rw [hr] at e; exact absurd e (by simp)
    · next c e =>
      rw [hr] at e; cases e
      rw [if_neg hd.1, if_neg hd.2]
      have := ih (fun x hx => h x (List.mem_cons_of_mem _ hx)) (pre ++ [d])
      rw [List.length_append, List.length_singleton, List.append_assoc] at this
      rw [show pre ++ (d :: ds ++ 19 :: post) = pre ++ ([d] ++ (ds ++ 19 :: post)) by simp, this, List.length_cons]
      congr 2; omega

theorem tagClose_total : ∀ (k : Nat) (s : List Int) (i : Nat), s.length - i ≤ k → i ≤ s.length → 0 ∈ s.drop i → ∃ r, tagClose s i = some r
  | k, s, i, hk, hi, h0 => by
    have hl : i < s.length := by
      by_cases q : i < s.length
      · exact q
      · rw [List.drop_of_length_le (by omega)] at h0; exact absurd h0 (by simp)
    have hr : rd s i = some s[i] := by unfold rd; exact List.getElem?_eq_getElem hl
    unfold tagClose
    split
    · next e => rw [hr] at e; exact absurd e (by simp)
    · next c e =>
      rw [hr] at e; cases e
      split
      · exact ⟨_, rfl⟩
      · next hz =>
        split
        · exact ⟨_, rfl⟩
        · match k with
          | 0 => omega
          | k + 1 =>
            refine tagClose_total k s (i + 1) (by omega) (by omega) ?_
            rw [List.drop_eq_getElem_cons hl] at h0
            rcases List.mem_cons.1 h0 with e | e
            · exact absurd e.symm hz
            · exact e

theorem hexUp_length : ∀ (k n : Nat), n < 16 ^ k → 0 < k → (hexUp n).length ≤ k
  | 0, _, _, h => absurd h (by decide)
  | k + 1, n, h, _ => by
    rw [hexUp]
    split
    · simp
    · next q =>
      match k with
      | 0 => omega
      | k + 1 =>
        have := hexUp_length (k + 1) (n / 16) (by rw [Nat.pow_succ] at h; omega) (by omega)
        rw [List.length_append, List.length_singleton]; omega

/-! ### Properties -/

/-- **C114** The tag of a token is a start mark, digits, and an end mark. -/
theorem token_tag_shape (a : Nat) : ∃ ds, tokenTag a = 18 :: ds ++ [19] ∧ ds = ((Nat.toDigits 16 a).map fun c : Char => (c.toUpper.toNat : Int)) := by
  refine ⟨hexUp a, rfl, ?_⟩
  have hc : ∀ d : Fin 16, upDigit d.val = ((Nat.digitChar d.val).toUpper.toNat : Int) := by decide +kernel
  induction a using Nat.strongRecOn with
  | _ n ih =>
    rw [hexUp]
    by_cases c : n < 16
    · rw [if_pos c, Nat.toDigits_of_lt_base c]
      simp only [List.map_cons, List.map_nil]
      rw [hc ⟨n, c⟩]
    · rw [if_neg c, Nat.toDigits_of_base_le (by omega) (by omega), List.map_append, ih _ (by omega)]
      simp only [List.map_cons, List.map_nil]
      rw [hc ⟨n % 16, by omega⟩]

/-- **C114** The characters of a tag, apart from the marks at its ends, are neither marks nor terminators. -/
theorem token_tag_chars (a : Nat) : ∃ ds, tokenTag a = 18 :: ds ++ [19] ∧ ∀ x ∈ ds, x ≠ 0 ∧ x ≠ 18 ∧ x ≠ 19 :=
  ⟨hexUp a, rfl, fun x hx => by have := (hexUp_props a).2.1 x hx; unfold IsUp at this; omega⟩

/-- **C114** A tag fits the buffer of `token_tag_max` characters: two per byte of the address, two for the marks; the
terminator takes the last one. -/
theorem token_tag_length {a bytes : Nat} (hb : 0 < bytes) (h : a < 2 ^ (8 * bytes)) : (tokenTag a).length ≤ 2 * bytes + 2 := by
  have := hexUp_length (2 * bytes) a (by rw [show (16 : Nat) = 2 ^ 4 from rfl, ← Nat.pow_mul]; rw [show 4 * (2 * bytes) = 8 * bytes by omega]; exact h) (by omega)
  unfold tokenTag; simp; omega

/-- **C114** Wherever in a string the tag of a token is, it is read back as that token, and reading goes on after it. -/
theorem token_tag_read {w a : Nat} (h0 : 0 < a) (hw : a < 2 ^ w) (pre post : List Int) :
    parseTag w (pre ++ tokenTag a ++ post) pre.length = some (.tok a (pre.length + (tokenTag a).length)) := by
  obtain ⟨p1, p2, p3, p4⟩ := hexUp_props a
  have e0 : pre ++ tokenTag a ++ post = pre ++ (18 :: (hexUp a ++ 19 :: post)) := by unfold tokenTag; simp
  have hnz : ∀ x ∈ hexUp a, x ≠ 0 ∧ x ≠ 19 := fun x hx => by have := p2 x hx; unfold IsUp at this; omega
  have hcl := tagClose_spec hnz post (pre ++ [18])
  rw [List.length_append, List.length_singleton, List.append_assoc] at hcl
  have e1 : (pre ++ (18 :: (hexUp a ++ 19 :: post))).drop (pre.length + 1) = hexUp a ++ 19 :: post := by
    rw [← List.drop_drop, List.drop_left]; rfl
  have et : text (hexUp a ++ 19 :: post) (some (hexUp a).length) = hexUp a :=
    text_eq_of (fun x hx => (hnz x hx).1) (List.prefix_append _ _) (.inr rfl) (by intro n e; cases e; exact Nat.le_refl _)
  have hr := readSpec_up p2 p3
  have hst := strtouint_partial (s := hexUp a ++ 19 :: post) (count := some (hexUp a).length) (w := w) (radix := 16) (.inr ⟨_, rfl, by simp⟩) (.inr (by decide)) (by rw [et]; exact hr.1)
  rw [et, hr.2, p4, Nat.min_eq_left (by omega)] at hst
  have hlen : (tokenTag a).length = (hexUp a).length + 2 := by unfold tokenTag; simp
  rw [e0, hlen]
  unfold parseTag
  have h18 : rd (pre ++ 18 :: (hexUp a ++ 19 :: post)) pre.length = some 18 := by unfold rd; simp
  rw [h18]
  simp only [Option.bind_eq_bind, Option.bind_some, ne_eq, not_true_eq_false, if_false]
  rw [show pre ++ 18 :: (hexUp a ++ 19 :: post) = pre ++ ([18] ++ (hexUp a ++ 19 :: post)) from rfl, hcl]
  simp only [Option.bind_some]
  rw [show pre ++ ([18] ++ (hexUp a ++ 19 :: post)) = pre ++ 18 :: (hexUp a ++ 19 :: post) from rfl, e1, show pre.length + 1 + (hexUp a).length - pre.length - 1 = (hexUp a).length by omega, hst]
  simp only [Option.bind_some]
  rw [if_neg (by omega)]
  congr 2; omega

/-- **C114** Two tokens have the same tag only if they are the same. -/
theorem token_tag_inj {a b : Nat} (h : tokenTag a = tokenTag b) : a = b := by
  have e : hexUp a = hexUp b := by
    unfold tokenTag at h
    injection h with _ h
    exact List.append_inj_left' h rfl
  rw [← (hexUp_props a).2.2.2, e, (hexUp_props b).2.2.2]

/-- **C114** What does not begin with the mark is not a tag. -/
theorem token_tag_other (w : Nat) {pre post : List Int} {c : Int} (h : c ≠ 18) : parseTag w (pre ++ c :: post) pre.length = some .null := by
  unfold parseTag
  have : rd (pre ++ c :: post) pre.length = some c := by unfold rd; simp
  rw [this]
  simp [h]

/-- **C114** Reading a tag stays within the string: of any string with a terminator. -/
theorem token_tag_total (w : Nat) (a : List Int) {i : Nat} (hi : i ≤ a.length) : ∃ r, parseTag w (a ++ [0]) i = some r := by
  unfold parseTag
  have hl : i < (a ++ [0]).length := by simp; omega
  have hr : rd (a ++ [0]) i = some (a ++ [0])[i] := by unfold rd; exact List.getElem?_eq_getElem hl
  rw [hr]
  simp only [Option.bind_eq_bind, Option.bind_some]
  split
  · exact ⟨_, rfl⟩
  · next hc =>
    have hi' : i < a.length := by
      by_cases q : i < a.length
      · exact q
      · exfalso; apply hc
        have : i = a.length := by omega
        subst this; simp
    have h0 : (0 : Int) ∈ (a ++ [0]).drop (i + 1) := by rw [List.drop_append_of_le_length (by omega)]; simp
    obtain ⟨r, hr⟩ := tagClose_total _ (a ++ [0]) (i + 1) (Nat.le_refl _) (by simp; omega) h0
    rw [hr]
    cases r with
    | none => exact ⟨_, rfl⟩
    | some e =>
      simp only [Option.bind_some]
      obtain ⟨p, hp, _⟩ := parse_spec (s := (a ++ [0]).drop (i + 1)) (count := some (e - i - 1)) (w := w) (radix := 16) (.inl h0) (.inr (by decide))
      unfold strtouint
      rw [hp]
      simp only [Option.map_some, Option.bind_some]
      repeat' split
      all_goals exact ⟨_, rfl⟩

example : parseTag 64 (asc "ab" ++ tokenTag 0x7fff12c0 ++ asc "c") 2 = some (.tok 0x7fff12c0 12) := by decide +kernel
example : parseTag 64 (asc "ab" ++ tokenTag 0x7fff12c0 ++ asc "c") 1 = some .null := by decide +kernel
example : tokenTag 0x7fff12c0 = [18] ++ asc "7FFF12C0" ++ [19] := by decide +kernel

/-- Whatever stands between the marks is taken for an address: a number that is none yields a null pointer and an
exception; a text of the document that decodes to marks yields an address of its author's choice. -/
theorem token_tag_forged : parseTag 64 ([18] ++ asc "zz" ++ [19, 0]) 0 = some .throws ∧ parseTag 64 ([18] ++ asc "-1" ++ [19, 0]) 0 = some (.tok (2 ^ 64 - 2) 4) := ⟨by decide +kernel, by decide +kernel⟩

end Verif.Html
