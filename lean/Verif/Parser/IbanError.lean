import Verif.Parser.Iban
import Verif.Parser.Sgml
/-
What the check digits of IBAN and of the creditor reference are for (include/stdex/parser.hpp 4845-4896, 5003-5044): one wrong character, and two characters interchanged, are found.
-/
namespace Verif.Parser
open Verif.Str Verif.Sgml

/-! ### Specification -/

/-- Both digits, or both letters. -/
def SameKind (c d : Int) : Prop := (48 ≤ c ∧ c ≤ 57 ∧ 48 ≤ d ∧ d ≤ 57) ∨ (65 ≤ c ∧ c ≤ 90 ∧ 65 ≤ d ∧ d ≤ 90)

/-- The texts differ in one character: another digit for a digit, or another letter for a letter. -/
def OneWrong (x y : List Int) : Prop := ∃ l c d r, x = l ++ c :: r ∧ y = l ++ d :: r ∧ c ≠ d ∧ SameKind c d

/-- Two neighbouring characters, different digits or different letters, are interchanged. -/
def Swapped (x y : List Int) : Prop := ∃ l c d r, x = l ++ c :: d :: r ∧ y = l ++ d :: c :: r ∧ c ≠ d ∧ SameKind c d

/-- An IBAN as it is written, without blanks. -/
def Iban.written (x : Iban) : List Int := x.country ++ x.check ++ x.bban

/-- A creditor reference as it is written without RF and blanks, and filled up with zeros. -/
def Creditor.written (x : Creditor) : List Int := x.check ++ x.reference

/-! ### Numbers modulo 97 -/

/-- What the characters behind multiply by. -/
def scale (r : List Int) : Nat := 10 ^ (r.length + letters r)

/-- What a character stands for. -/
def worth (c : Int) : Nat := if 65 ≤ c then (c - 55).toNat else (c - 48).toNat

theorem scale_cons (c : Int) (r : List Int) : scale (c :: r) = scale [c] * scale r := by
  unfold scale
  rw [← Nat.pow_add]
  congr 1
  simp only [letters, List.length_cons, List.length_nil, List.countP_cons, List.countP_nil]
  omega

theorem iso_one (c : Int) (n : Nat) : isoNumber [c] n = n * scale [c] + worth c := by
  by_cases h : 65 ≤ c
  · simp [isoNumber, scale, letters, worth, h]
  · simp [isoNumber, scale, letters, worth, h]

theorem iso_linear : ∀ (r : List Int) (n : Nat), isoNumber r n = n * scale r + isoNumber r 0
  | [], n => by simp [isoNumber, scale, letters]
  | c :: r, n => by
    rw [isoNumber_cons, isoNumber_cons c r 0, iso_linear r, iso_linear r (isoNumber [c] 0), iso_one, iso_one, scale_cons c r, Nat.zero_mul, Nat.zero_add, Nat.add_mul, Nat.mul_assoc, Nat.add_assoc]

/-- 97 does not divide a power of 10. -/
theorem cancel97 : ∀ (k : Nat) {a b : Nat}, (a * 10 ^ k) % 97 = (b * 10 ^ k) % 97 → a % 97 = b % 97
  | 0, a, b, h => by simpa using h
  | k + 1, a, b, h => by
    rw [Nat.pow_succ, ← Nat.mul_assoc, ← Nat.mul_assoc] at h
    have : (a * 10 ^ k) % 97 = (b * 10 ^ k) % 97 := by omega
    exact cancel97 k this

theorem kind_scale {c d : Int} (h : SameKind c d) : scale [c] = scale [d] ∧ ((48 ≤ c ∧ c ≤ 57 ∧ scale [c] = 10) ∨ (65 ≤ c ∧ c ≤ 90 ∧ scale [c] = 100)) := by
  rcases h with ⟨a, b, a', b'⟩ | ⟨a, b, a', b'⟩
  · have c1 : ¬ 65 ≤ c := by omega
    have c2 : ¬ 65 ≤ d := by omega
    simp [scale, letters, c1, c2, a, b]
  · simp [scale, letters, a, b, a']

theorem kind_worth {c d : Int} (h : SameKind c d) (e : worth c % 97 = worth d % 97) : c = d := by
  unfold worth at e
  rcases h with ⟨a, b, a', b'⟩ | ⟨a, b, a', b'⟩
  · rw [if_neg (by omega), if_neg (by omega)] at e; omega
  · rw [if_pos a, if_pos a'] at e; omega

theorem iso_at (l : List Int) (c : Int) (r : List Int) : isoNumber (l ++ c :: r) 0 = (isoNumber l 0 * scale [c] + worth c) * scale r + isoNumber r 0 := by
  rw [isoNumber_append, isoNumber_cons, iso_linear r, iso_one]

theorem add_cancel97 {a b c : Nat} (h : (a + c) % 97 = (b + c) % 97) : a % 97 = b % 97 := by omega

/-- One wrong character changes the remainder. -/
theorem wrong_remainder {l r : List Int} {c d : Int} (h : SameKind c d) (hn : c ≠ d) : isoNumber (l ++ c :: r) 0 % 97 ≠ isoNumber (l ++ d :: r) 0 % 97 := by
  intro e
  rw [iso_at, iso_at, (kind_scale h).1] at e
  have e := cancel97 (r.length + letters r) (add_cancel97 e)
  exact hn (kind_worth h (by omega))

/-- So do two characters interchanged. -/
theorem swap_remainder {l r : List Int} {c d : Int} (h : SameKind c d) (hn : c ≠ d) : isoNumber (l ++ c :: d :: r) 0 % 97 ≠ isoNumber (l ++ d :: c :: r) 0 % 97 := by
  intro e
  have at2 : ∀ c d : Int, isoNumber (l ++ c :: d :: r) 0 = ((isoNumber l 0 * scale [c] + worth c) * scale [d] + worth d) * scale r + isoNumber r 0 := by
    intro c d
    rw [isoNumber_append, isoNumber_cons, isoNumber_cons d, iso_linear r, iso_one, iso_one]
  rw [at2, at2, (kind_scale h).1] at e
  have e := cancel97 (r.length + letters r) (add_cancel97 e)
  refine hn (kind_worth h ?_)
  rcases (kind_scale h).2 with ⟨_, _, s⟩ | ⟨_, _, s⟩
  · rw [(kind_scale h).1] at s
    rw [s] at e
    omega
  · rw [(kind_scale h).1] at s
    rw [s] at e
    omega

/-- The powers of 10 modulo 97 repeat after 96. -/
theorem order97 : ∀ k : Fin 96, k.val ≠ 0 → 10 ^ k.val % 97 ≠ 1 := by decide +kernel

/-- And the first and the last digit of a number interchanged. -/
theorem ends_remainder {r : List Int} {c d : Int} (hc : 48 ≤ c ∧ c ≤ 57) (hd : 48 ≤ d ∧ d ≤ 57) (hn : c ≠ d) (hl : r.length + letters r + 1 < 96) :
    isoNumber (c :: (r ++ [d])) 0 % 97 ≠ isoNumber (d :: (r ++ [c])) 0 % 97 := by
  intro e
  have at3 : ∀ c d : Int, (48 ≤ d ∧ d ≤ 57) → isoNumber (c :: (r ++ [d])) 0 = worth c * scale r * 10 + isoNumber r 0 * 10 + worth d := by
    intro c d hd
    have s : scale [d] = 10 := by have c2 : ¬ 65 ≤ d := by omega
                                  simp [scale, letters, c2]
    rw [isoNumber_cons, isoNumber_append, iso_linear r, iso_one, iso_one, s, Nat.zero_mul, Nat.zero_add, Nat.add_mul]
  rw [at3 c d hd, at3 d c hc] at e
  have k := order97 ⟨r.length + letters r + 1, hl⟩ (by simp)
  have k : scale r * 10 % 97 ≠ 1 := by unfold scale; rw [← Nat.pow_succ]; exact k
  have w : ∀ x : Int, (48 ≤ x ∧ x ≤ 57) → worth x < 10 := by
    intro x hx; unfold worth; rw [if_neg (by omega)]; omega
  have wc := w c hc
  have wd := w d hd
  have ne : worth c ≠ worth d := fun q => hn (kind_worth (.inl ⟨hc.1, hc.2, hd⟩) (by rw [q]))
  have key : ∀ a b s : Nat, a < 10 → b < 10 → a ≠ b → s % 97 ≠ 1 → (a * s + b) % 97 ≠ (b * s + a) % 97 := by
    have small : ∀ s : Fin 97, s.val ≠ 1 → ∀ a b : Fin 10, a ≠ b → (a.val * s.val + b.val) % 97 ≠ (b.val * s.val + a.val) % 97 := by decide +kernel
    intro a b s ha hb hab hs q
    refine small ⟨s % 97, Nat.mod_lt _ (by omega)⟩ hs ⟨a, ha⟩ ⟨b, hb⟩ (fun c => hab (congrArg Fin.val c)) ?_
    show (a * (s % 97) + b) % 97 = (b * (s % 97) + a) % 97
    rw [Nat.add_mod, Nat.mul_mod, Nat.mod_mod, ← Nat.mul_mod, ← Nat.add_mod, q]
    rw [Nat.add_mod (b * (s % 97)), Nat.mul_mod b (s % 97), Nat.mod_mod, ← Nat.mul_mod, ← Nat.add_mod]
  refine key (worth c) (worth d) (scale r * 10) wc wd ne k ?_
  rw [← Nat.mul_assoc, ← Nat.mul_assoc]
  omega

/-! ### The order in which the characters are taken -/

/-- The first `n` characters go behind the others, and `m` in between. -/
def rot (n : Nat) (m z : List Int) : List Int := z.drop n ++ m ++ z.take n

theorem rot_wrong {n : Nat} {m x y : List Int} (h : OneWrong x y) : isoNumber (rot n m x) 0 % 97 ≠ isoNumber (rot n m y) 0 % 97 := by
  obtain ⟨l, c, d, r, rfl, rfl, hn, hk⟩ := h
  have e : ∀ c : Int, rot n m (l ++ c :: r) = if l.length < n then (r.drop (n - l.length - 1) ++ m ++ l) ++ c :: r.take (n - l.length - 1) else l.drop n ++ c :: (r ++ m ++ l.take n) := by
    intro c
    unfold rot
    by_cases q : l.length < n
    · obtain ⟨k, rfl⟩ : ∃ k, n = l.length + (k + 1) := ⟨n - l.length - 1, by omega⟩
      rw [if_pos q, show l.length + (k + 1) - l.length - 1 = k from by omega, List.drop_append, List.take_append, List.drop_eq_nil_of_le (by omega), List.take_of_length_le (by omega)]
      simp
    · rw [if_neg q, List.drop_append_of_le_length (by omega), List.take_append_of_le_length (by omega)]
      simp
  rw [e, e]
  split
  · exact wrong_remainder hk hn
  · exact wrong_remainder hk hn

theorem letters_le (r : List Int) : letters r ≤ r.length := List.countP_le_length

theorem rot_swap {n : Nat} {m x y : List Int} (h : Swapped x y) (hd : ∀ c, x[n - 1]? = some c → 48 ≤ c ∧ c ≤ 57) (hn : 1 ≤ n) (hl : 2 * (x.length + m.length) < 97) :
    isoNumber (rot n m x) 0 % 97 ≠ isoNumber (rot n m y) 0 % 97 := by
  obtain ⟨l, c, d, r, rfl, rfl, hcd, hk⟩ := h
  by_cases q : l.length + 1 < n
  · have e : ∀ c d : Int, rot n m (l ++ c :: d :: r) = (r.drop (n - l.length - 2) ++ m ++ l) ++ c :: d :: r.take (n - l.length - 2) := by
      intro c d
      unfold rot
      obtain ⟨k, rfl⟩ : ∃ k, n = l.length + (k + 2) := ⟨n - l.length - 2, by omega⟩
      rw [show l.length + (k + 2) - l.length - 2 = k from by omega, List.drop_append, List.take_append, List.drop_eq_nil_of_le (by omega), List.take_of_length_le (by omega)]
      simp
    rw [e, e]
    exact swap_remainder hk hcd
  by_cases q2 : l.length + 1 = n
  · have e : ∀ c d : Int, rot n m (l ++ c :: d :: r) = d :: ((r ++ m ++ l) ++ [c]) := by
      intro c d
      unfold rot
      rw [← q2, List.drop_append, List.take_append, List.drop_eq_nil_of_le (by omega), List.take_of_length_le (by omega)]
      simp
    rw [e, e]
    have hc := hd c (by rw [← q2]; simp)
    have hd' : 48 ≤ d ∧ d ≤ 57 := by rcases hk with ⟨_, _, a, b⟩ | ⟨a, _⟩ <;> omega
    refine ends_remainder hd' hc (fun q => hcd q.symm) ?_
    have := letters_le (r ++ m ++ l)
    simp only [List.length_append, List.length_cons] at this hl ⊢
    omega
  · have e : ∀ c d : Int, rot n m (l ++ c :: d :: r) = l.drop n ++ c :: d :: (r ++ m ++ l.take n) := by
      intro c d
      unfold rot
      rw [List.drop_append_of_le_length (by omega), List.take_append_of_le_length (by omega)]
      simp
    rw [e, e]
    exact swap_remainder hk hcd

/-! ### The theorems -/

theorem iban_parts {v : Env} {t : List Int} (h : v.Ok t) {upper : Int → Int} {space : Sub} (hs : Takes t.length space) {i : Nat} (hi : i ≤ t.length) {old x : Iban}
    (q : iban v upper space i old = some (true, x)) :
    x.valid = decide (isoNumber (rot 4 [] x.written) 0 % 97 = 1) ∧ x.written.length ≤ 33 ∧ ∀ c, x.written[3]? = some c → 48 ≤ c ∧ c ≤ 57 := by
  unfold iban at q
  rcases ibanRun_spec h upper hs hi with ⟨a, b, d0, d1, w, j, p, e⟩ | ⟨_, e⟩
  · rw [e] at q
    cases q
    obtain ⟨row, hr, _, _, _, _, len⟩ := p.country
    have := (countries_length row hr).2
    refine ⟨?_, ?_, ?_⟩
    · simp [rot, Iban.written]
    · simp only [Iban.written, List.length_append, List.length_cons, List.length_nil]; omega
    · intro c hc
      simp [Iban.written] at hc
      have := p.digit1
      omega
  · rw [e] at q; cases q

/-- **C152** (IBAN) Of two IBANs that differ in one character - a digit for a digit or a letter for a letter, anywhere: in the country, the check digits or the number - or in two neighbouring digits or letters
interchanged, at most one is valid, wherever and however they are written. -/
theorem iban_error {v v' : Env} {t t' : List Int} (h : v.Ok t) (h' : v'.Ok t') {upper : Int → Int} {space space' : Sub} (hs : Takes t.length space) (hs' : Takes t'.length space') {i i' : Nat}
    (hi : i ≤ t.length) (hi' : i' ≤ t'.length) {old old' x y : Iban} (hx : iban v upper space i old = some (true, x)) (hy : iban v' upper space' i' old' = some (true, y)) (hv : x.valid = true)
    (e : OneWrong x.written y.written ∨ Swapped x.written y.written) : y.valid = false := by
  obtain ⟨a1, a2, a3⟩ := iban_parts h hs hi hx
  obtain ⟨b1, b2, b3⟩ := iban_parts h' hs' hi' hy
  rw [a1, decide_eq_true_eq] at hv
  rw [b1, decide_eq_false_iff_not, ← hv]
  intro c
  rcases e with e | e
  · exact rot_wrong e c.symm
  · exact rot_swap e a3 (by omega) (by simp; omega) c.symm

theorem creditor_parts {v : Env} {t : List Int} (h : v.Ok t) {upper : Int → Int} (hu : upper 0 = 0) {space : Sub} (hs : Takes t.length space) {i : Nat} (hi : i ≤ t.length) {old : List Int}
    (ho : old.length = 22) {x : Creditor} (q : creditor v upper space i old = some (true, x)) :
    x.valid = decide (isoNumber (rot 2 [82, 70] x.written) 0 % 97 = 1) ∧ x.written.length ≤ 23 ∧ ∀ c, x.written[1]? = some c → 48 ≤ c ∧ c ≤ 57 := by
  obtain ⟨s1, s2⟩ := creditor_partial h hu hs hi ho
  by_cases ex : ∃ d0 d1 w j, CreditorAt t (upCase v upper) space i d0 d1 w j
  · obtain ⟨d0, d1, w, j, p⟩ := ex
    by_cases hl : letters w ≤ 19
    · rw [s1 d0 d1 w j p hl] at q
      cases q
      have iz : ∀ (n : Nat) (u : List Int), isoNumber (List.replicate n 48 ++ u) 0 = isoNumber u 0 := by
        intro n u
        induction n with
        | zero => rfl
        | succ n ih => rw [List.replicate_succ, List.cons_append, isoNumber_cons]; exact ih
      refine ⟨?_, ?_, ?_⟩
      · have : rot 2 [82, 70] ([d0, d1] ++ (List.replicate (21 - w.length) 48 ++ w)) = List.replicate (21 - w.length) 48 ++ (w ++ [82, 70, d0, d1]) := by simp [rot]
        unfold Creditor.written
        rw [this, iz]
      · have := p.most
        simp only [Creditor.written, List.length_append, List.length_cons, List.length_nil, List.length_replicate]; omega
      · intro c hc
        simp [Creditor.written] at hc
        have := p.digit1
        omega
    · rw [creditor_overflow h hu hs hi ho p (by omega)] at q; cases q
  · rw [s2 fun d0 d1 w j p => ex ⟨d0, d1, w, j, p⟩] at q; cases q

/-- **C152** (creditor reference) The same for creditor references. -/
theorem creditor_error {v v' : Env} {t t' : List Int} (h : v.Ok t) (h' : v'.Ok t') {upper : Int → Int} (hu : upper 0 = 0) {space space' : Sub} (hs : Takes t.length space) (hs' : Takes t'.length space')
    {i i' : Nat} (hi : i ≤ t.length) (hi' : i' ≤ t'.length) {old old' : List Int} (ho : old.length = 22) (ho' : old'.length = 22) {x y : Creditor}
    (hx : creditor v upper space i old = some (true, x)) (hy : creditor v' upper space' i' old' = some (true, y)) (hv : x.valid = true)
    (e : OneWrong x.written y.written ∨ Swapped x.written y.written) : y.valid = false := by
  obtain ⟨a1, a2, a3⟩ := creditor_parts h hu hs hi ho hx
  obtain ⟨b1, b2, b3⟩ := creditor_parts h' hu hs' hi' ho' hy
  rw [a1, decide_eq_true_eq] at hv
  rw [b1, decide_eq_false_iff_not, ← hv]
  intro c
  rcases e with e | e
  · exact rot_wrong e c.symm
  · exact rot_swap e a3 (by omega) (by simp; omega) c.symm

theorem check_pair (m : Nat) (hm : m < 97) : ∃ a b : Nat, a < 10 ∧ b < 10 ∧ a * 10 + b = 98 - m ∧ (m + a * 10 + b) % 97 = 1 :=
  ⟨(98 - m) / 10, (98 - m) % 10, by omega, by omega, by omega, by omega⟩

theorem iso_two (w : List Int) {a b : Nat} (ha : a < 10) (hb : b < 10) : isoNumber (w ++ [48 + (a : Int), 48 + (b : Int)]) 0 = isoNumber w 0 * 100 + a * 10 + b := by
  rw [isoNumber_append]
  have c0 : ¬ (65 : Int) ≤ 48 + a := by omega
  have c1 : ¬ (65 : Int) ≤ 48 + b := by omega
  have t0 : ((48 : Int) + a - 48).toNat = a := by omega
  have t1 : ((48 : Int) + b - 48).toNat = b := by omega
  rw [isoNumber, if_neg c0, isoNumber, if_neg c1, isoNumber, t0, t1]
  omega

/-- **C152** (completeness) Whatever the number, with the check digits 98 - n, where n is the remainder with the digits 00, the number that is checked leaves the remainder 1. -/
theorem check_digits_exist (w : List Int) : ∃ a b : Nat, a < 10 ∧ b < 10 ∧ a * 10 + b = 98 - isoNumber (w ++ [48, 48]) 0 % 97 ∧ isoNumber (w ++ [48 + (a : Int), 48 + (b : Int)]) 0 % 97 = 1 := by
  have e := iso_two w (a := 0) (b := 0) (by omega) (by omega)
  have e : isoNumber (w ++ [48, 48]) 0 = isoNumber w 0 * 100 + 0 * 10 + 0 := e
  rw [e]
  obtain ⟨a, b, ha, hb, h1, h2⟩ := check_pair ((isoNumber w 0 * 100) % 97) (Nat.mod_lt _ (by omega))
  refine ⟨a, b, ha, hb, by omega, ?_⟩
  rw [iso_two w ha hb]
  omega

/-! ### Examples -/

/-- `SI56 1910 0000 0123 483`: the last but one and the last digits but one interchanged. -/
def ibanWrong : List Int := [83, 73, 53, 54, 32, 49, 57, 49, 48, 32, 48, 48, 48, 48, 32, 48, 49, 50, 51, 32, 52, 56, 51]

example : ∃ x y, iban (ipEnv ibanText) asciiUpper (charSub ibanText 32) 0 ibanInvalid = some (true, x) ∧ iban (ipEnv ibanWrong) asciiUpper (charSub ibanWrong 32) 0 ibanInvalid = some (true, y) ∧ x.valid = true ∧
    y.valid = false ∧ Swapped x.written y.written :=
  ⟨⟨[83, 73], [53, 54], [49, 57, 49, 48, 48, 48, 48, 48, 48, 49, 50, 51, 52, 51, 56], true, some (0, 23)⟩, ⟨[83, 73], [53, 54], [49, 57, 49, 48, 48, 48, 48, 48, 48, 49, 50, 51, 52, 56, 51], false, some (0, 23)⟩,
    by decide +kernel, by decide +kernel, rfl, rfl, [83, 73, 53, 54, 49, 57, 49, 48, 48, 48, 48, 48, 48, 49, 50, 51, 52], 51, 56, [], rfl, rfl, by decide, by unfold SameKind; omega⟩

/-- Check digits outside 02 to 98 are not refused: `NO98 0000 0000 022` is valid, and so is `NO01 0000 0000 022`. -/
theorem two_check_digits : ∃ x y, iban (ipEnv (asc "NO9800000000022")) asciiUpper (charSub (asc "NO9800000000022") 32) 0 ibanInvalid = some (true, x) ∧
    iban (ipEnv (asc "NO0100000000022")) asciiUpper (charSub (asc "NO0100000000022") 32) 0 ibanInvalid = some (true, y) ∧ x.valid = true ∧ y.valid = true ∧ x.bban = y.bban ∧ x.check ≠ y.check :=
  ⟨⟨asc "NO", asc "98", asc "00000000022", true, some (0, 15)⟩, ⟨asc "NO", asc "01", asc "00000000022", true, some (0, 15)⟩, by decide +kernel, by decide +kernel, rfl, rfl, rfl, by decide +kernel⟩

end Verif.Parser
