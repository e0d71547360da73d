import Verif.Parser.SiRef
import Verif.Parser.IbanError
/-
What the check digits of a Slovenian payment reference are for (include/stdex/parser.hpp 5130-5527): which wrong digits are found, and which are not.
-/
namespace Verif.Parser
open Verif.Str Verif.Sgml

/-! ### Specification -/

/-- One digit of a number is replaced by another, and it is not the 11th or 22nd digit from the right. -/
def DigitWrong (p q : List Int) : Prop := ∃ l c d r, p = l ++ c :: r ∧ q = l ++ d :: r ∧ c ≠ d ∧ (48 ≤ c ∧ c ≤ 57) ∧ (48 ≤ d ∧ d ≤ 57) ∧ (r.length + 1) % 11 ≠ 0

/-- Two neighbouring digits are interchanged. -/
def DigitsSwapped (p q : List Int) : Prop := ∃ l c d r, p = l ++ c :: d :: r ∧ q = l ++ d :: c :: r ∧ c ≠ d ∧ (48 ≤ c ∧ c ≤ 57) ∧ (48 ≤ d ∧ d ≤ 57)

/-- A mistake that the check digit reveals: the check digit of the right number is not 0, and if the mistake moves the check digit, neither is that of the wrong one. -/
def Revealed (p q : List Int) : Prop := p.getLast? ≠ some 48 ∧ (DigitWrong p q ∨ (DigitsSwapped p q ∧ q.getLast? ≠ some 48))

/-! ### Remainders by 11 -/

/-- The digits weighted by 1, 2, 3, … from the right. -/
def total : List Int → Nat
  | [] => 0
  | c :: r => (c - 48).toNat * (r.length + 1) + total r

theorem total_append_one (c : Int) : ∀ l : List Int, total (l ++ [c]) = weighted l + (c - 48).toNat
  | [] => by simp [total, weighted]
  | x :: l => by
    rw [List.cons_append, total, weighted, total_append_one c l, List.length_append, List.length_cons, List.length_nil]
    simp only [Nat.add_assoc]

/-- How a digit counts. -/
theorem total_at (c : Int) (r : List Int) : ∀ l : List Int, ∃ k, ∀ d : Int, total (l ++ d :: r) = k + (d - 48).toNat * (r.length + 1)
  | [] => ⟨total r, fun d => by rw [List.nil_append, total, Nat.add_comm]⟩
  | x :: l => by
    obtain ⟨k, hk⟩ := total_at c r l
    refine ⟨(x - 48).toNat * (l.length + (r.length + 1) + 1) + k, fun d => ?_⟩
    rw [List.cons_append, total, hk, List.length_append, List.length_cons]
    omega

theorem total_at2 (r : List Int) : ∀ l : List Int, ∃ k, ∀ c d : Int, total (l ++ c :: d :: r) = k + (c - 48).toNat * (r.length + 2) + (d - 48).toNat * (r.length + 1)
  | [] => ⟨total r, fun c d => by simp only [List.nil_append, total, List.length_cons, Nat.add_assoc, Nat.reduceAdd]; omega⟩
  | x :: l => by
    obtain ⟨k, hk⟩ := total_at2 r l
    refine ⟨(x - 48).toNat * (l.length + (r.length + 2) + 1) + k, fun c d => ?_⟩
    simp only [List.cons_append, total, hk, List.length_append, List.length_cons, Nat.add_assoc, Nat.reduceAdd]

/-- A number that passes and does not end with 0 has a total divisible by 11. -/
theorem passes_total {p : List Int} (h : Passes p) (hn : p.getLast? ≠ some 48) : total p % 11 = 0 := by
  rcases List.eq_nil_or_concat p with rfl | ⟨l, c, rfl⟩
  · rfl
  · unfold Passes at h
    rw [List.concat_eq_append] at *
    rw [List.getLast?_concat] at hn
    rw [List.getLast?_concat, List.dropLast_concat] at h
    injection h with h
    rw [total_append_one]
    by_cases z : weighted l % 11 ≤ 1
    · rw [if_pos z] at h; exact absurd (by rw [h]) hn
    · rw [if_neg z] at h; omega

theorem mul_mod11 {a b w : Nat} (ha : a < 10) (hb : b < 10) (hw : w % 11 ≠ 0) (h : (a * w) % 11 = (b * w) % 11) : a = b := by
  have small : ∀ s : Fin 11, s.val ≠ 0 → ∀ a b : Fin 10, (a.val * s.val) % 11 = (b.val * s.val) % 11 → a = b := by decide +kernel
  have q : ∀ x, (x * (w % 11)) % 11 = (x * w) % 11 := fun x => by rw [Nat.mul_mod, Nat.mod_mod, ← Nat.mul_mod]
  exact congrArg Fin.val (small ⟨w % 11, Nat.mod_lt _ (by omega)⟩ hw ⟨a, ha⟩ ⟨b, hb⟩ (by rw [q, q]; exact h))

theorem wrong_revealed {p q : List Int} (h : DigitWrong p q) (hp : Passes p) (hn : p.getLast? ≠ some 48) : ¬ Passes q := by
  intro hq
  obtain ⟨l, c, d, r, rfl, rfl, hc, dc, dd, hw⟩ := h
  by_cases e : r = []
  · subst e
    unfold Passes at hp hq
    rw [List.getLast?_concat, List.dropLast_concat] at hp hq
    exact hc (Option.some.inj (hp.trans hq.symm))
  · have last : ∀ x : Int, (l ++ x :: r).getLast? = r.getLast? := by
      intro x
      obtain ⟨y, r', rfl⟩ := List.exists_cons_of_ne_nil e
      rw [List.getLast?_append, List.getLast?_cons_cons, List.getLast?_cons]
      rfl
    have h1 := passes_total hp hn
    have h2 := passes_total hq (by rw [last]; rw [last] at hn; exact hn)
    obtain ⟨k, hk⟩ := total_at c r l
    rw [hk] at h1 h2
    have := mul_mod11 (a := (c - 48).toNat) (b := (d - 48).toNat) (by omega) (by omega) hw (by omega)
    omega

theorem swap_revealed {p q : List Int} (h : DigitsSwapped p q) (hp : Passes p) (hn : p.getLast? ≠ some 48) (hn' : q.getLast? ≠ some 48) : ¬ Passes q := by
  intro hq
  have h1 := passes_total hp hn
  have h2 := passes_total hq hn'
  obtain ⟨l, c, d, r, rfl, rfl, hc, dc, dd⟩ := h
  obtain ⟨k, hk⟩ := total_at2 r l
  rw [hk] at h1 h2
  obtain ⟨a, ha⟩ : ∃ a : Nat, c = 48 + (a : Int) := ⟨(c - 48).toNat, by omega⟩
  obtain ⟨b, hb⟩ : ∃ b : Nat, d = 48 + (b : Int) := ⟨(d - 48).toNat, by omega⟩
  have ea : (c - 48).toNat = a := by omega
  have eb : (d - 48).toNat = b := by omega
  simp only [ea, eb, Nat.mul_add] at h1 h2
  generalize a * r.length = u at h1 h2
  generalize b * r.length = w at h1 h2
  omega

/-- The check digit reveals the mistake. -/
theorem revealed {p q : List Int} (h : Revealed p q) (hp : Passes p) : ¬ Passes q := by
  rcases h.2 with a | ⟨a, b⟩
  · exact wrong_revealed a hp h.1
  · exact swap_revealed a hp h.1 b

/-! ### The parser -/

/-- The numbers of a reference as they are written in the text. -/
def SiRef.numbers (x : SiRef) (t : List Int) : List (List Int) := x.parts.map (slice t)

/-- What a match of `basic_si_reference` says about a reference that has a rule. -/
theorem si_valid {v : Env} {t : List Int} (h : v.Ok t) {upper : Int → Int} (hu : upper 0 = 0) {space : Sub} (hs : Takes t.length space) {i : Nat} (hi : i ≤ t.length) (old : SiRef) {x : SiRef}
    (hx : siRef v upper space i old = some (true, x)) {d0 d1 : Int} (hm : x.model = [d0, d1]) {gs : List (List Nat)} (hr : rule (modelNumber d0 d1) x.parts.length = .checks gs)
    (h3 : ¬ (modelNumber d0 d1 = 1 ∧ x.parts.length = 3)) (hv : x.valid = true) : ∀ g ∈ gs, Passes (together (x.numbers t) g) := by
  obtain ⟨p1, p2, p3⟩ := siRef_partial h hu hs hi old
  by_cases a : ∃ d0 d1, SiAt t (upCase v upper) i d0 d1
  · obtain ⟨e0, e1, a⟩ := a
    by_cases m : modelNumber e0 e1 = 99
    · have := p1 e0 e1 a m
      rw [hx] at this
      injection this with this
      injection this with _ this
      subst this
      injection hm with q1 q2
      injection q2 with q2 _
      subst q1 q2
      rw [m] at hr
      have : ∀ n, rule 99 n = .unknown := fun n => rfl
      rw [this] at hr
      cases hr
    · obtain ⟨ivs, ok, _, q, w⟩ := p2 e0 e1 a m
      rw [hx] at q
      injection q with q
      injection q with _ q
      subst q
      injection hm with q1 q2
      injection q2 with q2 _
      subst q1 q2
      have := (w h3).1 hv
      unfold RefValid at this
      rw [List.length_map, hr] at this
      exact this.2.2
  · have := p3 (fun d0 d1 b => a ⟨d0, d1, b⟩)
    rw [hx] at this
    injection this with this
    injection this with this _
    cases this

/-- **C154** If a reference is valid, then a reference of the same model and as many numbers is not valid if it differs, where a check digit is required, by one wrong digit or by two
neighbouring digits interchanged, as far as modulus 11 reveals it. -/
theorem si_error {v v' : Env} {t t' : List Int} (h : v.Ok t) (h' : v'.Ok t') {upper : Int → Int} (hu : upper 0 = 0) {space space' : Sub} (hs : Takes t.length space) (hs' : Takes t'.length space')
    {i i' : Nat} (hi : i ≤ t.length) (hi' : i' ≤ t'.length) (old old' : SiRef) {x y : SiRef} (hx : siRef v upper space i old = some (true, x)) (hy : siRef v' upper space' i' old' = some (true, y))
    {d0 d1 : Int} (mx : x.model = [d0, d1]) (my : y.model = [d0, d1]) (same : x.parts.length = y.parts.length) (h3 : ¬ (modelNumber d0 d1 = 1 ∧ x.parts.length = 3))
    {gs : List (List Nat)} (hr : rule (modelNumber d0 d1) x.parts.length = .checks gs) {g : List Nat} (hg : g ∈ gs) (wrong : Revealed (together (x.numbers t) g) (together (y.numbers t') g))
    (hv : x.valid = true) : y.valid = false := by
  cases e : y.valid with
  | false => rfl
  | true => exact absurd (si_valid h' hu hs' hi' old' hy my (same ▸ hr) (same ▸ h3) e g hg) (revealed wrong (si_valid h hu hs hi old hx mx hr h3 hv g hg))

/-! ### Examples and what is not revealed -/

/-- A reference in a text as it is parsed. -/
def siOf (t : List Int) : Option (Bool × SiRef) := siRef (ipEnv t) id (charSub t 32) 0 ⟨[], [], false, none⟩

/-- `SI12 12345679` is valid, `SI12 21345679` and `SI12 12345678` are not. -/
example : (ipEnv (asc "SI12 12345679")).Ok (asc "SI12 12345679") ∧ siOf (asc "SI12 12345679") = some (true, ⟨asc "12", [(5, 13)], true, some (0, 13)⟩) ∧
    siOf (asc "SI12 21345679") = some (true, ⟨asc "12", [(5, 13)], false, some (0, 13)⟩) ∧ Revealed (asc "12345679") (asc "21345679") ∧
    siOf (asc "SI12 12345678") = some (true, ⟨asc "12", [(5, 13)], false, some (0, 13)⟩) ∧ Revealed (asc "12345679") (asc "12345678") ∧
    rule 12 1 = .checks [[0]] :=
  ⟨⟨.inl (by decide), by decide +kernel, (fun n q => nomatch q), fun _ => Iff.rfl⟩, by decide +kernel, by decide +kernel, ⟨by decide +kernel, .inr ⟨⟨[], 49, 50, asc "345679", rfl, rfl, by decide, by decide, by decide⟩, by decide +kernel⟩⟩, by decide +kernel,
    ⟨by decide +kernel, .inl ⟨asc "1234567", 57, 56, [], rfl, rfl, by decide, by decide, by decide, by decide⟩⟩, rfl⟩

/-- The eleventh digit from the right is not protected: `SI12 10000000019` and `SI12 20000000019` are both valid. -/
theorem si_eleventh : siOf (asc "SI12 10000000019") = some (true, ⟨asc "12", [(5, 16)], true, some (0, 16)⟩) ∧
    siOf (asc "SI12 20000000019") = some (true, ⟨asc "12", [(5, 16)], true, some (0, 16)⟩) := by decide +kernel

/-- Nor is a digit if the check digit is 0: `SI12 60` and `SI12 00` are both valid, and so are `SI12 701` and `SI12 710`. -/
theorem si_zero : siOf (asc "SI12 60") = some (true, ⟨asc "12", [(5, 7)], true, some (0, 7)⟩) ∧ siOf (asc "SI12 00") = some (true, ⟨asc "12", [(5, 7)], true, some (0, 7)⟩) ∧
    siOf (asc "SI12 701") = some (true, ⟨asc "12", [(5, 8)], true, some (0, 8)⟩) ∧ siOf (asc "SI12 710") = some (true, ⟨asc "12", [(5, 8)], true, some (0, 8)⟩) := by decide +kernel

end Verif.Parser
