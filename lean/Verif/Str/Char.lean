/-
Character classification and case mapping (include/stdex/string.hpp 100-306).

A character is the integer it is promoted to. `T` is the character type: its width and signedness.
-/
namespace Verif.Str

/-- An integral character type. -/
structure CT where
  bits : Nat
  signed : Bool

/-- The values of the type. -/
def CT.has (t : CT) (c : Int) : Prop :=
  if t.signed then -(2 ^ (t.bits - 1) : Int) ≤ c ∧ c < 2 ^ (t.bits - 1) else 0 ≤ c ∧ c < (2 ^ t.bits : Int)

/-- Conversion of an `int` to the type. -/
def CT.wrap (t : CT) (x : Int) : Int := if t.signed then Int.bmod x (2 ^ t.bits) else x % (2 ^ t.bits : Int)

/-- `islbreak`, 114-118. -/
def islbreak (c : Int) : Bool := c = 0x0a ∨ c = 0x0d

/-- `isspace`, 144-148. -/
def isspace (c : Int) : Bool := c = 0x20 ∨ c = 0x09 ∨ c = 0x0a ∨ c = 0x0d ∨ c = 0x0b ∨ c = 0x0c

/-- `ispunct`, 155-159. -/
def ispunct (c : Int) : Bool :=
  (0x21 ≤ c ∧ c ≤ 0x2f) ∨ (0x3a ≤ c ∧ c ≤ 0x40) ∨ (0x5b ≤ c ∧ c ≤ 0x60) ∨ (0x7b ≤ c ∧ c ≤ 0x7e)

/-- `islower`, 166-170. -/
def islower (c : Int) : Bool := 0x61 ≤ c ∧ c ≤ 0x7a

/-- `isupper`, 177-181. -/
def isupper (c : Int) : Bool := 0x41 ≤ c ∧ c ≤ 0x5a

/-- `isdigit`, 188-192. -/
def isdigit (c : Int) : Bool := 0x30 ≤ c ∧ c ≤ 0x39

/-- `isalpha`, 199-203. -/
def isalpha (c : Int) : Bool := islower c || isupper c

/-- `is7bit`, 210-214. -/
def is7bit (c : Int) : Bool := 0 ≤ c ∧ c ≤ 0x7f

/-- `tolower`, 289-293. The promoted `int` has 32 bits. -/
def tolower (t : CT) (c : Int) : Int := if isupper c then t.wrap (BitVec.ofInt 32 c ||| 0x20#32).toInt else c

/-- `toupper`, 302-306, as written: `chr | ~0x20`. -/
def toupper (t : CT) (c : Int) : Int := if islower c then t.wrap (BitVec.ofInt 32 c ||| ~~~0x20#32).toInt else c

/-! ### Specification -/

/-- The lower-case counterpart of an ASCII letter. -/
def lowerSpec (c : Int) : Int := if 0x41 ≤ c ∧ c ≤ 0x5a then c + 32 else c

theorem upper_cases {c : Int} (h : isupper c = true) : ∃ n : Fin 26, c = 0x41 + n.val := by
  simp only [isupper, decide_eq_true_eq] at h
  exact ⟨⟨(c - 0x41).toNat, by omega⟩, by simp only; omega⟩

theorem lower_cases {c : Int} (h : islower c = true) : ∃ n : Fin 26, c = 0x61 + n.val := by
  simp only [islower, decide_eq_true_eq] at h
  exact ⟨⟨(c - 0x61).toNat, by omega⟩, by simp only; omega⟩

theorem wrap_small (t : CT) (hb : 8 ≤ t.bits) {x : Int} (h0 : 0 ≤ x) (h1 : x < 128) : t.wrap x = x := by
  have h2 : (2 : Int) ^ 8 ≤ 2 ^ t.bits := by
    have : (2 : Nat) ^ 8 ≤ 2 ^ t.bits := Nat.pow_le_pow_right (by decide) hb
    exact_mod_cast this
  unfold CT.wrap
  split
  · rw [Int.bmod_eq_of_le] <;> (try push_cast) <;> omega
  · exact Int.emod_eq_of_lt h0 (by omega)

theorem lower_bits : ∀ n : Fin 26, (BitVec.ofInt 32 (0x41 + n.val) ||| 0x20#32).toInt = 0x61 + (n.val : Int) := by decide +kernel
theorem upper_bits : ∀ n : Fin 26, (BitVec.ofInt 32 (0x61 + n.val) ||| ~~~0x20#32).toInt = -1 := by decide +kernel

/-- **C51** `tolower` maps exactly the upper-case ASCII letters, to their lower-case counterparts, in every character
type. -/
theorem tolower_spec (t : CT) (hb : 8 ≤ t.bits) (c : Int) : tolower t c = lowerSpec c := by
  unfold tolower lowerSpec
  by_cases h : isupper c = true
  · obtain ⟨n, rfl⟩ := upper_cases h
    have := n.isLt
    rw [if_pos h, if_pos (by omega), lower_bits, wrap_small t hb (by omega) (by omega)]
    omega
  · rw [if_neg h]
    simp only [isupper, decide_eq_true_eq] at h
    rw [if_neg h]

/-- **C51** (the part of `toupper` that holds) Other characters than lower-case ASCII letters are unchanged; so an
upper-case letter survives `toupper`. Missing: the mapping of lower-case letters, see `toupper_wrong`. -/
theorem toupper_other_partial (t : CT) (c : Int) (h : ¬ (0x61 ≤ c ∧ c ≤ 0x7a)) : toupper t c = c := by
  unfold toupper
  rw [if_neg (by simp only [islower, decide_eq_true_eq]; exact h)]

/-- **C51** (defect) `toupper` maps every lower-case letter to the all-ones character: its mask is or'ed, not and'ed. -/
theorem toupper_wrong (t : CT) (c : Int) (h : 0x61 ≤ c ∧ c ≤ 0x7a) : toupper t c = t.wrap (-1) := by
  have h' : islower c = true := by simp only [islower, decide_eq_true_eq]; exact h
  obtain ⟨n, rfl⟩ := lower_cases h'
  unfold toupper
  rw [if_pos h', upper_bits]

/-- `char` is signed, `char16_t` is not: 'a' becomes -1 and 0xffff. -/
theorem toupper_wrong_example : toupper ⟨8, true⟩ 0x61 = -1 ∧ toupper ⟨16, false⟩ 0x61 = 0xffff := by decide +kernel

/-- **C51** Lower case is stable, and letters stay letters. -/
theorem tolower_idem (t : CT) (hb : 8 ≤ t.bits) (c : Int) :
    tolower t (tolower t c) = tolower t c ∧ (isalpha (tolower t c) = isalpha c) ∧ isupper (tolower t c) = false := by
  rw [tolower_spec t hb, tolower_spec t hb]
  unfold lowerSpec isalpha islower isupper
  split
  · refine ⟨by rw [if_neg (by omega)], ?_, ?_⟩
    · rw [Bool.eq_iff_iff]; simp only [Bool.or_eq_true, decide_eq_true_eq]; omega
    · simp; omega
  · exact ⟨rfl, rfl, by simp; omega⟩

/-- The classes of ASCII are disjoint, and every printable ASCII character is a space, a letter, a digit or
punctuation. -/
theorem classes (c : Int) (h0 : 0x20 ≤ c) (h1 : c ≤ 0x7e) :
    (isspace c ∨ isalpha c ∨ isdigit c ∨ ispunct c) ∧ ¬ (isspace c ∧ (isalpha c ∨ isdigit c ∨ ispunct c)) ∧
    ¬ (isalpha c ∧ (isdigit c ∨ ispunct c)) ∧ ¬ (isdigit c ∧ ispunct c) ∧ ¬ (islower c ∧ isupper c) := by
  simp only [isspace, isalpha, isdigit, ispunct, islower, isupper, Bool.or_eq_true, decide_eq_true_eq]
  omega

/-- The code of a character literal. -/
def code (c : Char) : Int := (c.toNat : Int)

/-- **C51** The classes, by the characters in them. -/
theorem class_members (c : Int) :
    (isspace c = true ↔ c = code ' ' ∨ (code '\t' ≤ c ∧ c ≤ code '\r')) ∧
    (isdigit c = true ↔ code '0' ≤ c ∧ c ≤ code '9') ∧
    (isupper c = true ↔ code 'A' ≤ c ∧ c ≤ code 'Z') ∧
    (islower c = true ↔ code 'a' ≤ c ∧ c ≤ code 'z') ∧
    (ispunct c = true ↔ code '!' ≤ c ∧ c ≤ code '~' ∧ isalpha c = false ∧ isdigit c = false) ∧
    (islbreak c = true ↔ c = code '\n' ∨ c = code '\r') := by
  have e : code ' ' = 32 ∧ code '\t' = 9 ∧ code '\r' = 13 ∧ code '0' = 48 ∧ code '9' = 57 ∧ code 'A' = 65 ∧ code 'Z' = 90 ∧
      code 'a' = 97 ∧ code 'z' = 122 ∧ code '!' = 33 ∧ code '~' = 126 ∧ code '\n' = 10 := by decide
  obtain ⟨e1, e2, e3, e4, e5, e6, e7, e8, e9, e10, e11, e12⟩ := e
  rw [e1, e2, e3, e4, e5, e6, e7, e8, e9, e10, e11, e12]
  simp only [isspace, isalpha, isdigit, ispunct, islower, isupper, islbreak, Bool.or_eq_false_iff, decide_eq_true_eq, decide_eq_false_iff_not]
  refine ⟨?_, ?_, ?_, ?_, ?_, ?_⟩ <;> try simp only [Bool.or_eq_true, decide_eq_true_eq]
  all_goals omega

example : tolower ⟨8, true⟩ 0x5a = 0x7a ∧ tolower ⟨16, false⟩ 0xc4 = 0xc4 := by decide +kernel

end Verif.Str
