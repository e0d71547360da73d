/-
Model of include/stdex/math.hpp: checked `mul`/`add` on `size_t`, `rol`, `muldiv`.
`size_t` is 64 bits wide (x86-64/ARM64 targets of the project).
-/
namespace Verif.Math

/-- Number of values of `size_t`. -/
local notation "M" => (2 ^ 64 : Nat)

/-- `__builtin_mul_overflow(a, b, &result)`: the wrapped product and whether it wrapped
(GCC/Clang documentation). -/
def builtinMulOverflow (a b : Nat) : Nat × Bool := (a * b % M, decide (a * b ≠ a * b % M))

/-- `__builtin_add_overflow`. -/
def builtinAddOverflow (a b : Nat) : Nat × Bool := ((a + b) % M, decide (a + b ≠ (a + b) % M))

/-- `mul`, math.hpp 26-43, branch 37-41 (GCC/Clang); `none` = throws `invalid_argument`. -/
def mul (a b : Nat) : Option Nat :=
  let r := builtinMulOverflow a b
  if !r.2 then some r.1 else none

/-- `mul`, math.hpp 26-43, branch 32-36 (old MSVC). -/
def mulOld (a b : Nat) : Option Nat :=
  if a = 0 then some 0
  else if b ≤ (M - 1) / a then some (a * b % M)
  else none

/-- `add`, math.hpp 53-68, branch 62-66. -/
def add (a b : Nat) : Option Nat :=
  let r := builtinAddOverflow a b
  if !r.2 then some r.1 else none

/-- `add`, math.hpp 53-68, branch 59-61 (old MSVC): `a <= SIZE_MAX - b`. -/
def addOld (a b : Nat) : Option Nat :=
  if a ≤ (M - 1) - b then some ((a + b) % M) else none

/-- `rol`, math.hpp 78-85, the non-Windows branch 83.  A shift by a negative amount or by
32 or more bits is undefined behaviour: `none`. -/
def rol (v : BitVec 32) (bits : Int) : Option (BitVec 32) :=
  if bits < 0 ∨ 32 ≤ bits ∨ 32 - bits < 0 ∨ 32 ≤ 32 - bits then none
  else some ((v <<< bits.toNat) ||| (v >>> (32 - bits).toNat))

/-- `muldiv(int32_t)`, math.hpp 96-99: product in `int64_t`, C division (truncating),
conversion to `int32_t` modulo 2^32; `none` = division by zero (undefined). -/
def muldiv32 (n k q : Int) : Option Int :=
  if q = 0 then none else some (Int.bmod ((n * k).tdiv q) (2 ^ 32))

/-- `muldiv(uint32_t)`, math.hpp 110-113. -/
def muldivu32 (n k q : Nat) : Option Nat :=
  if q = 0 then none else some ((n * k % 2 ^ 64) / q % 2 ^ 32)

/-- `muldiv(int64_t)`, math.hpp 124-127: signed overflow of the product, division by zero
and INT64_MIN / -1 are undefined: `none`. -/
def muldiv64 (n k q : Int) : Option Int :=
  if n * k < -2 ^ 63 ∨ 2 ^ 63 ≤ n * k ∨ q = 0 ∨ (n * k = -2 ^ 63 ∧ q = -1) then none
  else some ((n * k).tdiv q)

/-- `muldiv(uint64_t)`, math.hpp 138-141. -/
def muldivu64 (n k q : Nat) : Option Nat :=
  if q = 0 then none else some (n * k % 2 ^ 64 / q)

/-! ## C15 -/

/-- **C15** For all `size_t` operands, `mul` and `add` return the exact result if it fits
`size_t` and throw exactly when it does not. -/
theorem checked_arith (a b : Nat) :
    mul a b = (if a * b < 2 ^ 64 then some (a * b) else none) ∧
    add a b = (if a + b < 2 ^ 64 then some (a + b) else none) := by
  constructor
  · unfold mul builtinMulOverflow
    generalize a * b = x
    simp only
    by_cases h : x < 2 ^ 64
    · simp [h, Nat.mod_eq_of_lt h]
    · have : x ≠ x % 2 ^ 64 := by have := Nat.mod_lt x (show 2 ^ 64 > 0 by decide); omega
      simp [h, this]
  · unfold add builtinAddOverflow
    generalize a + b = x
    simp only
    by_cases h : x < 2 ^ 64
    · simp [h, Nat.mod_eq_of_lt h]
    · have : x ≠ x % 2 ^ 64 := by have := Nat.mod_lt x (show 2 ^ 64 > 0 by decide); omega
      simp [h, this]

/-- **C15** The portable branches for old compilers agree with the builtins on all operands
that are `size_t` values. -/
theorem checked_arith_old (a b : Nat) (ha : a < 2 ^ 64) (hb : b < 2 ^ 64) :
    mulOld a b = mul a b ∧ addOld a b = add a b := by
  rw [(checked_arith a b).1, (checked_arith a b).2]
  constructor
  · simp only [mulOld]
    by_cases h0 : a = 0
    · subst h0; simp
    · rw [if_neg h0]
      have e : b ≤ (2 ^ 64 - 1) / a ↔ a * b < 2 ^ 64 := by
        rw [Nat.le_div_iff_mul_le (by omega), Nat.mul_comm]; omega
      by_cases h : a * b < 2 ^ 64
      · rw [if_pos (e.mpr h), if_pos h, Nat.mod_eq_of_lt h]
      · rw [if_neg (fun x => h (e.mp x)), if_neg h]
  · simp only [addOld]
    by_cases h : a + b < 2 ^ 64
    · rw [if_pos (by omega), if_pos h, Nat.mod_eq_of_lt h]
    · rw [if_neg (by omega), if_neg h]

/-! ## C16 -/

/-- Specification of a left rotation by `k` of a 32-bit word: bit `i` of the result is bit
`i - k (mod 32)` of the word. -/
def IsRol (v : BitVec 32) (k : Nat) (r : BitVec 32) : Prop :=
  ∀ i, i < 32 → r.getLsbD ((i + k) % 32) = v.getLsbD i

/-- A word is determined by the rotation specification. -/
theorem isRol_unique {v r s : BitVec 32} {k : Nat} (h1 : IsRol v k r) (h2 : IsRol v k s) : r = s := by
  apply BitVec.eq_of_getLsbD_eq
  intro i hi
  have e : ((i + (32 - k % 32)) % 32 + k) % 32 = i := by omega
  have a := h1 ((i + (32 - k % 32)) % 32) (Nat.mod_lt _ (by decide))
  have b := h2 ((i + (32 - k % 32)) % 32) (Nat.mod_lt _ (by decide))
  rw [e] at a b
  rw [a, b]

/-- **C16** `rol(v, k)` is the rotation of `v` for every `0 < k < 32`.

Full claim: for every `k`.  Amounts 0 and 32 shift by the width of the type, which is
undefined behaviour in C++ (math.hpp 83): see `rol_zero_undefined`. -/
theorem rol_spec_partial (v : BitVec 32) (k : Nat) (h0 : 0 < k) (h1 : k < 32) :
    ∃ r, rol v k = some r ∧ IsRol v k r := by
  refine ⟨(v <<< k) ||| (v >>> (32 - k)), ?_, ?_⟩
  · unfold rol
    rw [if_neg (by omega)]
    have : ((32 : Int) - k).toNat = 32 - k := by omega
    rw [this]; simp
  · intro i hi
    simp only [BitVec.getLsbD_or, BitVec.getLsbD_shiftLeft, BitVec.getLsbD_ushiftRight]
    by_cases h : i + k < 32
    · rw [Nat.mod_eq_of_lt h, show i + k - k = i by omega]
      have : v.getLsbD (32 - k + (i + k)) = false := BitVec.getLsbD_of_ge _ _ (by omega)
      simp [this, h]
    · rw [show (i + k) % 32 = i + k - 32 by omega, show 32 - k + (i + k - 32) = i by omega]
      have : i + k - 32 < k := by omega
      simp [this]

/-- **C16** Rotations compose by adding amounts, and rotating by `k` and then by `32 - k` is
the identity. -/
theorem rol_compose (v r s t : BitVec 32) (j k : Nat) (hj : 0 < j ∧ j < 32) (hk : 0 < k ∧ k < 32)
    (hr : rol v j = some r) (hs : rol r k = some s) :
    (j + k < 32 → rol v ((j + k : Nat) : Int) = some t → s = t) ∧
    (32 < j + k → rol v ((j + k - 32 : Nat) : Int) = some t → s = t) ∧
    (j + k = 32 → s = v) := by
  obtain ⟨r', e1, p1⟩ := rol_spec_partial v j hj.1 hj.2
  rw [hr] at e1; cases e1
  obtain ⟨s', e2, p2⟩ := rol_spec_partial r k hk.1 hk.2
  rw [hs] at e2; cases e2
  have hc : ∀ i, i < 32 → s.getLsbD ((i + j + k) % 32) = v.getLsbD i := by
    intro i hi
    have a := p2 ((i + j) % 32) (Nat.mod_lt _ (by decide))
    rw [p1 i hi, Nat.mod_add_mod] at a
    exact a
  refine ⟨?_, ?_, ?_⟩
  · intro h e
    obtain ⟨t', e3, p3⟩ := rol_spec_partial v (j + k) (by omega) h
    rw [e] at e3; cases e3
    refine isRol_unique (v := v) (k := j + k) ?_ p3
    intro i hi; rw [← Nat.add_assoc]; exact hc i hi
  · intro h e
    obtain ⟨t', e3, p3⟩ := rol_spec_partial v (j + k - 32) (by omega) (by omega)
    rw [e] at e3; cases e3
    refine isRol_unique (v := v) (k := j + k - 32) ?_ p3
    intro i hi
    have := hc i hi
    rwa [show (i + j + k) % 32 = (i + (j + k - 32)) % 32 by omega] at this
  · intro h
    apply BitVec.eq_of_getLsbD_eq
    intro i hi
    have := hc i hi
    rwa [show (i + j + k) % 32 = i by omega] at this

/-- **C16 is violated for a rotation by nothing**: `rol(v, 0)` shifts right by 32. -/
theorem rol_zero_undefined (v : BitVec 32) : rol v 0 = none ∧ rol v 32 = none := by
  constructor <;> rfl

/-- **C16** `muldiv` on `int32_t`: for all 32-bit operands with a non-zero divisor the result is
the quotient of the exact product, truncated toward zero, whenever that quotient fits
`int32_t` (no intermediate overflow). -/
theorem muldiv32_exact (n k q : Int) (_hn : -2 ^ 31 ≤ n ∧ n < 2 ^ 31) (_hk : -2 ^ 31 ≤ k ∧ k < 2 ^ 31)
    (hq : q ≠ 0) (hr : -2 ^ 31 ≤ (n * k).tdiv q ∧ (n * k).tdiv q < 2 ^ 31) :
    muldiv32 n k q = some ((n * k).tdiv q) := by
  unfold muldiv32
  rw [if_neg hq, Int.bmod_eq_of_le (by omega) (by omega)]

/-- The 64-bit intermediate product of `int32_t` operands cannot overflow. -/
theorem muldiv32_no_overflow (n k : Int) (hn : -2 ^ 31 ≤ n ∧ n < 2 ^ 31)
    (hk : -2 ^ 31 ≤ k ∧ k < 2 ^ 31) : -2 ^ 63 ≤ n * k ∧ n * k < 2 ^ 63 := by
  have h : (n * k).natAbs ≤ 2 ^ 31 * 2 ^ 31 := by
    rw [Int.natAbs_mul]; exact Nat.mul_le_mul (by omega) (by omega)
  omega

/-- **C16** `muldiv` on `uint32_t`: exact floor of the product by the divisor whenever it fits. -/
theorem muldivu32_exact (n k q : Nat) (hn : n < 2 ^ 32) (hk : k < 2 ^ 32) (hq : q ≠ 0)
    (hr : n * k / q < 2 ^ 32) : muldivu32 n k q = some (n * k / q) := by
  unfold muldivu32
  have : n * k < 2 ^ 64 := by
    calc n * k ≤ (2 ^ 32 - 1) * (2 ^ 32 - 1) := Nat.mul_le_mul (by omega) (by omega)
      _ < 2 ^ 64 := by decide
  rw [if_neg hq, Nat.mod_eq_of_lt this, Nat.mod_eq_of_lt hr]

/-- The 64-bit versions are exact as long as the *product* fits 64 bits... -/
theorem muldiv64_exact (n k q : Int) (h : -2 ^ 63 ≤ n * k ∧ n * k < 2 ^ 63) (hq : q ≠ 0) (hm : n * k = -2 ^ 63 → q ≠ -1) :
    muldiv64 n k q = some ((n * k).tdiv q) := by
  unfold muldiv64; rw [if_neg (by omega)]

/-- In all other cases it is undefined. -/
theorem muldiv64_undefined (n k q : Int) (h : ¬(-2 ^ 63 ≤ n * k ∧ n * k < 2 ^ 63) ∨ q = 0 ∨ (n * k = -2 ^ 63 ∧ q = -1)) : muldiv64 n k q = none := by
  unfold muldiv64; rw [if_pos (by omega)]

theorem muldivu64_exact (n k q : Nat) (h : n * k < 2 ^ 64) (hq : q ≠ 0) :
    muldivu64 n k q = some (n * k / q) := by
  unfold muldivu64; rw [if_neg hq, Nat.mod_eq_of_lt h]

/-- ... and only then: 2^40 * 2^40 / 2^40 is 2^40, which fits, but the unsigned version
answers 0 and the signed version has undefined behaviour. -/
theorem muldiv64_overflows :
    muldivu64 (2 ^ 40) (2 ^ 40) (2 ^ 40) = some 0 ∧ muldiv64 (2 ^ 40) (2 ^ 40) (2 ^ 40) = none ∧
    2 ^ 40 * 2 ^ 40 / 2 ^ 40 = 2 ^ 40 := by decide

/-! ## Non-vacuity -/
example : mul (2 ^ 32) (2 ^ 32) = none ∧ mul (2 ^ 32) (2 ^ 32 - 1) = some (2 ^ 64 - 2 ^ 32) ∧
    add (2 ^ 64 - 1) 1 = none ∧ add (2 ^ 64 - 2) 1 = some (2 ^ 64 - 1) := by decide
example : rol 0x80000001#32 4 = some 0x00000018#32 := by decide
example : muldiv32 (2 ^ 31 - 1) (-2 ^ 31) (2 ^ 31 - 1) = some (-2 ^ 31) ∧
    muldiv32 (-7) 3 2 = some (-10) := by decide
example : muldivu32 (2 ^ 32 - 1) (2 ^ 32 - 1) (2 ^ 32 - 1) = some (2 ^ 32 - 1) := by decide

end Verif.Math
