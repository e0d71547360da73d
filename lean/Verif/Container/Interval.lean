/-
Model of `stdex::interval<T>` (include/stdex/interval.hpp 16-230).
`T` is a parameter; the theorems are proved for `T = Int` (any signed type as long as no
operation overflows, which would be undefined behaviour) and for `T = BitVec w` (any
unsigned type, e.g. `size_t`, with its wrap-around).
-/
namespace Verif.Interval

/-- interval.hpp 17-20. -/
structure Ival (T : Type) where
  start : T
  fin : T
deriving DecidableEq, Repr

section
variable {T : Type} [LE T] [LT T] [DecidableLE T] [DecidableLT T] [Add T] [Sub T] [DecidableEq T]
  [OfNat T 0] [OfNat T 1]

/-- Default constructor and `invalidate`, interval.hpp 25, 59-63. -/
def Ival.invalid : Ival T := ⟨1, 0⟩

/-- `interval(x)`, interval.hpp 32. -/
def Ival.at (x : T) : Ival T := ⟨x, x⟩

/-- `size`, interval.hpp 47. -/
def Ival.size (i : Ival T) : T := if i.start ≤ i.fin then i.fin - i.start else 0

/-- `empty`, interval.hpp 54 (`start >= end`). -/
def Ival.empty (i : Ival T) : Bool := decide (i.fin ≤ i.start)

/-- `operator bool`, interval.hpp 70. -/
def Ival.valid (i : Ival T) : Bool := decide (i.start ≤ i.fin)

/-- `contains`, interval.hpp 79. -/
def Ival.contains (i : Ival T) (x : T) : Bool := decide (i.start ≤ x) && decide (x < i.fin)

/-- `operator+(interval)`, interval.hpp 88-91. -/
def Ival.addI (i j : Ival T) : Ival T := ⟨i.start + j.start, i.fin + j.fin⟩

/-- `operator+(T)` and `operator+=`, interval.hpp 100-117. -/
def Ival.add (i : Ival T) (x : T) : Ival T := ⟨i.start + x, i.fin + x⟩

/-- `operator-(interval)`, interval.hpp 151-154. -/
def Ival.subI (i j : Ival T) : Ival T := ⟨i.start - j.start, i.fin - j.fin⟩

/-- `operator-(T)` and `operator-=`, interval.hpp 163-180. -/
def Ival.sub (i : Ival T) (x : T) : Ival T := ⟨i.start - x, i.fin - x⟩

/-- prefix `++`, interval.hpp 124-129: (returned value, object afterwards). -/
def Ival.preInc (i : Ival T) : Ival T × Ival T := let j : Ival T := ⟨i.start + 1, i.fin + 1⟩; (j, j)

/-- postfix `++`, interval.hpp 136-142. -/
def Ival.postInc (i : Ival T) : Ival T × Ival T := (i, ⟨i.start + 1, i.fin + 1⟩)

/-- prefix `--`, interval.hpp 187-192. -/
def Ival.preDec (i : Ival T) : Ival T × Ival T := let j : Ival T := ⟨i.start - 1, i.fin - 1⟩; (j, j)

/-- postfix `--`, interval.hpp 199-205. -/
def Ival.postDec (i : Ival T) : Ival T × Ival T := (i, ⟨i.start - 1, i.fin - 1⟩)

/-- `==`, interval.hpp 214-217. -/
def Ival.eq (i j : Ival T) : Bool := decide (i.start = j.start) && decide (i.fin = j.fin)

/-- `!=`, interval.hpp 226-229. -/
def Ival.ne (i j : Ival T) : Bool := !i.eq j
end

/-! ## Signed T (no overflow) -/

/-- **C13** `contains` is membership in the half-open range, `empty` says that nothing is
contained, an interval that converts to false contains nothing, and `size` counts the
contained positions: position `start + k` for exactly the `k < size`. -/
theorem interval_int (i : Ival Int) :
    (∀ x, i.contains x = true ↔ i.start ≤ x ∧ x < i.fin) ∧
    (i.empty = true ↔ ∀ x, i.contains x = false) ∧
    (i.valid = false → i.empty = true) ∧
    0 ≤ i.size ∧
    (∀ x, i.contains x = true ↔ ∃ k : Int, 0 ≤ k ∧ k < i.size ∧ x = i.start + k) ∧
    (∀ x, (Ival.at x : Ival Int).empty = true ∧ (Ival.at x : Ival Int).valid = true) ∧
    (Ival.invalid : Ival Int).valid = false := by
  refine ⟨?_, ?_, ?_, ?_, ?_, ?_, by decide⟩
  · intro x; simp [Ival.contains]
  · simp only [Ival.empty, Ival.contains, decide_eq_true_eq, Bool.and_eq_false_iff, decide_eq_false_iff_not]
    constructor
    · intro h x; omega
    · intro h; have := h i.start; omega
  · simp only [Ival.empty, Ival.valid, decide_eq_true_eq, decide_eq_false_iff_not]; omega
  · unfold Ival.size; split <;> omega
  · intro x
    simp only [Ival.contains, Ival.size, Bool.and_eq_true, decide_eq_true_eq]
    constructor
    · intro h; exact ⟨x - i.start, by omega, by split <;> omega, by omega⟩
    · rintro ⟨k, h1, h2, rfl⟩; split at h2 <;> omega
  · intro x; simp [Ival.at, Ival.empty, Ival.valid]

theorem size_int (i : Ival Int) : i.size = ((i.fin - i.start).toNat : Int) := by
  unfold Ival.size; split <;> omega

/-- **C13** Shifting translates membership and keeps the size, `-` undoes `+`, `++`/`--`
shift by one, prefix returns the new and postfix the old value, and are inverse; `==` is
equality of both ends. -/
theorem interval_int_shift (i : Ival Int) (d : Int) :
    (∀ x, (i.add d).contains (x + d) = i.contains x) ∧
    (∀ x, (i.sub d).contains (x - d) = i.contains x) ∧
    (i.add d).size = i.size ∧ (i.add d).sub d = i ∧ (i.sub d).add d = i ∧
    i.preInc = (i.add 1, i.add 1) ∧ i.postInc = (i, i.add 1) ∧
    i.preDec = (i.sub 1, i.sub 1) ∧ i.postDec = (i, i.sub 1) ∧
    (i.preInc.2).preDec.2 = i ∧ (i.preDec.2).preInc.2 = i ∧
    (∀ j, (i.addI j).subI j = i) ∧
    (∀ j, i.eq j = true ↔ i = j) ∧ (∀ j, i.ne j = true ↔ i ≠ j) := by
  cases i with | mk s e
  refine ⟨?_, ?_, ?_, ?_, ?_, rfl, rfl, rfl, rfl, ?_, ?_, ?_, ?_, ?_⟩
  · intro x; simp only [Ival.add, Ival.contains]; congr 1 <;> exact decide_eq_decide.mpr (by omega)
  · intro x; simp only [Ival.sub, Ival.contains]; congr 1 <;> exact decide_eq_decide.mpr (by omega)
  · rw [size_int, size_int]; simp only [Ival.add]; omega
  · simp [Ival.add, Ival.sub]
  · simp [Ival.add, Ival.sub]
  · simp [Ival.preInc, Ival.preDec]
  · simp [Ival.preInc, Ival.preDec]
  · intro j; simp [Ival.addI, Ival.subI]
  · intro j; cases j; simp [Ival.eq]
  · intro j; cases j; simp only [Ival.ne, Ival.eq, ← Bool.decide_and, Bool.not_eq_true', decide_eq_false_iff_not, ne_eq, Ival.mk.injEq]

/-! ## Unsigned T (wrap-around) -/

/-- **C13** for unsigned types, e.g. `interval<size_t>`: membership, emptiness and size agree
for every pair of ends. -/
theorem interval_unsigned {w : Nat} (i : Ival (BitVec w)) :
    (∀ x, i.contains x = true ↔ i.start.toNat ≤ x.toNat ∧ x.toNat < i.fin.toNat) ∧
    (i.empty = true ↔ ∀ x, i.contains x = false) ∧
    (i.valid = false → i.empty = true) ∧
    i.size.toNat = i.fin.toNat - i.start.toNat ∧
    (∀ x, i.contains x = true ↔ ∃ k : Nat, k < i.size.toNat ∧ x.toNat = i.start.toNat + k) := by
  have hc : ∀ x, i.contains x = true ↔ i.start.toNat ≤ x.toNat ∧ x.toNat < i.fin.toNat := by
    intro x; simp [Ival.contains, BitVec.le_def, BitVec.lt_def]
  have hs : i.size.toNat = i.fin.toNat - i.start.toNat := by
    unfold Ival.size
    split
    · next h =>
      rw [BitVec.toNat_sub_of_le h]
    · next h =>
      rw [BitVec.le_def] at h
      simp; omega
  have hce : ∀ x, i.contains x = false ↔ ¬(i.start.toNat ≤ x.toNat ∧ x.toNat < i.fin.toNat) := by
    intro x; rw [← hc]; simp
  refine ⟨hc, ?_, ?_, hs, ?_⟩
  · simp only [Ival.empty, decide_eq_true_eq, BitVec.le_def, hce]
    constructor
    · intro h x; omega
    · intro h; have := h i.start; omega
  · simp only [Ival.empty, Ival.valid, decide_eq_true_eq, decide_eq_false_iff_not, BitVec.le_def]; omega
  · intro x
    rw [hc, hs]
    constructor
    · intro h; exact ⟨x.toNat - i.start.toNat, by omega, by omega⟩
    · rintro ⟨k, h1, h2⟩; omega

/-- **C13** for unsigned types: `-` undoes `+` and `--` undoes `++` even when they wrap, and
shifting translates membership as long as neither end wraps. -/
theorem interval_unsigned_shift {w : Nat} (i : Ival (BitVec w)) (d : BitVec w) :
    (i.add d).sub d = i ∧ (i.sub d).add d = i ∧ (∀ j, (i.addI j).subI j = i) ∧
    (i.preInc.2).preDec.2 = i ∧ (i.preDec.2).preInc.2 = i ∧
    (∀ j, i.eq j = true ↔ i = j) ∧ (∀ j, i.ne j = true ↔ i ≠ j) ∧
    (i.start.toNat + d.toNat < 2 ^ w → i.fin.toNat + d.toNat < 2 ^ w →
      (i.add d).size = i.size ∧
      ∀ x : BitVec w, x.toNat + d.toNat < 2 ^ w → (i.add d).contains (x + d) = i.contains x) := by
  cases i with | mk s e
  refine ⟨?_, ?_, ?_, ?_, ?_, ?_, ?_, ?_⟩
  · simp [Ival.add, Ival.sub, BitVec.add_sub_cancel, BitVec.sub_add_cancel]
  · simp [Ival.add, Ival.sub, BitVec.add_sub_cancel, BitVec.sub_add_cancel]
  · intro j; simp [Ival.addI, Ival.subI, BitVec.add_sub_cancel]
  · simp [Ival.preInc, Ival.preDec, BitVec.add_sub_cancel, BitVec.sub_add_cancel]
  · simp [Ival.preInc, Ival.preDec, BitVec.add_sub_cancel, BitVec.sub_add_cancel]
  · intro j; cases j; simp [Ival.eq]
  · intro j; cases j; simp only [Ival.ne, Ival.eq, ← Bool.decide_and, Bool.not_eq_true', decide_eq_false_iff_not, ne_eq, Ival.mk.injEq]
  · intro h1 h2
    simp only at h1 h2
    have es : (s + d).toNat = s.toNat + d.toNat := by rw [BitVec.toNat_add, Nat.mod_eq_of_lt h1]
    have ee : (e + d).toNat = e.toNat + d.toNat := by rw [BitVec.toNat_add, Nat.mod_eq_of_lt h2]
    constructor
    · apply BitVec.eq_of_toNat_eq
      rw [(interval_unsigned _).2.2.2.1, (interval_unsigned _).2.2.2.1]
      simp only [Ival.add]; omega
    · intro x hx
      have ex : (x + d).toNat = x.toNat + d.toNat := by rw [BitVec.toNat_add, Nat.mod_eq_of_lt hx]
      rw [Bool.eq_iff_iff, (interval_unsigned _).1, (interval_unsigned _).1]
      simp only [Ival.add]; omega

/-- Counterexample to shifting with wrap-around: [250,255) + 3 over 8 bits is [253,2). -/
theorem interval_unsigned_wraps :
    ((⟨250, 255⟩ : Ival (BitVec 8)).add 3).contains (252 + 3) = false ∧
    (⟨250, 255⟩ : Ival (BitVec 8)).contains 252 = true := by decide

example : (⟨3, 7⟩ : Ival Int).contains 3 = true ∧ (⟨3, 7⟩ : Ival Int).contains 7 = false ∧
    (⟨3, 7⟩ : Ival Int).size = 4 ∧ (⟨7, 3⟩ : Ival Int).size = 0 := by decide
example : ((⟨3, 7⟩ : Ival (BitVec 64)).start.toNat + (5 : BitVec 64).toNat < 2 ^ 64) := by decide

end Verif.Interval
