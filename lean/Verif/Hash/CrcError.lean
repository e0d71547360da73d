import Verif.Hash.CRC32
/-
What CRC-32 is for (include/stdex/hash.hpp 165-255): errors in the data are found. Wrong bits within 32 consecutive bits, and two wrong bits less than 2^32 - 1 bits apart, always change the value.
-/
namespace Verif.Hash.CRC

/-! ### Specification -/

/-- The bits of a byte, from the least significant one. -/
def byteBits (b : Byte) : List Bool := (List.range 8).map b.getLsbD

/-- The bits of a message in the order in which they are sent. -/
def bits (m : List Byte) : List Bool := m.flatMap byteBits

/-- The value of a message that was hashed in pieces. -/
def value (chunks : List (List Byte)) : Word := finalize (chunks.foldl hash construct)

/-! ### The bit machine -/

/-- One bit goes in. -/
def bitIn (r : Word) (b : Bool) : Word := bitStep (r ^^^ (if b then 1#32 else 0#32))

/-- Bits as a word. -/
def word : List Bool → Word
  | [] => 0#32
  | b :: d => (if b then 1#32 else 0#32) ^^^ (word d <<< 1)

theorem word_bit : ∀ (d : List Bool) (i : Nat), i < 32 → (word d).getLsbD i = d.getD i false
  | [], i, _ => by simp [word]
  | b :: d, 0, _ => by cases b <;> simp [word]
  | b :: d, i + 1, h => by
    rw [word, BitVec.getLsbD_xor, BitVec.getLsbD_shiftLeft, Nat.add_sub_cancel, word_bit d i (by omega)]
    have : (if b then 1#32 else 0#32).getLsbD (i + 1) = false := by cases b <;> simp
    rw [this]
    simp; omega

theorem step_shl {x : Word} (h : x.getLsbD 31 = false) : bitStep (x <<< 1) = x := by
  unfold bitStep
  have : (x <<< 1).getLsbD 0 = false := by simp
  rw [this, if_neg (by decide)]
  apply BitVec.eq_of_getLsbD_eq
  intro i hi
  rw [BitVec.getLsbD_ushiftRight, BitVec.getLsbD_shiftLeft]
  by_cases q : i = 31
  · subst q; rw [h]; simp
  · have a : 1 + i < 32 := by omega
    have b : ¬ 1 + i < 1 := by omega
    simp [a, b]

/-- Up to 32 bits may as well go in at once. -/
theorem feed : ∀ (d : List Bool) (r : Word), d.length ≤ 32 → d.foldl bitIn r = bitSteps d.length (r ^^^ word d)
  | [], r, _ => by simp [bitSteps, word]
  | b :: d, r, h => by
    have h : d.length + 1 ≤ 32 := h
    rw [List.foldl_cons, feed d _ (by omega), List.length_cons, bitSteps, word, ← BitVec.xor_assoc, bitStep_xor, step_shl]
    · rfl
    · rw [word_bit d 31 (by omega), List.getD_eq_getElem?_getD, List.getElem?_eq_none (by omega)]; rfl

theorem byte_word (b : Byte) : word (byteBits b) = b.zeroExtend 32 := by
  apply BitVec.eq_of_getLsbD_eq
  intro i hi
  rw [word_bit _ i hi]
  unfold byteBits
  rw [List.getD_eq_getElem?_getD, List.getElem?_map]
  by_cases q : i < 8
  · rw [List.getElem?_range q]; simp [q, hi]
  · rw [List.getElem?_eq_none (by simpa using q)]
    have : b.getLsbD i = false := BitVec.getLsbD_of_ge _ _ (by omega)
    simp [this]

theorem hash_bits : ∀ (m : List Byte) (r : Word), hash r m = (bits m).foldl bitIn r
  | [], _ => rfl
  | b :: m, r => by
    have e : bits (b :: m) = byteBits b ++ bits m := by simp [bits]
    rw [e, List.foldl_append, ← hash_bits m, feed _ _ (by simp [byteBits]), byte_word]
    have l : (byteBits b).length = 8 := by simp [byteBits]
    rw [l, ← update_spec]
    rfl

/-! ### A step loses nothing -/

theorem bitStep_zero {x : Word} (h : bitStep x = 0) : x = 0 := by
  unfold bitStep at h
  by_cases q : x.getLsbD 0 = true
  · rw [if_pos q] at h
    have := congrArg (fun w : Word => w.getLsbD 31) h
    simp at this
  · rw [if_neg q] at h
    apply BitVec.eq_of_getLsbD_eq
    intro i hi
    cases i with
    | zero => simpa using q
    | succ i =>
      have := congrArg (fun w : Word => w.getLsbD i) h
      simp only [BitVec.getLsbD_ushiftRight] at this
      rw [Nat.add_comm] at this
      rw [this]; simp

theorem bitStep_inj {x y : Word} (h : bitStep x = bitStep y) : x = y := by
  have e : bitStep (x ^^^ y) = 0#32 := by rw [bitStep_xor, h, BitVec.xor_self]
  have : x ^^^ y = 0#32 := bitStep_zero e
  exact BitVec.xor_eq_zero_iff.1 this

theorem bitSteps_inj : ∀ (n : Nat) {x y : Word}, bitSteps n x = bitSteps n y → x = y
  | 0, _, _, h => h
  | n + 1, _, _, h => bitStep_inj (bitSteps_inj n h)

theorem xor_right_inj {x y z : Word} (h : x ^^^ z = y ^^^ z) : x = y := by
  have := congrArg (· ^^^ z) h
  simpa [BitVec.xor_assoc] using this

theorem xor_left_inj {x y z : Word} (h : z ^^^ x = z ^^^ y) : x = y := by
  rw [BitVec.xor_comm z, BitVec.xor_comm z] at h
  exact xor_right_inj h

/-- The same bits do not make different states equal. -/
theorem same_bits : ∀ (d : List Bool) {x y : Word}, d.foldl bitIn x = d.foldl bitIn y → x = y
  | [], _, _, h => h
  | _ :: d, _, _, h => xor_right_inj (bitStep_inj (same_bits d h))

theorem word_inj {d d' : List Bool} (hl : d.length = d'.length) (h32 : d.length ≤ 32) (h : word d = word d') : d = d' := by
  apply List.ext_getElem hl
  intro i hi hi'
  have a := word_bit d i (by omega)
  rw [h, word_bit d' i (by omega)] at a
  rw [List.getD_eq_getElem?_getD, List.getD_eq_getElem?_getD, List.getElem?_eq_getElem hi, List.getElem?_eq_getElem hi'] at a
  exact a.symm

theorem value_bits (chunks : List (List Byte)) : value chunks = ~~~((bits chunks.flatten).foldl bitIn construct) := by
  have hflat : ∀ (cs : List (List Byte)) (v : Word), cs.foldl hash v = hash v cs.flatten := by
    intro cs
    induction cs with
    | nil => intro v; rfl
    | cons c cs ih => intro v; rw [List.foldl_cons, ih, List.flatten_cons, hash_append]
  unfold value finalize
  rw [hflat, hash_bits]

/-- **C153** (bursts) If all bits that differ between two messages are within 32 consecutive bits, their CRC-32 differ, in whatever pieces they were hashed. -/
theorem crc_burst (a b : List (List Byte)) {p d d' r : List Bool} (ha : bits a.flatten = p ++ d ++ r) (hb : bits b.flatten = p ++ d' ++ r) (hl : d.length = d'.length) (h32 : d.length ≤ 32) (hd : d ≠ d') :
    value a ≠ value b := by
  intro e
  rw [value_bits, value_bits, ha, hb] at e
  have e := congrArg (fun w : Word => ~~~w) e
  simp only [BitVec.not_not, List.foldl_append] at e
  have e := same_bits r e
  rw [feed d _ h32, feed d' _ (by omega), ← hl] at e
  exact hd (word_inj hl h32 (xor_left_inj (bitSteps_inj _ e)))

/-! ### Two wrong bits: the period of the machine -/

theorem bitSteps_add (a : Nat) : ∀ (b : Nat) (x : Word), bitSteps (a + b) x = bitSteps b (bitSteps a x) := by
  induction a with
  | zero => intro b x; rw [Nat.zero_add]; rfl
  | succ a ih => intro b x; rw [Nat.add_right_comm, bitSteps, ih]; rfl

theorem bits_xor : ∀ (d : List Bool) (x y : Word), d.foldl bitIn (x ^^^ y) = d.foldl bitIn x ^^^ bitSteps d.length y
  | [], _, _ => rfl
  | b :: d, x, y => by
    have e : bitIn (x ^^^ y) b = bitIn x b ^^^ bitStep y := by
      unfold bitIn
      rw [← bitStep_xor, BitVec.xor_assoc, BitVec.xor_comm y, ← BitVec.xor_assoc]
    rw [List.foldl_cons, List.foldl_cons, e, bits_xor d]
    rfl

/-- A linear map as the words that the bits are taken to. -/
def app : List Word → Word → Word
  | [], _ => 0
  | c :: M, v => (if v.getLsbD 0 then c else 0) ^^^ app M (v >>> 1)

def cols (f : Word → Word) : Nat → Nat → List Word
  | _, 0 => []
  | i, n + 1 => f (1#32 <<< i) :: cols f (i + 1) n

/-- Twice. -/
def sq (M : List Word) : List Word := M.map (app M)

/-- `n` times. -/
def times : Nat → List Word → Nat → Word → Word
  | 0, _, _, v => v
  | k + 1, M, n, v => times k (sq M) (n / 2) (if n % 2 = 1 then app M v else v)

theorem split_bit (v : Word) {i : Nat} (hi : i < 32) : (v >>> i) <<< i = (if v.getLsbD i then 1#32 <<< i else 0#32) ^^^ ((v >>> (i + 1)) <<< (i + 1)) := by
  apply BitVec.eq_of_getLsbD_eq
  intro j hj
  rw [BitVec.getLsbD_xor, BitVec.getLsbD_shiftLeft, BitVec.getLsbD_shiftLeft, BitVec.getLsbD_ushiftRight, BitVec.getLsbD_ushiftRight]
  have one : (if v.getLsbD i then 1#32 <<< i else 0#32).getLsbD j = (decide (j = i) && v.getLsbD i) := by
    by_cases q : v.getLsbD i = true
    · rw [if_pos q, q, BitVec.getLsbD_shiftLeft]
      by_cases e : j = i
      · subst e; simp [hj]
      · by_cases l : j < i
        · simp [e, l]
        · have : j - i ≠ 0 := by omega
          simp [e, this]
    · rw [if_neg q]; simp at q; simp [q]
  rw [one]
  by_cases e : j = i
  · subst e; simp [hj]
  · by_cases l : j < i
    · have : j < i + 1 := by omega
      simp [e, l, this]
    · have a : ¬ j < i + 1 := by omega
      have b : i + 1 + (j - (i + 1)) = i + (j - i) := by omega
      simp [e, l, a, b]

theorem app_cols {f : Word → Word} (hf : ∀ x y, f (x ^^^ y) = f x ^^^ f y) (v : Word) : ∀ (n i : Nat), i + n = 32 → app (cols f i n) (v >>> i) = f ((v >>> i) <<< i)
  | 0, i, h => by
    have f0 : f 0 = 0 := by
      have := hf 0 0
      rw [BitVec.xor_self, BitVec.xor_self] at this
      exact this
    have : v >>> i = 0 := by
      apply BitVec.eq_of_getLsbD_eq
      intro j hj
      rw [BitVec.getLsbD_ushiftRight, BitVec.getLsbD_of_ge _ _ (by omega)]; simp
    rw [this]
    have : (0 : Word) <<< i = 0 := by simp
    rw [this, f0]; rfl
  | n + 1, i, h => by
    have f0 : f 0 = 0 := by
      have := hf 0 0
      rw [BitVec.xor_self, BitVec.xor_self] at this
      exact this
    rw [cols, app, ← BitVec.shiftRight_add, app_cols hf v n (i + 1) (by omega), split_bit v (show i < 32 by omega), hf]
    congr 1
    rw [BitVec.getLsbD_ushiftRight, Nat.add_zero]
    split
    · rfl
    · exact f0.symm

theorem app_map {f : Word → Word} (hf : ∀ x y, f (x ^^^ y) = f x ^^^ f y) (v : Word) : app (cols f 0 32) v = f v := by
  have := app_cols hf v 32 0 rfl
  simpa using this

theorem map_cols (f g : Word → Word) : ∀ (n i : Nat), (cols f i n).map g = cols (fun x => g (f x)) i n
  | 0, _ => rfl
  | n + 1, i => by rw [cols, List.map_cons, map_cols f g n]; rfl

theorem sq_cols (k : Nat) : sq (cols (bitSteps k) 0 32) = cols (bitSteps (2 * k)) 0 32 := by
  unfold sq
  have e : app (cols (bitSteps k) 0 32) = bitSteps k := by funext v; exact app_map (bitSteps_xor k) v
  rw [e, map_cols]
  congr 1
  funext x
  rw [Nat.two_mul, bitSteps_add]

theorem times_spec : ∀ (fuel k n : Nat) (v : Word), n < 2 ^ fuel → times fuel (cols (bitSteps k) 0 32) n v = bitSteps (k * n) v
  | 0, k, n, v, h => by
    have : n = 0 := by simpa using h
    subst this; rfl
  | fuel + 1, k, n, v, h => by
    rw [times, sq_cols, times_spec fuel (2 * k) (n / 2) _ (by rw [Nat.pow_succ] at h; omega)]
    by_cases q : n % 2 = 1
    · rw [if_pos q, app_map (bitSteps_xor k), ← bitSteps_add]
      congr 1
      have : n = 2 * (n / 2) + 1 := by omega
      conv => rhs; rw [this]
      rw [Nat.mul_add, Nat.mul_one, Nat.mul_comm 2 k, Nat.mul_assoc]; omega
    · rw [if_neg q]
      congr 1
      have : n = 2 * (n / 2) := by omega
      conv => rhs; rw [this]
      rw [Nat.mul_comm 2 k, Nat.mul_assoc]

/-- The period. -/
def period : Nat := 2 ^ 32 - 1

theorem period_ok : (times 32 (cols bitStep 0 32) period 1 = 1) ∧ ∀ p ∈ [3, 5, 17, 257, 65537], times 32 (cols bitStep 0 32) (period / p) 1 ≠ 1 := by decide +kernel

theorem cols_one : cols (bitSteps 1) 0 32 = cols bitStep 0 32 := rfl

/-- The steps that bring the state 1 back to itself. -/
def Back (k : Nat) : Prop := bitSteps k 1 = 1

theorem back_period : Back period := by
  have := times_spec 32 1 period 1 (by decide)
  rw [cols_one, Nat.one_mul] at this
  unfold Back
  rw [← this]
  exact period_ok.1

theorem back_not {p : Nat} (hp : p ∈ [3, 5, 17, 257, 65537]) : ¬ Back (period / p) := by
  have := times_spec 32 1 (period / p) 1 (Nat.lt_of_le_of_lt (Nat.div_le_self _ _) (by decide))
  rw [cols_one, Nat.one_mul] at this
  unfold Back
  rw [← this]
  exact period_ok.2 p hp

theorem back_add {a b : Nat} (ha : Back a) (hb : Back b) : Back (a + b) := by
  unfold Back at *
  rw [bitSteps_add, ha, hb]

theorem back_sub {a b : Nat} (ha : Back a) (hb : Back (a + b)) : Back b := by
  unfold Back at *
  rw [bitSteps_add, ha] at hb
  exact hb

theorem back_mul {a : Nat} (ha : Back a) : ∀ n : Nat, Back (a * n)
  | 0 => rfl
  | n + 1 => by rw [Nat.mul_succ]; exact back_add (back_mul ha n) ha

theorem back_mod {a b : Nat} (ha : Back a) (hb : Back b) : Back (b % a) := by
  have e : b = a * (b / a) + b % a := (Nat.div_add_mod b a).symm
  rw [e] at hb
  exact back_sub (back_mul ha (b / a)) hb

theorem back_gcd : ∀ (a b : Nat), Back a → Back b → Back (Nat.gcd a b) := by
  intro a
  induction a using Nat.strongRecOn with
  | _ a ih =>
    intro b ha hb
    by_cases q : a = 0
    · subst q; rw [Nat.gcd_zero_left]; exact hb
    · rw [Nat.gcd_rec]
      exact ih (b % a) (Nat.mod_lt _ (by omega)) a (back_mod ha hb) ha

/-- A prime, by trial. -/
theorem prime_of_trial {p s : Nat} (hs : p < (s + 1) * (s + 1)) (ht : ∀ d, d ≤ s → d ∣ p → d = 1) : ∀ d, d ∣ p → p ≠ 0 → d = 1 ∨ d = p := by
  intro d ⟨e, he⟩ h0
  by_cases q : d ≤ s
  · exact .inl (ht d q ⟨e, he⟩)
  · have : e ≤ s := by
      apply Nat.le_of_not_lt
      intro l
      have := Nat.mul_le_mul (show s + 1 ≤ d by omega) (show s + 1 ≤ e by omega)
      omega
    have := ht e this ⟨d, by rw [Nat.mul_comm]; exact he⟩
    subst this
    right; omega

theorem trial {p s : Nat} (h : ∀ d : Fin (s + 1), p % d.val = 0 → d.val = 1) : ∀ d, d ≤ s → d ∣ p → d = 1 := fun d hd hp => h ⟨d, by omega⟩ (Nat.mod_eq_zero_of_dvd hp)

theorem factors : ∀ p ∈ [3, 5, 17, 257, 65537], ∀ d, d ∣ p → d = 1 ∨ d = p := by
  intro p hp d hd
  simp only [List.mem_cons, List.not_mem_nil, or_false] at hp
  rcases hp with rfl | rfl | rfl | rfl | rfl
  · exact prime_of_trial (s := 2) (by decide) (trial (by decide +kernel)) d hd (by decide)
  · exact prime_of_trial (s := 2) (by decide) (trial (by decide +kernel)) d hd (by decide)
  · exact prime_of_trial (s := 4) (by decide) (trial (by decide +kernel)) d hd (by decide)
  · exact prime_of_trial (s := 16) (by decide) (trial (by decide +kernel)) d hd (by decide)
  · exact prime_of_trial (s := 256) (by decide) (trial (by decide +kernel)) d hd (by decide)

/-- A divisor of the period other than itself divides the period by one of its factors. -/
theorem proper_divisor {g : Nat} (h : g ∣ period) (hg : g ≠ period) : ∃ p ∈ [3, 5, 17, 257, 65537], g ∣ period / p := by
  obtain ⟨m, hm⟩ := h
  have some : ∃ p ∈ [3, 5, 17, 257, 65537], p ∣ m := by
    apply Classical.byContradiction
    intro no
    have cop : ∀ p ∈ [3, 5, 17, 257, 65537], Nat.Coprime m p := by
      intro p hp
      rcases factors p hp (Nat.gcd m p) (Nat.gcd_dvd_right m p) with q | q
      · exact q
      · exact absurd ⟨p, hp, by rw [← q]; exact Nat.gcd_dvd_left m (Nat.gcd m p) |> fun _ => Nat.gcd_dvd_left m p⟩ no
    have all : Nat.Coprime m (3 * 5 * 17 * 257 * 65537) :=
      Nat.Coprime.mul_right (Nat.Coprime.mul_right (Nat.Coprime.mul_right (Nat.Coprime.mul_right (cop 3 (by decide)) (cop 5 (by decide))) (cop 17 (by decide))) (cop 257 (by decide))) (cop 65537 (by decide))
    have e : 3 * 5 * 17 * 257 * 65537 = period := by decide
    rw [e, hm] at all
    have : m ∣ 1 := by
      have d : m ∣ Nat.gcd m (g * m) := Nat.dvd_gcd (Nat.dvd_refl _) (Nat.dvd_mul_left _ _)
      rw [all] at d
      exact d
    have : m = 1 := Nat.dvd_one.1 this
    subst this
    exact hg (by rw [hm, Nat.mul_one])
  obtain ⟨p, hp, k, hk⟩ := some
  refine ⟨p, hp, k, ?_⟩
  have pos : 0 < p := by
    simp only [List.mem_cons, List.not_mem_nil, or_false] at hp
    omega
  rw [hm, hk]
  rw [show g * (p * k) = p * (g * k) from by rw [Nat.mul_left_comm]]
  exact Nat.mul_div_cancel_left _ pos

/-- The state 1 comes back after 2^32 - 1 steps and not earlier. -/
theorem back_iff {k : Nat} (h0 : 0 < k) (hk : k < period) : ¬ Back k := by
  intro h
  have g := back_gcd k period h back_period
  have le : Nat.gcd k period ≤ k := Nat.gcd_le_left _ h0
  obtain ⟨p, hp, n, hn⟩ := proper_divisor (Nat.gcd_dvd_right k period) (by omega)
  refine back_not hp ?_
  rw [hn]
  exact back_mul g n

theorem bit_flip (r : Word) (b : Bool) : bitIn r (!b) = bitIn r b ^^^ bitStep 1 := by
  unfold bitIn
  rw [← bitStep_xor, BitVec.xor_assoc]
  congr 2
  cases b <;> simp

/-- **C153** (two bits) If two messages differ in just two bits, less than 2^32 - 1 bits (half a gigabyte) apart, their CRC-32 differ. -/
theorem crc_two_bits (a b : List (List Byte)) {p q r : List Bool} {x y : Bool} (ha : bits a.flatten = p ++ x :: (q ++ y :: r)) (hb : bits b.flatten = p ++ (!x) :: (q ++ (!y) :: r))
    (hl : q.length + 1 < 2 ^ 32 - 1) : value a ≠ value b := by
  intro e
  rw [value_bits, value_bits, ha, hb] at e
  have e := congrArg (fun w : Word => ~~~w) e
  simp only [BitVec.not_not, List.foldl_append, List.foldl_cons] at e
  have e := same_bits r e
  rw [bit_flip _ x, bits_xor, bit_flip] at e
  generalize q.foldl bitIn (bitIn (p.foldl bitIn construct) x) = s at e
  have t : bitIn (s ^^^ bitSteps q.length (bitStep 1)) y = bitIn s y ^^^ bitStep (bitSteps q.length (bitStep 1)) := bits_xor [y] s _
  rw [t, BitVec.xor_assoc] at e
  have e : bitIn s y ^^^ 0#32 = bitIn s y ^^^ (bitStep (bitSteps q.length (bitStep 1)) ^^^ bitStep 1) := by rw [BitVec.xor_zero]; exact e
  have e := BitVec.xor_eq_zero_iff.1 (xor_left_inj e).symm
  exact back_iff (k := q.length + 1) (by omega) hl (bitStep_inj e)

/-! ### Examples -/

/-- `"ab"` in two pieces and another text of two bytes: the wrong bits are the four in the middle. -/
example : value [[0x61#8], [0x62#8]] ≠ value [[0xa1#8, 0x61#8]] :=
  crc_burst _ _ (p := [true, false, false, false, false, true]) (d := [true, false, false, true]) (d' := [false, true, true, false]) (r := [false, false, false, true, true, false])
    (by decide) (by decide) rfl (by decide) (by decide)

/-- Two wrong bits, in different bytes. -/
example : value [[0x61#8], [0x62#8]] ≠ value [[0x60#8, 0xe2#8]] :=
  crc_two_bits _ _ (p := []) (q := [false, false, false, false, true, true, false, false, true, false, false, false, true, true]) (r := []) (x := true) (y := false) (by decide) (by decide) (by decide)

/-- 32 bits are the most: wrong bits within 33 may be missed. -/
theorem crc_33_missed : value [[0, 0, 0, 0, 0]] = value [[0x41#8, 0x06#8, 0x71#8, 0xdb#8, 0x01#8]] := by decide +kernel

end Verif.Hash.CRC
