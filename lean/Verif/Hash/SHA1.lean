import Verif.Hash.Block
import Verif.Basic.Math
/-
Model of `stdex::sha1_hash` (include/stdex/hash.hpp 503-601) for a little-endian host, and its
conformance to FIPS 180 (SHA-1).  The 80 unrolled macro lines 561-580 only differ in the
variable names, which rotate by one position per line, and the index; the model runs them as
`line i` with the rotation made explicit in the register tuple.
-/
namespace Verif.Hash.SHA1

abbrev Word := BitVec 32

/-- `m_state`, hash.hpp 600; also the working variables of `hash_block`, 544. -/
structure Regs where
  a : Word
  b : Word
  c : Word
  d : Word
  e : Word
deriving DecidableEq

/-- `rol`, math.hpp 83 (all amounts used are between 1 and 31, where it is defined, see
`Verif.Hash.SHA1.rol_defined`). -/
def rol (v : Word) (s : Nat) : Word := (v <<< s) ||| (v >>> (32 - s))

/-- `m_temp[i]`: the union of hash.hpp 125-128 on a little-endian host. -/
def word (q : List Byte) (i : Nat) : Word :=
  (q.getD (4 * i + 3) 0) ++ (q.getD (4 * i + 2) 0) ++ (q.getD (4 * i + 1) 0) ++ (q.getD (4 * i) 0)

/-- The bytes of `m_queue` when `m_temp` holds the words `t`. -/
def unword (t : Nat → Word) : List Byte :=
  (List.range 64).map fun k => (t (k / 4)).extractLsb' (8 * (k % 4)) 8

/-- `m_temp[i] = v`. -/
def upd (t : Nat → Word) (i : Nat) (v : Word) : Nat → Word := fun k => if k = i then v else t k

/-- `SHA1BLK0(i)`, hash.hpp 549 (little-endian): value, and the new `m_temp`. -/
def blk0 (t : Nat → Word) (i : Nat) : Word × (Nat → Word) :=
  let v := (rol (t i) 24 &&& 0xFF00FF00#32) ||| (rol (t i) 8 &&& 0x00FF00FF#32)
  (v, upd t i v)

/-- `SHA1BLK(i)`, hash.hpp 551. -/
def blk (t : Nat → Word) (i : Nat) : Word × (Nat → Word) :=
  let v := rol (t ((i + 13) &&& 15) ^^^ t ((i + 8) &&& 15) ^^^ t ((i + 2) &&& 15) ^^^ t (i &&& 15)) 1
  (v, upd t (i &&& 15) v)

/-- The boolean function and constant of `SHA1_R0` .. `SHA1_R4`, hash.hpp 554-558, for line
`i` (561-564: R0, 565: R1, 566-570: R2, 571-575: R3, 576-580: R4). -/
def fk (i : Nat) (w x y : Word) : Word × Word :=
  if i < 20 then ((w &&& (x ^^^ y)) ^^^ y, 0x5A827999#32)
  else if i < 40 then (w ^^^ x ^^^ y, 0x6ED9EBA1#32)
  else if i < 60 then (((w ||| x) &&& y) ||| (w &&& x), 0x8F1BBCDC#32)
  else (w ^^^ x ^^^ y, 0xCA62C1D6#32)

/-- Macro line `i`: `SHA1_Rn(v, w, x, y, z, i)`; the roles of the next line are
(z, v, w, x, y). -/
def line (s : Regs × (Nat → Word)) (i : Nat) : Regs × (Nat → Word) :=
  let ⟨⟨v, w, x, y, z⟩, t⟩ := s
  let (m, t) := if i < 16 then blk0 t i else blk t i
  let (f, k) := fk i w x y
  let z := z + (f + m + k + rol v 5)
  let w := rol w 30
  (⟨z, v, w, x, y⟩, t)

/-- `hash_block`, hash.hpp 541-597.  After 80 lines the roles are back to (a, b, c, d, e). -/
def hashBlock : Compress Regs := fun st q =>
  let r := (List.range 80).foldl line (st, word q)
  (⟨st.a + r.1.a, st.b + r.1.b, st.c + r.1.c, st.d + r.1.d, st.e + r.1.e⟩, unword r.2)

/-- `clear`, hash.hpp 511-521. -/
def initState : Regs := ⟨0x67452301#32, 0xEFCDAB89#32, 0x98BADCFE#32, 0x10325476#32, 0xC3D2E1F0#32⟩

/-- The loop hash.hpp 531-532 with a bound on the number of iterations; `none` if the bound
is not enough. -/
def zeros : Nat → BH Regs → Option (BH Regs)
  | 0, _ => none
  | n + 1, b => if (b.c0 &&& 504) ≠ 448 then zeros n (hash hashBlock b [0#8]) else some b

/-- `finalize`, hash.hpp 523-538: the digest `m_value.data8`. -/
def finalize (b : BH Regs) : Option (List Byte) := do
  let final := (List.range 8).map fun i =>
    BitVec.ofNat 8 (((if i ≥ 4 then b.c0 else b.c1) >>> ((3 - (i &&& 3)) * 8)) &&& 255)   -- 527-528
  let b := hash hashBlock b [0x80#8]                                                      -- 530
  let b ← zeros 65 b                                                                      -- 531-532
  let b := hash hashBlock b final                                                         -- 533
  let st : Nat → Word := fun i => [b.st.a, b.st.b, b.st.c, b.st.d, b.st.e].getD i 0
  some ((List.range 20).map fun i =>
    BitVec.ofNat 8 (((st (i >>> 2)).toNat >>> ((3 - (i &&& 3)) * 8)) &&& 255))            -- 536-537

/-- Construct, feed the chunks, finalize. -/
def sha1 (garbage : List Byte) (chunks : List (List Byte)) : Option (List Byte) :=
  finalize (hashAll hashBlock ⟨0, 0, garbage, initState⟩ chunks)

/-! ## Specification: FIPS 180-4, SHA-1 -/

/-- Section 4.1.1. -/
def specF (t : Nat) (x y z : Word) : Word :=
  if t < 20 then (x &&& y) ^^^ (~~~x &&& z)
  else if t < 40 then x ^^^ y ^^^ z
  else if t < 60 then (x &&& y) ^^^ (x &&& z) ^^^ (y &&& z)
  else x ^^^ y ^^^ z

/-- Section 4.2.1. -/
def specK (t : Nat) : Word :=
  if t < 20 then 0x5a827999#32 else if t < 40 then 0x6ed9eba1#32
  else if t < 60 then 0x8f1bbcdc#32 else 0xca62c1d6#32

/-- Word `i` of a block, most significant byte first (section 5.2.1). -/
def specWord (block : List Byte) (i : Nat) : Word :=
  BitVec.ofNat 32 (16777216 * (block.getD (4 * i) 0).toNat + 65536 * (block.getD (4 * i + 1) 0).toNat +
    256 * (block.getD (4 * i + 2) 0).toNat + (block.getD (4 * i + 3) 0).toNat)

/-- Message schedule, section 6.1.2 step 1. -/
def specW (block : List Byte) (t : Nat) : Word :=
  if _h : t < 16 then specWord block t
  else (specW block (t - 3) ^^^ specW block (t - 8) ^^^ specW block (t - 14) ^^^ specW block (t - 16)).rotateLeft 1
termination_by t

/-- Section 6.1.2 step 3. -/
def specStep (block : List Byte) (r : Regs) (t : Nat) : Regs :=
  let T := r.a.rotateLeft 5 + specF t r.b r.c r.d + r.e + specK t + specW block t
  ⟨T, r.a, r.b.rotateLeft 30, r.c, r.d⟩

/-- Section 6.1.2. -/
def specBlock (s : Regs) (block : List Byte) : Regs :=
  let r := (List.range 80).foldl (specStep block) s
  ⟨r.a + s.a, r.b + s.b, r.c + s.c, r.d + s.d, r.e + s.e⟩

/-- The 64-bit length, most significant byte first. -/
def be64 (n : Nat) : List Byte := (List.range 8).map fun k => BitVec.ofNat 8 (n / 256 ^ (7 - k))

/-- Section 5.1.1. -/
def pad (m : List Byte) : List Byte :=
  m ++ [0x80#8] ++ List.replicate ((119 - m.length % 64) % 64) 0#8 ++ be64 (8 * m.length % 2 ^ 64)

/-- Blocks of 64 bytes from the left. -/
def specFold (s : Regs) (m : List Byte) : Regs :=
  if _h : 64 ≤ m.length then specFold (specBlock s (m.take 64)) (m.drop 64) else s
termination_by m.length
decreasing_by simp; omega

/-- SHA-1 of a message. -/
def fips180 (m : List Byte) : List Byte :=
  let r := specFold ⟨0x67452301#32, 0xefcdab89#32, 0x98badcfe#32, 0x10325476#32, 0xc3d2e1f0#32⟩ (pad m)
  [r.a, r.b, r.c, r.d, r.e].flatMap fun w => (List.range 4).map fun k => BitVec.ofNat 8 (w.toNat / 256 ^ (3 - k))

/-! ## The compression function -/

theorem rol_defined (v : Word) (s : Nat) (h0 : 0 < s) (h1 : s < 32) : Verif.Math.rol v s = some (rol v s) := by
  unfold Verif.Math.rol rol
  rw [if_neg (by omega)]
  have : ((32 : Int) - s).toNat = 32 - s := by omega
  rw [this]; simp

theorem f_eq (i : Nat) (w x y : Word) : (fk i w x y).1 = specF i w x y ∧ (fk i w x y).2 = specK i := by
  have ch : (w &&& (x ^^^ y)) ^^^ y = (w &&& x) ^^^ (~~~w &&& y) := by
    apply BitVec.eq_of_getLsbD_eq
    intro j hj
    simp only [BitVec.getLsbD_xor, BitVec.getLsbD_and, BitVec.getLsbD_not, hj, decide_true, Bool.true_and]
    cases w.getLsbD j <;> cases x.getLsbD j <;> cases y.getLsbD j <;> rfl
  have maj : ((w ||| x) &&& y) ||| (w &&& x) = (w &&& x) ^^^ (w &&& y) ^^^ (x &&& y) := by
    apply BitVec.eq_of_getLsbD_eq
    intro j hj
    simp only [BitVec.getLsbD_xor, BitVec.getLsbD_and, BitVec.getLsbD_or]
    cases w.getLsbD j <;> cases x.getLsbD j <;> cases y.getLsbD j <;> rfl
  unfold fk specF specK
  by_cases h1 : i < 20
  · simp only [h1, if_true]; exact ⟨ch, trivial⟩
  · by_cases h2 : i < 40
    · simp only [h1, h2, if_true, if_false]; exact ⟨trivial, trivial⟩
    · by_cases h3 : i < 60
      · simp only [h1, h2, h3, if_true, if_false]; exact ⟨maj, trivial⟩
      · simp only [h1, h2, h3, if_false]; exact ⟨trivial, trivial⟩

theorem cat_bit (b3 b2 b1 b0 : Byte) (n : Nat) : (b3 ++ b2 ++ b1 ++ b0 : Word).getLsbD n =
    if n < 8 then b0.getLsbD n else if n - 8 < 8 then b1.getLsbD (n - 8) else
    if n - 8 - 8 < 8 then b2.getLsbD (n - 8 - 8) else b3.getLsbD (n - 8 - 8 - 8) := by
  show (b3 ++ b2 ++ b1 ++ b0).getLsbD n = _
  rw [BitVec.getLsbD_append, BitVec.getLsbD_append, BitVec.getLsbD_append]

/-- The byte swap of `SHA1BLK0`. -/
theorem blk0_word (b0 b1 b2 b3 : Byte) :
    (rol (b3 ++ b2 ++ b1 ++ b0 : Word) 24 &&& 0xFF00FF00#32) ||| (rol (b3 ++ b2 ++ b1 ++ b0 : Word) 8 &&& 0x00FF00FF#32)
      = (b0 ++ b1 ++ b2 ++ b3 : Word) := by
  have hX := cat_bit b3 b2 b1 b0
  have hY := cat_bit b0 b1 b2 b3
  generalize (b3 ++ b2 ++ b1 ++ b0 : Word) = X at hX ⊢
  generalize (b0 ++ b1 ++ b2 ++ b3 : Word) = Y at hY ⊢
  apply BitVec.eq_of_getLsbD_eq
  have key : ∀ k : Nat, k < 4 → ∀ j : Nat, j < 8 →
      ((rol X 24 &&& 0xFF00FF00#32) ||| (rol X 8 &&& 0x00FF00FF#32)).getLsbD (8 * k + j)
      = Y.getLsbD (8 * k + j) := by
    intro k hk j hj
    match k, hk with
    | 0, _ | 1, _ | 2, _ | 3, _ =>
      match j, hj with
      | 0, _ | 1, _ | 2, _ | 3, _ | 4, _ | 5, _ | 6, _ | 7, _ =>
        simp only [rol, BitVec.getLsbD_or, BitVec.getLsbD_and, BitVec.getLsbD_shiftLeft,
          BitVec.getLsbD_ushiftRight, hX, hY]
        simp
  intro i hi
  have := key (i / 8) (by omega) (i % 8) (by omega)
  rwa [show 8 * (i / 8) + i % 8 = i by omega] at this

theorem swap_word (q : List Byte) (i : Nat) :
    (rol (word q i) 24 &&& 0xFF00FF00#32) ||| (rol (word q i) 8 &&& 0x00FF00FF#32) = specWord q i := by
  unfold word specWord
  generalize q.getD (4 * i + 3) 0 = b3
  generalize q.getD (4 * i + 2) 0 = b2
  generalize q.getD (4 * i + 1) 0 = b1
  generalize q.getD (4 * i) 0 = b0
  rw [blk0_word]
  apply BitVec.eq_of_toNat_eq
  have h0 := b0.isLt; have h1 := b1.isLt; have h2 := b2.isLt; have h3 := b3.isLt
  simp only [BitVec.toNat_append, BitVec.toNat_ofNat]
  rw [← Nat.shiftLeft_add_eq_or_of_lt h1, ← Nat.shiftLeft_add_eq_or_of_lt h2, ← Nat.shiftLeft_add_eq_or_of_lt h3]
  simp only [Nat.shiftLeft_eq]
  omega

theorem rol_rotate (v : Word) (s : Nat) (h : s < 32) : rol v s = v.rotateLeft s := by
  rw [BitVec.rotateLeft_def, Nat.mod_eq_of_lt h]; rfl

theorem and15 (n : Nat) : n &&& 15 = n % 16 := Nat.and_two_pow_sub_one_eq_mod n 4

/-- The circular schedule buffer before line `i` holds the latest 16 schedule words (below
line 16: the swapped words so far and the raw ones). -/
def Sched (q : List Byte) (i : Nat) (t : Nat → Word) : Prop :=
  (∀ j, j < i → i ≤ j + 16 → t (j % 16) = specW q j) ∧
  (∀ j, i ≤ j → j < 16 → t j = word q j)

theorem specW_lt (q : List Byte) {t : Nat} (h : t < 16) : specW q t = specWord q t := by
  rw [specW, dif_pos h]

theorem specW_ge (q : List Byte) {t : Nat} (h : 16 ≤ t) : specW q t =
    (specW q (t - 3) ^^^ specW q (t - 8) ^^^ specW q (t - 14) ^^^ specW q (t - 16)).rotateLeft 1 := by
  rw [specW, dif_neg (by omega)]

theorem sched_step {q : List Byte} {i : Nat} {t : Nat → Word} (h : Sched q i t) :
    (if i < 16 then blk0 t i else blk t i).1 = specW q i ∧
    Sched q (i + 1) (if i < 16 then blk0 t i else blk t i).2 := by
  obtain ⟨h1, h2⟩ := h
  have upd_ok : ∀ v, v = specW q i → Sched q (i + 1) (upd t (i % 16) v) := by
    intro v hv
    constructor
    · intro j hj hj2
      by_cases e : j = i
      · subst e; simp [upd, hv]
      · have : j % 16 ≠ i % 16 := by omega
        simp only [upd, this, if_false]
        exact h1 j (by omega) (by omega)
    · intro j hj hj2
      have : j ≠ i % 16 := by omega
      simp only [upd, this, if_false]
      exact h2 j (by omega) hj2
  by_cases hi : i < 16
  · simp only [if_pos hi, blk0]
    have hv : (rol (t i) 24 &&& 0xFF00FF00#32) ||| (rol (t i) 8 &&& 0x00FF00FF#32) = specW q i := by
      rw [h2 i (Nat.le_refl _) hi, swap_word, specW_lt q hi]
    refine ⟨hv, ?_⟩
    have := upd_ok _ hv
    rwa [Nat.mod_eq_of_lt hi] at this
  · simp only [if_neg hi, blk, and15]
    have e : ∀ k, k ≤ 16 → 0 < k → t ((i + (16 - k)) % 16) = specW q (i - k) := by
      intro k hk h0
      have := h1 (i - k) (by omega) (by omega)
      rw [← this]; congr 1; omega
    have hv : rol (t ((i + 13) % 16) ^^^ t ((i + 8) % 16) ^^^ t ((i + 2) % 16) ^^^ t (i % 16)) 1 = specW q i := by
      rw [specW_ge q (by omega), rol_rotate _ _ (by decide)]
      have a := e 3 (by decide) (by decide)
      have b := e 8 (by decide) (by decide)
      have c := e 14 (by decide) (by decide)
      have d := e 16 (by decide) (by decide)
      simp only [Nat.reduceSub, Nat.add_zero] at a b c d
      rw [a, b, c, d]
    exact ⟨hv, upd_ok _ hv⟩

theorem line_step {q : List Byte} {i : Nat} {r : Regs} {t : Nat → Word} (h : Sched q i t) :
    (line (r, t) i).1 = specStep q r i ∧ Sched q (i + 1) (line (r, t) i).2 := by
  obtain ⟨h1, h2⟩ := sched_step h
  obtain ⟨v, w, x, y, z⟩ := r
  obtain ⟨f1, f2⟩ := f_eq i w x y
  refine ⟨?_, h2⟩
  unfold line specStep
  simp only [h1, f1, f2, rol_rotate _ 5 (by decide), rol_rotate _ 30 (by decide)]
  congr 1
  ac_rfl

theorem lines_spec (q : List Byte) (r : Regs) (n : Nat) :
    ((List.range n).foldl line (r, word q)).1 = (List.range n).foldl (specStep q) r ∧
    Sched q n ((List.range n).foldl line (r, word q)).2 := by
  induction n with
  | zero => exact ⟨rfl, fun j h => absurd h (by omega), fun j _ _ => rfl⟩
  | succ n ih =>
    rw [List.range_succ, List.foldl_append, List.foldl_append]
    obtain ⟨a, b⟩ := ih
    have := line_step (r := ((List.range n).foldl line (r, word q)).1) b
    rw [← a]
    exact this

/-- **C18/C19** `hash_block` of `sha1_hash` is the FIPS 180 block function. -/
theorem sha1_block_conforms (s : Regs) (q : List Byte) : (hashBlock s q).1 = specBlock s q := by
  unfold hashBlock specBlock
  simp only [(lines_spec q s 80).1]
  simp only [BitVec.add_comm]

theorem keeps : Keeps64 hashBlock := fun _ _ _ => by simp [hashBlock, unword]

theorem iterate_spec : ∀ (n : Nat) (s : Regs) (m : List Byte), m.length ≤ n →
    iterate hashBlock s m = specFold s m := by
  intro n
  induction n with
  | zero =>
    intro s m h
    rw [iterate, specFold, dif_neg (by omega), dif_neg (by omega)]
  | succ n ih =>
    intro s m h
    rw [iterate, specFold]
    split
    · rw [ih _ _ (by rw [List.length_drop]; omega), sha1_block_conforms]
    · rfl

theorem and504 (n : Nat) : n &&& 504 = 8 * (n / 8 % 64) := by
  have h : n &&& 504 = (n / 8 &&& 63) * 8 := by
    apply Nat.eq_of_testBit_eq
    intro i
    rw [show (n / 8 &&& 63) * 8 = (n / 8 &&& 63) <<< 3 from (Nat.shiftLeft_eq _ 3).symm,
      Nat.testBit_shiftLeft, Nat.testBit_and, Nat.testBit_and, show n / 8 = n >>> 3 from (Nat.shiftRight_eq_div_pow n 3).symm,
      Nat.testBit_shiftRight]
    by_cases hi : 3 ≤ i
    · rw [show 3 + (i - 3) = i by omega, show (504 : Nat) = 63 <<< 3 from rfl, Nat.testBit_shiftLeft]
      simp [hi]
    · have : (504 : Nat).testBit i = false := by
        rw [show (504 : Nat) = 63 <<< 3 from rfl, Nat.testBit_shiftLeft]; simp [hi]
      simp [this, hi]
  rw [h, and63]; omega

theorem zeros_spec : ∀ (n : Nat) {b : BH Regs} {m : List Byte}, Rep hashBlock initState True b m →
    (120 - m.length % 64) % 64 < n →
    ∃ b', zeros n b = some b' ∧
      Rep hashBlock initState True b' (m ++ List.replicate ((120 - m.length % 64) % 64) 0#8) := by
  intro n
  induction n with
  | zero => intro b m _ h; omega
  | succ n ih =>
    intro b m h hn
    have hc : b.c0 &&& 504 = 8 * (m.length % 64) := by rw [and504, h.lo]; omega
    unfold zeros
    rw [hc]
    by_cases he : m.length % 64 = 56
    · rw [he]
      refine ⟨b, by simp, ?_⟩
      simpa using h
    · rw [if_pos (by omega)]
      have h' := rep_hash keeps h (d := [0#8]) (fun _ => by simp)
      have hl : (m ++ [0#8]).length = m.length + 1 := by simp
      obtain ⟨b', e1, e2⟩ := ih h' (by rw [hl]; omega)
      refine ⟨b', e1, ?_⟩
      rw [hl, List.append_assoc] at e2
      have : [0#8] ++ List.replicate ((120 - (m.length + 1) % 64) % 64) 0#8 =
          List.replicate ((120 - m.length % 64) % 64) 0#8 := by
        rw [show (120 - m.length % 64) % 64 = (120 - (m.length + 1) % 64) % 64 + 1 by omega,
          List.replicate_succ]; rfl
      rwa [this] at e2

theorem byte_eq {a b : Nat} (h : a % 256 = b % 256) : BitVec.ofNat 8 a = BitVec.ofNat 8 b := by
  apply BitVec.eq_of_toNat_eq; simpa using h

theorem and255 (n : Nat) : n &&& 255 = n % 256 := Nat.and_two_pow_sub_one_eq_mod n 8
theorem and3 (n : Nat) : n &&& 3 = n % 4 := Nat.and_two_pow_sub_one_eq_mod n 2

theorem final_eq (n : Nat) : ((List.range 8).map fun i =>
    BitVec.ofNat 8 (((if i ≥ 4 then n % 2 ^ 32 else n / 2 ^ 32 % 2 ^ 32) >>> ((3 - (i &&& 3)) * 8)) &&& 255)) =
    be64 (n % 2 ^ 64) := by
  unfold be64
  apply List.map_congr_left
  intro i hi
  rw [List.mem_range] at hi
  apply byte_eq
  rw [and255, and3, Nat.shiftRight_eq_div_pow]
  match i, hi with
  | 0, _ | 1, _ | 2, _ | 3, _ | 4, _ | 5, _ | 6, _ | 7, _ =>
    simp only [Nat.reduceLeDiff, Nat.reduceMod, Nat.reduceSub, Nat.reduceMul, Nat.reducePow, ge_iff_le, if_true, if_false]
    omega

theorem digest_eq (r : Regs) : ((List.range 20).map fun i =>
    BitVec.ofNat 8 ((([r.a, r.b, r.c, r.d, r.e].getD (i >>> 2) 0).toNat >>> ((3 - (i &&& 3)) * 8)) &&& 255)) =
    [r.a, r.b, r.c, r.d, r.e].flatMap fun w => (List.range 4).map fun k => BitVec.ofNat 8 (w.toNat / 256 ^ (3 - k)) := by
  have h : ∀ (w : Word) (k : Nat), BitVec.ofNat 8 ((w.toNat >>> (k * 8)) &&& 255) = BitVec.ofNat 8 (w.toNat / 256 ^ k) := by
    intro w k
    apply byte_eq
    rw [and255, Nat.shiftRight_eq_div_pow, Nat.mul_comm, Nat.pow_mul]; simp
  simp only [h]
  rfl

theorem finalize_spec {b : BH Regs} {m : List Byte} (h : Rep hashBlock initState True b m) :
    finalize b = some (fips180 m) := by
  have h1 := rep_hash keeps h (d := [0x80#8]) (fun _ => by simp)
  obtain ⟨b2, e2, h2⟩ := zeros_spec 65 h1 (by omega)
  have hlen : (m ++ [0x80#8]).length = m.length + 1 := by simp
  rw [hlen] at h2
  have hz : (120 - (m.length + 1) % 64) % 64 = (119 - m.length % 64) % 64 := by omega
  rw [hz] at h2
  unfold finalize
  simp only [e2, Option.bind_eq_bind, Option.bind_some]
  rw [h.lo, h.hi trivial, final_eq]
  have h3 := rep_hash keeps h2 (d := be64 (8 * m.length % 2 ^ 64)) (fun _ => by simp [be64])
  have hst := h3.st
  rw [show m ++ [0x80#8] ++ List.replicate ((119 - m.length % 64) % 64) 0#8 ++ be64 (8 * m.length % 2 ^ 64) = pad m from rfl,
    iterate_spec _ _ _ (Nat.le_refl _)] at hst
  rw [hst, digest_eq]
  rfl

/-! ## Properties -/

/-- **C18/C19** (partial) For every message, fed in any number of `hash` calls of any sizes
below 4 GiB each, `sha1_hash` terminates and yields exactly the FIPS 180 SHA-1 digest of the
concatenation (hence the same digest for every way of splitting it).

Full claim: also for single calls of 2^32 bytes or more.  It fails there, see
`MD5.md5_4gib_wrong_padding`. -/
theorem sha1_conforms_partial (garbage : List Byte) (hg : garbage.length = 64) (chunks : List (List Byte))
    (hc : ∀ d ∈ chunks, d.length < 2 ^ 32) : sha1 garbage chunks = some (fips180 chunks.flatten) := by
  have h := rep_hashAll keeps (exact := True) chunks (rep_clear hashBlock initState True garbage hg)
    (fun _ => hc)
  rw [List.nil_append] at h
  exact finalize_spec h

/-- The padding of `pad` is the one FIPS 180 section 5.1.1 describes. -/
theorem sha1_pad_spec (m : List Byte) :
    (pad m).length % 64 = 0 ∧
    (∃ k, pad m = m ++ [0x80#8] ++ List.replicate k 0#8 ++ be64 (8 * m.length % 2 ^ 64) ∧ k < 64 ∧
      (m.length + 1 + k) % 64 = 56 ∧ ∀ k', (m.length + 1 + k') % 64 = 56 → k ≤ k') := by
  have hl : (be64 (8 * m.length % 2 ^ 64)).length = 8 := by simp [be64]
  refine ⟨?_, _, rfl, Nat.mod_lt _ (by decide), by omega, ?_⟩
  · simp only [pad, List.length_append, hl, List.length_replicate, List.length_singleton]; omega
  · intro k' h; omega

/-! ## Non-vacuity: FIPS 180 test vector "abc" -/
set_option maxRecDepth 100000 in
example : sha1 (List.replicate 64 0xAA) [[0x61, 0x62], [], [0x63]] =
    some [0xa9, 0x99, 0x3e, 0x36, 0x47, 0x06, 0x81, 0x6a, 0xba, 0x3e, 0x25, 0x71, 0x78, 0x50, 0xc2, 0x6c,
      0x9c, 0xd0, 0xd8, 0x9d] := by
  decide +kernel

end Verif.Hash.SHA1
