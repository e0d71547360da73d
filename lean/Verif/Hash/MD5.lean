import Verif.Hash.Block
import Verif.Basic.Math
/-
Model of `stdex::md5_hash` (include/stdex/hash.hpp 302-452) for a little-endian host, and its
conformance to RFC 1321.  The lines `quad0` .. `quad15` are a transcription of the unrolled
rounds 373-436, four lines each.
-/
namespace Verif.Hash.MD5

abbrev Word := BitVec 32

/-- `m_state`, hash.hpp 451; also the working variables of `hash_block`, 364. -/
structure Regs where
  a : Word
  b : Word
  c : Word
  d : Word
deriving DecidableEq

/-- `rol`, math.hpp 83 (see `Verif.Math.rol`, `rol_defined`). -/
def rol (v : Word) (s : Nat) : Word := (v <<< s) ||| (v >>> (32 - s))

/-- `m_temp[i]`: the union of hash.hpp 125-128 on a little-endian host. -/
def word (q : List Byte) (i : Nat) : Word :=
  (q.getD (4 * i + 3) 0) ++ (q.getD (4 * i + 2) 0) ++ (q.getD (4 * i + 1) 0) ++ (q.getD (4 * i) 0)

/-- `MD5_R1`, hash.hpp 367. -/
def R1 (a b c d x : Word) (s : Nat) (ac : Word) : Word :=
  let a := a + (((b &&& c) ||| (~~~b &&& d)) + x + ac)
  let a := rol a s
  a + b
/-- `MD5_R2`, hash.hpp 368. -/
def R2 (a b c d x : Word) (s : Nat) (ac : Word) : Word :=
  let a := a + (((b &&& d) ||| (c &&& ~~~d)) + x + ac)
  let a := rol a s
  a + b
/-- `MD5_R3`, hash.hpp 369. -/
def R3 (a b c d x : Word) (s : Nat) (ac : Word) : Word :=
  let a := a + ((b ^^^ c ^^^ d) + x + ac)
  let a := rol a s
  a + b
/-- `MD5_R4`, hash.hpp 370. -/
def R4 (a b c d x : Word) (s : Nat) (ac : Word) : Word :=
  let a := a + ((c ^^^ (b ||| ~~~d)) + x + ac)
  let a := rol a s
  a + b

/-- hash.hpp 373-376. -/
def quad0 (x : Nat → Word) (r : Regs) : Regs :=
  let ⟨a, b, c, d⟩ := r
  let a := R1 a b c d (x 0) 7 0xd76aa478#32
  let d := R1 d a b c (x 1) 12 0xe8c7b756#32
  let c := R1 c d a b (x 2) 17 0x242070db#32
  let b := R1 b c d a (x 3) 22 0xc1bdceee#32
  ⟨a, b, c, d⟩

/-- hash.hpp 377-380. -/
def quad1 (x : Nat → Word) (r : Regs) : Regs :=
  let ⟨a, b, c, d⟩ := r
  let a := R1 a b c d (x 4) 7 0xf57c0faf#32
  let d := R1 d a b c (x 5) 12 0x4787c62a#32
  let c := R1 c d a b (x 6) 17 0xa8304613#32
  let b := R1 b c d a (x 7) 22 0xfd469501#32
  ⟨a, b, c, d⟩

/-- hash.hpp 381-384. -/
def quad2 (x : Nat → Word) (r : Regs) : Regs :=
  let ⟨a, b, c, d⟩ := r
  let a := R1 a b c d (x 8) 7 0x698098d8#32
  let d := R1 d a b c (x 9) 12 0x8b44f7af#32
  let c := R1 c d a b (x 10) 17 0xffff5bb1#32
  let b := R1 b c d a (x 11) 22 0x895cd7be#32
  ⟨a, b, c, d⟩

/-- hash.hpp 385-388. -/
def quad3 (x : Nat → Word) (r : Regs) : Regs :=
  let ⟨a, b, c, d⟩ := r
  let a := R1 a b c d (x 12) 7 0x6b901122#32
  let d := R1 d a b c (x 13) 12 0xfd987193#32
  let c := R1 c d a b (x 14) 17 0xa679438e#32
  let b := R1 b c d a (x 15) 22 0x49b40821#32
  ⟨a, b, c, d⟩

/-- hash.hpp 389-392. -/
def quad4 (x : Nat → Word) (r : Regs) : Regs :=
  let ⟨a, b, c, d⟩ := r
  let a := R2 a b c d (x 1) 5 0xf61e2562#32
  let d := R2 d a b c (x 6) 9 0xc040b340#32
  let c := R2 c d a b (x 11) 14 0x265e5a51#32
  let b := R2 b c d a (x 0) 20 0xe9b6c7aa#32
  ⟨a, b, c, d⟩

/-- hash.hpp 393-396. -/
def quad5 (x : Nat → Word) (r : Regs) : Regs :=
  let ⟨a, b, c, d⟩ := r
  let a := R2 a b c d (x 5) 5 0xd62f105d#32
  let d := R2 d a b c (x 10) 9 0x2441453#32
  let c := R2 c d a b (x 15) 14 0xd8a1e681#32
  let b := R2 b c d a (x 4) 20 0xe7d3fbc8#32
  ⟨a, b, c, d⟩

/-- hash.hpp 397-400. -/
def quad6 (x : Nat → Word) (r : Regs) : Regs :=
  let ⟨a, b, c, d⟩ := r
  let a := R2 a b c d (x 9) 5 0x21e1cde6#32
  let d := R2 d a b c (x 14) 9 0xc33707d6#32
  let c := R2 c d a b (x 3) 14 0xf4d50d87#32
  let b := R2 b c d a (x 8) 20 0x455a14ed#32
  ⟨a, b, c, d⟩

/-- hash.hpp 401-404. -/
def quad7 (x : Nat → Word) (r : Regs) : Regs :=
  let ⟨a, b, c, d⟩ := r
  let a := R2 a b c d (x 13) 5 0xa9e3e905#32
  let d := R2 d a b c (x 2) 9 0xfcefa3f8#32
  let c := R2 c d a b (x 7) 14 0x676f02d9#32
  let b := R2 b c d a (x 12) 20 0x8d2a4c8a#32
  ⟨a, b, c, d⟩

/-- hash.hpp 405-408. -/
def quad8 (x : Nat → Word) (r : Regs) : Regs :=
  let ⟨a, b, c, d⟩ := r
  let a := R3 a b c d (x 5) 4 0xfffa3942#32
  let d := R3 d a b c (x 8) 11 0x8771f681#32
  let c := R3 c d a b (x 11) 16 0x6d9d6122#32
  let b := R3 b c d a (x 14) 23 0xfde5380c#32
  ⟨a, b, c, d⟩

/-- hash.hpp 409-412. -/
def quad9 (x : Nat → Word) (r : Regs) : Regs :=
  let ⟨a, b, c, d⟩ := r
  let a := R3 a b c d (x 1) 4 0xa4beea44#32
  let d := R3 d a b c (x 4) 11 0x4bdecfa9#32
  let c := R3 c d a b (x 7) 16 0xf6bb4b60#32
  let b := R3 b c d a (x 10) 23 0xbebfbc70#32
  ⟨a, b, c, d⟩

/-- hash.hpp 413-416. -/
def quad10 (x : Nat → Word) (r : Regs) : Regs :=
  let ⟨a, b, c, d⟩ := r
  let a := R3 a b c d (x 13) 4 0x289b7ec6#32
  let d := R3 d a b c (x 0) 11 0xeaa127fa#32
  let c := R3 c d a b (x 3) 16 0xd4ef3085#32
  let b := R3 b c d a (x 6) 23 0x4881d05#32
  ⟨a, b, c, d⟩

/-- hash.hpp 417-420. -/
def quad11 (x : Nat → Word) (r : Regs) : Regs :=
  let ⟨a, b, c, d⟩ := r
  let a := R3 a b c d (x 9) 4 0xd9d4d039#32
  let d := R3 d a b c (x 12) 11 0xe6db99e5#32
  let c := R3 c d a b (x 15) 16 0x1fa27cf8#32
  let b := R3 b c d a (x 2) 23 0xc4ac5665#32
  ⟨a, b, c, d⟩

/-- hash.hpp 421-424. -/
def quad12 (x : Nat → Word) (r : Regs) : Regs :=
  let ⟨a, b, c, d⟩ := r
  let a := R4 a b c d (x 0) 6 0xf4292244#32
  let d := R4 d a b c (x 7) 10 0x432aff97#32
  let c := R4 c d a b (x 14) 15 0xab9423a7#32
  let b := R4 b c d a (x 5) 21 0xfc93a039#32
  ⟨a, b, c, d⟩

/-- hash.hpp 425-428. -/
def quad13 (x : Nat → Word) (r : Regs) : Regs :=
  let ⟨a, b, c, d⟩ := r
  let a := R4 a b c d (x 12) 6 0x655b59c3#32
  let d := R4 d a b c (x 3) 10 0x8f0ccc92#32
  let c := R4 c d a b (x 10) 15 0xffeff47d#32
  let b := R4 b c d a (x 1) 21 0x85845dd1#32
  ⟨a, b, c, d⟩

/-- hash.hpp 429-432. -/
def quad14 (x : Nat → Word) (r : Regs) : Regs :=
  let ⟨a, b, c, d⟩ := r
  let a := R4 a b c d (x 8) 6 0x6fa87e4f#32
  let d := R4 d a b c (x 15) 10 0xfe2ce6e0#32
  let c := R4 c d a b (x 6) 15 0xa3014314#32
  let b := R4 b c d a (x 13) 21 0x4e0811a1#32
  ⟨a, b, c, d⟩

/-- hash.hpp 433-436. -/
def quad15 (x : Nat → Word) (r : Regs) : Regs :=
  let ⟨a, b, c, d⟩ := r
  let a := R4 a b c d (x 4) 6 0xf7537e82#32
  let d := R4 d a b c (x 11) 10 0xbd3af235#32
  let c := R4 c d a b (x 2) 15 0x2ad7d2bb#32
  let b := R4 b c d a (x 9) 21 0xeb86d391#32
  ⟨a, b, c, d⟩

/-- `hash_block`, hash.hpp 344-448. -/
def hashBlock : Compress Regs := fun st q =>
  let x := word q
  let r := (quad15 x (quad14 x (quad13 x (quad12 x (quad11 x (quad10 x (quad9 x (quad8 x (quad7 x (quad6 x (quad5 x (quad4 x (quad3 x (quad2 x (quad1 x (quad0 x st))))))))))))))))
  (⟨st.a + r.a, st.b + r.b, st.c + r.c, st.d + r.d⟩, q)

/-- `clear`, hash.hpp 310-317. -/
def initState : Regs := ⟨0x67452301#32, 0xefcdab89#32, 0x98badcfe#32, 0x10325476#32⟩

/-- `md5_padding`, hash.hpp 321-325. -/
def padding : List Byte := 0x80#8 :: List.replicate 63 0#8

/-- The four bytes of a word in memory, little-endian host. -/
def leWord (w : Nat) : List Byte :=
  [BitVec.ofNat 8 w, BitVec.ofNat 8 (w >>> 8), BitVec.ofNat 8 (w >>> 16), BitVec.ofNat 8 (w >>> 24)]

/-- `finalize`, hash.hpp 319-341: the digest `m_value` (16 bytes in memory). -/
def finalize (b : BH Regs) : List Byte :=
  let final := leWord b.c0 ++ leWord b.c1                        -- 329
  let index := (b.c0 >>> 3) &&& 0x3f                             -- 332
  let remainder := if index < 56 then 56 - index else 120 - index -- 333
  let b := hash hashBlock b (padding.take remainder)             -- 334
  let b := hash hashBlock b final                                -- 337
  leWord b.st.a.toNat ++ leWord b.st.b.toNat ++ leWord b.st.c.toNat ++ leWord b.st.d.toNat  -- 340

/-- Construct, feed the chunks, finalize. -/
def md5 (garbage : List Byte) (chunks : List (List Byte)) : List Byte :=
  finalize (hashAll hashBlock ⟨0, 0, garbage, initState⟩ chunks)

/-! ## Specification: RFC 1321 -/

/-- RFC 1321 section 3.4: T[i] is the integer part of 4294967296 * abs(sin(i)), i = 1..64
(computed from that formula, not copied from the code). -/
def tableT : List Word :=
  [0xd76aa478#32, 0xe8c7b756#32, 0x242070db#32, 0xc1bdceee#32, 0xf57c0faf#32, 0x4787c62a#32,
   0xa8304613#32, 0xfd469501#32, 0x698098d8#32, 0x8b44f7af#32, 0xffff5bb1#32, 0x895cd7be#32,
   0x6b901122#32, 0xfd987193#32, 0xa679438e#32, 0x49b40821#32, 0xf61e2562#32, 0xc040b340#32,
   0x265e5a51#32, 0xe9b6c7aa#32, 0xd62f105d#32, 0x02441453#32, 0xd8a1e681#32, 0xe7d3fbc8#32,
   0x21e1cde6#32, 0xc33707d6#32, 0xf4d50d87#32, 0x455a14ed#32, 0xa9e3e905#32, 0xfcefa3f8#32,
   0x676f02d9#32, 0x8d2a4c8a#32, 0xfffa3942#32, 0x8771f681#32, 0x6d9d6122#32, 0xfde5380c#32,
   0xa4beea44#32, 0x4bdecfa9#32, 0xf6bb4b60#32, 0xbebfbc70#32, 0x289b7ec6#32, 0xeaa127fa#32,
   0xd4ef3085#32, 0x04881d05#32, 0xd9d4d039#32, 0xe6db99e5#32, 0x1fa27cf8#32, 0xc4ac5665#32,
   0xf4292244#32, 0x432aff97#32, 0xab9423a7#32, 0xfc93a039#32, 0x655b59c3#32, 0x8f0ccc92#32,
   0xffeff47d#32, 0x85845dd1#32, 0x6fa87e4f#32, 0xfe2ce6e0#32, 0xa3014314#32, 0x4e0811a1#32,
   0xf7537e82#32, 0xbd3af235#32, 0x2ad7d2bb#32, 0xeb86d391#32]

/-- F, G, H, I of section 3.4; round number from 0. -/
def nonlinear (round : Nat) (X Y Z : Word) : Word :=
  match round with
  | 0 => (X &&& Y) ||| (~~~X &&& Z)
  | 1 => (X &&& Z) ||| (Y &&& ~~~Z)
  | 2 => X ^^^ Y ^^^ Z
  | _ => Y ^^^ (X ||| ~~~Z)

/-- The word index used by operation `i`. -/
def wordIndex (i : Nat) : Nat :=
  match i / 16 with
  | 0 => i
  | 1 => (5 * i + 1) % 16
  | 2 => (3 * i + 5) % 16
  | _ => (7 * i) % 16

/-- The rotation amounts. -/
def shift (i : Nat) : Nat :=
  match i / 16, i % 4 with
  | 0, 0 => 7 | 0, 1 => 12 | 0, 2 => 17 | 0, _ => 22
  | 1, 0 => 5 | 1, 1 => 9 | 1, 2 => 14 | 1, _ => 20
  | 2, 0 => 4 | 2, 1 => 11 | 2, 2 => 16 | 2, _ => 23
  | _, 0 => 6 | _, 1 => 10 | _, 2 => 15 | _, _ => 21

/-- Operation `i`: a = b + ((a + f(b,c,d) + X[k] + T[i]) <<< s), then the roles rotate
(ABCD, DABC, CDAB, BCDA). -/
def specOp (X : Nat → Word) (r : Regs) (i : Nat) : Regs :=
  ⟨r.d, r.b + (r.a + nonlinear (i / 16) r.b r.c r.d + X (wordIndex i) + tableT.getD i 0).rotateLeft (shift i),
    r.b, r.c⟩

/-- The word `i` of a 64-byte block, "low-order byte first" (section 2). -/
def specWord (block : List Byte) (i : Nat) : Word :=
  BitVec.ofNat 32 ((block.getD (4 * i) 0).toNat + 256 * (block.getD (4 * i + 1) 0).toNat +
    65536 * (block.getD (4 * i + 2) 0).toNat + 16777216 * (block.getD (4 * i + 3) 0).toNat)

/-- Processing of one 16-word block, section 3.4. -/
def specBlock (s : Regs) (block : List Byte) : Regs :=
  let r := (List.range 64).foldl (specOp (specWord block)) s
  ⟨s.a + r.a, s.b + r.b, s.c + r.c, s.d + r.d⟩

/-- The 64-bit length in bits, low-order byte first, section 3.2. -/
def le64 (n : Nat) : List Byte := (List.range 8).map fun k => BitVec.ofNat 8 (n / 256 ^ k)

/-- Sections 3.1 and 3.2: a 1 bit, zero bits up to 448 mod 512, the length mod 2^64. -/
def pad (m : List Byte) : List Byte :=
  m ++ [0x80#8] ++ List.replicate ((119 - m.length % 64) % 64) 0#8 ++ le64 (8 * m.length % 2 ^ 64)

/-- Blocks of 64 bytes from the left. -/
def specFold (s : Regs) (m : List Byte) : Regs :=
  if _h : 64 ≤ m.length then specFold (specBlock s (m.take 64)) (m.drop 64) else s
termination_by m.length
decreasing_by simp; omega

/-- MD5 of a message, section 3. -/
def rfc1321 (m : List Byte) : List Byte :=
  let r := specFold ⟨0x67452301#32, 0xefcdab89#32, 0x98badcfe#32, 0x10325476#32⟩ (pad m)
  [r.a, r.b, r.c, r.d].flatMap fun w => (List.range 4).map fun k => BitVec.ofNat 8 (w.toNat / 256 ^ k)

/-! ## The compression function -/

/-- The rotation amounts of the code are in the range where `stdex::rol` is defined. -/
theorem rol_defined (v : Word) (s : Nat) (h0 : 0 < s) (h1 : s < 32) : Verif.Math.rol v s = some (rol v s) := by
  unfold Verif.Math.rol rol
  rw [if_neg (by omega)]
  have : ((32 : Int) - s).toNat = 32 - s := by omega
  rw [this]; simp

theorem rol_eq (v : Word) (s : Nat) : rol v s = (v <<< s) ||| (v >>> (32 - s)) := rfl

/-- Four operations. -/
def steps (X : Nat → Word) (r : Regs) (i : Nat) : Regs :=
  specOp X (specOp X (specOp X (specOp X r i) (i + 1)) (i + 2)) (i + 3)

theorem word_eq (q : List Byte) : word q = specWord q := by
  funext i
  unfold word specWord
  apply BitVec.eq_of_toNat_eq
  generalize q.getD (4 * i + 3) 0 = b3
  generalize q.getD (4 * i + 2) 0 = b2
  generalize q.getD (4 * i + 1) 0 = b1
  generalize q.getD (4 * i) 0 = b0
  have h0 := b0.isLt; have h1 := b1.isLt; have h2 := b2.isLt; have h3 := b3.isLt
  simp only [BitVec.toNat_append, BitVec.toNat_ofNat]
  rw [← Nat.shiftLeft_add_eq_or_of_lt h2, ← Nat.shiftLeft_add_eq_or_of_lt h1, ← Nat.shiftLeft_add_eq_or_of_lt h0]
  simp only [Nat.shiftLeft_eq]
  omega

theorem assoc4 (a b c d : Word) : a + (b + c + d) = a + b + c + d := by
  simp [BitVec.add_assoc]

theorem quad0_spec (x : Nat → Word) (r : Regs) : quad0 x r = steps x r 0 := by
  simp only [quad0, R1, assoc4]
  simp only [BitVec.add_comm (rol _ _)]
  rfl
theorem quad1_spec (x : Nat → Word) (r : Regs) : quad1 x r = steps x r 4 := by
  simp only [quad1, R1, assoc4]
  simp only [BitVec.add_comm (rol _ _)]
  rfl
theorem quad2_spec (x : Nat → Word) (r : Regs) : quad2 x r = steps x r 8 := by
  simp only [quad2, R1, assoc4]
  simp only [BitVec.add_comm (rol _ _)]
  rfl
theorem quad3_spec (x : Nat → Word) (r : Regs) : quad3 x r = steps x r 12 := by
  simp only [quad3, R1, assoc4]
  simp only [BitVec.add_comm (rol _ _)]
  rfl
theorem quad4_spec (x : Nat → Word) (r : Regs) : quad4 x r = steps x r 16 := by
  simp only [quad4, R2, assoc4]
  simp only [BitVec.add_comm (rol _ _)]
  rfl
theorem quad5_spec (x : Nat → Word) (r : Regs) : quad5 x r = steps x r 20 := by
  simp only [quad5, R2, assoc4]
  simp only [BitVec.add_comm (rol _ _)]
  rfl
theorem quad6_spec (x : Nat → Word) (r : Regs) : quad6 x r = steps x r 24 := by
  simp only [quad6, R2, assoc4]
  simp only [BitVec.add_comm (rol _ _)]
  rfl
theorem quad7_spec (x : Nat → Word) (r : Regs) : quad7 x r = steps x r 28 := by
  simp only [quad7, R2, assoc4]
  simp only [BitVec.add_comm (rol _ _)]
  rfl
theorem quad8_spec (x : Nat → Word) (r : Regs) : quad8 x r = steps x r 32 := by
  simp only [quad8, R3, assoc4]
  simp only [BitVec.add_comm (rol _ _)]
  rfl
theorem quad9_spec (x : Nat → Word) (r : Regs) : quad9 x r = steps x r 36 := by
  simp only [quad9, R3, assoc4]
  simp only [BitVec.add_comm (rol _ _)]
  rfl
theorem quad10_spec (x : Nat → Word) (r : Regs) : quad10 x r = steps x r 40 := by
  simp only [quad10, R3, assoc4]
  simp only [BitVec.add_comm (rol _ _)]
  rfl
theorem quad11_spec (x : Nat → Word) (r : Regs) : quad11 x r = steps x r 44 := by
  simp only [quad11, R3, assoc4]
  simp only [BitVec.add_comm (rol _ _)]
  rfl
theorem quad12_spec (x : Nat → Word) (r : Regs) : quad12 x r = steps x r 48 := by
  simp only [quad12, R4, assoc4]
  simp only [BitVec.add_comm (rol _ _)]
  rfl
theorem quad13_spec (x : Nat → Word) (r : Regs) : quad13 x r = steps x r 52 := by
  simp only [quad13, R4, assoc4]
  simp only [BitVec.add_comm (rol _ _)]
  rfl
theorem quad14_spec (x : Nat → Word) (r : Regs) : quad14 x r = steps x r 56 := by
  simp only [quad14, R4, assoc4]
  simp only [BitVec.add_comm (rol _ _)]
  rfl
theorem quad15_spec (x : Nat → Word) (r : Regs) : quad15 x r = steps x r 60 := by
  simp only [quad15, R4, assoc4]
  simp only [BitVec.add_comm (rol _ _)]
  rfl

theorem foldl64 {σ : Type} (f : σ → Nat → σ) (s : σ) : (List.range 64).foldl f s =
    (f (f (f (f (f (f (f (f (f (f (f (f (f (f (f (f (f (f (f (f (f (f (f (f (f (f (f (f (f (f (f (f (f (f (f (f (f (f (f (f (f (f (f (f (f (f (f (f (f (f (f (f (f (f (f (f (f (f (f (f (f (f (f (f s 0) 1) 2) 3) 4) 5) 6) 7) 8) 9) 10) 11) 12) 13) 14) 15) 16) 17) 18) 19) 20) 21) 22) 23) 24) 25) 26) 27) 28) 29) 30) 31) 32) 33) 34) 35) 36) 37) 38) 39) 40) 41) 42) 43) 44) 45) 46) 47) 48) 49) 50) 51) 52) 53) 54) 55) 56) 57) 58) 59) 60) 61) 62) 63) := rfl

/-- **C18/C19** `hash_block` of `md5_hash` is the RFC 1321 block function. -/
theorem md5_block_conforms (s : Regs) (q : List Byte) :
    (hashBlock s q).1 = specBlock s q ∧ (hashBlock s q).2 = q := by
  refine ⟨?_, rfl⟩
  unfold hashBlock specBlock
  simp only [quad0_spec, quad1_spec, quad2_spec, quad3_spec, quad4_spec, quad5_spec, quad6_spec, quad7_spec, quad8_spec, quad9_spec, quad10_spec, quad11_spec, quad12_spec, quad13_spec, quad14_spec, quad15_spec, word_eq, foldl64, steps]

theorem keeps : Keeps64 hashBlock := fun _ _ h => h

theorem iterate_spec : ∀ (n : Nat) (s : Regs) (m : List Byte), m.length ≤ n →
    iterate hashBlock s m = specFold s m := by
  intro n
  induction n with
  | zero =>
    intro s m h
    rw [iterate, specFold, dif_neg (by omega), dif_neg (by omega)]
  | succ n ih =>
    intro s m h
    rw [iterate, specFold]
    split
    · rw [ih _ _ (by rw [List.length_drop]; omega), (md5_block_conforms s _).1]
    · rfl

theorem leWord_eq (w : Nat) : leWord w = (List.range 4).map fun k => BitVec.ofNat 8 (w / 256 ^ k) := by
  simp [leWord, Nat.shiftRight_eq_div_pow, List.range_succ]

theorem padding_take (r : Nat) (h0 : 0 < r) (h : r ≤ 64) :
    padding.take r = 0x80#8 :: List.replicate (r - 1) 0#8 := by
  unfold padding
  obtain ⟨k, rfl⟩ : ∃ k, r = k + 1 := ⟨r - 1, by omega⟩
  rw [List.take_succ_cons, List.take_replicate]
  congr 2
  omega

theorem final_eq (n : Nat) : leWord (n % 2 ^ 32) ++ leWord (n / 2 ^ 32 % 2 ^ 32) = le64 (n % 2 ^ 64) := by
  simp only [leWord_eq, le64]
  have h : ∀ a b : Nat, a % 256 = b % 256 → BitVec.ofNat 8 a = BitVec.ofNat 8 b := by
    intro a b h; apply BitVec.eq_of_toNat_eq; simpa using h
  simp only [List.range_succ, List.range_zero, List.nil_append, List.map_append, List.map_cons, List.map_nil,
    List.cons_append, List.append_assoc, List.singleton_append]
  simp only [Nat.reducePow, Nat.div_one]
  congr 1
  · exact h _ _ (by omega)
  congr 1
  · exact h _ _ (by omega)
  congr 1
  · exact h _ _ (by omega)
  congr 1
  · exact h _ _ (by omega)
  congr 1
  · exact h _ _ (by omega)
  congr 1
  · exact h _ _ (by omega)
  congr 1
  · exact h _ _ (by omega)
  congr 1
  exact h _ _ (by omega)

/-- The digest: the registers, low-order byte first. -/
def output (r : Regs) : List Byte :=
  [r.a, r.b, r.c, r.d].flatMap fun w => (List.range 4).map fun k => BitVec.ofNat 8 (w.toNat / 256 ^ k)

theorem finalize_gen {ex : Prop} {b : BH Regs} {m : List Byte} (h : Rep hashBlock initState ex b m) :
    finalize b = output (specFold initState (m ++ [0x80#8] ++
      List.replicate ((119 - m.length % 64) % 64) 0#8 ++ (leWord b.c0 ++ leWord b.c1))) := by
  have hidx : (b.c0 >>> 3) &&& 0x3f = m.length % 64 := by
    rw [show (0x3f : Nat) = 63 from rfl, and63, Nat.shiftRight_eq_div_pow, h.lo]; omega
  unfold finalize
  simp only [hidx]
  generalize hr : (if m.length % 64 < 56 then 56 - m.length % 64 else 120 - m.length % 64) = r
  have hr2 : 0 < r ∧ r ≤ 64 ∧ r - 1 = (119 - m.length % 64) % 64 := by
    by_cases hh : m.length % 64 < 56
    · rw [if_pos hh] at hr; omega
    · rw [if_neg hh] at hr; omega
  have h1 := rep_hash keeps h (d := padding.take r) (fun _ => by
    rw [padding_take r hr2.1 hr2.2.1]; simp; omega)
  have h2 := rep_hash keeps h1 (d := leWord b.c0 ++ leWord b.c1) (fun _ => by
    simp [leWord])
  have hst := h2.st
  have hpad : m ++ padding.take r ++ (leWord b.c0 ++ leWord b.c1) = m ++ [0x80#8] ++
      List.replicate ((119 - m.length % 64) % 64) 0#8 ++ (leWord b.c0 ++ leWord b.c1) := by
    rw [padding_take r hr2.1 hr2.2.1, hr2.2.2]
    simp
  rw [hpad, iterate_spec _ _ _ (Nat.le_refl _)] at hst
  rw [hst]
  simp only [leWord_eq, output, List.flatMap_cons, List.flatMap_nil, List.append_nil, List.append_assoc]

theorem finalize_spec {b : BH Regs} {m : List Byte} (h : Rep hashBlock initState True b m) :
    finalize b = rfc1321 m := by
  rw [finalize_gen h, h.lo, h.hi trivial, final_eq]
  rfl

/-! ## Properties -/

/-- **C18/C19** (partial) For every message, fed in any number of `hash` calls of any sizes
below 4 GiB each, `md5_hash` yields exactly the RFC 1321 digest of the concatenation (hence
the same digest for every way of splitting it), for messages of every total length (the bit
count is taken modulo 2^64 as the RFC prescribes).

Full claim: also for single calls of 2^32 bytes or more.  It fails there, see
`MD5.md5_4gib_wrong_padding`. -/
theorem md5_conforms_partial (garbage : List Byte) (hg : garbage.length = 64) (chunks : List (List Byte))
    (hc : ∀ d ∈ chunks, d.length < 2 ^ 32) : md5 garbage chunks = rfc1321 chunks.flatten := by
  have h := rep_hashAll keeps (exact := True) chunks (rep_clear hashBlock initState True garbage hg)
    (fun _ => hc)
  rw [List.nil_append] at h
  exact finalize_spec h

/-- The padding of `pad` is the one RFC 1321 section 3.1-3.2 describes: a multiple of 64
bytes, the message first, the 8 length bytes last, and the least possible number of
zeros. -/
theorem md5_pad_spec (m : List Byte) :
    (pad m).length % 64 = 0 ∧
    (∃ k, pad m = m ++ [0x80#8] ++ List.replicate k 0#8 ++ le64 (8 * m.length % 2 ^ 64) ∧ k < 64 ∧
      (m.length + 1 + k) % 64 = 56 ∧ ∀ k', (m.length + 1 + k') % 64 = 56 → k ≤ k') := by
  have hl : (le64 (8 * m.length % 2 ^ 64)).length = 8 := by simp [le64]
  refine ⟨?_, _, rfl, Nat.mod_lt _ (by decide), by omega, ?_⟩
  · simp only [pad, List.length_append, hl, List.length_replicate, List.length_singleton]; omega
  · intro k' h; omega

/-- **C18/C19 are violated for single calls of 4 GiB** (hash.hpp 90-92 truncate `length` to 32
bits): a message of exactly 2^32 bytes hashed in one call is digested with the bit length 0
in the padding, hashed in two halves with the right bit length 2^35. -/
theorem md5_4gib_wrong_padding (garbage d d1 d2 : List Byte) (hg : garbage.length = 64)
    (hd : d = d1 ++ d2) (h1 : d1.length = 2 ^ 31) (h2 : d2.length = 2 ^ 31) :
    md5 garbage [d] =
      output (specFold initState (d ++ [0x80#8] ++ List.replicate 55 0#8 ++ le64 0)) ∧
    md5 garbage [d1, d2] =
      output (specFold initState (d ++ [0x80#8] ++ List.replicate 55 0#8 ++ le64 (2 ^ 35))) ∧
    rfc1321 d = md5 garbage [d1, d2] := by
  have hl : d.length = 2 ^ 32 := by rw [hd, List.length_append, h1, h2]
  have hB : md5 garbage [d1, d2] = rfc1321 d := by
    rw [md5_conforms_partial garbage hg [d1, d2] (by
      intro x hx; simp at hx; rcases hx with rfl | rfl <;> omega), hd]
    simp
  refine ⟨?_, ?_, hB.symm⟩
  · have h := rep_hash keeps (rep_clear hashBlock initState False garbage hg) (d := d) (fun x => x.elim)
    rw [List.nil_append] at h
    have e1 : (hash hashBlock ⟨0, 0, garbage, initState⟩ d).c1 = 0 := hash_c1_4gib _ _ hl rfl rfl
    have := finalize_gen h
    rw [h.lo, e1, hl] at this
    exact this
  · rw [hB]
    unfold rfc1321 pad
    rw [hl]
    rfl

/-! ## Non-vacuity: RFC 1321 test vectors -/
example : rfc1321 [] = [0xd4, 0x1d, 0x8c, 0xd9, 0x8f, 0x00, 0xb2, 0x04, 0xe9, 0x80, 0x09, 0x98, 0xec, 0xf8, 0x42, 0x7e] := by
  decide +kernel
example : md5 (List.replicate 64 0xAA) [[0x61, 0x62], [], [0x63]] =
    [0x90, 0x01, 0x50, 0x98, 0x3c, 0xd2, 0x4f, 0xb0, 0xd6, 0x96, 0x3f, 0x7d, 0x28, 0xe1, 0x7f, 0x72] := by
  decide +kernel

end Verif.Hash.MD5
