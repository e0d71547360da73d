/-!
# Model of `base64_enc` and `base64_dec` (include/stdex/base64.hpp 22-164, 274-371)

Characters are natural numbers (code units); bytes are `UInt8`.  A negative `char` is
converted by `static_cast<size_t>` (line 321) to a value ≥ 256 and so is ignored, like
any code unit ≥ 256 here.  `int` arithmetic of the block functions is done in `Nat`
(all values are small and non-negative).
-/
namespace Verif.B64

/-! ## Model: encoder -/

/-- `base64_enc_lookup`, base64.hpp 23-28. -/
def encLookup : List Nat := [
  65, 66, 67, 68, 69, 70, 71, 72, 73, 74, 75, 76, 77, 78, 79, 80,
  81, 82, 83, 84, 85, 86, 87, 88, 89, 90, 97, 98, 99, 100, 101, 102,
  103, 104, 105, 106, 107, 108, 109, 110, 111, 112, 113, 114, 115, 116, 117, 118,
  119, 120, 121, 122, 48, 49, 50, 51, 52, 53, 54, 55, 56, 57, 43, 47]

/-- Array access; every index used is `< 64` (theorem `enc_index_ok`). -/
def enc (i : Nat) : Nat := encLookup.getD i 0

/-- State of `base64_enc`, base64.hpp 167-168. -/
structure Enc where
  b0 : UInt8
  b1 : UInt8
  b2 : UInt8
  num : Nat
deriving DecidableEq, Repr

/-- Constructor, base64.hpp 60-65. -/
def Enc.init : Enc := ⟨0, 0, 0, 0⟩

/-- `m_buf[m_num++] = x`, line 93 (`m_num < 3` there, see `Enc.loop`). -/
def Enc.put (e : Enc) (x : UInt8) : Enc :=
  match e.num with
  | 0 => { e with b0 := x, num := 1 }
  | 1 => { e with b1 := x, num := 2 }
  | n => { e with b2 := x, num := n + 1 }

/-- `encode(out)`, base64.hpp 128-134. -/
def Enc.block (e : Enc) : List Nat :=
  [enc (e.b0.toNat >>> 2),
   enc (((e.b0.toNat <<< 4) ||| (e.b1.toNat >>> 4)) &&& 0x3f),
   enc (((e.b1.toNat <<< 2) ||| (e.b2.toNat >>> 6)) &&& 0x3f),
   enc (e.b2.toNat &&& 0x3f)]

/-- `encode(out, size)`, base64.hpp 140-164. -/
def Enc.blockN (e : Enc) (size : Nat) : List Nat :=
  if size > 0 then
    enc (e.b0.toNat >>> 2) ::
    (if size > 1 then
      enc (((e.b0.toNat <<< 4) ||| (e.b1.toNat >>> 4)) &&& 0x3f) ::
      (if size > 2 then
        [enc (((e.b1.toNat <<< 2) ||| (e.b2.toNat >>> 6)) &&& 0x3f), enc (e.b2.toNat &&& 0x3f)]
      else [enc ((e.b1.toNat <<< 2) &&& 0x3f), 61])
    else [enc ((e.b0.toNat <<< 4) &&& 0x3f), 61, 61])
  else [61, 61, 61, 61]

/-- The loop of lines 84-94: test for a full buffer, then take one more byte. -/
def Enc.loop (e : Enc) : List UInt8 → Enc × List Nat
  | [] => if e.num ≥ 3 then ({ e with num := 0 }, e.block) else (e, [])
  | x :: xs =>
    if e.num ≥ 3 then
      let r := Enc.loop (Enc.put { e with num := 0 } x) xs
      (r.1, e.block ++ r.2)
    else Enc.loop (e.put x) xs

/-- `encode(out, data, size, is_last)`, base64.hpp 76-101: state and appended text. -/
def Enc.encode (e : Enc) (data : List UInt8) (isLast : Bool) : Enc × List Nat :=
  let r := e.loop data
  if isLast && r.1.num != 0 then ({ r.1 with num := 0 }, r.2 ++ r.1.blockN r.1.num)
  else r

/-- `enc_size`, base64.hpp 118-121. -/
def Enc.encSize (e : Enc) (n : Nat) : Nat := ((e.num + n + 2) / 3) * 4

/-- A session: successive calls with `is_last = false`, then one with `is_last = true`. -/
def Enc.session (e : Enc) : List (List UInt8) → List UInt8 → Enc × List Nat
  | [], last => e.encode last true
  | c :: cs, last =>
    let r := e.encode c false
    let r' := Enc.session r.1 cs last
    (r'.1, r.2 ++ r'.2)

/-! ## Model: decoder -/

/-- `base64_dec_lookup`, base64.hpp 30-48. -/
def decLookup : List Nat := [
  255, 255, 255, 255, 255, 255, 255, 255, 255, 255, 255, 255, 255, 255, 255, 255,
  255, 255, 255, 255, 255, 255, 255, 255, 255, 255, 255, 255, 255, 255, 255, 255,
  255, 255, 255, 255, 255, 255, 255, 255, 255, 255, 255,  62, 255, 255, 255,  63,
   52,  53,  54,  55,  56,  57,  58,  59,  60,  61, 255, 255, 255,  64, 255, 255,
  255,   0,   1,   2,   3,   4,   5,   6,   7,   8,   9,  10,  11,  12,  13,  14,
   15,  16,  17,  18,  19,  20,  21,  22,  23,  24,  25, 255, 255, 255, 255, 255,
  255,  26,  27,  28,  29,  30,  31,  32,  33,  34,  35,  36,  37,  38,  39,  40,
   41,  42,  43,  44,  45,  46,  47,  48,  49,  50,  51, 255, 255, 255, 255, 255,
  255, 255, 255, 255, 255, 255, 255, 255, 255, 255, 255, 255, 255, 255, 255, 255,
  255, 255, 255, 255, 255, 255, 255, 255, 255, 255, 255, 255, 255, 255, 255, 255,
  255, 255, 255, 255, 255, 255, 255, 255, 255, 255, 255, 255, 255, 255, 255, 255,
  255, 255, 255, 255, 255, 255, 255, 255, 255, 255, 255, 255, 255, 255, 255, 255,
  255, 255, 255, 255, 255, 255, 255, 255, 255, 255, 255, 255, 255, 255, 255, 255,
  255, 255, 255, 255, 255, 255, 255, 255, 255, 255, 255, 255, 255, 255, 255, 255,
  255, 255, 255, 255, 255, 255, 255, 255, 255, 255, 255, 255, 255, 255, 255, 255,
  255, 255, 255, 255, 255, 255, 255, 255, 255, 255, 255, 255, 255, 255, 255, 255]

/-- Line 323: `x < _countof(base64_dec_lookup) ? base64_dec_lookup[x] : 255`. -/
def dec (x : Nat) : Nat := decLookup.getD x 255

/-- State of `base64_dec`, base64.hpp 369-370. -/
structure Dec where
  b0 : Nat
  b1 : Nat
  b2 : Nat
  b3 : Nat
  num : Nat
deriving DecidableEq, Repr

/-- Constructor, base64.hpp 280-286. -/
def Dec.init : Dec := ⟨0, 0, 0, 0, 0⟩

/-- Lines 321-324: store the code at `m_buf[m_num]`, advance unless it is 255.
(`m_num < 4` there, see `Dec.loop`.) -/
def Dec.put (d : Dec) (x : Nat) : Dec :=
  let v := dec x
  let n' := if v ≠ 255 then d.num + 1 else d.num
  match d.num with
  | 0 => { d with b0 := v, num := n' }
  | 1 => { d with b1 := v, num := n' }
  | 2 => { d with b2 := v, num := n' }
  | _ => { d with b3 := v, num := n' }

/-- `decode(out)`, base64.hpp 353-366: the appended bytes (their number is the result). -/
def Dec.block (d : Dec) : List UInt8 :=
  UInt8.ofNat (((d.b0 <<< 2) ||| (d.b1 >>> 4)) &&& 0xff) ::
  (if d.b2 < 64 then
    UInt8.ofNat (((d.b1 <<< 4) ||| (d.b2 >>> 2)) &&& 0xff) ::
    (if d.b3 < 64 then [UInt8.ofNat (((d.b2 <<< 6) ||| d.b3) &&& 0xff)] else [])
  else [])

/-- Lines 302-303: cut at the first terminator. -/
def trim : List Nat → List Nat
  | [] => []
  | c :: cs => if c = 0 then [] else c :: trim cs

/-- The loop of lines 308-325; state, appended bytes, `is_last`. -/
def Dec.loop (d : Dec) : List Nat → Dec × List UInt8 × Bool
  | [] =>
    if d.num ≥ 4 then ({ d with num := 0 }, d.block, decide (d.block.length < 3))
    else (d, [], false)
  | x :: xs =>
    if d.num ≥ 4 then
      if d.block.length < 3 then ({ d with num := 0 }, d.block, true)
      else
        let r := Dec.loop (Dec.put { d with num := 0 } x) xs
        (r.1, d.block ++ r.2.1, r.2.2)
    else Dec.loop (d.put x) xs

/-- `decode(out, is_last, data, size)`, base64.hpp 297-326. -/
def Dec.decode (d : Dec) (data : List Nat) : Dec × List UInt8 × Bool := d.loop (trim data)

/-- `dec_size`, base64.hpp 343-346. -/
def Dec.decSize (d : Dec) (n : Nat) : Nat := ((d.num + n + 3) / 4) * 3

/-- A session: successive `decode` calls appending to one vector; the flags reported. -/
def Dec.session (d : Dec) : List (List Nat) → Dec × List UInt8 × List Bool
  | [] => (d, [], [])
  | t :: ts =>
    let r := d.decode t
    let r' := Dec.session r.1 ts
    (r'.1, r.2.1 ++ r'.2.1, r.2.2 :: r'.2.2)

/-! ## Specification: RFC 4648, section 4 -/

/-- The base64 alphabet (RFC 4648 table 1): A-Z, a-z, 0-9, +, /. -/
def alpha (v : Nat) : Nat :=
  if v < 26 then 'A'.toNat + v
  else if v < 52 then 'a'.toNat + (v - 26)
  else if v < 62 then '0'.toNat + (v - 52)
  else if v = 62 then '+'.toNat else '/'.toNat

def pad : Nat := '='.toNat

/-- RFC 4648: 24-bit groups as four characters; a final group of 8 bits as two characters
and two pads, of 16 bits as three characters and one pad (missing bits are zero). -/
def rfc4648 : List UInt8 → List Nat
  | a :: b :: c :: rest =>
    let n := a.toNat * 65536 + b.toNat * 256 + c.toNat
    alpha (n / 262144) :: alpha (n / 4096 % 64) :: alpha (n / 64 % 64) :: alpha (n % 64) :: rfc4648 rest
  | [a, b] =>
    let n := a.toNat * 65536 + b.toNat * 256
    [alpha (n / 262144), alpha (n / 4096 % 64), alpha (n / 64 % 64), pad]
  | [a] =>
    let n := a.toNat * 65536
    [alpha (n / 262144), alpha (n / 4096 % 64), pad, pad]
  | [] => []

/-- Characters that mean something in base64 text. -/
def isB64 (c : Nat) : Bool := (List.range 64).any (fun v => alpha v == c) || c == pad

end Verif.B64
