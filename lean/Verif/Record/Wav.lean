import Verif.Record.RecordValue
/-
Chunks of WAV files (include/stdex/wav.hpp 22-398): what `operator <<` writes and what `operator >>` reads. A chunk is a record with a
32-bit identifier, a 32-bit size and an alignment of 2. Strings are lists of bytes; the host is little-endian.
-/
namespace Verif.Record.Wav
open Verif.Stream Verif.Stream.MemoryFile Verif.Record
variable {σ τ α : Type}

/-! ### Model -/

/-- `header`, 42-63; also `wave` (69-72) and `list` (383-386). -/
structure Header where
  type : Nat

/-- `format`, 77-150. -/
structure Format where
  compression : Nat
  numChannels : Nat
  sampleRate : Nat
  bytesPerSecond : Nat
  blockAlign : Nat
  bitsPerChannel : Nat
  extra : MF Byte

/-- `data`, 155-175. -/
structure Data where
  content : MF Byte

/-- `cue`, 203-211; 24 bytes in memory. -/
structure Cue where
  id : Nat
  position : Nat
  chunkId : Nat
  chunkOffset : Nat
  blockStart : Nat
  blockOffset : Nat
deriving DecidableEq

/-- `ltxt`, 263-312. -/
structure Ltxt where
  id : Nat
  duration : Nat
  purposeId : Nat
  country : Nat
  language : Nat
  dialect : Nat
  charset : Nat
  description : List Byte
deriving DecidableEq

/-- `label`, 317-347, and `note`, 352-378. -/
structure Label where
  id : Nat
  text : List Byte
deriving DecidableEq

/-- Identifiers, 62, 71, 149, 174, 196, 235, 311, 346, 377, 385. -/
def idRIFF : Nat := 0x46464952
def idWAVE : Nat := 0x45564157
def idFmt : Nat := 0x20746D66
def idData : Nat := 0x61746164
def idSlnt : Nat := 0x746E6C73
def idCue : Nat := 0x20657563
def idLtxt : Nat := 0x7478746C
def idLabl : Nat := 0x6C62616C
def idNote : Nat := 0x65746F6E
def idLIST : Nat := 0x5453494C

/-- `dat >> number` of `k` bytes. Bytes missing from a number at the end of the stream count as 0. -/
def num (S : Strm Byte σ) (s : σ) (k : Nat) : Option (Nat × σ) := readData S (k + 1) [] s k

/-- `f.seek(0); f.truncate()`. -/
def blank (f : MF Byte) : Option (MF Byte) := (f.seek 0 .beg).map fun q => q.2.truncate true

/-- `f.seek(0); f.write_stream(dat, amount); f.truncate()`; allocations succeed. -/
def refill (S : Strm Byte σ) (fuel : Nat) (f : MF Byte) (s : σ) (amount : Option Nat) : Option (MF Byte × σ) :=
  (f.seek 0 .beg).bind fun q => (q.2.writeStream S (fun _ => true) fuel s amount).map fun r => (r.2.1.truncate true, r.2.2)

/-- 46-50. -/
def writeHeader (D : Strm Byte τ) (h : Header) (t : τ) : Option τ := some (writeData D t 4 h.type)

/-- 52-63. -/
def readHeader : Reader Header := fun S s =>
  (num S s 4).bind fun (v, s) => if S.state s ≠ .ok then some (⟨0⟩, s) else some (⟨v⟩, s)

/-- 100-120: `none` when it throws. -/
def writeFormat (D : Strm Byte τ) (x : Format) (t : τ) : Option τ :=
  let t := writeData D t 2 x.compression
  let t := writeData D t 2 x.numChannels
  let t := writeData D t 4 x.sampleRate
  let t := writeData D t 4 x.bytesPerSecond
  let t := writeData D t 2 x.blockAlign
  let t := writeData D t 2 x.bitsPerChannel
  if x.extra.size ≠ 0 then
    if 65535 < x.extra.size then none
    else
      let t := writeData D t 2 x.extra.size
      if D.state t = .ok then (peek x.extra 0 x.extra.size).map fun d => (D.write t d).2 else some t
  else some t

/-- 122-150, into `x`. -/
def readFormat (fuel : Nat) (x : Format) : Reader Format := fun S s =>
  (num S s 2).bind fun (c, s) =>
    if S.state s ≠ .ok then (blank x.extra).map fun e => (⟨0, 0, 0, 0, 0, 0, e⟩, s)
    else
      (num S s 2).bind fun (n, s) => (num S s 4).bind fun (r, s) => (num S s 4).bind fun (b, s) => (num S s 2).bind fun (a, s) => (num S s 2).bind fun (p, s) =>
        (num S s 2).bind fun (m, s) =>
          if S.state s ≠ .ok ∨ m = 0 then (blank x.extra).map fun e => (⟨c, n, r, b, a, p, e⟩, s)
          else (refill S fuel x.extra s (some m)).map fun (e, s) => (⟨c, n, r, b, a, p, e⟩, s)

/-- 159-164. -/
def writeContent (D : Strm Byte τ) (x : Data) (t : τ) : Option τ :=
  if D.state t ≠ .ok then some t else (peek x.content 0 x.content.size).map fun d => (D.write t d).2

/-- 166-172, into `x`. -/
def readContent (fuel : Nat) (x : Data) : Reader Data := fun S s => (refill S fuel x.content s none).map fun (e, s) => (⟨e⟩, s)

/-- 184-188. -/
def writeSilence (D : Strm Byte τ) (n : Nat) (t : τ) : Option τ := some (writeData D t 4 n)

/-- 190-194. -/
def readSilence : Reader Nat := fun S s => num S s 4

/-- The memory of a cue. -/
def cueMem (c : Cue) : List Byte := leEnc 4 c.id ++ (leEnc 4 c.position ++ (leEnc 4 c.chunkId ++ (leEnc 4 c.chunkOffset ++ (leEnc 4 c.blockStart ++ leEnc 4 c.blockOffset))))

/-- A cue from its memory. -/
def cueOf (m : List Byte) : Cue :=
  ⟨leDec (m.take 4), leDec ((m.drop 4).take 4), leDec ((m.drop 8).take 4), leDec ((m.drop 12).take 4), leDec ((m.drop 16).take 4), leDec ((m.drop 20).take 4)⟩

/-- An array of cues from its memory. -/
def cuesOf : Nat → List Byte → List Cue
  | 0, _ => []
  | n + 1, m => cueOf (m.take 24) :: cuesOf n (m.drop 24)

/-- `data.resize(n)`. -/
def resize (z : α) (n : Nat) (l : List α) : List α := l.take n ++ List.replicate (n - l.length) z

/-- 237-246: `none` when it throws. -/
def writeCues (D : Strm Byte τ) (x : List Cue) (t : τ) : Option τ :=
  if 4294967295 < x.length then none
  else
    let t := writeData D t 4 x.length
    some (if D.state t = .ok then (D.write t (x.flatMap cueMem)).2 else t)

/-- 248-262, into `x`. -/
def readCues (fuel : Nat) (x : List Cue) : Reader (List Cue) := fun S s =>
  (num S s 4).bind fun (n, s) =>
    if S.state s ≠ .ok then some ([], s)
    else
      let old := (resize ⟨0, 0, 0, 0, 0, 0⟩ n x).flatMap cueMem
      (readArray S fuel s 24 n).map fun (d, c, s) => (resize ⟨0, 0, 0, 0, 0, 0⟩ c (cuesOf n (d ++ old.drop d.length)), s)

/-- A string and its terminator, 284-287, 326-329, 361-364. -/
def writeText (D : Strm Byte τ) (x : List Byte) (t : τ) : τ :=
  if x.length ≠ 0 ∧ D.state t = .ok then writeData D (D.write t x).2 1 0 else t

/-- 301-306, 336-341, 371-376. -/
def readText (fuel : Nat) : Reader (List Byte) := fun S s =>
  if S.state s = .ok then (readRemainder S fuel s (2 ^ 64 - 1)).map fun (d, s) => (d.takeWhile (· ≠ 0), s) else some ([], s)

/-- 275-289. -/
def writeLtxt (D : Strm Byte τ) (x : Ltxt) (t : τ) : Option τ :=
  let t := writeData D t 4 x.id
  let t := writeData D t 4 x.duration
  let t := writeData D t 4 x.purposeId
  let t := writeData D t 2 x.country
  let t := writeData D t 2 x.language
  let t := writeData D t 2 x.dialect
  let t := writeData D t 2 x.charset
  some (writeText D x.description t)

/-- 291-309. -/
def readLtxt (fuel : Nat) : Reader Ltxt := fun S s =>
  (num S s 4).bind fun (i, s) => (num S s 4).bind fun (u, s) => (num S s 4).bind fun (p, s) => (num S s 2).bind fun (c, s) => (num S s 2).bind fun (l, s) =>
    (num S s 2).bind fun (d, s) => (num S s 2).bind fun (h, s) => (readText fuel S s).map fun (x, s) => (⟨i, u, p, c, l, d, h, x⟩, s)

/-- 322-331 and 357-366. -/
def writeLabel (D : Strm Byte τ) (x : Label) (t : τ) : Option τ :=
  let t := writeData D t 4 x.id
  some (writeText D x.text t)

/-- 333-344 and 368-379. -/
def readLabel (fuel : Nat) : Reader Label := fun S s => (num S s 4).bind fun (i, s) => (readText fuel S s).map fun (x, s) => (⟨i, x⟩, s)

/-! ### Specification: the bytes of the chunks' data -/

/-- Additional data, or none at all. -/
def extraBytes (e : List Byte) : List Byte := if e = [] then [] else leEnc 2 e.length ++ e

/-- A format with additional data `e`. -/
def formatBytes (x : Format) (e : List Byte) : List Byte :=
  leEnc 2 x.compression ++ (leEnc 2 x.numChannels ++ (leEnc 4 x.sampleRate ++ (leEnc 4 x.bytesPerSecond ++ (leEnc 2 x.blockAlign ++ (leEnc 2 x.bitsPerChannel ++ extraBytes e)))))

/-- A text: terminated, but nothing at all when empty. -/
def textBytes (x : List Byte) : List Byte := if x = [] then [] else x ++ [0]

def cuesBytes (x : List Cue) : List Byte := leEnc 4 x.length ++ x.flatMap cueMem

def ltxtBytes (x : Ltxt) : List Byte :=
  leEnc 4 x.id ++ (leEnc 4 x.duration ++ (leEnc 4 x.purposeId ++ (leEnc 2 x.country ++ (leEnc 2 x.language ++ (leEnc 2 x.dialect ++ (leEnc 2 x.charset ++ textBytes x.description))))))

def labelBytes (x : Label) : List Byte := leEnc 4 x.id ++ textBytes x.text

/-- Values that fit their types. -/
def Format.Fits (x : Format) : Prop :=
  x.compression < 65536 ∧ x.numChannels < 65536 ∧ x.sampleRate < 4294967296 ∧ x.bytesPerSecond < 4294967296 ∧ x.blockAlign < 65536 ∧ x.bitsPerChannel < 65536

def Cue.Fits (c : Cue) : Prop :=
  c.id < 4294967296 ∧ c.position < 4294967296 ∧ c.chunkId < 4294967296 ∧ c.chunkOffset < 4294967296 ∧ c.blockStart < 4294967296 ∧ c.blockOffset < 4294967296

def Ltxt.Fits (x : Ltxt) : Prop :=
  x.id < 4294967296 ∧ x.duration < 4294967296 ∧ x.purposeId < 4294967296 ∧ x.country < 65536 ∧ x.language < 65536 ∧ x.dialect < 65536 ∧ x.charset < 65536 ∧ (0 : Byte) ∉ x.description

def Label.Fits (x : Label) : Prop := x.id < 4294967296 ∧ (0 : Byte) ∉ x.text

end Verif.Record.Wav
