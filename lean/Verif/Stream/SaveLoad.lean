import Verif.Stream.DiskFile
import Verif.Stream.MemoryStream
/-
Memory files saved to and loaded from files on disk: `memory_file::save`, `load` (include/stdex/stream.hpp 3469-3544) over `file` (DiskFile.lean).
-/
namespace Verif.Stream.Disk
open Verif.Stream.MemoryFile (MF Rel AFile)

/-! ### Model -/

/-- The file as a stream. `flush` is not used here. -/
def strm : Strm Byte F := ⟨read, write, close, id, F.st⟩

/-- The mode `save` opens with, 3516: `(mode & ~hint_random_access) | mode_for_writing | hint_sequential_access`; 32 bits. -/
def saveMode (mode : Nat) : Nat := (mode &&& (2 ^ 32 - 1 - 1 <<< 14)) ||| 1 <<< 1 ||| 1 <<< 15

/-- The mode `load` opens with, 3471. -/
def loadMode (mode : Nat) : Nat := (mode &&& (2 ^ 32 - 1 - 1 <<< 14)) ||| 1 <<< 0 ||| 1 <<< 15

/-- `save`, 3514-3532: the memory file and the disk afterwards. Only valid dispositions; `deny`: the file cannot be opened; `may`: truncating succeeds. -/
def save (m : MF Byte) (f : F) (name mode : Nat) (deny may : Bool) : Option (MF Byte × F) :=
  (m.save strm (fun g => truncate g may) (openFile { f with h := none } name (saveMode mode) deny false).2).map fun r => (r.1, close r.2)

/-- `load`, 3469-3494: the memory file (the disk is as opening left it). -/
def load (alloc : Nat → Bool) (fuel : Nat) (m : MF Byte) (f : F) (name mode : Nat) (deny rdTrunc : Bool) : Option (MF Byte) :=
  let g := (openFile { f with h := none } name (loadMode mode) deny rdTrunc).2
  m.load strm alloc fuel g (size g).1

/-! ### Proofs: modes -/

theorem Mode.low (m : Nat) : Mode.of m = Mode.of (m % 128) := by
  unfold Mode.of
  have h1 : m % 2 = m % 128 % 2 := by omega
  have h2 : m / 2 % 2 = m % 128 / 2 % 2 := by omega
  have h3 : m / 8 % 8 = m % 128 / 8 % 8 := by omega
  have h4 : m / 64 % 2 = m % 128 / 64 % 2 := by omega
  rw [h1, h2, h3, h4]

theorem saveMode_low (m : Nat) : saveMode m % 128 = (m % 128) ||| 2 := by
  unfold saveMode
  rw [show (128 : Nat) = 2 ^ 7 from rfl, Nat.or_mod_two_pow, Nat.or_mod_two_pow, Nat.and_mod_two_pow]
  have : ∀ x < 128, x &&& ((2 ^ 32 - 1 - 1 <<< 14) % 2 ^ 7) ||| 1 <<< 1 % 2 ^ 7 ||| 1 <<< 15 % 2 ^ 7 = x ||| 2 := by decide +kernel
  exact this _ (Nat.mod_lt _ (by decide))

theorem loadMode_low (m : Nat) : loadMode m % 128 = (m % 128) ||| 1 := by
  unfold loadMode
  rw [show (128 : Nat) = 2 ^ 7 from rfl, Nat.or_mod_two_pow, Nat.or_mod_two_pow, Nat.and_mod_two_pow]
  have : ∀ x < 128, x &&& ((2 ^ 32 - 1 - 1 <<< 14) % 2 ^ 7) ||| 1 <<< 0 % 2 ^ 7 ||| 1 <<< 15 % 2 ^ 7 = x ||| 1 := by decide +kernel
  exact this _ (Nat.mod_lt _ (by decide))

/-- Saving and loading turn the hint for random access off, the one for sequential access on, and the direction on; the other flags are as asked. -/
theorem mode_flags (m i : Nat) (hi : i < 32) :
    (saveMode m).testBit i = (i == 1 || i == 15 || (i != 14 && m.testBit i)) ∧
    (loadMode m).testBit i = (i == 0 || i == 15 || (i != 14 && m.testBit i)) := by
  have hm : ∀ i < 32, (2 ^ 32 - 1 - 1 <<< 14).testBit i = (i != 14) ∧ (1 <<< 1).testBit i = (i == 1) ∧ (1 <<< 15).testBit i = (i == 15) ∧
    (1 <<< 0).testBit i = (i == 0) := by decide +kernel
  obtain ⟨h1, h2, h3, h4⟩ := hm i hi
  unfold saveMode loadMode
  simp only [Nat.testBit_or, Nat.testBit_and, h1, h2, h3, h4]
  constructor <;> cases m.testBit i <;> simp [Bool.or_comm, Bool.or_left_comm, Bool.or_assoc]

deriving instance DecidableEq for Mode

/-- Saving opens for writing, and else as was asked for. -/
theorem saveMode_of (m : Nat) : Mode.of (saveMode m) = { Mode.of m with writing := true } := by
  rw [Mode.low (saveMode m), saveMode_low, Mode.low m]
  have : ∀ x < 128, Mode.of (x ||| 2) = { Mode.of x with writing := true } := by decide +kernel
  exact this _ (Nat.mod_lt _ (by decide))

theorem loadMode_of (m : Nat) : Mode.of (loadMode m) = { Mode.of m with reading := true } := by
  rw [Mode.low (loadMode m), loadMode_low, Mode.low m]
  have : ∀ x < 128, Mode.of (x ||| 1) = { Mode.of x with reading := true } := by decide +kernel
  exact this _ (Nat.mod_lt _ (by decide))

/-! ### Proofs: a file is a source -/

/-- A file that is open for reading, of which no transfer fails. -/
def Ready (f : F) : Prop := (∃ h, f.h = some h ∧ h.rd = true) ∧ none ∉ f.script

theorem Ready.read {f : F} (hf : Ready f) (n : Nat) : Ready (read f n).2 := by
  obtain ⟨⟨h, hh, hr⟩, hs⟩ := hf
  obtain ⟨-, -, -, r4, r5, -, -⟩ := file_read hh hr n
  exact ⟨⟨_, r4, hr⟩, fun q => hs (r5 _ q)⟩

/-- What is left to be read. -/
def left (f : F) : List Byte := match f.h with | some h => f.content.drop h.pos | none => []

def ready : Strm Byte { f : F // Ready f } where
  read f n := ((read f.1 n).1, ⟨(read f.1 n).2, f.2.read n⟩)
  write f _ := (0, f)
  close := id
  flush := id
  state f := f.1.st

/-- A file on disk is a source of its bytes from the position on: all that is proved of sources holds of it. -/
theorem disk_source : IsSource ready (fun f => left f.1) := by
  have key : ∀ (f : F), Ready f → ∀ n, (read f n).1 = (left f).take n ∧ left (read f n).2 = (left f).drop n ∧ (read f n).2.st = if n ≠ 0 ∧ left f = [] then .eof else .ok := by
    intro f hf n
    obtain ⟨⟨h, hh, hr⟩, hs⟩ := hf
    obtain ⟨r1, r2, r3, r4, r5, r6, r7⟩ := file_read hh hr n
    obtain ⟨e1, e2⟩ := r6 hs
    have hl : left f = f.content.drop h.pos := by unfold left; rw [hh]
    refine ⟨by rw [hl]; exact e1, ?_, ?_⟩
    · unfold left
      rw [r4, hh]
      simp only []
      rw [show (read f n).2.content = f.content by rw [content_at r4, content_at hh, r3], List.drop_drop]
      rw [e1, List.length_take, List.length_drop]
      by_cases hc : n ≤ f.content.length - h.pos
      · rw [Nat.min_eq_left hc]
      · rw [List.drop_of_length_le (by omega), List.drop_of_length_le (by omega)]
    · rw [e2, hl]
      have : f.content.drop h.pos = [] ↔ f.content.length ≤ h.pos := List.drop_eq_nil_iff
      by_cases hc : n ≠ 0 ∧ f.content.length ≤ h.pos
      · rw [if_pos hc, if_pos ⟨hc.1, this.2 hc.2⟩]
      · rw [if_neg hc, if_neg (fun q => hc ⟨q.1, this.1 q.2⟩)]
  refine ⟨?_, ?_, ?_, ?_, ?_⟩
  · rintro ⟨f, hf⟩ n
    obtain ⟨k1, k2, -⟩ := key f hf n
    show (read f n).1 ++ left (read f n).2 = left f
    rw [k1, k2, List.take_append_drop]
  · rintro ⟨f, hf⟩ n
    show (read f n).1.length ≤ n
    rw [(key f hf n).1, List.length_take]; omega
  · rintro ⟨f, hf⟩ n hn hl
    obtain ⟨k1, -, k3⟩ := key f hf n
    have hl : left f ≠ [] := hl
    refine ⟨?_, ?_⟩
    · show (read f n).1 ≠ []
      rw [k1]
      intro q
      rcases List.take_eq_nil_iff.1 q with q | q
      · exact hn q
      · exact hl q
    · show (read f n).2.st = .ok
      rw [k3, if_neg (fun q => hl q.2)]
  · rintro ⟨f, hf⟩ n hn hl
    have hl : left f = [] := hl
    show (read f n).2.st = .eof
    rw [(key f hf n).2.2, if_pos ⟨hn, hl⟩]
  · rintro ⟨f, hf⟩
    refine Or.inl ?_
    show (read f 0).2.st = .ok
    rw [(key f hf 0).2.2, if_neg (fun q => q.1 rfl)]

/-! ### Proofs: loading -/

/-- Copying from a stream is copying from one that behaves as it does. -/
theorem mwsAll_ready (alloc : Nat → Bool) : ∀ (fuel : Nat) (m : MF Byte) (a b c : Nat) (s : { f : F // Ready f }) (n : Nat),
    MemoryFile.mwsAll strm alloc fuel m a b c s.1 n = (MemoryFile.mwsAll ready alloc fuel m a b c s n).map fun r => (r.1, r.2.1, r.2.2.1, r.2.2.2.1)
  | 0, _, _, _, _, _, _ => rfl
  | fuel + 1, m, a, b, c, s, n => by
    unfold MemoryFile.mwsAll
    by_cases h1 : n = 0
    · rw [if_pos h1, if_pos h1]; rfl
    rw [if_neg h1, if_neg h1]
    simp only []
    by_cases h2 : 2 ^ 64 ≤ a + min n MemoryFile.blockSize
    · rw [if_pos h2, if_pos h2]; rfl
    rw [if_neg h2, if_neg h2]
    by_cases h3 : (m.reserve (a + min n MemoryFile.blockSize) false (alloc a)).st ≠ .ok
    · rw [if_pos h3, if_pos h3]; rfl
    rw [if_neg h3, if_neg h3]
    by_cases h4 : (m.reserve (a + min n MemoryFile.blockSize) false (alloc a)).mem.length < b + min n MemoryFile.blockSize
    · rw [if_pos h4, if_pos h4]; rfl
    rw [if_neg h4, if_neg h4]
    have e1 : (strm.read s.1 (min n MemoryFile.blockSize)).1 = (ready.read s (min n MemoryFile.blockSize)).1 := rfl
    have e2 : (strm.read s.1 (min n MemoryFile.blockSize)).2 = (ready.read s (min n MemoryFile.blockSize)).2.1 := rfl
    rw [e1, e2]
    generalize ready.read s (min n MemoryFile.blockSize) = r
    have e3 : strm.state r.2.1 = ready.state r.2 := rfl
    rw [e3]
    cases MemoryFile.wrMem (m.reserve (a + min n MemoryFile.blockSize) false (alloc a)).mem b (List.map some r.1) with
    | none => rfl
    | some w =>
      simp only [Option.bind_some]
      by_cases h5 : ready.state r.2 ≠ .ok
      · rw [if_pos h5, if_pos h5]; rfl
      · rw [if_neg h5, if_neg h5]
        exact mwsAll_ready alloc fuel _ _ _ _ _ _

theorem load_ready (alloc : Nat → Bool) (fuel : Nat) (m : MF Byte) (s : { f : F // Ready f }) (n : Nat) : m.load strm alloc fuel s.1 n = m.load ready alloc fuel s n := by
  unfold MF.load
  have : strm.state s.1 = ready.state s := rfl
  rw [this]
  split
  · rfl
  · simp only []
    split
    · rfl
    · unfold MF.writeStream
      simp only []
      rw [mwsAll_ready]
      simp only [Option.map_map]
      rfl

theorem lseek_script (f : F) (o : Int) (k : Nat) : (lseek f o k).2.script = f.script := by
  unfold lseek
  split
  · rfl
  · simp only []
    split <;> rfl

theorem seek_script (f : F) (o : Int) (k : Nat) : (seek f o k).2.script = f.script := by
  have := lseek_script f o k
  unfold seek
  split
  · next e => rw [e] at this; exact this
  · next e => rw [e] at this; exact this

theorem afterOpen_script (g : F) (mode : Nat) : (afterOpen g mode).script = g.script := by
  unfold afterOpen
  split
  · simp only []
    split
    · rw [seek_script]
    · rfl
  · rfl

theorem openFile_script (f : F) (name mode : Nat) (deny rdTrunc : Bool) : (openFile f name mode deny rdTrunc).2.script = f.script := by
  unfold openFile
  simp only []
  split
  · rfl
  · simp only []
    rw [afterOpen_script]
    unfold openSys
    split
    · rfl
    · split
      · split <;> rfl
      · split
        · rfl
        · split <;> rfl

/-- Loading a file on disk: where it succeeds the memory file has the bytes of the file (after the end, if it is opened at the end: none), and the position is at the beginning; it succeeds where memory can be had. -/
theorem load_file {m : MF Byte} {b : List Byte} (hm : MemoryFile.Ok m b) {f : F} (hs : none ∉ f.script) (name mode : Nat) (rdTrunc : Bool) (hd : (Mode.of mode).disposition ≤ 4)
    (ht : (Mode.of mode).disposition = 1 ∨ (Mode.of mode).disposition = 4 → (Mode.of mode).writing = true ∨ rdTrunc = true) {c : List Byte} (hlen : ∀ c, f.fs name = some c → c.length + 65536 < 2 ^ 61)
    (hc : Opened (Mode.of mode).disposition (f.fs name) = some c) (alloc : Nat → Bool) {fuel : Nat} (hfu : c.length < fuel) :
    ∃ m', load alloc fuel m f name mode false rdTrunc = some m' ∧ (m'.st = .ok → Rel m' ⟨if (Mode.of mode).append then [] else c, 0⟩) ∧ (m.manage = true → (∀ x, alloc x = true) → m'.st = .ok) := by
  have hcl : c.length + 65536 < 2 ^ 61 := by
    have hdd : (Mode.of mode).disposition = 0 ∨ (Mode.of mode).disposition = 1 ∨ (Mode.of mode).disposition = 2 ∨ (Mode.of mode).disposition = 3 ∨ (Mode.of mode).disposition = 4 := by omega
    cases hx : f.fs name with
    | none =>
      rw [hx] at hc
      rcases hdd with h | h | h | h | h <;> rw [h] at hc <;> simp [Opened] at hc <;> subst hc <;> decide
    | some y =>
      have := hlen y hx
      rw [hx] at hc
      rcases hdd with h | h | h | h | h <;> rw [h] at hc <;> simp [Opened] at hc <;> subst hc <;> first | exact this | decide
  have hmo := loadMode_of mode
  have ho := file_open { f with h := none } name (loadMode mode) false rdTrunc (by rw [hmo]; exact hd) (by rw [hmo]; exact ht) (fun c hc => by have := hlen c hc; omega)
  have hscr := openFile_script { f with h := none } name (loadMode mode) false rdTrunc
  unfold load
  simp only []
  generalize (openFile { f with h := none } name (loadMode mode) false rdTrunc) = o at ho hscr
  obtain ⟨-, ho⟩ := ho
  rw [hmo, if_neg (by decide)] at ho
  simp only [] at ho
  rw [hc] at ho
  simp only [] at ho
  obtain ⟨o1, o2, o3, o4⟩ := ho
  have hrdy : Ready o.2 := ⟨⟨_, o4, rfl⟩, by rw [hscr]; exact hs⟩
  have hcont : o.2.content = c := by rw [content_at o4]; show (o.2.fs name).getD [] = c; rw [o2]; rfl
  have hok : Ok o.2 := by
    intro h hh
    rw [o4] at hh
    cases hh
    refine ⟨?_, ?_, ?_⟩
    · show o.2.fs name ≠ none; rw [o2]; exact fun q => nomatch q
    · show (if (Mode.of mode).append = true then c.length else 0) < 2 ^ 63; split <;> omega
    · rw [hcont]; omega
  have hleft : left o.2 = if (Mode.of mode).append then [] else c := by
    unfold left
    rw [o4]
    simp only []
    rw [hcont]
    split
    · rw [List.drop_length]
    · rw [List.drop_zero]
  have hll : (left o.2).length ≤ c.length := by rw [hleft]; split; exact Nat.zero_le _; exact Nat.le_refl _
  rw [file_size hok o4, hcont]
  rw [load_ready alloc fuel m ⟨o.2, hrdy⟩]
  obtain ⟨m', e1, e2, e3⟩ := MemoryFile.load_spec disk_source hm (⟨o.2, hrdy⟩ : { f : F // Ready f }) o1 c.length (by show (left o.2).length + 65536 < _; omega) alloc (fuel := fuel) (by show (left o.2).length < _; omega)
  refine ⟨m', e1, fun q => ?_, fun q1 q2 => e3 q1 q2 (by omega)⟩
  have := e2 q
  simp only [] at this
  rw [hleft] at this
  exact this

/-! ### Proofs: saving -/

/-- Saving a memory file: it stays as it is and the file on disk has its bytes and no others (after those that were there, where it is opened at the end), or the memory file says that it failed.
It does not fail where opening and the transfers do not. Other files are not touched. -/
theorem save_file_partial {m : MF Byte} {b : List Byte} (hm : MemoryFile.Ok m b) (f : F) (name mode : Nat) (hd : (Mode.of mode).disposition ≤ 4) (deny : Bool) {n : Nat}
    (hlen : ∀ c, f.fs name = some c → c.length ≤ n) (hn : n + b.length < 2 ^ 63) :
    ∃ m' f', save m f name mode deny true = some (m', f') ∧ (∀ x, x ≠ name → f'.fs x = f.fs x) ∧
      ((m' = { m with st := .fail }) ∨ (m' = m ∧ ∃ c, Opened (Mode.of mode).disposition (f.fs name) = some c ∧ f'.fs name = some ((if (Mode.of mode).append then c else []) ++ b))) ∧
      (deny = false → Opened (Mode.of mode).disposition (f.fs name) ≠ none → none ∉ f.script → m' = m ∧ ∃ c, Opened (Mode.of mode).disposition (f.fs name) = some c ∧ f'.fs name = some ((if (Mode.of mode).append then c else []) ++ b)) := by
  have hmo := saveMode_of mode
  have ho := file_open { f with h := none } name (saveMode mode) deny false (by rw [hmo]; exact hd) (by rw [hmo]; exact fun _ => Or.inl rfl) (fun c hc => by have := hlen c hc; omega)
  have hscr := openFile_script { f with h := none } name (saveMode mode) deny false
  unfold save
  generalize (openFile { f with h := none } name (saveMode mode) deny false) = o at ho hscr
  obtain ⟨-, ho⟩ := ho
  rw [hmo] at ho
  simp only [] at ho
  unfold MF.save
  cases hop : (if deny = true then none else Opened (Mode.of mode).disposition (f.fs name)) with
  | none =>
    rw [hop] at ho
    simp only [] at ho
    obtain ⟨o1, o2, o3⟩ := ho
    rw [if_pos (show strm.state o.2 ≠ .ok by show o.2.st ≠ .ok; rw [o2]; decide)]
    refine ⟨_, _, rfl, fun x _ => by show o.2.fs x = f.fs x; rw [o3], Or.inl rfl, fun q1 q2 => ?_⟩
    rw [q1, if_neg (by decide)] at hop
    exact absurd hop q2
  | some c =>
    rw [hop] at ho
    simp only [] at ho
    obtain ⟨o1, o2, o3, o4⟩ := ho
    have hdeny : deny = false := by cases deny with | true => rw [if_pos rfl] at hop; cases hop | false => rfl
    rw [hdeny, if_neg (by decide)] at hop
    have hcl : c.length ≤ n := by
      have hdd : (Mode.of mode).disposition = 0 ∨ (Mode.of mode).disposition = 1 ∨ (Mode.of mode).disposition = 2 ∨ (Mode.of mode).disposition = 3 ∨ (Mode.of mode).disposition = 4 := by omega
      cases hx : f.fs name with
      | none =>
        rw [hx] at hop
        rcases hdd with h | h | h | h | h <;> rw [h] at hop <;> simp [Opened] at hop <;> subst hop <;> exact Nat.zero_le _
      | some y =>
        have := hlen y hx
        rw [hx] at hop
        rcases hdd with h | h | h | h | h <;> rw [h] at hop <;> simp [Opened] at hop <;> subst hop <;> first | exact this | exact Nat.zero_le _
    have hcont : o.2.content = c := by rw [content_at o4]; show (o.2.fs name).getD [] = c; rw [o2]; rfl
    have hok : Ok o.2 := by
      intro h hh
      rw [o4] at hh
      cases hh
      refine ⟨?_, ?_, ?_⟩
      · show o.2.fs name ≠ none; rw [o2]; exact fun q => nomatch q
      · show (if (Mode.of mode).append = true then c.length else 0) < 2 ^ 63; split <;> omega
      · rw [hcont]; omega
    rw [if_neg (show ¬ strm.state o.2 ≠ .ok by show ¬ o.2.st ≠ .ok; rw [o1]; decide), MemoryFile.peek_ok hm (by rw [hm.len]; omega), List.drop_zero, List.take_of_length_le (by rw [hm.len]; omega), Option.map_some, Option.map_some]
    simp only []
    obtain ⟨w1, w2, w3, w4, w5, w6, w7⟩ := file_write hok o4 b
    rw [show strm.write o.2 b = write o.2 b from rfl]
    generalize write o.2 b = w at w1 w2 w3 w4 w5 w6 w7
    rw [show strm.state w.2 = w.2.st from rfl]
    rcases w6 with ⟨w6, w8⟩ | w6
    · rw [if_neg (by rw [w8]; decide)]
      rw [w6] at w2 w4
      rw [List.take_of_length_le (Nat.le_refl _), hcont] at w2
      simp only [] at w2 w3
      have hwc : w.2.content = patch c (if (Mode.of mode).append = true then c.length else 0) b := by
        rw [content_at w4]; show (w.2.fs name).getD [] = _; rw [w2]; rfl
      have hplen : (patch c (if (Mode.of mode).append = true then c.length else 0) b).length < 2 ^ 63 := by
        by_cases hb : b = []
        · subst hb; unfold patch; rw [if_pos rfl]; omega
        · rw [patch_length _ _ _ hb]; split <;> omega
      have hok2 : Ok w.2 := by
        intro h hh
        rw [w4] at hh
        cases hh
        refine ⟨?_, ?_, ?_⟩
        · show w.2.fs name ≠ none; rw [w2]; exact fun q => nomatch q
        · show (if (Mode.of mode).append = true then c.length else 0) + b.length < 2 ^ 63; split <;> omega
        · rw [hwc]; exact hplen
      have htr := (file_truncate hok2 w4 true).trans (if_pos rfl)
      have hfin : (truncate w.2 true).fs name = some ((if (Mode.of mode).append then c else []) ++ b) := by
        show (truncate w.2 true).fs name = _
        rw [htr]
        show (if name = name then some _ else w.2.fs name) = _
        rw [if_pos rfl, hwc]
        simp only []
        congr 1
        cases (Mode.of mode).append with
        | true =>
          simp only [if_true]
          by_cases hb : b = []
          · subst hb; unfold patch; rw [if_pos rfl]; simp
          · have e : patch c c.length b = c ++ b := by
              unfold patch; rw [if_neg hb]; simp
            rw [e, List.take_of_length_le (by rw [List.length_append]; omega)]; simp
        | false =>
          simp only [Bool.false_eq_true, if_false]
          by_cases hb : b = []
          · subst hb; simp
          · have e : patch c 0 b = b ++ c.drop b.length := by
              unfold patch; rw [if_neg hb]; simp
            rw [e, Nat.zero_add, List.take_left, show b.length - (b ++ c.drop b.length).length = 0 by rw [List.length_append]; omega]; simp
      refine ⟨_, _, rfl, fun x hx => ?_, Or.inr ⟨rfl, c, hop, hfin⟩, fun _ _ _ => ⟨rfl, c, hop, hfin⟩⟩
      · show (truncate w.2 true).fs x = f.fs x
        rw [htr]
        show (if x = name then _ else w.2.fs x) = _
        rw [if_neg hx, w3 x hx, o3 x hx]
    · rw [if_pos (by rw [w6]; decide)]
      refine ⟨_, _, rfl, fun x hx => by show w.2.fs x = f.fs x; rw [w3 x hx, o3 x hx], Or.inl rfl, fun _ _ q => ?_⟩
      have := (w7 (by rw [hscr]; exact q) rfl).2
      rw [w6] at this; cases this

/-- (defect) Where the file was longer and the system does not truncate it, the rest of it stays and nothing is reported. -/
theorem save_untruncated {m : MF Byte} {b : List Byte} (hm : MemoryFile.Ok m b) (f : F) (hs : none ∉ f.script) {name : Nat} {c : List Byte} (hc : f.fs name = some c) (hl : c.length < 2 ^ 63) (hb : b.length < c.length) :
    ∃ f', save m f name 0 false false = some (m, f') ∧ f'.fs name = some (b ++ c.drop b.length) := by
  have ho := file_open { f with h := none } name (saveMode 0) false false (by decide) (by decide) (fun x hx => by rw [show f.fs name = some x from hx] at hc; cases hc; exact hl)
  have hscr := openFile_script { f with h := none } name (saveMode 0) false false
  unfold save
  generalize (openFile { f with h := none } name (saveMode 0) false false) = o at ho hscr
  obtain ⟨-, ho⟩ := ho
  rw [show Mode.of (saveMode 0) = ⟨false, true, 0, false⟩ by decide +kernel] at ho
  simp only [Opened, hc, Bool.false_eq_true, if_false, Bool.not_true, Bool.or_false] at ho
  obtain ⟨o1, o2, o3, o4⟩ := ho
  have hcont : o.2.content = c := by rw [content_at o4]; show (o.2.fs name).getD [] = c; rw [o2]; rfl
  have hok : Ok o.2 := by
    intro h hh
    rw [o4] at hh
    cases hh
    refine ⟨?_, by show 0 < 2 ^ 63; decide, by rw [hcont]; exact hl⟩
    show o.2.fs name ≠ none; rw [o2]; exact fun q => nomatch q
  unfold MF.save
  rw [if_neg (show ¬ strm.state o.2 ≠ .ok by show ¬ o.2.st ≠ .ok; rw [o1]; decide), MemoryFile.peek_ok hm (by rw [hm.len]; omega), List.drop_zero, List.take_of_length_le (by rw [hm.len]; omega), Option.map_some, Option.map_some]
  simp only []
  obtain ⟨w1, w2, w3, w4, w5, w6, w7⟩ := file_write hok o4 b
  rw [show strm.write o.2 b = write o.2 b from rfl]
  obtain ⟨e1, e2⟩ := w7 (by rw [hscr]; exact hs) rfl
  generalize write o.2 b = w at w1 w2 w3 w4 w5 w6 w7 e1 e2
  rw [show strm.state w.2 = w.2.st from rfl, if_neg (by rw [e2]; decide)]
  rw [e1, List.take_of_length_le (Nat.le_refl _), hcont] at w2
  refine ⟨_, rfl, ?_⟩
  show (truncate w.2 false).fs name = _
  have hp : patch c 0 b = b ++ c.drop b.length := by
    unfold patch
    split
    · next h => subst h; simp
    · simp
  have hok2 : Ok w.2 := by
    intro h hh
    rw [w4] at hh
    cases hh
    refine ⟨?_, ?_, ?_⟩
    · show w.2.fs name ≠ none; rw [show w.2.fs name = _ from w2]; exact fun q => nomatch q
    · show 0 + w.1 < 2 ^ 63; omega
    · rw [content_at w4]
      show ((w.2.fs name).getD []).length < 2 ^ 63
      rw [show w.2.fs name = _ from w2, hp]
      show (b ++ c.drop b.length).length < 2 ^ 63
      rw [List.length_append, List.length_drop]; omega
  rw [file_truncate hok2 w4 false]
  simp only [Bool.and_false, Bool.false_eq_true, if_false]
  rw [← hp]
  exact w2

/-- What was saved is loaded back: any memory file, any mode of saving (not at the end), any pieces the system transfers; into any memory file that manages its memory. -/
theorem save_load {m : MF Byte} {b : List Byte} (hm : MemoryFile.Ok m b) (f : F) (hs : none ∉ f.script) (name mode : Nat) (hd : (Mode.of mode).disposition ≤ 4) (ha : (Mode.of mode).append = false) (hop : Opened (Mode.of mode).disposition (f.fs name) ≠ none)
    (hlen : ∀ c, f.fs name = some c → c.length < 2 ^ 62) (hb : b.length + 65536 < 2 ^ 61) {m2 : MF Byte} {b2 : List Byte} (hm2 : MemoryFile.Ok m2 b2) (hman : m2.manage = true) {g : F} {fuel : Nat} (hfu : b.length < fuel) (hsg : none ∉ g.script) :
    ∃ f', save m f name mode false true = some (m, f') ∧ (g.fs = f'.fs → ∃ m', load (fun _ => true) fuel m2 g name 0 false false = some m' ∧ m'.st = .ok ∧ Rel m' ⟨b, 0⟩) := by
  obtain ⟨m', f', e1, e2, e3, e4⟩ := save_file_partial hm f name mode hd false (n := 2 ^ 62) (fun c hc => Nat.le_of_lt (hlen c hc)) (by omega)
  obtain ⟨hmm, c, -, q⟩ := e4 rfl hop hs
  subst hmm
  have hcont : f'.fs name = some b := by rw [q, ha]; simp
  refine ⟨f', e1, fun hg => ?_⟩
  rw [← hg] at hcont
  obtain ⟨x, l1, l2, l3⟩ := load_file hm2 hsg name 0 false (by decide) (by decide) (fun c hc => by rw [hcont] at hc; cases hc; exact hb) (c := b) (by rw [hcont]; rfl) (fun _ => true) hfu
  have hst := l3 hman (fun _ => rfl)
  refine ⟨x, l1, hst, ?_⟩
  have := l2 hst
  rwa [show (Mode.of 0).append = false from by decide, if_neg (by decide)] at this

/-! ### An example: three bytes over a file of five, one byte at a time -/

def exDisk : F := ⟨fun n => if n = 7 then some [1, 2, 3, 4, 5] else none, none, .ok, [some 0, some 0, some 0, some 0]⟩

example : ∃ f', save (MF.over [9, 8, 7, 6] 3 false) exDisk 7 0 false true = some (MF.over [9, 8, 7, 6] 3 false, f') ∧ f'.fs 7 = some [9, 8, 7] := ⟨_, rfl, by decide +kernel⟩
example : ∃ f', save (MF.over [9, 8, 7, 6] 3 false) exDisk 7 (1 <<< 6) false true = some (MF.over [9, 8, 7, 6] 3 false, f') ∧ f'.fs 7 = some [1, 2, 3, 4, 5, 9, 8, 7] := ⟨_, rfl, by decide +kernel⟩
example : ∃ f', save (MF.over [9, 8, 7, 6] 3 false) exDisk 7 0 false false = some (MF.over [9, 8, 7, 6] 3 false, f') ∧ f'.fs 7 = some [9, 8, 7, 4, 5] := ⟨_, rfl, by decide +kernel⟩
example : MemoryFile.Ok (MF.over [9, 8, 7, 6] 3 false : MF Byte) [9, 8, 7] := (MemoryFile.rel_over [9, 8, 7, 6] 3 false (by decide) (by decide)).ok
example : none ∉ exDisk.script ∧ Opened (Mode.of 0).disposition (exDisk.fs 7) ≠ none ∧ (MF.empty : MF Byte).manage = true := by decide

end Verif.Stream.Disk
