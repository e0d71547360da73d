import Verif.Stream.MemoryFile
import Verif.Stream.Serialize
/-
Values in a `memory_file` and copies of streams into it (include/stdex/stream.hpp 3589-3884, 3926-4033). `check` is `CHECK_STREAM_STATE`,
1 unless defined otherwise (stream.hpp 49-55).
-/
namespace Verif.Stream.MemoryFile
open Verif.Stream

/-! ### Model -/

/-- The bytes of cells; indeterminate ones have no value. -/
def cells {β : Type} : List (Option β) → Option (List β)
  | [] => some []
  | none :: _ => none
  | some b :: l => (cells l).map (b :: ·)

/-- A value at an offset of the block. -/
def peek {β : Type} (f : MF β) (off len : Nat) : Option (List β) := (rdMem f.mem off len).bind cells

/-- `read_data`, 3589-3613, for a type of `k` bytes. -/
def MF.readNum (check : Bool) (f : MF Byte) (k : Nat) : Option (Nat × MF Byte) :=
  if check ∧ f.st ≠ .ok then some (0, f)
  else
    let e := addW f.offset k
    if e ≤ f.size then (peek f f.offset k).map fun d => (leDec d, { f with offset := e, st := if check then f.st else .ok })
    else some (0, { f with offset := f.size, st := .eof })

/-- `read_str`, 3629-3659, for characters of `k` bytes; `old` is the value of the string before. `none` also if the length overflows (3643 throws). -/
def MF.readStr (check : Bool) (f : MF Byte) (k : Nat) (old : List Nat) : Option (List Nat × MF Byte) :=
  if check ∧ f.st ≠ .ok then some ([], f)
  else
    let e := addW f.offset 4
    if e ≤ f.size then
      (peek f f.offset 4).bind fun d =>
        let n := leDec d
        let f := { f with offset := e }
        if 2 ^ 64 ≤ f.offset + n * k then none
        else
          let e := f.offset + n * k
          if e ≤ f.size then (peek f f.offset (n * k)).map fun d => (leChars k n d, { f with offset := e, st := if check then f.st else .ok })
          else some (old, { f with offset := f.size, st := .eof })
    else some (old, { f with offset := f.size, st := .eof })

/-- `write_data`, 3717-3739: as `write`, but nothing is done in a bad state, and the state is left as it is if checked. -/
def MF.writeNum (check : Bool) (f : MF Byte) (k v : Nat) (alloc : Bool) : Option (MF Byte) :=
  if check ∧ f.st ≠ .ok then some f
  else (f.put ((leEnc k v).map some) alloc).map Prod.snd

/-- `write_str`, 3755-3829; `none` also if the string is too long, which throws. -/
def MF.writeStr (check : Bool) (f : MF Byte) (k : Nat) (cs : List Nat) (alloc : Bool) : Option (MF Byte) :=
  if check ∧ f.st ≠ .ok then some f
  else if cs.length > 4294967295 then none
  else (f.put ((leEnc 4 cs.length ++ cs.flatMap (leEnc k)).map some) alloc).map Prod.snd

/-- `set`, 3975-3983, without the assertion (see `assertLast`). -/
def MF.set (f : MF Byte) (off k v : Nat) : Option (MF Byte) := (wrMem f.mem off ((leEnc k v).map some)).map fun m => { f with mem := m }

/-- `get`, 4009-4017. -/
def MF.get (f : MF Byte) (off k : Nat) : Option Nat := (peek f off k).map leDec

/-- The assertion of `set` and `get`, 3981 and 4012. -/
def assertGet (f : MF Byte) (off k : Nat) : Bool := decide (off + k < f.size)

/-- The loop of `write_stream` with an amount, 3849-3859: (destination, `dst_offset`, copied, source). -/
def mwsLoop {σ : Type} (S : Strm Byte σ) : Nat → MF Byte → Nat → Nat → σ → Nat → Option (MF Byte × Nat × Nat × σ)
  | 0, _, _, _, _, _ => none
  | fuel + 1, f, dst, copied, s, to_write =>
    if to_write = 0 then some (f, dst, copied, s)
    else if f.mem.length < dst + to_write then none
    else
      let r := S.read s to_write
      (wrMem f.mem dst (r.1.map some)).bind fun m =>
        let f := { f with mem := m }
        let dst := dst + r.1.length
        let copied := copied + r.1.length
        if S.state r.2 ≠ .ok then some ({ f with st := if S.state r.2 ≠ .eof then .fail else f.st }, dst, copied, r.2)
        else mwsLoop S fuel f dst copied r.2 (to_write - r.1.length)

/-- The loop without, 3863-3878. -/
def mwsAll {σ : Type} (S : Strm Byte σ) (alloc : Nat → Bool) : Nat → MF Byte → Nat → Nat → Nat → σ → Nat → Option (MF Byte × Nat × Nat × σ)
  | 0, _, _, _, _, _, _ => none
  | fuel + 1, f, dst_size, dst, copied, s, to_write =>
    if to_write = 0 then some (f, dst, copied, s)
    else
      let block := min to_write blockSize
      if 2 ^ 64 ≤ dst_size + block then none
      else
        let f := f.reserve (dst_size + block) false (alloc dst_size)
        if f.st ≠ .ok then some (f, dst, copied, s)
        else if f.mem.length < dst + block then none
        else
          let r := S.read s block
          (wrMem f.mem dst (r.1.map some)).bind fun m =>
            let f := { f with mem := m }
            let dst := dst + r.1.length
            let copied := copied + r.1.length
            if S.state r.2 ≠ .ok then some ({ f with st := if S.state r.2 ≠ .eof then .fail else f.st }, dst, copied, r.2)
            else mwsAll S alloc fuel f dst dst copied r.2 (to_write - r.1.length)

/-- `write_stream`, 3836-3884: (copied, destination, source); `amount` is `none` for `SIZE_MAX`. `alloc` says which allocations succeed. -/
def MF.writeStream {σ : Type} (S : Strm Byte σ) (alloc : Nat → Bool) (fuel : Nat) (f : MF Byte) (s : σ) (amount : Option Nat) : Option (Nat × MF Byte × σ) :=
  let f := { f with st := .ok }
  let fin := fun (r : MF Byte × Nat × Nat × σ) => (r.2.2.1, ({ r.1 with offset := r.2.1, size := if r.1.size < r.2.1 then r.2.1 else r.1.size } : MF Byte), r.2.2.2)
  match amount with
  | some n =>
    if 2 ^ 64 ≤ f.offset + n then none
    else
      let f := f.reserve (f.offset + n) false (alloc f.offset)
      if f.st ≠ .ok then some (0, f, s)
      else (mwsLoop S fuel f f.offset 0 s n).map fin
  | none => (mwsAll S alloc fuel f f.offset f.offset 0 s (2 ^ 64 - 1)).map fin

/-- `load`, 3469-3494, from a file whose size is `size` when asked; `s` is the opened file. -/
def MF.load {σ : Type} (S : Strm Byte σ) (alloc : Nat → Bool) (fuel : Nat) (f : MF Byte) (s : σ) (size : Nat) : Option (MF Byte) :=
  if S.state s ≠ .ok then some { f with st := .fail }
  else
    let f := f.reserve size true (alloc 0)
    if f.st ≠ .ok then some f
    else ({ f with offset := 0, size := 0 } : MF Byte).writeStream S alloc fuel s none |>.map fun r =>
      if r.2.1.st = .ok then { r.2.1 with offset := 0 } else r.2.1

/-- `save`, 3514-3532, to the opened file `t`: memory file and file. -/
def MF.save {τ : Type} (D : Strm Byte τ) (truncate : τ → τ) (f : MF Byte) (t : τ) : Option (MF Byte × τ) :=
  if D.state t ≠ .ok then some ({ f with st := .fail }, t)
  else (peek f 0 f.size).map fun d =>
    let w := D.write t d
    if D.state w.2 ≠ .ok then ({ f with st := .fail }, w.2) else (f, truncate w.2)

/-! ### Proofs: numbers and strings -/

theorem cells_map {β : Type} (l : List β) : cells (l.map some) = some l := by
  induction l with
  | nil => rfl
  | cons b l ih => simp [cells, ih]

theorem peek_ok {f : MF Byte} {bytes : List Byte} (h : Ok f bytes) {off len : Nat} (hl : off + len ≤ bytes.length) : peek f off len = some ((bytes.drop off).take len) := by
  have hs := h.size_le
  have hlen := h.len
  unfold peek rdMem
  rw [if_pos (by omega), Option.bind_some]
  have : (f.mem.drop off).take len = ((bytes.drop off).take len).map some := by
    rw [List.map_take, List.map_drop, ← h.contents, List.take_drop, List.take_drop, List.take_take, Nat.min_eq_left (by omega)]
  rw [this, cells_map]

theorem Ok.move {f : MF Byte} {bytes : List Byte} (h : Ok f bytes) {o : Nat} (ho : o < 2 ^ 63) (st : St) : Ok { f with offset := o, st := st } bytes := ⟨h.size_le, h.cap, ho, h.contents⟩

/-- A value that is there is read, and the cursor moves behind it. -/
theorem readNum_there {check : Bool} {f : MF Byte} {a : AFile Byte} (h : Rel f a) (hst : f.st = .ok) {k v : Nat} (hk : 0 < k) (hv : v < 256 ^ k) {rest : List Byte} (hr : a.bytes.drop a.pos = leEnc k v ++ rest) :
    ∃ f', f.readNum check k = some (v, f') ∧ f'.st = .ok ∧ Rel f' ⟨a.bytes, a.pos + k⟩ := by
  have hf := h.ok.off
  have hp := h.pos
  have hlen := h.ok.len
  have hcap := h.ok.cap
  have hsl := h.ok.size_le
  have hl := congrArg List.length hr
  rw [List.length_drop, List.length_append, leEnc_length] at hl
  unfold MF.readNum
  rw [if_neg (by simp [hst]), addW_eq (by omega)]
  dsimp only
  rw [if_pos (by omega), peek_ok h.ok (by omega), hp, hr, List.take_left' (leEnc_length k v)]
  exact ⟨_, by rw [Option.map_some, leDec_enc k v hv], (by dsimp only; split <;> simp_all), h.ok.move (by omega) _, rfl⟩

/-- A value of which a part is missing is not read: it is zero, the state tells the end of the file, and the cursor is at it. -/
theorem readNum_short {check : Bool} {f : MF Byte} {a : AFile Byte} (h : Rel f a) (hst : f.st = .ok) {k : Nat} (hk : k < 2 ^ 63) (hs : a.bytes.length < a.pos + k) :
    ∃ f', f.readNum check k = some (0, f') ∧ f'.st = .eof ∧ Rel f' ⟨a.bytes, a.bytes.length⟩ := by
  have hf := h.ok.off
  have hp := h.pos
  have hlen := h.ok.len
  have hcap := h.ok.cap
  have hsl := h.ok.size_le
  unfold MF.readNum
  rw [if_neg (by simp [hst]), addW_eq (by omega)]
  dsimp only
  rw [if_neg (by omega)]
  exact ⟨_, rfl, rfl, h.ok.move (by omega) _, hlen.symm⟩

theorem readStr_there {check : Bool} {f : MF Byte} {a : AFile Byte} (h : Rel f a) (hst : f.st = .ok) {k : Nat} (hk : 0 < k) {cs old : List Nat} (hc : ∀ c ∈ cs, c < 256 ^ k) (hn : cs.length ≤ 4294967295) {rest : List Byte}
    (hr : a.bytes.drop a.pos = leEnc 4 cs.length ++ cs.flatMap (leEnc k) ++ rest) :
    ∃ f', f.readStr check k old = some (cs, f') ∧ f'.st = .ok ∧ Rel f' ⟨a.bytes, a.pos + 4 + k * cs.length⟩ := by
  have hf := h.ok.off
  have hp := h.pos
  have hlen := h.ok.len
  have hcap := h.ok.cap
  have hsl := h.ok.size_le
  have hl := congrArg List.length hr
  rw [List.length_drop, List.length_append, List.length_append, leEnc_length, flatMap_enc_length] at hl
  unfold MF.readStr
  rw [if_neg (by simp [hst]), addW_eq (by omega)]
  dsimp only
  rw [if_pos (by omega), peek_ok h.ok (by omega), hp, hr, List.append_assoc, List.take_left' (leEnc_length 4 _), Option.bind_some]
  rw [leDec_enc 4 cs.length (by rw [pow4]; omega), Nat.mul_comm cs.length k, if_neg (by omega), if_pos (by omega)]
  have hr2 : a.bytes.drop (a.pos + 4) = cs.flatMap (leEnc k) ++ rest := by
    rw [← List.drop_drop, hr, List.append_assoc, List.drop_left' (leEnc_length 4 _)]
  have hp2 := peek_ok (h.ok.move (o := a.pos + 4) (by omega) f.st) (off := a.pos + 4) (len := k * cs.length) (by omega)
  rw [hp2, hr2, List.take_left' (flatMap_enc_length k cs), Option.map_some]
  have hch := leChars_enc k cs hc []
  rw [List.append_nil] at hch
  exact ⟨_, by rw [hch], (by dsimp only; split <;> simp_all), h.ok.move (by omega) _, rfl⟩

/-- A string of which a part is missing: the end of the file is told. -/
theorem readStr_short {check : Bool} {f : MF Byte} {a : AFile Byte} (h : Rel f a) (hst : f.st = .ok) {k : Nat} (hk : k ≤ 8) {old : List Nat}
    (hs : a.bytes.length < a.pos + 4 ∨ a.bytes.length < a.pos + 4 + leDec ((a.bytes.drop a.pos).take 4) * k) :
    ∃ f', f.readStr check k old = some (old, f') ∧ f'.st = .eof ∧ Rel f' ⟨a.bytes, a.bytes.length⟩ := by
  have hf := h.ok.off
  have hp := h.pos
  have hlen := h.ok.len
  have hcap := h.ok.cap
  have hsl := h.ok.size_le
  unfold MF.readStr
  rw [if_neg (by simp [hst]), addW_eq (by omega)]
  dsimp only
  by_cases h1 : f.offset + 4 ≤ f.size
  · rw [if_pos h1, peek_ok h.ok (by omega), hp, Option.bind_some]
    rcases hs with hs | hs
    · omega
    have hlt : leDec ((a.bytes.drop a.pos).take 4) < 2 ^ 32 := by
      have : ∀ l : List Byte, leDec l < 256 ^ l.length := by
        intro l
        induction l with
        | nil => simp [leDec]
        | cons b l ih =>
          have := b.isLt
          simp only [leDec, List.length_cons, Nat.pow_succ]
          omega
      have h2 := this ((a.bytes.drop a.pos).take 4)
      rw [List.length_take, List.length_drop, Nat.min_eq_left (by omega), pow4] at h2
      omega
    have hm : leDec ((a.bytes.drop a.pos).take 4) * k ≤ 2 ^ 32 * 8 := Nat.mul_le_mul (by omega) hk
    rw [if_neg (by omega), if_neg (by omega)]
    exact ⟨_, rfl, rfl, h.ok.move (by omega) _, hlen.symm⟩
  · rw [if_neg h1]
    exact ⟨_, rfl, rfl, h.ok.move (by omega) _, hlen.symm⟩

/-- In a bad state nothing is read or written. -/
theorem data_bad {f : MF Byte} (hst : f.st ≠ .ok) (k v : Nat) (cs old : List Nat) (alloc : Bool) :
    f.readNum true k = some (0, f) ∧ f.readStr true k old = some ([], f) ∧ f.writeNum true k v alloc = some f ∧ f.writeStr true k cs alloc = some f := by
  unfold MF.readNum MF.readStr MF.writeNum MF.writeStr
  simp [hst]

/-- Writing a number is writing its bytes. -/
theorem writeNum_eq {check : Bool} {f : MF Byte} (hst : f.st = .ok) (k v : Nat) (alloc : Bool) : f.writeNum check k v alloc = (f.write (leEnc k v) alloc).map Prod.snd := by
  unfold MF.writeNum MF.write
  rw [if_neg (by simp [hst]), Option.map_map]; rfl

theorem writeStr_eq {check : Bool} {f : MF Byte} (hst : f.st = .ok) (k : Nat) {cs : List Nat} (hn : cs.length ≤ 4294967295) (alloc : Bool) : f.writeStr check k cs alloc = (f.write (leEnc 4 cs.length ++ cs.flatMap (leEnc k)) alloc).map Prod.snd := by
  unfold MF.writeStr MF.write
  rw [if_neg (by simp [hst]), if_neg (by omega), Option.map_map]; rfl

end Verif.Stream.MemoryFile
