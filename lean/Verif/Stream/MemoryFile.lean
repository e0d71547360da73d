import Verif.Stream.Basic
/-
Model of `stdex::stream::memory_file` (include/stdex/stream.hpp 3218-4080): the block of memory,
the cursor, the size and the capacity.

* `size_t` arithmetic wraps modulo 2^64 (`addW`, `subW`).
* Memory is a list of cells; an allocated but never written cell is `none` (indeterminate).
  `memcpy`/`memset` outside of the block and forming a pointer outside of it is undefined
  behaviour: the operation then has no result (`none`).
* `realloc` may fail at any call (`alloc = false`) and fails for blocks of 2^62 bytes and more;
  on success it preserves the common prefix and leaves the rest indeterminate.
* Not modelled: file times (compiled out by default), `load`/`save`, null-pointer subtleties of
  zero-length `memcpy`.
-/
namespace Verif.Stream.MemoryFile
open Verif.Stream

/-- `size_t` addition. -/
def addW (a b : Nat) : Nat := (a + b) % 2 ^ 64
/-- `size_t` subtraction. -/
def subW (a b : Nat) : Nat := (a + 2 ^ 64 - b) % 2 ^ 64

section
variable {β : Type}

/-- The data members, 4069-4073, and `m_state`.  `m_reserved` is `mem.length` at all times. -/
structure MF (β : Type) where
  mem : List (Option β)
  manage : Bool
  offset : Nat
  size : Nat
  st : St

/-- `m_reserved`. -/
def MF.reserved (f : MF β) : Nat := f.mem.length

/-- Default constructor, 3221-3232. -/
def MF.empty : MF β := ⟨[], true, 0, 0, .ok⟩

/-- Constructor over existing memory, 3266-3279: `data` has `reserved` bytes, the first `size` are
the contents. -/
def MF.over (data : List β) (size : Nat) (manage : Bool) : MF β :=
  ⟨data.map some, manage, 0, size, .ok⟩

/-- `memcpy` from the block: `len` cells at `off`. -/
def rdMem (mem : List (Option β)) (off len : Nat) : Option (List (Option β)) :=
  if off + len ≤ mem.length then some ((mem.drop off).take len) else none

/-- `memcpy`/`memset` into the block. -/
def wrMem (mem : List (Option β)) (off : Nat) (d : List (Option β)) : Option (List (Option β)) :=
  if off + d.length ≤ mem.length then some (mem.take off ++ d ++ mem.drop (off + d.length)) else none

/-- `default_block_size`, stream.hpp 76. -/
def blockSize : Nat := 65536

/-- The new capacity, line 3450. -/
def grown (required : Nat) (tight : Bool) : Nat :=
  if tight then required
  else (addW (addW required (required / 4)) (blockSize - 1) / blockSize * blockSize) % 2 ^ 64

/-- `reserve`, 3440-3461. -/
def MF.reserve (f : MF β) (required : Nat) (tight : Bool) (alloc : Bool) : MF β :=
  if required ≤ f.reserved && (!tight || decide (f.reserved ≤ required)) then { f with st := .ok }
  else if !f.manage then { f with st := .fail }
  else
    let r := grown required tight
    if !(alloc && decide (r < 2 ^ 62)) then { f with st := .fail }
    else { f with
      mem := f.mem.take r ++ List.replicate (r - f.mem.length) none
      size := if r < f.size then r else f.size
      st := .ok }

/-- `read`, 3551-3573. -/
def MF.read (f : MF β) (length : Nat) : Option (List (Option β) × MF β) :=
  let available := subW f.size f.offset
  if length ≤ available then
    (rdMem f.mem f.offset length).map fun d =>
      (d, { f with offset := addW f.offset length, st := .ok })
  else if length ≠ 0 ∧ available = 0 then some ([], { f with st := .eof })
  else
    (rdMem f.mem f.offset available).map fun d =>
      (d, { f with offset := addW f.offset available, st := .ok })

/-- The common part of `write` (3668-3678) and `write_byte` (3690-3700): place `d` at the cursor.
The Boolean tells whether it was done. -/
def MF.put (f : MF β) (d : List (Option β)) (alloc : Bool) : Option (Bool × MF β) :=
  let end_offset := addW f.offset d.length
  let f := if f.reserved < end_offset then f.reserve end_offset false alloc else { f with st := .ok }
  if f.st ≠ .ok then some (false, f)
  else (wrMem f.mem f.offset d).map fun m =>
    (true, { f with mem := m, offset := end_offset,
                    size := if f.size < end_offset then end_offset else f.size, st := .ok })

/-- `write`, 3661-3680. -/
def MF.write (f : MF β) (d : List β) (alloc : Bool) : Option (Nat × MF β) :=
  (f.put (d.map some) alloc).map fun r => (if r.1 then d.length else 0, r.2)

/-- `write_byte`, 3685-3701. -/
def MF.writeByte (f : MF β) (b : β) (amount : Nat) (alloc : Bool) : Option (MF β) :=
  (f.put (List.replicate amount (some b)) alloc).map Prod.snd

/-- `seek_t`, 792-802. -/
inductive How where
  | beg | cur | fin
deriving DecidableEq

/-- The switch of `seek`, 3902-3907. -/
def MF.target (f : MF β) (off : Int) : How → Int
  | .beg => off
  | .cur => (f.offset : Int) + off
  | .fin => (f.size : Int) + off

/-- `seek`, 3900-3914: `none` on signed overflow, otherwise the returned position, or `none` inside
for the exception on a negative offset. -/
def MF.seek (f : MF β) (off : Int) (how : How) : Option (Option Nat × MF β) :=
  let o : Int := f.target off how
  if ¬ (-2 ^ 63 ≤ o ∧ o < 2 ^ 63) then none
  else if o < 0 then some (none, f)
  else some (some o.toNat, { f with offset := o.toNat, st := .ok })

/-- `tell`, 3916-3919. -/
def MF.tell (f : MF β) : Nat := f.offset

/-- `truncate`, 3926-3933. -/
def MF.truncate (f : MF β) (alloc : Bool) : MF β :=
  ({ f with size := f.offset } : MF β).reserve f.offset false alloc

/-- `close`, 3886-3898. -/
def MF.close (_f : MF β) : MF β := ⟨[], true, 0, 0, .ok⟩

/-- Copy constructor, 3318-3336 (state copied by `basic_file(other)`), `malloc` succeeding. -/
def MF.copy (f : MF β) : Option (MF β) :=
  (rdMem f.mem 0 f.size).map fun d => ⟨d, true, f.offset, f.size, f.st⟩

/-- Move constructor, 3373-3395: (new object, moved-from object). -/
def MF.move (f : MF β) : MF β × MF β := (f, ⟨[], true, 0, 0, .ok⟩)

/-! ### Operations and histories -/

inductive Op (β : Type) where
  | read (n : Nat)
  | write (d : List β)
  | writeByte (b : β) (n : Nat)
  | seek (off : Int) (how : How)
  | truncate
  | reserve (n : Nat) (tight : Bool)
  | close

/-- What the caller sees: value, `state()`, `tell()`, `size()` after the call. -/
structure Out (β : Type) where
  data : List (Option β)
  count : Nat
  threw : Bool
  st : St
  pos : Nat
  size : Nat

/-- Result of a call for the caller. -/
def MF.out (f : MF β) (data : List (Option β) := []) (count : Nat := 0) (threw : Bool := false) : Out β :=
  ⟨data, count, threw, f.st, f.tell, f.size⟩

/-- Perform one call; `alloc` says whether `realloc`, if needed, succeeds. -/
def MF.step (f : MF β) (op : Op β) (alloc : Bool) : Option (Out β × MF β) :=
  match op with
  | .read n => (f.read n).map fun r => (r.2.out (data := r.1) (count := r.1.length), r.2)
  | .write d => (f.write d alloc).map fun r => (r.2.out (count := r.1), r.2)
  | .writeByte b n => (f.writeByte b n alloc).map fun r => (r.out, r)
  | .seek o h => (f.seek o h).map fun r => (r.2.out (count := r.1.getD 0) (threw := r.1.isNone), r.2)
  | .truncate => let r := f.truncate alloc; some (r.out, r)
  | .reserve n t => let r := f.reserve n t alloc; some (r.out, r)
  | .close => let r := f.close; some (r.out, r)

/-- A history of calls. -/
def MF.run (f : MF β) : List (Op β × Bool) → Option (List (Out β) × MF β)
  | [] => some ([], f)
  | (op, a) :: ops =>
    match f.step op a with
    | none => none
    | some (o, f') => (f'.run ops).map fun r => (o :: r.1, r.2)

/-! ### Specification: an abstract file -/

/-- Contents and cursor. -/
structure AFile (β : Type) where
  bytes : List β
  pos : Nat

/-- The position a seek is relative to. -/
def AFile.origin (a : AFile β) : How → Int
  | .beg => 0
  | .cur => a.pos
  | .fin => a.bytes.length

/-- Bytes `d` put at position `p` of `l` (`p ≤ l.length`): overwrite and extend. -/
def overwrite (l : List β) (p : Nat) (d : List β) : List β := l.take p ++ d ++ l.drop (p + d.length)

/-- What an abstract file may answer to a call, and the file afterwards.  Accesses are specified for a
cursor inside the file or at its end; a write either succeeds completely or fails without effect. -/
inductive AStep : AFile β → Op β → Out β → AFile β → Prop where
  /-- some bytes are available, or none was asked for -/
  | read (a : AFile β) (n : Nat) (d : List β) :
      a.pos ≤ a.bytes.length → d = (a.bytes.drop a.pos).take n → (n = 0 ∨ a.pos < a.bytes.length) →
      AStep a (.read n) ⟨d.map some, d.length, false, .ok, a.pos + d.length, a.bytes.length⟩
        ⟨a.bytes, a.pos + d.length⟩
  /-- end of file -/
  | readEof (a : AFile β) (n : Nat) : a.pos = a.bytes.length → n ≠ 0 →
      AStep a (.read n) ⟨[], 0, false, .eof, a.pos, a.bytes.length⟩ a
  | write (a : AFile β) (d : List β) : a.pos ≤ a.bytes.length →
      AStep a (.write d)
        ⟨[], d.length, false, .ok, a.pos + d.length, max a.bytes.length (a.pos + d.length)⟩
        ⟨overwrite a.bytes a.pos d, a.pos + d.length⟩
  | writeFail (a : AFile β) (d : List β) : a.pos ≤ a.bytes.length → d ≠ [] →
      AStep a (.write d) ⟨[], 0, false, .fail, a.pos, a.bytes.length⟩ a
  | writeByte (a : AFile β) (b : β) (n : Nat) : a.pos ≤ a.bytes.length →
      AStep a (.writeByte b n) ⟨[], 0, false, .ok, a.pos + n, max a.bytes.length (a.pos + n)⟩
        ⟨overwrite a.bytes a.pos (List.replicate n b), a.pos + n⟩
  | writeByteFail (a : AFile β) (b : β) (n : Nat) : a.pos ≤ a.bytes.length → n ≠ 0 →
      AStep a (.writeByte b n) ⟨[], 0, false, .fail, a.pos, a.bytes.length⟩ a
  | seek (a : AFile β) (off : Int) (how : How) (p : Nat) :
      (p : Int) = a.origin how + off →
      AStep a (.seek off how) ⟨[], p, false, .ok, p, a.bytes.length⟩ ⟨a.bytes, p⟩
  | seekThrow (a : AFile β) (off : Int) (how : How) (st : St) :
      a.origin how + off < 0 →
      AStep a (.seek off how) ⟨[], 0, true, st, a.pos, a.bytes.length⟩ a
  | truncate (a : AFile β) : a.pos ≤ a.bytes.length →
      AStep a .truncate ⟨[], 0, false, .ok, a.pos, a.pos⟩ ⟨a.bytes.take a.pos, a.pos⟩
  /-- reserving space does not change the file -/
  | reserve (a : AFile β) (n : Nat) (t : Bool) (st : St) : (t = true → a.bytes.length ≤ n) →
      AStep a (.reserve n t) ⟨[], 0, false, st, a.pos, a.bytes.length⟩ a
  | close (a : AFile β) : AStep a .close ⟨[], 0, false, .ok, 0, 0⟩ ⟨[], 0⟩

/-- A history of the abstract file. -/
inductive ARun : AFile β → List (Op β) → List (Out β) → AFile β → Prop where
  | nil (a : AFile β) : ARun a [] [] a
  | cons {a a' a'' : AFile β} {op : Op β} {ops : List (Op β)} {o : Out β} {os : List (Out β)} :
      AStep a op o a' → ARun a' ops os a'' → ARun a (op :: ops) (o :: os) a''

/-! ### Invariant and abstraction -/

/-- The file is consistent: size inside the block, contents initialised, sizes realistic. -/
structure Ok (f : MF β) (bytes : List β) : Prop where
  size_le : f.size ≤ f.mem.length
  cap : f.mem.length < 2 ^ 62
  off : f.offset < 2 ^ 63
  contents : f.mem.take f.size = bytes.map some

theorem Ok.len {f : MF β} {bytes : List β} (h : Ok f bytes) : bytes.length = f.size := by
  have := congrArg List.length h.contents
  rw [List.length_take, List.length_map] at this
  have := h.size_le; omega

theorem addW_eq {a b : Nat} (h : a + b < 2 ^ 64) : addW a b = a + b := Nat.mod_eq_of_lt h

theorem subW_eq {a b : Nat} (h : b ≤ a) (ha : a < 2 ^ 64) : subW a b = a - b := by
  unfold subW
  rw [show a + 2 ^ 64 - b = (a - b) + 2 ^ 64 by omega, Nat.add_mod_right]
  exact Nat.mod_eq_of_lt (by omega)

theorem grown_ge {r : Nat} (h : r < 2 ^ 63 + 2 ^ 62) : r ≤ grown r false := by
  unfold grown
  have h1 : addW r (r / 4) = r + r / 4 := addW_eq (by omega)
  have h2 : addW (r + r / 4) (blockSize - 1) = r + r / 4 + (blockSize - 1) :=
    addW_eq (by unfold blockSize; omega)
  simp only [Bool.false_eq_true, if_false]
  rw [h1, h2, Nat.mod_eq_of_lt]
  · unfold blockSize; omega
  · unfold blockSize; omega

/-- What `reserve` does, in both outcomes. -/
theorem reserve_spec (f : MF β) (n : Nat) (tight alloc : Bool) :
    (f.reserve n tight alloc).offset = f.offset ∧ (f.reserve n tight alloc).manage = f.manage ∧
    ((f.reserve n tight alloc).st = .ok ∨
      (f.reserve n tight alloc).st = .fail ∧ (f.reserve n tight alloc).mem = f.mem ∧
        (f.reserve n tight alloc).size = f.size) := by
  unfold MF.reserve
  split
  · exact ⟨rfl, rfl, Or.inl rfl⟩
  · split
    · exact ⟨rfl, rfl, Or.inr ⟨rfl, rfl, rfl⟩⟩
    · simp only []
      split
      · exact ⟨rfl, rfl, Or.inr ⟨rfl, rfl, rfl⟩⟩
      · exact ⟨rfl, rfl, Or.inl rfl⟩

/-- C29.  `reserve` keeps the contents (unless asked to shrink below them) and, when it
reports success, has at least the requested capacity. -/
theorem reserve_ok {f : MF β} {bytes : List β} (h : Ok f bytes) (n : Nat) (tight alloc : Bool)
    (hn : n < 2 ^ 63 + 2 ^ 62) (ht : tight = true → bytes.length ≤ n) :
    Ok (f.reserve n tight alloc) bytes ∧ (f.reserve n tight alloc).size = f.size ∧
      ((f.reserve n tight alloc).st = .ok → n ≤ (f.reserve n tight alloc).mem.length) ∧
      ((f.reserve n tight alloc).st = .ok ∨ (f.reserve n tight alloc).st = .fail) := by
  have hl := h.len
  unfold MF.reserve
  split
  · rename_i hc
    rw [Bool.and_eq_true, decide_eq_true_eq] at hc
    exact ⟨⟨h.size_le, h.cap, h.off, h.contents⟩, rfl, fun _ => hc.1, Or.inl rfl⟩
  · rename_i hc
    split
    · exact ⟨⟨h.size_le, h.cap, h.off, h.contents⟩, rfl, (fun c => by cases c), Or.inr rfl⟩
    · simp only []
      split
      · exact ⟨⟨h.size_le, h.cap, h.off, h.contents⟩, rfl, (fun c => by cases c), Or.inr rfl⟩
      · rename_i hr
        have hr : grown n tight < 2 ^ 62 := by
          simp only [Bool.not_eq_true', Bool.not_eq_false, Bool.and_eq_true, decide_eq_true_eq] at hr
          exact hr.2
        have hg : n ≤ grown n tight := by
          cases tight with
          | true => simp [grown]
          | false => exact grown_ge hn
        have hsz : f.size ≤ grown n tight := by
          cases tight with
          | true =>
            have := ht rfl
            omega
          | false =>
            simp only [Bool.not_false, Bool.true_or, Bool.and_true, decide_eq_true_eq] at hc
            have h1 := h.size_le
            have h2 : f.reserved = f.mem.length := rfl
            omega
        have e : (if grown n tight < f.size then grown n tight else f.size) = f.size := by
          rw [if_neg (by omega)]
        simp only [e]
        have hlen : (f.mem.take (grown n tight) ++
            List.replicate (grown n tight - f.mem.length) (none : Option β)).length = grown n tight := by
          rw [List.length_append, List.length_take, List.length_replicate]; omega
        refine ⟨⟨?_, ?_, h.off, ?_⟩, trivial, fun _ => ?_, Or.inl trivial⟩
        · show f.size ≤ (_ ++ _ : List (Option β)).length
          rw [hlen]; exact hsz
        · show (_ ++ _ : List (Option β)).length < _
          rw [hlen]; exact hr
        · show (f.mem.take (grown n tight) ++ _).take f.size = _
          rw [List.take_append_of_le_length (by rw [List.length_take]; have := h.size_le; omega),
            List.take_take, Nat.min_eq_left hsz]
          exact h.contents
        · show n ≤ (_ ++ _ : List (Option β)).length
          rw [hlen]; exact hg

/-- C29.  A managed file with a working allocator always gets the space (below 2^61 bytes). -/
theorem reserve_succeeds (f : MF β) (n : Nat) (hm : f.manage = true) (hn : n < 2 ^ 61) :
    (f.reserve n false true).st = .ok := by
  unfold MF.reserve
  split
  · rfl
  · rw [hm]
    have : grown n false < 2 ^ 62 := by
      unfold grown
      have h1 : addW n (n / 4) = n + n / 4 := addW_eq (by omega)
      have h2 : addW (n + n / 4) (blockSize - 1) = n + n / 4 + (blockSize - 1) :=
        addW_eq (by unfold blockSize; omega)
      simp only [Bool.false_eq_true, if_false]
      rw [h1, h2]
      refine Nat.lt_of_le_of_lt (Nat.mod_le _ _) ?_
      unfold blockSize; omega
    simp only [Bool.not_true, Bool.false_eq_true, if_false, this, decide_true, Bool.and_true]

theorem put_fail {f : MF β} {bytes : List β} (h : Ok f bytes) (d : List (Option β)) (alloc : Bool)
    (hd : d.length < 2 ^ 62) {b : Bool} {f' : MF β} (e : f.put d alloc = some (b, f')) (hb : b = false) :
    f'.st = .fail ∧ f'.mem = f.mem ∧ f'.size = f.size ∧ f'.offset = f.offset ∧
      f.mem.length < f.offset + d.length := by
  have ho := h.off
  have hw : addW f.offset d.length = f.offset + d.length := addW_eq (by omega)
  unfold MF.put at e
  simp only [hw] at e
  generalize hg : (if f.reserved < f.offset + d.length then f.reserve (f.offset + d.length) false alloc
    else { f with st := .ok }) = g at e
  by_cases hst : g.st = .ok
  · rw [if_neg (by rw [hst]; exact fun c => c rfl), Option.map_eq_some_iff] at e
    obtain ⟨m, _, e⟩ := e
    rw [Prod.mk.injEq, hb] at e
    cases e.1
  · rw [if_pos hst, Option.some.injEq, Prod.mk.injEq] at e
    obtain ⟨_, e⟩ := e
    subst e
    split at hg
    · rename_i hc
      subst hg
      obtain ⟨r1, r2, r3⟩ := reserve_spec f (f.offset + d.length) false alloc
      rcases r3 with r3 | ⟨r3, r4, r5⟩
      · exact absurd r3 hst
      · exact ⟨r3, r4, r5, r1, hc⟩
    · subst hg; exact absurd rfl hst

/-- C29.  Writing is memory safe wherever the cursor is, keeps `size ≤ reserved`, and puts the data at
the cursor; what was there before remains outside of the written range. -/
theorem put_ok {f : MF β} {bytes : List β} (h : Ok f bytes) (d : List (Option β)) (alloc : Bool)
    (hd : d.length < 2 ^ 62) :
    ∃ b f', f.put d alloc = some (b, f') ∧
      (b = true → f'.st = .ok ∧ f'.offset = f.offset + d.length ∧
        f'.size = max f.size (f.offset + d.length) ∧ f'.size ≤ f'.mem.length ∧
        f'.mem.length < 2 ^ 62 ∧ (f'.mem.drop f.offset).take d.length = d ∧
        (f.offset ≤ f.size → f'.mem.take f'.size =
          f.mem.take f.offset ++ d ++ (f.mem.take f.size).drop (f.offset + d.length))) ∧
      (f.manage = true → alloc = true → f.offset + d.length < 2 ^ 61 → b = true) := by
  have ho := h.off
  have hw : addW f.offset d.length = f.offset + d.length := addW_eq (by omega)
  unfold MF.put
  simp only [hw]
  -- the file after making room
  generalize hg : (if f.reserved < f.offset + d.length then f.reserve (f.offset + d.length) false alloc
    else { f with st := .ok }) = g
  have key : Ok g bytes ∧ g.offset = f.offset ∧ g.size = f.size ∧
      (g.st = .ok → f.offset + d.length ≤ g.mem.length) ∧
      (f.manage = true → alloc = true → f.offset + d.length < 2 ^ 61 → g.st = .ok) := by
    split at hg
    · subst hg
      obtain ⟨a, b, c, _⟩ := reserve_ok h (f.offset + d.length) false alloc (by omega) (fun c => by cases c)
      refine ⟨a, (reserve_spec _ _ _ _).1, b, c, ?_⟩
      intro hm ha hs
      subst ha
      exact reserve_succeeds f _ hm hs
    · subst hg
      rename_i hc
      refine ⟨⟨h.size_le, h.cap, h.off, h.contents⟩, rfl, rfl, fun _ => ?_, fun _ _ _ => rfl⟩
      show f.offset + d.length ≤ f.mem.length
      exact Nat.le_of_not_lt hc
  obtain ⟨k1, k2, k3, k4, k5⟩ := key
  by_cases hst : g.st = .ok
  · rw [if_neg (by rw [hst]; exact fun c => c rfl)]
    have hroom := k4 hst
    have hwr : wrMem g.mem g.offset d =
        some (g.mem.take g.offset ++ d ++ g.mem.drop (g.offset + d.length)) := by
      unfold wrMem; rw [k2, if_pos hroom]
    rw [hwr]
    refine ⟨true, _, rfl, fun _ => ?_, fun _ _ _ => rfl⟩
    have hlen : (g.mem.take f.offset ++ d ++ g.mem.drop (f.offset + d.length)).length = g.mem.length := by
      rw [List.length_append, List.length_append, List.length_take, List.length_drop]; omega
    have hmax : (if g.size < f.offset + d.length then f.offset + d.length else g.size) =
        max f.size (f.offset + d.length) := by rw [k3]; split <;> omega
    have hsl := k1.size_le
    have htl : (g.mem.take f.offset).length = f.offset := by rw [List.length_take]; omega
    simp only [k2]
    refine ⟨trivial, trivial, hmax, ?_, ?_, ?_, ?_⟩
    · show (if g.size < f.offset + d.length then f.offset + d.length else g.size) ≤ (_ ++ _ ++ _ : List (Option β)).length
      rw [hlen]; split <;> omega
    · show (_ ++ _ ++ _ : List (Option β)).length < _
      rw [hlen]; exact k1.cap
    · show ((g.mem.take f.offset ++ d ++ g.mem.drop (f.offset + d.length)).drop f.offset).take d.length = d
      rw [List.append_assoc, List.drop_append_of_le_length (by omega)]
      rw [List.drop_eq_nil_of_le (by omega), List.nil_append, List.take_left]
    · intro hos
      show (g.mem.take f.offset ++ d ++ g.mem.drop (f.offset + d.length)).take
        (if g.size < f.offset + d.length then f.offset + d.length else g.size) = _
      rw [hmax]
      have c1 := k1.contents
      have c2 := h.contents
      rw [k3] at c1
      have hpre : g.mem.take f.size = f.mem.take f.size := c1.trans c2.symm
      have hpre2 : g.mem.take f.offset = f.mem.take f.offset := by
        have := congrArg (List.take f.offset) hpre
        rw [List.take_take, List.take_take, Nat.min_eq_left hos] at this
        exact this
      rw [List.take_append, List.take_of_length_le (by rw [List.length_append]; omega)]
      rw [hpre2]
      congr 1
      rw [List.take_drop, List.length_append, List.length_take]
      have hf := h.size_le
      rw [show min f.offset f.mem.length = f.offset by omega]
      rw [show f.offset + d.length + (max f.size (f.offset + d.length) - (f.offset + d.length)) =
        max f.size (f.offset + d.length) by omega]
      rcases Nat.le_total (f.offset + d.length) f.size with hc | hc
      · rw [Nat.max_eq_left hc, hpre]
      · rw [Nat.max_eq_right hc]
        rw [List.drop_eq_nil_of_le (by rw [List.length_take]; omega),
          List.drop_eq_nil_of_le (by rw [List.length_take]; omega)]
  · rw [if_pos hst]
    refine ⟨false, g, rfl, (fun c => by cases c), ?_⟩
    intro hm ha hs
    exact absurd (k5 hm ha hs) hst

/-- The abstraction relation. -/
structure Rel (f : MF β) (a : AFile β) : Prop where
  ok : Ok f a.bytes
  pos : f.offset = a.pos

/-- Operations with realistic sizes: data in memory is shorter than 2^62 bytes; the repeat count of
`write_byte` likewise; `reserve` below 2^63; the arithmetic of `seek` does not overflow. -/
def Real (a : AFile β) : Op β → Prop
  | .read n => n < 2 ^ 64
  | .write d => d.length < 2 ^ 62
  | .writeByte _ n => n < 2 ^ 62
  | .seek off how =>
    -2 ^ 63 ≤ a.origin how + off ∧ a.origin how + off < 2 ^ 63
  | .truncate => True
  | .reserve n t => n < 2 ^ 63 ∧ (t = true → a.bytes.length ≤ n)
  | .close => True

/-- Accesses (`read`, `write`, `write_byte`, `truncate`) happen with the cursor not beyond the end. -/
def Inside (a : AFile β) : Op β → Prop
  | .read _ | .write _ | .writeByte _ _ | .truncate => a.pos ≤ a.bytes.length
  | _ => True

theorem overwrite_length (l : List β) (p : Nat) (d : List β) (h : p ≤ l.length) :
    (overwrite l p d).length = max l.length (p + d.length) := by
  unfold overwrite
  rw [List.length_append, List.length_append, List.length_take, List.length_drop]; omega

theorem put_rel {f : MF β} {a : AFile β} (h : Rel f a) (d : List β) (alloc : Bool)
    (hd : d.length < 2 ^ 62) (hin : a.pos ≤ a.bytes.length) :
    (∃ f', f.put (d.map some) alloc = some (true, f') ∧ f'.st = .ok ∧
      f'.size = max a.bytes.length (a.pos + d.length) ∧
      Rel f' ⟨overwrite a.bytes a.pos d, a.pos + d.length⟩) ∨
    (∃ f', f.put (d.map some) alloc = some (false, f') ∧ f'.st = .fail ∧ f'.size = a.bytes.length ∧
      Rel f' a ∧ d ≠ []) := by
  have hl := h.ok.len
  have hp := h.pos
  obtain ⟨b, f', e, hb, _⟩ := put_ok h.ok (d.map some) alloc (by rw [List.length_map]; exact hd)
  rw [List.length_map] at hb
  cases b with
  | true =>
    obtain ⟨c1, c2, c3, c4, c5, _, c7⟩ := hb rfl
    have c7 := c7 (by omega)
    refine Or.inl ⟨f', e, c1, by rw [c3, hl, hp], ⟨⟨c4, c5, ?_, ?_⟩, by rw [c2, hp]⟩⟩
    · have := c3; omega
    · rw [c7, h.ok.contents]
      have : f.mem.take f.offset = (a.bytes.take a.pos).map some := by
        rw [← hp, List.map_take, ← h.ok.contents, List.take_take, Nat.min_eq_left (by omega)]
      rw [this, hp]
      unfold overwrite
      rw [List.map_append, List.map_append, List.map_drop]
  | false =>
    obtain ⟨c1, c2, c3, c4, c5⟩ := put_fail h.ok (d.map some) alloc (by rw [List.length_map]; exact hd) e rfl
    refine Or.inr ⟨f', e, c1, by rw [c3, hl], ⟨⟨?_, ?_, ?_, ?_⟩, c4.trans hp⟩, ?_⟩
    · rw [c2, c3]; exact h.ok.size_le
    · rw [c2]; exact h.ok.cap
    · rw [c4]; exact h.ok.off
    · rw [c2, c3]; exact h.ok.contents
    · intro hnil
      subst hnil
      have := h.ok.size_le
      rw [List.map_nil, List.length_nil] at c5
      omega

/-- One call refines the abstract file. -/
theorem step_refines {f : MF β} {a : AFile β} (h : Rel f a) (op : Op β) (alloc : Bool)
    (hr : Real a op) (hin : Inside a op) :
    ∃ o f' a', f.step op alloc = some (o, f') ∧ AStep a op o a' ∧ Rel f' a' := by
  have hl := h.ok.len
  have hp := h.pos
  have hs := h.ok.size_le
  have hcap := h.ok.cap
  have hoff := h.ok.off
  cases op with
  | read n =>
    have hin : a.pos ≤ a.bytes.length := hin
    have hav : subW f.size f.offset = f.size - f.offset := subW_eq (by omega) (by omega)
    have slice : ∀ k, k ≤ f.size - f.offset →
        rdMem f.mem f.offset k = some (((a.bytes.drop a.pos).take k).map some) := by
      intro k hk
      unfold rdMem
      rw [if_pos (by omega)]
      congr 1
      rw [List.map_take, List.map_drop, ← h.ok.contents, ← hp, List.take_drop, List.take_drop,
        List.take_take, Nat.min_eq_left (by omega)]
    have hdl : (a.bytes.drop a.pos).length = f.size - f.offset := by rw [List.length_drop]; omega
    show ∃ o f' a', (f.read n).map _ = some (o, f') ∧ _ ∧ _
    unfold MF.read
    simp only [hav]
    by_cases h1 : n ≤ f.size - f.offset
    · rw [if_pos h1, slice n h1]
      have hlen : ((a.bytes.drop a.pos).take n).length = n := by rw [List.length_take]; omega
      have hw : addW f.offset n = f.offset + n := addW_eq (by omega)
      rw [Option.map_some, Option.map_some]
      refine ⟨_, _, ⟨a.bytes, a.pos + n⟩, rfl, ?_, ⟨⟨hs, hcap, ?_, h.ok.contents⟩, ?_⟩⟩
      · have := AStep.read a n ((a.bytes.drop a.pos).take n) hin rfl (by
          by_cases c : n = 0
          · exact Or.inl c
          · right; omega)
        rw [hlen] at this
        unfold MF.out MF.tell
        rw [List.length_map, hlen, hw, hp, ← hl]
        exact this
      · show addW f.offset n < _
        rw [hw]; omega
      · show addW f.offset n = _
        rw [hw, hp]
    · rw [if_neg h1]
      by_cases h2 : n ≠ 0 ∧ f.size - f.offset = 0
      · rw [if_pos h2]
        refine ⟨_, _, a, rfl, ?_, ⟨⟨hs, hcap, hoff, h.ok.contents⟩, hp⟩⟩
        have := AStep.readEof a n (by omega) h2.1
        unfold MF.out MF.tell
        simp only [List.length_nil]
        rw [hp, ← hl]; exact this
      · rw [if_neg h2, slice _ (Nat.le_refl _)]
        have htk : (a.bytes.drop a.pos).take (f.size - f.offset) = (a.bytes.drop a.pos).take n := by
          rw [List.take_of_length_le (by omega), List.take_of_length_le (by omega)]
        rw [htk]
        have hlen : ((a.bytes.drop a.pos).take n).length = f.size - f.offset := by
          rw [List.length_take]; omega
        have hw : addW f.offset (f.size - f.offset) = f.offset + (f.size - f.offset) := addW_eq (by omega)
        rw [Option.map_some, Option.map_some]
        refine ⟨_, _, ⟨a.bytes, a.pos + (f.size - f.offset)⟩, rfl, ?_, ⟨⟨hs, hcap, ?_, h.ok.contents⟩, ?_⟩⟩
        · have := AStep.read a n ((a.bytes.drop a.pos).take n) hin rfl (by
            by_cases c : n = 0
            · exact Or.inl c
            · right; omega)
          rw [hlen] at this
          unfold MF.out MF.tell
          rw [List.length_map, hlen, hw, hp, ← hl, ← hp]
          rw [← hp, ← hl] at this
          exact this
        · show addW f.offset _ < _
          rw [hw]; omega
        · show addW f.offset _ = _
          rw [hw, hp]
  | write d =>
    have hin : a.pos ≤ a.bytes.length := hin
    show ∃ o f' a', (f.write d alloc).map _ = some (o, f') ∧ _ ∧ _
    unfold MF.write
    rcases put_rel h d alloc hr hin with ⟨f', e, c1, c2, c3⟩ | ⟨f', e, c1, c2, c3, c4⟩
    · rw [e]
      refine ⟨_, _, _, rfl, ?_, c3⟩
      have := AStep.write a d hin
      unfold MF.out MF.tell
      simp only [if_true]
      rw [c1, c2, c3.pos]; exact this
    · rw [e]
      refine ⟨_, _, _, rfl, ?_, c3⟩
      have := AStep.writeFail a d hin c4
      unfold MF.out MF.tell
      simp only [Bool.false_eq_true, if_false]
      rw [c1, c2, c3.pos]; exact this
  | writeByte b n =>
    have hin : a.pos ≤ a.bytes.length := hin
    have hr : n < 2 ^ 62 := hr
    show ∃ o f' a', (f.writeByte b n alloc).map _ = some (o, f') ∧ _ ∧ _
    unfold MF.writeByte
    have em : List.replicate n (some b) = (List.replicate n b).map some := by
      rw [List.map_replicate]
    rw [em]
    rcases put_rel h (List.replicate n b) alloc (by rw [List.length_replicate]; exact hr) hin with
      ⟨f', e, c1, c2, c3⟩ | ⟨f', e, c1, c2, c3, c4⟩
    · rw [e]
      rw [List.length_replicate] at c2 c3
      refine ⟨_, _, _, rfl, ?_, c3⟩
      have := AStep.writeByte a b n hin
      unfold MF.out MF.tell
      show AStep a _ ⟨[], 0, false, f'.st, f'.offset, f'.size⟩ _
      rw [c1, c2, c3.pos]; exact this
    · rw [e]
      refine ⟨_, _, _, rfl, ?_, c3⟩
      have := AStep.writeByteFail a b n hin (by
        intro c; subst c; exact c4 rfl)
      show AStep a _ ⟨[], 0, false, f'.st, f'.offset, f'.size⟩ _
      rw [c1, c2, c3.pos]; exact this
  | seek off how =>
    have hr : -2 ^ 63 ≤ a.origin how + off ∧
      a.origin how + off < 2 ^ 63 := hr
    have eo : f.target off how =
        a.origin how + off := by
      cases how
      · simp [AFile.origin, MF.target]
      · simp only [AFile.origin, MF.target]; rw [hp]
      · simp only [AFile.origin, MF.target]; rw [hl]
    show ∃ o f' a', (f.seek off how).map _ = some (o, f') ∧ _ ∧ _
    unfold MF.seek
    simp only [eo]
    generalize eg : a.origin how + off = o at hr
    rw [if_neg (by exact fun c => c hr)]
    by_cases hneg : o < 0
    · rw [if_pos hneg]
      refine ⟨_, _, a, rfl, ?_, h⟩
      have := AStep.seekThrow a off how f.st (by rw [eg]; exact hneg)
      show AStep a _ ⟨[], 0, true, f.st, f.offset, f.size⟩ a
      rw [hp, ← hl]; exact this
    · rw [if_neg hneg]
      refine ⟨_, _, ⟨a.bytes, o.toNat⟩, rfl, ?_, ⟨⟨hs, hcap, ?_, h.ok.contents⟩, rfl⟩⟩
      · have := AStep.seek a off how o.toNat (by rw [eg]; omega)
        show AStep a _ ⟨[], o.toNat, false, .ok, o.toNat, f.size⟩ _
        rw [← hl]; exact this
      · show o.toNat < _
        omega
  | truncate =>
    have hin : a.pos ≤ a.bytes.length := hin
    refine ⟨_, _, ⟨a.bytes.take a.pos, a.pos⟩, rfl, ?_, ?_⟩
    all_goals
      have e : f.truncate alloc = { f with size := f.offset, st := .ok } := by
        unfold MF.truncate MF.reserve
        rw [if_pos]
        show (decide (f.offset ≤ f.mem.length) && _) = true
        rw [decide_eq_true (by omega)]; rfl
      rw [e]
    · have := AStep.truncate a hin
      show AStep a _ ⟨[], 0, false, .ok, f.offset, f.offset⟩ _
      rw [hp]; exact this
    · refine ⟨⟨?_, hcap, hoff, ?_⟩, hp⟩
      · show f.offset ≤ f.mem.length
        omega
      · show f.mem.take f.offset = (a.bytes.take a.pos).map some
        rw [List.map_take, ← h.ok.contents, List.take_take, hp, Nat.min_eq_left (by omega)]
  | reserve n t =>
    have hr : n < 2 ^ 63 ∧ (t = true → a.bytes.length ≤ n) := hr
    obtain ⟨c1, c2, _, _⟩ := reserve_ok h.ok n t alloc (by omega) hr.2
    obtain ⟨r1, _, _⟩ := reserve_spec f n t alloc
    refine ⟨_, _, a, rfl, ?_, ⟨c1, r1.trans hp⟩⟩
    have := AStep.reserve a n t (f.reserve n t alloc).st hr.2
    show AStep a _ ⟨[], 0, false, _, (f.reserve n t alloc).offset, (f.reserve n t alloc).size⟩ a
    rw [r1, c2, hp, ← hl]; exact this
  | close =>
    refine ⟨_, _, ⟨[], 0⟩, rfl, AStep.close a, ⟨⟨?_, ?_, ?_, rfl⟩, rfl⟩⟩
    · exact Nat.le_refl _
    · show 0 < _; omega
    · show 0 < _; omega

/-- The side condition of the theorems, along a history of the abstract file: every access happens with
the cursor inside, and sizes are realistic. -/
def Fair (a : AFile β) (ops : List (Op β)) : Prop :=
  ∀ (pre : List (Op β)) (op : Op β) (post : List (Op β)) (os : List (Out β)) (a' : AFile β),
    ops = pre ++ op :: post → ARun a pre os a' → Real a' op ∧ Inside a' op

/-- C28 (for histories that do not access the file with the cursor beyond its end): every history of calls,
with allocation failures anywhere, has a result (no undefined behaviour), and what the caller sees
is what the abstract file answers. -/
theorem refines_abstract_file_partial {f : MF β} {a : AFile β} (h : Rel f a) :
    ∀ (ops : List (Op β × Bool)), Fair a (ops.map Prod.fst) →
      ∃ os f' a', f.run ops = some (os, f') ∧ ARun a (ops.map Prod.fst) os a' ∧ Rel f' a' := by
  intro ops
  induction ops generalizing f a with
  | nil => intro _; exact ⟨[], f, a, rfl, .nil a, h⟩
  | cons x ops ih =>
    obtain ⟨op, al⟩ := x
    intro hf
    obtain ⟨hr, hin⟩ := hf [] op (ops.map Prod.fst) [] a rfl (.nil a)
    obtain ⟨o, f1, a1, e1, s1, r1⟩ := step_refines h op al hr hin
    have hf' : Fair a1 (ops.map Prod.fst) := by
      intro pre op' post os a' e hrun
      exact hf (op :: pre) op' post (o :: os) a' (by rw [List.map_cons, e]; rfl) (.cons s1 hrun)
    obtain ⟨os, f', a', e2, s2, r2⟩ := ih r1 hf'
    refine ⟨o :: os, f', a', ?_, .cons s1 s2, r2⟩
    rw [MF.run, e1]
    simp only []
    rw [e2]; rfl

/-- C28.  A managed file never reports a failed write while the allocator works (below 2^61 bytes). -/
theorem write_succeeds {f : MF β} {a : AFile β} (h : Rel f a) (d : List β) (hm : f.manage = true)
    (hin : a.pos ≤ a.bytes.length) (hd : a.pos + d.length < 2 ^ 61) :
    ∃ f', f.write d true = some (d.length, f') ∧ f'.st = .ok ∧
      Rel f' ⟨overwrite a.bytes a.pos d, a.pos + d.length⟩ := by
  unfold MF.write
  rcases put_rel h d true (by omega) hin with ⟨f', e, c1, c2, c3⟩ | ⟨f', e, c1, c2, c3, c4⟩
  · exact ⟨f', by rw [e]; rfl, c1, c3⟩
  · exfalso
    obtain ⟨b, f2, e2, _, hb⟩ := put_ok h.ok (d.map some) true (by rw [List.length_map]; omega)
    have hb := hb hm rfl (by rw [List.length_map, h.pos]; exact hd)
    rw [e] at e2
    rw [hb] at e2
    cases e2

/-- C28.  The usual use: write, go back, read the same bytes again. -/
theorem write_seek_read {f : MF β} {a : AFile β} (h : Rel f a) (d : List β) (hm : f.manage = true)
    (hin : a.pos ≤ a.bytes.length) (hd : a.pos + d.length < 2 ^ 61) :
    ∃ f1 f2 f3, f.write d true = some (d.length, f1) ∧
      f1.seek (a.pos : Int) .beg = some (some a.pos, f2) ∧
      f2.read d.length = some (d.map some, f3) ∧ f3.st = .ok := by
  obtain ⟨f1, e1, s1, r1⟩ := write_succeeds h d hm hin hd
  have hl1 : (overwrite a.bytes a.pos d).length = max a.bytes.length (a.pos + d.length) :=
    overwrite_length _ _ _ hin
  have e2' : f1.seek (a.pos : Int) .beg = some (some a.pos, { f1 with offset := a.pos, st := .ok }) := by
    unfold MF.seek
    have et : f1.target (a.pos : Int) .beg = a.pos := rfl
    simp only []
    rw [et, if_neg (by omega), if_neg (by omega), Int.toNat_natCast]
  have r2 : Rel ({ f1 with offset := a.pos, st := .ok } : MF β) ⟨overwrite a.bytes a.pos d, a.pos⟩ :=
    ⟨⟨r1.ok.size_le, r1.ok.cap, by show a.pos < _; omega, r1.ok.contents⟩, rfl⟩
  refine ⟨f1, _, { f1 with offset := a.pos + d.length, st := .ok }, e1, e2', ?_, rfl⟩
  have hl2 := r2.ok.len
  have hsz : f1.size = max a.bytes.length (a.pos + d.length) := by rw [← hl1]; exact hl2.symm
  have hmem := r1.ok.size_le
  have hcap := r1.ok.cap
  unfold MF.read
  show (let available := subW f1.size a.pos; _) = _
  have hav : subW f1.size a.pos = f1.size - a.pos := subW_eq (by omega) (by omega)
  simp only [hav]
  rw [if_pos (by omega)]
  have hrd : rdMem f1.mem a.pos d.length = some (d.map some) := by
    unfold rdMem
    rw [if_pos (by omega)]
    apply congrArg some
    have c := r1.ok.contents
    have : (f1.mem.drop a.pos).take d.length = ((f1.mem.take f1.size).drop a.pos).take d.length := by
      rw [List.take_drop, List.take_drop, List.take_take, Nat.min_eq_left (by omega)]
    rw [this, c, ← List.map_drop, ← List.map_take]
    apply congrArg (List.map some)
    unfold overwrite
    have htl : (a.bytes.take a.pos).length = a.pos := by rw [List.length_take]; omega
    rw [List.append_assoc, List.drop_append_of_le_length (by omega),
      List.drop_eq_nil_of_le (by omega), List.nil_append, List.take_left]
  rw [hrd, Option.map_some, addW_eq (by omega)]

/-- C29 (for histories as in C28): along every such history the size stays within the block, the
block within 2^62 bytes, and no access leaves the block. -/
theorem stays_inside_partial {f : MF β} {a : AFile β} (h : Rel f a) (ops : List (Op β × Bool))
    (hf : Fair a (ops.map Prod.fst)) :
    ∃ os f', f.run ops = some (os, f') ∧ f'.size ≤ f'.reserved ∧ f'.reserved < 2 ^ 62 := by
  obtain ⟨os, f', a', e, _, r⟩ := refines_abstract_file_partial h ops hf
  exact ⟨os, f', e, r.ok.size_le, r.ok.cap⟩

/-- C29.  A copy is independent memory with the same contents, position and state. -/
theorem copy_ok {f : MF β} {a : AFile β} (h : Rel f a) :
    ∃ g, f.copy = some g ∧ Rel g a ∧ g.st = f.st := by
  have hs := h.ok.size_le
  unfold MF.copy rdMem
  rw [if_pos (by omega), List.drop_zero]
  have hl : (f.mem.take f.size).length = f.size := by rw [List.length_take]; omega
  refine ⟨_, rfl, ⟨⟨?_, ?_, h.ok.off, ?_⟩, h.pos⟩, rfl⟩
  · show f.size ≤ (f.mem.take f.size).length
    omega
  · show (f.mem.take f.size).length < _
    have := h.ok.cap; omega
  · show (f.mem.take f.size).take f.size = _
    rw [List.take_take, Nat.min_self]; exact h.ok.contents

/-- Moving transfers everything and leaves an empty file. -/
theorem move_ok {f : MF β} {a : AFile β} (h : Rel f a) :
    Rel f.move.1 a ∧ Rel f.move.2 ⟨[], 0⟩ := by
  refine ⟨h, ⟨⟨Nat.le_refl _, ?_, ?_, rfl⟩, rfl⟩⟩
  · show 0 < _; omega
  · show 0 < _; omega

/-- A new file satisfies the relation, as does one over existing memory. -/
theorem rel_empty : Rel (MF.empty : MF β) ⟨[], 0⟩ := by
  refine ⟨⟨Nat.le_refl _, ?_, ?_, rfl⟩, rfl⟩
  · show 0 < _; omega
  · show 0 < _; omega

theorem rel_over (data : List β) (size : Nat) (manage : Bool) (h : size ≤ data.length)
    (hd : data.length < 2 ^ 62) : Rel (MF.over data size manage) ⟨data.take size, 0⟩ := by
  refine ⟨⟨?_, ?_, ?_, ?_⟩, rfl⟩
  · show size ≤ (data.map some).length
    rw [List.length_map]; exact h
  · show (data.map some).length < _
    rw [List.length_map]; exact hd
  · show 0 < _; omega
  · show (data.map some).take size = _
    rw [List.map_take]

end

/-! ### What fails: cursor beyond the end -/

/-- `seek(10)` in a file of 3 bytes, then `read(1)`: `m_size - m_offset` wraps and `memcpy` reads
outside of the block (undefined behaviour). -/
theorem read_beyond_end_ub :
    (MF.over [(1 : Nat), 2, 3] 3 false).run [(.seek 10 .beg, true), (.read 1, true)] = none := by
  decide +kernel

/-- Truncating to 1 byte, then seeking to 2 and writing at 2: the byte in the gap is the deleted one. -/
theorem gap_shows_deleted_byte :
    ((MF.over [(1 : Nat), 2, 3] 3 false).run
      [(.seek 1 .beg, true), (.truncate, true), (.seek 2 .beg, true), (.write [9], true),
       (.seek 0 .beg, true), (.read 3, true)]).map (fun r => (r.1.map Out.data).getLast?) =
      some (some [some 1, some 2, some 9]) := by
  decide +kernel

/-- `truncate` beyond the capacity of a caller-supplied buffer: fails, but `size()` is left beyond the block. -/
theorem failed_truncate_breaks_size :
    ((MF.over [(1 : Nat), 2, 3] 3 false).run [(.seek 10 .beg, true), (.truncate, true)]).map
      (fun r => (r.2.size, r.2.reserved, r.2.st)) = some (10, 3, .fail) := by
  decide +kernel

/-- `reserve` of nearly 2^64 bytes: the growth computation wraps; the request "succeeds" with less. -/
theorem reserve_wraps :
    ((MF.empty : MF Nat).reserve 14757395258967641297 false true).st = .ok ∧
    ((MF.empty : MF Nat).reserve 14757395258967641297 false true).reserved = 65536 := by
  have e : grown 14757395258967641297 false = 65536 := by decide +kernel
  unfold MF.reserve
  rw [if_neg (by decide +kernel), if_neg (by decide +kernel)]
  simp only [e]
  rw [if_neg (by decide +kernel)]
  refine ⟨rfl, ?_⟩
  unfold MF.reserved
  simp only [MF.empty, List.take_nil, List.nil_append, List.length_replicate, List.length_nil]

/-- Non-vacuity of `Fair`: a history with writes, seeks, reads, a truncation. -/
example : Fair (⟨[1, 2, 3], 0⟩ : AFile Nat) [.write [7, 8], .seek 0 .beg, .read 5, .truncate] := by
  intro pre op post os a' e hrun
  rcases pre with _ | ⟨p1, pre⟩
  · cases hrun; cases e; exact ⟨by show 2 < 2 ^ 62; decide, by show 0 ≤ 3; decide⟩
  rcases pre with _ | ⟨p2, pre⟩
  · cases e
    cases hrun with
    | cons s1 r1 => cases r1; exact ⟨by show (-2 ^ 63 : Int) ≤ 0 + 0 ∧ (0 + 0 : Int) < 2 ^ 63; decide, trivial⟩
  rcases pre with _ | ⟨p3, pre⟩
  · cases e
    cases hrun with
    | cons s1 r1 =>
      cases r1 with
      | cons s2 r2 =>
        cases r2
        cases s2 with
        | seek _ _ p hp => exact ⟨by show 5 < 2 ^ 64; decide, by show p ≤ _; simp only [AFile.origin] at hp; omega⟩
        | seekThrow _ _ st hp => simp only [AFile.origin] at hp; omega
  rcases pre with _ | ⟨p4, pre⟩
  · cases e
    cases hrun with
    | cons s1 r1 =>
      cases r1 with
      | cons s2 r2 =>
        cases r2 with
        | cons s3 r3 =>
          cases r3
          refine ⟨trivial, ?_⟩
          cases s3 with
          | read n d h1 h2 h3 =>
            subst h2
            show _ + List.length _ ≤ List.length _
            rw [List.length_take, List.length_drop]
            simp only []
            omega
          | readEof n h1 h2 => show _ ≤ _; omega
  · have := congrArg List.length e
    simp at this

end Verif.Stream.MemoryFile
