import Verif.Stream.FileWindow
/-
Model of `stdex::stream::cache` (include/stdex/stream.hpp 1801-2203) over an ideal file: one that never fails
and never transfers less than possible.

* Positions and sizes are natural numbers: the code is faithful below 2^63.
* Loops carry a bound on the iterations, shown to suffice.
* Not modelled: file times, `lock`/`unlock`.
-/
namespace Verif.Stream.Cache
open Verif.Stream
variable {β : Type}

/-! ### The ideal file: at once the source and the specification -/

/-- Contents and position of a file; `z` is the byte a gap reads as. -/
structure Plain (β : Type) where
  c : List β
  pos : Nat

/-- Replace the contents from `p` on by `d`, filling a gap with `z`. Writing nothing changes nothing. -/
def put (z : β) (c : List β) (p : Nat) (d : List β) : List β :=
  if d = [] then c
  else (c ++ List.replicate (p - c.length) z).take p ++ d ++ c.drop (p + d.length)

def Plain.read (f : Plain β) (n : Nat) : (List β × St) × Plain β :=
  (((f.c.drop f.pos).take n, if n ≠ 0 ∧ f.c.length ≤ f.pos then .eof else .ok),
   { f with pos := f.pos + ((f.c.drop f.pos).take n).length })

def Plain.write (z : β) (f : Plain β) (d : List β) : Plain β := ⟨put z f.c f.pos d, f.pos + d.length⟩

def Plain.truncate (z : β) (f : Plain β) : Plain β :=
  { f with c := (f.c ++ List.replicate (f.pos - f.c.length) z).take f.pos }

/-- Target of a seek. -/
def seekTarget (size pos : Nat) (o : Int) : How → Int
  | .beg => o
  | .cur => pos + o
  | .fin => size + o

/-- Calls on a file. -/
inductive COp (β : Type) where
  | read (n : Nat) | write (d : List β) | seek (o : Int) (h : How) | tell | size | truncate | flush

/-- What the caller sees. -/
inductive CRes (β : Type) where
  | read (d : List β) (st : St) | write (n : Nat) (st : St) | pos (p : Nat) | rejected | done (st : St)
deriving DecidableEq

/-- A call on the ideal file. -/
def Plain.step (z : β) (f : Plain β) : COp β → CRes β × Plain β
  | .read n => (.read (f.read n).1.1 (f.read n).1.2, (f.read n).2)
  | .write d => (.write d.length .ok, f.write z d)
  | .seek o h =>
    let t := seekTarget f.c.length f.pos o h
    if t < 0 then (.rejected, f) else (.pos t.toNat, { f with pos := t.toNat })
  | .tell => (.pos f.pos, f)
  | .size => (.pos f.c.length, f)
  | .truncate => (.done .ok, f.truncate z)
  | .flush => (.done .ok, f)

def Plain.run (z : β) (f : Plain β) : List (COp β) → List (CRes β) × Plain β
  | [] => ([], f)
  | op :: ops => ((f.step z op).1 :: (Plain.run z (f.step z op).2 ops).1, (Plain.run z (f.step z op).2 ops).2)

/-! ### The cache -/

/-- `status_t`, 2177-2181. -/
inductive Status where
  | empty | loaded | dirty
deriving DecidableEq

/-- The members of `cache`: source, buffer memory, status, region, `m_offset`, `m_state`. -/
structure C (β : Type) where
  src : Plain β
  data : List β
  status : Status
  rs : Nat
  re : Nat
  off : Nat
  st : St

/-- Constructor, 1844-1853: `mem` is the uninitialised memory. -/
def C.new (f : Plain β) (mem : List β) : C β := ⟨f, mem, .empty, 0, 0, f.pos, .ok⟩

/-- `memcpy` into the buffer. -/
def memcpyTo (data : List β) (p : Nat) (d : List β) : List β := data.take p ++ d ++ data.drop (p + d.length)

/-- `write_cache`, 2165-2171. -/
def writeCache (z : β) (k : C β) : C β :=
  { k with src := (⟨k.src.c, k.rs⟩ : Plain β).write z (k.data.take (k.re - k.rs)), st := .ok }

/-- `flush_cache`, 2125-2138. -/
def flushCache (z : β) (k : C β) : C β :=
  if k.status ≠ .dirty then { k with st := .ok }
  else if k.rs < k.re then { writeCache z k with status := .loaded }
  else { k with st := .ok, status := .loaded }

/-- `load_cache`, 2151-2163. -/
def loadCache (cap : Nat) (k : C β) (start : Nat) : C β :=
  let start := start - start % cap
  let r := (⟨k.src.c, start⟩ : Plain β).read cap
  { k with src := r.2, data := memcpyTo k.data 0 r.1.1, rs := start, re := start + r.1.1.length, status := .loaded, st := .ok }

/-- `read`: serve from the loaded block, flush it, 1877-1897. `inl`: the call returns; `inr`: it goes on
(`acc`: bytes in the caller's memory). -/
def readHead (z : β) (k : C β) (acc : List β) (to_read : Nat) : (List β × C β) ⊕ (C β × List β × Nat) :=
  if k.status ≠ .empty then                                                         -- 1877
    if k.rs ≤ k.off ∧ k.off < k.re then                                             -- 1878
      let remaining := k.re - k.off
      if to_read ≤ remaining then                                                   -- 1880
        .inl (acc ++ (k.data.drop (k.off - k.rs)).take to_read, { k with off := k.off + to_read, st := .ok })
      else
        .inr (flushCache z { k with off := k.off + remaining },                     -- 1886
          acc ++ (k.data.drop (k.off - k.rs)).take remaining, to_read - remaining)
    else .inr (flushCache z k, acc, to_read)                                        -- 1891 (the source never fails)
  else .inr (k, acc, to_read)

/-- `read`: blocks read directly from the source, 1899-1922. -/
def readBypass (cap length : Nat) (k : C β) (acc : List β) (to_read : Nat) : (List β × C β) ⊕ (C β × List β × Nat) :=
  let end_max := k.off + to_read                                                    -- 1899
  if k.off / cap < end_max / cap then                                               -- 1900
    let r := (⟨k.src.c, k.off⟩ : Plain β).read (to_read - end_max % cap)            -- 1902-1907
    let k := { k with src := r.2, off := k.off + r.1.1.length, st := r.1.2 }
    let to_read := to_read - r.1.1.length
    let acc := acc ++ r.1.1
    if to_read = 0 then .inl (acc, { k with st := .ok })                            -- 1910
    else if r.1.2 ≠ .ok then .inl (acc, { k with st := if to_read < length then .ok else r.1.2 })   -- 1915-1920
    else .inr (k, acc, to_read)
  else .inr (k, acc, to_read)

/-- `read`: load the next block, 1923-1931. -/
def readLoad (cap length : Nat) (k : C β) (acc : List β) (to_read : Nat) : (List β × C β) ⊕ (C β × List β × Nat) :=
  let k := loadCache cap k k.off                                                    -- 1923
  if k.re ≤ k.off then .inl (acc, { k with st := if to_read < length then .ok else .eof })   -- 1928
  else .inr (k, acc, to_read)

/-- The loop of `read`, 1876-1932. -/
def readLoop (z : β) (cap length : Nat) : Nat → C β → List β → Nat → Option (List β × C β)
  | 0, _, _, _ => none
  | fuel + 1, k, acc, to_read =>
    match readHead z k acc to_read with
    | .inl r => some r
    | .inr (k, acc, to_read) =>
      match readBypass cap length k acc to_read with
      | .inl r => some r
      | .inr (k, acc, to_read) =>
        match readLoad cap length k acc to_read with
        | .inl r => some r
        | .inr (k, acc, to_read) => readLoop z cap length fuel k acc to_read

/-- `read`, 1869-1933. -/
def read (z : β) (cap : Nat) (k : C β) (length : Nat) : Option (List β × C β) := readLoop z cap length 2 k [] length

/-- `write`: into the loaded block, flush it, 1943-1965. -/
def writeHead (z : β) (cap : Nat) (k : C β) (d : List β) : C β ⊕ (C β × List β) :=
  if k.status ≠ .empty then
    let end_max := k.rs + cap                                                       -- 1944
    if k.rs ≤ k.off ∧ k.off < end_max then                                          -- 1945
      let remaining := end_max - k.off
      if d.length ≤ remaining then                                                  -- 1947
        .inl { k with data := memcpyTo k.data (k.off - k.rs) d, off := k.off + d.length, status := .dirty,
                      re := max k.re (k.off + d.length), st := .ok }
      else
        .inr (flushCache z { k with data := memcpyTo k.data (k.off - k.rs) (d.take remaining), off := k.off + remaining,
                                    status := .dirty, re := end_max }, d.drop remaining)
    else .inr (flushCache z k, d)
  else .inr (k, d)

/-- `write`: blocks written directly to the source, 1967-1981. -/
def writeBypass (z : β) (cap : Nat) (k : C β) (d : List β) : C β ⊕ (C β × List β) :=
  let end_max := k.off + d.length                                                   -- 1967
  if k.off / cap < end_max / cap then                                               -- 1968
    let n := d.length - end_max % cap
    let k := { k with src := (⟨k.src.c, k.off⟩ : Plain β).write z (d.take n), off := k.off + n, st := .ok }   -- 1970-1975
    if (d.drop n).length = 0 then .inl k else .inr (k, d.drop n)                    -- 1977
  else .inr (k, d)

/-- The loop of `write`, 1942-1985. -/
def writeLoop (z : β) (cap length : Nat) : Nat → C β → List β → Option (Nat × C β)
  | 0, _, _ => none
  | fuel + 1, k, d =>
    match writeHead z cap k d with
    | .inl k => some (length, k)
    | .inr (k, d) =>
      match writeBypass z cap k d with
      | .inl k => some (length, k)
      | .inr (k, d) => writeLoop z cap length fuel (loadCache cap k k.off) d        -- 1982

/-- `write`, 1935-1986. -/
def write (z : β) (cap : Nat) (k : C β) (d : List β) : Option (Nat × C β) := writeLoop z cap d.length 2 k d

/-- `size`, 2051-2056. -/
def size (k : C β) : Nat := if k.status ≠ .empty then max k.src.c.length k.re else k.src.c.length

/-- `truncate`, 2058-2077. -/
def truncate (z : β) (k : C β) : C β :=
  let k :=
    if k.re ≤ k.off then k
    else if k.rs ≤ k.off then { k with re := k.off }
    else { k with status := .empty }
  { k with src := (⟨k.src.c, k.off⟩ : Plain β).truncate z, st := .ok }

/-- A call on the cache: `none` when a loop exhausts its bound. -/
def step (z : β) (cap : Nat) (k : C β) : COp β → Option (CRes β × C β)
  | .read n => (read z cap k n).map fun r => (.read r.1 r.2.st, r.2)
  | .write d => (write z cap k d).map fun r => (.write r.1 r.2.st, r.2)
  | .seek o h =>                                                                    -- 2008-2032
    let t := seekTarget (size k) k.off o h
    if t < 0 then some (.rejected, { k with st := .ok }) else some (.pos t.toNat, { k with off := t.toNat, st := .ok })
  | .tell => some (.pos k.off, k)
  | .size => some (.pos (size k), k)
  | .truncate => some (.done (truncate z k).st, truncate z k)
  | .flush => some (.done .ok, flushCache z k)                                      -- 1997-2006

def run (z : β) (cap : Nat) : C β → List (COp β) → Option (List (CRes β) × C β)
  | k, [] => some ([], k)
  | k, op :: ops =>
    match step z cap k op with
    | none => none
    | some (r, k') => (run z cap k' ops).map fun q => (r :: q.1, q.2)

/-! ### The histories for which the cache is transparent -/

/-- A call for which the cache is transparent, when the file is `f`: transfers are not empty, start at or
before the end of the file, and a write is not longer than the cache block. -/
def Fine (cap : Nat) (f : Plain β) : COp β → Prop
  | .read n => n ≠ 0 ∧ f.pos ≤ f.c.length
  | .write d => d ≠ [] ∧ d.length ≤ cap ∧ f.pos ≤ f.c.length
  | .truncate => f.pos ≤ f.c.length
  | _ => True

/-- All calls of a history are fine. -/
def FineHist (z : β) (cap : Nat) : Plain β → List (COp β) → Prop
  | _, [] => True
  | f, op :: ops => Fine cap f op ∧ FineHist z cap (f.step z op).2 ops

/-! ### Proof -/

/-- The cache stands for a file with contents `L`. -/
structure Abs (cap : Nat) (k : C β) (L : List β) : Prop where
  pos : 0 < cap
  mem : k.data.length = cap
  clean : k.status ≠ .dirty → k.src.c = L
  block : k.status ≠ .empty → k.rs % cap = 0 ∧ k.rs ≤ k.re ∧ k.re = min (k.rs + cap) L.length ∧
    k.data.take (k.re - k.rs) = (L.drop k.rs).take (k.re - k.rs)
  dirty : k.status = .dirty → k.rs ≤ k.src.c.length ∧ L.take k.rs = k.src.c.take k.rs ∧ L.drop k.re = k.src.c.drop k.re ∧
    L.length = max k.src.c.length k.re

theorem put_noGap (z : β) (c : List β) (p : Nat) (d : List β) (hd : d ≠ []) (hp : p ≤ c.length) :
    put z c p d = c.take p ++ d ++ c.drop (p + d.length) := by
  unfold put
  rw [if_neg hd, show p - c.length = 0 by omega, List.replicate_zero, List.append_nil]

/-- Flushing does not change what the cache stands for, and brings it to the file. -/
theorem flush_abs (z : β) {cap : Nat} {k : C β} {L : List β} (h : Abs cap k L) :
    Abs cap (flushCache z k) L ∧ (flushCache z k).src.c = L ∧ (flushCache z k).off = k.off ∧
    (flushCache z k).status ≠ .dirty ∧ (flushCache z k).rs = k.rs ∧ (flushCache z k).re = k.re ∧
    ((flushCache z k).status = .empty ↔ k.status = .empty) ∧ (flushCache z k).st = .ok := by
  unfold flushCache
  by_cases hd : k.status ≠ .dirty
  · rw [if_pos hd]
    exact ⟨⟨h.pos, h.mem, h.clean, h.block, h.dirty⟩, h.clean hd, rfl, hd, rfl, rfl, Iff.rfl, rfl⟩
  · rw [if_neg hd]
    have hdd : k.status = .dirty := Decidable.not_not.1 hd
    obtain ⟨d1, d2, d3, d4⟩ := h.dirty hdd
    obtain ⟨b1, b2, b3, b4⟩ := h.block (by rw [hdd]; decide)
    by_cases hr : k.rs < k.re
    · rw [if_pos hr]
      have hlen : (k.data.take (k.re - k.rs)).length = k.re - k.rs := by
        rw [List.length_take, h.mem]; omega
      have hc : put z k.src.c k.rs (k.data.take (k.re - k.rs)) = L := by
        rw [put_noGap z _ _ _ (by intro c; rw [c, List.length_nil] at hlen; omega) d1, hlen, show k.rs + (k.re - k.rs) = k.re by omega,
          ← d2, ← d3, b4]
        have e1 : L.take k.re ++ L.drop k.re = L := List.take_append_drop _ _
        have e2 : L.take k.re = L.take k.rs ++ (L.drop k.rs).take (k.re - k.rs) := by
          rw [← List.take_add]; congr 1; omega
        rw [← e2]; exact e1
      refine ⟨⟨h.pos, h.mem, fun _ => hc, fun _ => ⟨b1, b2, b3, b4⟩, fun q => by cases q⟩, hc, rfl, (fun q => nomatch q), rfl, rfl, ?_, rfl⟩
      constructor
      · intro q; cases q
      · intro q; rw [hdd] at q; cases q
    · rw [if_neg hr]
      have hre : k.re = k.rs := by omega
      have hc : k.src.c = L := by
        rw [← List.take_append_drop k.rs k.src.c, ← d2, ← hre, ← d3, hre, List.take_append_drop]
      refine ⟨⟨h.pos, h.mem, fun _ => hc, fun _ => ⟨b1, b2, b3, b4⟩, fun q => by cases q⟩, hc, rfl, (fun q => nomatch q), rfl, rfl, ?_, rfl⟩
      constructor
      · intro q; cases q
      · intro q; rw [hdd] at q; cases q

theorem load_abs {cap : Nat} {k : C β} {L : List β} (h : Abs cap k L) (hd : k.src.c = L) (ho : k.off ≤ L.length) :
    Abs cap (loadCache cap k k.off) L ∧ (loadCache cap k k.off).src.c = L ∧ (loadCache cap k k.off).off = k.off ∧
    (loadCache cap k k.off).status = .loaded ∧ (loadCache cap k k.off).rs = k.off - k.off % cap := by
  have hs : (loadCache cap k k.off).src.c = k.src.c := rfl
  have hlt := Nat.mod_lt k.off h.pos
  have hle := Nat.mod_le k.off cap
  have hr : ((k.src.c.drop (k.off - k.off % cap)).take cap).length = min cap (L.length - (k.off - k.off % cap)) := by
    rw [List.length_take, List.length_drop, hd]
  have hre : (loadCache cap k k.off).re = (k.off - k.off % cap) + min cap (L.length - (k.off - k.off % cap)) := by
    show (k.off - k.off % cap) + ((k.src.c.drop (k.off - k.off % cap)).take cap).length = _
    rw [hr]
  have hdata : (loadCache cap k k.off).data = (k.src.c.drop (k.off - k.off % cap)).take cap ++
      k.data.drop (((k.src.c.drop (k.off - k.off % cap)).take cap).length) := by
    show memcpyTo k.data 0 ((k.src.c.drop (k.off - k.off % cap)).take cap) = _
    unfold memcpyTo; simp
  refine ⟨⟨h.pos, ?_, fun _ => hd, fun _ => ⟨?_, ?_, ?_, ?_⟩, fun q => nomatch q⟩, hd, rfl, rfl, rfl⟩
  · rw [hdata, List.length_append, List.length_drop, h.mem, hr]; omega
  · show (k.off - k.off % cap) % cap = 0
    have := Nat.div_add_mod k.off cap
    rw [show k.off - k.off % cap = cap * (k.off / cap) by omega, Nat.mul_mod_right]
  · show k.off - k.off % cap ≤ _
    rw [hre]; omega
  · show (loadCache cap k k.off).re = min (k.off - k.off % cap + cap) L.length
    rw [hre]; omega
  · show (loadCache cap k k.off).data.take ((loadCache cap k k.off).re - (k.off - k.off % cap)) =
      (L.drop (k.off - k.off % cap)).take ((loadCache cap k k.off).re - (k.off - k.off % cap))
    rw [hre, Nat.add_sub_cancel_left, hdata, List.take_append, hr, Nat.sub_self, List.take_zero, List.append_nil, hd, List.take_take]
    congr 1
    omega

/-- The state of a read of `n` bytes at `o`, with `acc` delivered. -/
structure RInv (cap : Nat) (L : List β) (o n : Nat) (k : C β) (acc : List β) (t : Nat) : Prop where
  abs : Abs cap k L
  got : acc = (L.drop o).take acc.length
  off : k.off = o + acc.length
  le : k.off ≤ L.length
  sum : acc.length + t = n
  ne : t ≠ 0

/-- The outcome a read must have. -/
def RDone (cap : Nat) (L : List β) (o n : Nat) (r : List β × C β) : Prop :=
  r.1 = (L.drop o).take n ∧ r.2.off = o + r.1.length ∧ Abs cap r.2 L ∧ r.2.st = if L.length ≤ o then .eof else .ok

theorem RInv.more {cap : Nat} {L : List β} {o n : Nat} {k : C β} {acc : List β} {t : Nat} (h : RInv cap L o n k acc t) (m : Nat) :
    acc ++ (L.drop k.off).take m = (L.drop o).take (acc.length + m) := by
  rw [List.take_add, List.drop_drop, ← h.off, ← h.got]

/-- Stopping at the end of the file. -/
theorem RInv.atEnd {cap : Nat} {L : List β} {o n : Nat} {k : C β} {acc : List β} {t : Nat} (h : RInv cap L o n k acc t)
    (he : L.length ≤ k.off) (k' : C β) (ha : Abs cap k' L) (ho : k'.off = k.off)
    (hs : k'.st = if t < n then .ok else .eof) : RDone cap L o n (acc, k') := by
  have h1 := h.off; have h2 := h.sum; have h3 := h.le; have h4 := h.ne
  have hl : ((L.drop o).take n).length = acc.length := by rw [List.length_take, List.length_drop]; omega
  refine ⟨?_, by rw [ho, h1], ha, ?_⟩
  · show acc = _
    rw [h.got, List.take_eq_take_iff, List.length_drop]; omega
  · rw [hs]
    by_cases c : t < n
    · rw [if_pos c, if_neg (by omega)]
    · rw [if_neg c, if_pos (by omega)]

theorem block_read {cap : Nat} {k : C β} {L : List β} (h : Abs cap k L) (hs : k.status ≠ .empty) (h1 : k.rs ≤ k.off)
    (m : Nat) (hm : k.off + m ≤ k.re) : (k.data.drop (k.off - k.rs)).take m = (L.drop k.off).take m := by
  obtain ⟨_, b2, _, b4⟩ := h.block hs
  have e : ∀ X : List β, (X.drop (k.off - k.rs)).take m = ((X.take (k.re - k.rs)).drop (k.off - k.rs)).take m := by
    intro X
    rw [List.drop_take, List.take_take]; congr 1; omega
  rw [e k.data, b4, ← e, List.drop_drop]; congr 2; omega

theorem Abs.off_irrel {cap : Nat} {k : C β} {L : List β} (h : Abs cap k L) (o : Nat) (s : St) : Abs cap { k with off := o, st := s } L :=
  ⟨h.pos, h.mem, h.clean, h.block, h.dirty⟩

theorem Abs.src_irrel {cap : Nat} {k : C β} {L : List β} (h : Abs cap k L) (o p : Nat) (s : St) :
    Abs cap { k with src := ⟨k.src.c, p⟩, off := o, st := s } L :=
  ⟨h.pos, h.mem, h.clean, h.block, h.dirty⟩

theorem readHead_spec (z : β) {cap : Nat} {L : List β} {o n : Nat} {k : C β} {acc : List β} {t : Nat} (h : RInv cap L o n k acc t) :
    (∃ r, readHead z k acc t = .inl r ∧ RDone cap L o n r) ∨
    (∃ k' acc' t', readHead z k acc t = .inr (k', acc', t') ∧ RInv cap L o n k' acc' t' ∧ k'.src.c = L ∧
      (k.status ≠ .empty → k.rs ≤ k.off → k.off < k.re → k'.off = k.re ∧ t' = t - (k.re - k.off) ∧ k.re - k.off < t)) := by
  unfold readHead
  by_cases hs : k.status ≠ .empty
  · rw [if_pos hs]
    obtain ⟨b1, b2, b3, b4⟩ := h.abs.block hs
    by_cases hb : k.rs ≤ k.off ∧ k.off < k.re
    · rw [if_pos hb]
      show (∃ r, (if t ≤ k.re - k.off then _ else _) = _ ∧ _) ∨ _
      by_cases ht : t ≤ k.re - k.off
      · left
        refine ⟨_, if_pos ht, ?_⟩
        have e := block_read h.abs hs hb.1 t (by omega)
        have h1 := h.off; have h2 := h.sum; have h3 := h.le; have h4 := h.ne
        refine ⟨?_, ?_, h.abs.off_irrel _ _, ?_⟩
        · show acc ++ _ = _
          rw [e, h.more, h2]
        · show k.off + t = o + (acc ++ _).length
          rw [e, h.more, h2, List.length_take, List.length_drop]; omega
        · show St.ok = _
          rw [if_neg (by omega)]
      · right
        have e := block_read h.abs hs hb.1 (k.re - k.off) (by omega)
        have h1 := h.off; have h2 := h.sum; have h3 := h.le; have h4 := h.ne
        obtain ⟨f1, f2, f3, _⟩ := flush_abs z (h.abs.off_irrel (k.off + (k.re - k.off)) k.st)
        have hl : (acc ++ (k.data.drop (k.off - k.rs)).take (k.re - k.off)).length = acc.length + (k.re - k.off) := by
          rw [e, List.length_append, List.length_take, List.length_drop]; omega
        refine ⟨_, _, _, if_neg ht, ⟨f1, ?_, ?_, ?_, ?_, by omega⟩, f2, fun _ _ _ => ⟨?_, rfl, by omega⟩⟩
        · rw [hl]; conv => lhs; rw [e]
          exact h.more _
        · rw [hl]; show (flushCache z { k with off := k.off + (k.re - k.off) }).off = _
          rw [f3]; show k.off + (k.re - k.off) = _; omega
        · rw [f3]; show k.off + (k.re - k.off) ≤ _; omega
        · rw [hl]; omega
        · rw [f3]; show k.off + (k.re - k.off) = _; omega
    · rw [if_neg hb]
      obtain ⟨f1, f2, f3, _⟩ := flush_abs z h.abs
      right
      exact ⟨_, _, _, rfl, ⟨f1, h.got, by rw [f3]; exact h.off, by rw [f3]; exact h.le, h.sum, h.ne⟩, f2, fun _ c1 c2 => absurd ⟨c1, c2⟩ hb⟩
  · rw [if_neg hs]
    right
    exact ⟨_, _, _, rfl, h, h.abs.clean (by intro c; exact hs (by rw [c]; decide)), fun c => absurd c hs⟩

theorem readBypass_spec {cap : Nat} {L : List β} {o n : Nat} {k : C β} {acc : List β} {t : Nat} (h : RInv cap L o n k acc t)
    (hc : k.src.c = L) :
    (∃ r, readBypass cap n k acc t = .inl r ∧ RDone cap L o n r) ∨
    (∃ k' acc' t', readBypass cap n k acc t = .inr (k', acc', t') ∧ RInv cap L o n k' acc' t' ∧ k'.src.c = L ∧
      k.off ≤ k'.off ∧ (k'.off = L.length ∨ k'.off % cap + t' < cap)) := by
  have h1 := h.off; have h2 := h.sum; have h3 := h.le; have h4 := h.ne
  have hcap := h.abs.pos
  have hm := Nat.mod_lt (k.off + t) hcap
  have hd := Nat.div_add_mod (k.off + t) cap
  have hd' := Nat.div_add_mod k.off cap
  have hm' := Nat.mod_lt k.off hcap
  unfold readBypass
  by_cases hq : k.off / cap < (k.off + t) / cap
  · have hA : cap * (k.off / cap) + cap ≤ cap * ((k.off + t) / cap) := by
      rw [← Nat.mul_succ]; exact Nat.mul_le_mul_left _ hq
    have hr : ((⟨k.src.c, k.off⟩ : Plain β).read (t - (k.off + t) % cap)).1.1 = (L.drop k.off).take (t - (k.off + t) % cap) := by
      show (k.src.c.drop k.off).take _ = _; rw [hc]
    have hst : ((⟨k.src.c, k.off⟩ : Plain β).read (t - (k.off + t) % cap)).1.2 = if L.length ≤ k.off then .eof else .ok := by
      show (if _ ∧ k.src.c.length ≤ k.off then St.eof else St.ok) = _
      rw [hc]
      by_cases c : L.length ≤ k.off
      · rw [if_pos c, if_pos ⟨by omega, c⟩]
      · rw [if_neg c, if_neg (fun q => c q.2)]
    have hsrc : ((⟨k.src.c, k.off⟩ : Plain β).read (t - (k.off + t) % cap)).2.c = L := hc
    rw [if_pos hq]
    generalize hR : (⟨k.src.c, k.off⟩ : Plain β).read (t - (k.off + t) % cap) = R at hr hst hsrc
    obtain ⟨⟨rd, rst⟩, rsrc⟩ := R
    simp only at hr hst hsrc
    subst hr hst
    have hl : ((L.drop k.off).take (t - (k.off + t) % cap)).length = min (t - (k.off + t) % cap) (L.length - k.off) := by
      rw [List.length_take, List.length_drop]
    have hacc : acc ++ (L.drop k.off).take (t - (k.off + t) % cap) = (L.drop o).take (acc.length + (t - (k.off + t) % cap)) := h.more _
    have hal : (acc ++ (L.drop k.off).take (t - (k.off + t) % cap)).length = acc.length + min (t - (k.off + t) % cap) (L.length - k.off) := by
      rw [List.length_append, hl]
    have habs : ∀ oo s, Abs cap { k with src := rsrc, off := oo, st := s } L := fun oo s =>
      ⟨h.abs.pos, h.abs.mem, fun _ => hsrc, h.abs.block, fun q => by
        have := h.abs.dirty q
        rw [hc] at this
        show k.rs ≤ rsrc.c.length ∧ L.take k.rs = rsrc.c.take k.rs ∧ L.drop k.re = rsrc.c.drop k.re ∧ L.length = max rsrc.c.length k.re
        rw [hsrc]; exact this⟩
    show (∃ r, (if t - _ = 0 then _ else _) = _ ∧ _) ∨ _
    rw [hl]
    by_cases ht0 : t - min (t - (k.off + t) % cap) (L.length - k.off) = 0
    · left
      refine ⟨_, if_pos ht0, ?_, ?_, habs _ _, ?_⟩
      · show acc ++ _ = _
        rw [hacc]; congr 1; omega
      · show k.off + min _ _ = o + (acc ++ _).length
        rw [hal]; omega
      · show St.ok = _; rw [if_neg (by omega)]
    · by_cases hend : L.length ≤ k.off
      · left
        refine ⟨(acc ++ (L.drop k.off).take (t - (k.off + t) % cap),
          { k with src := rsrc, off := k.off + min (t - (k.off + t) % cap) (L.length - k.off),
                   st := if t - min (t - (k.off + t) % cap) (L.length - k.off) < n then .ok else .eof }), ?_, ?_⟩
        · rw [if_neg ht0, if_pos (by rw [if_pos hend]; exact fun q => nomatch q)]
          rw [if_pos hend]
        · have e : (L.drop k.off).take (t - (k.off + t) % cap) = [] := by
            apply List.eq_nil_of_length_eq_zero; rw [hl]; omega
          rw [e, List.append_nil]
          refine h.atEnd hend _ (habs _ _) ?_ ?_
          · show k.off + min _ _ = k.off; omega
          · show (if _ then _ else _) = _
            rw [show min (t - (k.off + t) % cap) (L.length - k.off) = 0 by omega, Nat.sub_zero]
      · right
        refine ⟨{ k with src := rsrc, off := k.off + min (t - (k.off + t) % cap) (L.length - k.off), st := .ok }, acc ++ (L.drop k.off).take (t - (k.off + t) % cap),
          t - min (t - (k.off + t) % cap) (L.length - k.off), ?_, ⟨habs _ _, ?_, ?_, ?_, ?_, ht0⟩, hsrc, Nat.le_add_right _ _, ?_⟩
        · show (if t - ((L.drop k.off).take (t - (k.off + t) % cap)).length = 0 then _ else if (if L.length ≤ k.off then St.eof else St.ok) ≠ .ok then _ else _) = _
          rw [hl, if_neg ht0, if_neg hend]
          rfl
        · rw [hal, hacc, List.take_eq_take_iff, List.length_drop]; omega
        · rw [hal]; show k.off + min _ _ = _; omega
        · show k.off + min _ _ ≤ _; omega
        · rw [hal]; omega
        · show k.off + min _ _ = _ ∨ (k.off + min _ _) % cap + _ < cap
          by_cases c : t - (k.off + t) % cap ≤ L.length - k.off
          · right
            rw [Nat.min_eq_left c, show k.off + (t - (k.off + t) % cap) = cap * ((k.off + t) / cap) by omega, Nat.mul_mod_right]
            omega
          · left; omega
  · rw [if_neg hq]
    right
    refine ⟨_, _, _, rfl, h, hc, Nat.le_refl _, Or.inr ?_⟩
    have hle : (k.off + t) / cap ≤ k.off / cap := by omega
    have hge : k.off / cap ≤ (k.off + t) / cap := Nat.div_le_div_right (by omega)
    have he : (k.off + t) / cap = k.off / cap := by omega
    rw [he] at hd
    omega

theorem readLoad_spec {cap : Nat} {L : List β} {o n : Nat} {k : C β} {acc : List β} {t : Nat} (h : RInv cap L o n k acc t)
    (hc : k.src.c = L) :
    (∃ r, readLoad cap n k acc t = .inl r ∧ RDone cap L o n r) ∨
    (∃ k', readLoad cap n k acc t = .inr (k', acc, t) ∧ RInv cap L o n k' acc t ∧ k'.src.c = L ∧ k'.status ≠ .empty ∧
      k'.rs = k.off - k.off % cap ∧ k'.off = k.off ∧ k.off < k'.re ∧ k.off < L.length) := by
  obtain ⟨l1, l2, l3, l4, l5⟩ := load_abs h.abs hc h.le
  have hne : (loadCache cap k k.off).status ≠ .empty := by rw [l4]; decide
  obtain ⟨b1, b2, b3, b4⟩ := l1.block hne
  have hle := h.le
  have hm := Nat.mod_lt k.off h.abs.pos
  have hmle := Nat.mod_le k.off cap
  rw [l5] at b3
  unfold readLoad
  show (∃ r, (if (loadCache cap k k.off).re ≤ (loadCache cap k k.off).off then _ else _) = _ ∧ _) ∨ _
  by_cases hr : (loadCache cap k k.off).re ≤ (loadCache cap k k.off).off
  · left
    refine ⟨_, if_pos hr, ?_⟩
    refine h.atEnd (by rw [l3] at hr; omega) _ (l1.off_irrel (loadCache cap k k.off).off _) l3 rfl
  · right
    rw [l3] at hr
    exact ⟨_, by rw [if_neg (by rw [l3]; exact hr)], ⟨l1, h.got, by rw [l3]; exact h.off, by rw [l3]; exact h.le, h.sum, h.ne⟩, l2, hne, l5, l3, by omega, by omega⟩

/-- Reading through the cache: what the file would deliver. -/
theorem read_spec (z : β) {cap : Nat} {L : List β} {k : C β} (h : Abs cap k L) (n : Nat) (hn : n ≠ 0) (ho : k.off ≤ L.length) :
    ∃ r, read z cap k n = some r ∧ RDone cap L k.off n r := by
  have h0 : RInv cap L k.off n k [] n := ⟨h, by simp, rfl, ho, by simp, hn⟩
  unfold read
  rw [readLoop]
  rcases readHead_spec z h0 with ⟨r, e, hr⟩ | ⟨k1, a1, t1, e, h1, c1, _⟩
  · rw [e]; exact ⟨r, rfl, hr⟩
  rw [e]
  simp only
  rcases readBypass_spec h1 c1 with ⟨r, e, hr⟩ | ⟨k2, a2, t2, e, h2, c2, _, q2⟩
  · rw [e]; exact ⟨r, rfl, hr⟩
  rw [e]
  simp only
  rcases readLoad_spec h2 c2 with ⟨r, e, hr⟩ | ⟨k3, e, h3, c3, n3, rs3, o3, re3, lt3⟩
  · rw [e]; exact ⟨r, rfl, hr⟩
  rw [e]
  simp only
  have q2' : k2.off % cap + t2 < cap := by
    rcases q2 with q | q
    · omega
    · exact q
  obtain ⟨b1, b2, b3, b4⟩ := h3.abs.block n3
  rw [readLoop]
  rcases readHead_spec z h3 with ⟨r, e, hr⟩ | ⟨k4, a4, t4, e, h4, c4, q4⟩
  · rw [e]; exact ⟨r, rfl, hr⟩
  rw [e]
  simp only
  have hm := Nat.mod_le k2.off cap
  obtain ⟨q41, q42, q43⟩ := q4 n3 (by rw [rs3, o3]; omega) (by rw [o3]; exact re3)
  have hend : k4.off = L.length := by omega
  rcases readBypass_spec h4 c4 with ⟨r, e, hr⟩ | ⟨k5, a5, t5, e, h5, c5, m5, _⟩
  · rw [e]; exact ⟨r, rfl, hr⟩
  rw [e]
  simp only
  have hend5 : L.length ≤ k5.off := by omega
  rcases readLoad_spec h5 c5 with ⟨r, e, hr⟩ | ⟨k6, e, _, _, _, _, _, _, lt6⟩
  · rw [e]; exact ⟨r, rfl, hr⟩
  · omega

theorem put_length (z : β) (c : List β) (p : Nat) (d : List β) (hd : d ≠ []) (hp : p ≤ c.length) :
    (put z c p d).length = max c.length (p + d.length) := by
  rw [put_noGap z c p d hd hp, List.length_append, List.length_append, List.length_take, List.length_drop]; omega

/-- Two adjacent writes are one. -/
theorem put_put (z : β) (c : List β) (p : Nat) (a b : List β) (ha : a ≠ []) (hb : b ≠ []) (hp : p ≤ c.length) :
    put z (put z c p a) (p + a.length) b = put z c p (a ++ b) := by
  have hla : p + a.length ≤ (put z c p a).length := by rw [put_length z c p a ha hp]; omega
  rw [put_noGap z _ _ b hb hla, put_noGap z c p (a ++ b) (by simp [ha]) hp, put_noGap z c p a ha hp]
  have hl : (c.take p ++ a).length = p + a.length := by rw [List.length_append, List.length_take]; omega
  rw [List.take_append, hl, Nat.sub_self, List.take_zero, List.append_nil, List.take_of_length_le (by omega),
    List.drop_append, hl, List.drop_of_length_le (by omega), List.nil_append, List.drop_drop, List.length_append]
  rw [show p + a.length + (p + a.length + b.length - (p + a.length)) = p + (a.length + b.length) by omega, List.append_assoc (c.take p) a b]

/-- What lies outside the written range stays. -/
theorem put_take (z : β) (c : List β) (p : Nat) (d : List β) (hd : d ≠ []) (hp : p ≤ c.length) (m : Nat) (hm : m ≤ p) :
    (put z c p d).take m = c.take m := by
  rw [put_noGap z c p d hd hp, List.append_assoc, List.take_append_of_le_length (by rw [List.length_take]; omega), List.take_take]
  congr 1; omega

theorem put_drop (z : β) (c : List β) (p : Nat) (d : List β) (hd : d ≠ []) (hp : p ≤ c.length) (m : Nat) (hm : p + d.length ≤ m) :
    (put z c p d).drop m = c.drop m := by
  have hl : (c.take p ++ d).length = p + d.length := by rw [List.length_append, List.length_take]; omega
  rw [put_noGap z c p d hd hp, List.drop_append, hl, List.drop_of_length_le (by omega), List.nil_append, List.drop_drop]
  congr 1; omega

theorem take_append_congr (m : Nat) (P d X Y : List β) (h : X.take (m - P.length - d.length) = Y.take (m - P.length - d.length)) :
    (P ++ (d ++ X)).take m = (P ++ (d ++ Y)).take m := by
  rw [List.take_append, List.take_append, List.take_append, List.take_append, h]

/-- A write into the block. -/
theorem block_write (z : β) {cap : Nat} {k : C β} {L : List β} (h : Abs cap k L) (hs : k.status ≠ .empty) (h1 : k.rs ≤ k.off)
    (ho : k.off ≤ L.length) (d : List β) (hd : d ≠ []) (hf : k.off + d.length ≤ k.rs + cap) (oo re : Nat) (s : St)
    (hre : re = max k.re (k.off + d.length)) :
    Abs cap { k with data := memcpyTo k.data (k.off - k.rs) d, off := oo, status := .dirty, re := re, st := s } (put z L k.off d) := by
  obtain ⟨b1, b2, b3, b4⟩ := h.block hs
  subst hre
  have hlen : 0 < d.length := List.length_pos_iff.2 hd
  have hmem := h.mem
  have hpl := put_length z L k.off d hd ho
  have hdl : (k.data.take (k.off - k.rs) ++ d).length = k.off - k.rs + d.length := by
    rw [List.length_append, List.length_take]; omega
  refine ⟨h.pos, ?_, fun c => absurd rfl c, fun _ => ⟨b1, ?_, ?_, ?_⟩, fun _ => ?_⟩
  · show (memcpyTo k.data (k.off - k.rs) d).length = cap
    unfold memcpyTo
    rw [List.length_append, hdl, List.length_drop]; omega
  · show k.rs ≤ max k.re _; omega
  · show max k.re _ = min (k.rs + cap) _
    rw [hpl]; omega
  · show (memcpyTo k.data (k.off - k.rs) d).take (max k.re (k.off + d.length) - k.rs) =
      ((put z L k.off d).drop k.rs).take (max k.re (k.off + d.length) - k.rs)
    unfold memcpyTo
    have hd1 : k.data.take (k.off - k.rs) = (L.drop k.rs).take (k.off - k.rs) := by
      have := congrArg (List.take (k.off - k.rs)) b4
      rwa [List.take_take, List.take_take, Nat.min_eq_left (by omega)] at this
    rw [put_noGap z L k.off d hd ho, List.append_assoc (L.take k.off), List.drop_append_of_le_length (by rw [List.length_take]; omega),
      List.drop_take, hd1, List.append_assoc]
    have hl1 : ((L.drop k.rs).take (k.off - k.rs)).length = k.off - k.rs := by rw [List.length_take, List.length_drop]; omega
    apply take_append_congr
    rw [hl1]
    -- the old bytes after the written ones
    have e1 := congrArg (List.drop (k.off - k.rs + d.length)) b4
    rw [List.drop_take, List.drop_take, List.drop_drop, show k.rs + (k.off - k.rs + d.length) = k.off + d.length by omega] at e1
    by_cases c : k.off + d.length ≤ k.re
    · rw [show max k.re (k.off + d.length) - k.rs - (k.off - k.rs) - d.length = k.re - k.rs - (k.off - k.rs + d.length) by omega]
      exact e1
    · rw [show max k.re (k.off + d.length) - k.rs - (k.off - k.rs) - d.length = 0 by omega, List.take_zero, List.take_zero]
  · show k.rs ≤ k.src.c.length ∧ (put z L k.off d).take k.rs = k.src.c.take k.rs ∧
      (put z L k.off d).drop (max k.re (k.off + d.length)) = k.src.c.drop (max k.re (k.off + d.length)) ∧
      (put z L k.off d).length = max k.src.c.length (max k.re (k.off + d.length))
    rw [put_take z L k.off d hd ho _ h1, put_drop z L k.off d hd ho _ (by omega), hpl]
    by_cases c : k.status = .dirty
    · obtain ⟨d1, d2, d3, d4⟩ := h.dirty c
      refine ⟨d1, d2, ?_, by omega⟩
      have := congrArg (List.drop (max k.re (k.off + d.length) - k.re)) d3
      rwa [List.drop_drop, List.drop_drop, show k.re + (max k.re (k.off + d.length) - k.re) = max k.re (k.off + d.length) by omega] at this
    · rw [h.clean c]
      exact ⟨by omega, rfl, rfl, by omega⟩

/-- A write straight to the source, next to the block. -/
theorem bypass_write (z : β) {cap : Nat} {k : C β} {L : List β} (h : Abs cap k L) (hc : k.src.c = L) (hnd : k.status ≠ .dirty)
    (ho : k.off ≤ L.length) (d : List β) (hd : d ≠ []) (oo : Nat) (s : St)
    (hdis : k.status ≠ .empty → k.off + d.length ≤ k.rs ∨ k.rs + cap ≤ k.off) :
    Abs cap { k with src := (⟨k.src.c, k.off⟩ : Plain β).write z d, off := oo, st := s } (put z L k.off d) := by
  have hpl := put_length z L k.off d hd ho
  refine ⟨h.pos, h.mem, fun _ => ?_, fun hs => ?_, fun c => absurd c hnd⟩
  · show put z k.src.c k.off d = _; rw [hc]
  · obtain ⟨b1, b2, b3, b4⟩ := h.block hs
    refine ⟨b1, b2, ?_, ?_⟩
    · show k.re = min (k.rs + cap) _
      rw [hpl]
      have := hdis hs
      omega
    · show k.data.take (k.re - k.rs) = ((put z L k.off d).drop k.rs).take (k.re - k.rs)
      rw [b4]
      rcases hdis hs with c | c
      · rw [put_drop z L k.off d hd ho _ c]
      · have e := put_take z L k.off d hd ho k.re (by omega)
        have e' := congrArg (List.drop k.rs) e
        rw [List.drop_take, List.drop_take] at e'
        exact e'.symm

/-- The outcome a write must have. -/
def WDone (z : β) (cap : Nat) (L : List β) (o : Nat) (d : List β) (k : C β) : Prop :=
  Abs cap k (put z L o d) ∧ k.off = o + d.length ∧ k.st = .ok

/-- The state of a write: `L` is what has been written so far, `d` what is left. -/
structure WInv (cap : Nat) (L : List β) (k : C β) (d : List β) : Prop where
  abs : Abs cap k L
  le : k.off ≤ L.length
  ne : d ≠ []

theorem writeHead_spec (z : β) {cap : Nat} {L : List β} {k : C β} {d : List β} (h : WInv cap L k d) :
    (∃ k', writeHead z cap k d = .inl k' ∧ WDone z cap L k.off d k') ∨
    (writeHead z cap k d = .inr (flushCache z k, d) ∧ (k.status ≠ .empty → k.off < k.rs ∨ k.rs + cap ≤ k.off)) ∨
    (writeHead z cap k d = .inr (k, d) ∧ k.status = .empty) ∨
    (∃ k' a b, writeHead z cap k d = .inr (k', b) ∧ d = a ++ b ∧ a ≠ [] ∧ WInv cap (put z L k.off a) k' b ∧
      k'.src.c = put z L k.off a ∧ k'.status ≠ .dirty ∧ k'.off = k.off + a.length ∧ k'.off % cap = 0 ∧
      (k'.status ≠ .empty → k'.rs + cap ≤ k'.off)) := by
  have hle := h.le
  have hne := h.ne
  have hlen : 0 < d.length := List.length_pos_iff.2 hne
  unfold writeHead
  by_cases hs : k.status ≠ .empty
  · rw [if_pos hs]
    obtain ⟨b1, b2, b3, b4⟩ := h.abs.block hs
    show (∃ k', (if k.rs ≤ k.off ∧ k.off < k.rs + cap then _ else _) = _ ∧ _) ∨ _
    by_cases hb : k.rs ≤ k.off ∧ k.off < k.rs + cap
    · simp only [hb, and_self, if_true]
      by_cases hf : d.length ≤ k.rs + cap - k.off
      · left
        refine ⟨_, if_pos hf, ?_, rfl, rfl⟩
        exact block_write z h.abs hs hb.1 hle d hne (by omega) _ _ _ rfl
      · right; right; right
        have hal : (d.take (k.rs + cap - k.off)).length = k.rs + cap - k.off := by rw [List.length_take]; omega
        have hane : d.take (k.rs + cap - k.off) ≠ [] := by
          intro c; rw [c, List.length_nil] at hal; omega
        have hw := block_write z h.abs hs hb.1 hle (d.take (k.rs + cap - k.off)) hane (by omega)
          (k.off + (k.rs + cap - k.off)) (k.rs + cap) k.st (by omega)
        obtain ⟨f1, f2, f3, f4, f5, f6, f7, f8⟩ := flush_abs z hw
        refine ⟨_, d.take (k.rs + cap - k.off), _, if_neg hf, (List.take_append_drop _ _).symm, hane, ⟨f1, ?_, ?_⟩, f2, f4, ?_, ?_, ?_⟩
        · rw [f3, put_length z L k.off _ hane hle, hal]; show k.off + _ ≤ _; omega
        · intro c
          have := congrArg List.length c
          rw [List.length_drop, List.length_nil] at this; omega
        · rw [f3, hal]
        · rw [f3]; show (k.off + (k.rs + cap - k.off)) % cap = 0
          rw [show k.off + (k.rs + cap - k.off) = k.rs + cap by omega, Nat.add_mod_right]; exact b1
        · intro _; rw [f3, f5]; show k.rs + cap ≤ k.off + _; omega
    · right; left
      rw [if_neg hb]
      exact ⟨rfl, fun _ => by omega⟩
  · rw [if_neg hs]
    right; right; left
    exact ⟨rfl, Decidable.not_not.1 hs⟩

/-- The second part: bypass, load, and the last write into the block. -/
theorem writeRest_spec (z : β) {cap : Nat} {L : List β} {k : C β} {d : List β} (h : WInv cap L k d) (hc : k.src.c = L)
    (hnd : k.status ≠ .dirty) (hlen : d.length ≤ cap) (n : Nat)
    (hout : k.status ≠ .empty → k.off < k.rs ∨ k.rs + cap ≤ k.off) :
    ∃ k', (match writeBypass z cap k d with
      | .inl k => some (n, k)
      | .inr (k, d) => writeLoop z cap n 1 (loadCache cap k k.off) d) = some (n, k') ∧ WDone z cap L k.off d k' := by
  have hcap := h.abs.pos
  have hle := h.le
  have hm := Nat.mod_lt (k.off + d.length) hcap
  have hd := Nat.div_add_mod (k.off + d.length) cap
  have hd' := Nat.div_add_mod k.off cap
  have hm' := Nat.mod_lt k.off hcap
  have hdl : 0 < d.length := List.length_pos_iff.2 h.ne
  -- after loading, the rest fits
  have last : ∀ (k : C β) (L : List β) (d : List β), Abs cap k L → k.src.c = L → k.off ≤ L.length → d ≠ [] →
      k.off % cap + d.length ≤ cap → ∃ k', writeLoop z cap n 1 (loadCache cap k k.off) d = some (n, k') ∧ WDone z cap L k.off d k' := by
    intro k L d ha hc hle hne hfit
    obtain ⟨l1, l2, l3, l4, l5⟩ := load_abs ha hc hle
    have hlt := Nat.mod_lt k.off hcap
    have hml := Nat.mod_le k.off cap
    have hdp : 0 < d.length := List.length_pos_iff.2 hne
    have hw : WInv cap L (loadCache cap k k.off) d := ⟨l1, by rw [l3]; exact hle, hne⟩
    rw [writeLoop]
    rcases writeHead_spec z hw with ⟨k', e, hk⟩ | ⟨_, e2⟩ | ⟨_, e2⟩ | ⟨k', a, b, e, hab, _, hb, _, _, ho, hz, _⟩
    · rw [e]
      exact ⟨k', rfl, by rwa [l3] at hk⟩
    · have := e2 (by rw [l4]; decide)
      rw [l3, l5] at this; omega
    · rw [l4] at e2; cases e2
    · exfalso
      unfold writeHead at e
      rw [if_pos (by rw [l4]; decide)] at e
      simp only [l3, l5] at e
      rw [if_pos (by omega), if_pos (by omega)] at e
      cases e
  unfold writeBypass
  by_cases hq : k.off / cap < (k.off + d.length) / cap
  · have hA : cap * (k.off / cap) + cap ≤ cap * ((k.off + d.length) / cap) := by
      rw [← Nat.mul_succ]; exact Nat.mul_le_mul_left _ hq
    simp only [hq, if_true]
    have hal : (d.take (d.length - (k.off + d.length) % cap)).length = d.length - (k.off + d.length) % cap := by
      rw [List.length_take]; omega
    have hane : d.take (d.length - (k.off + d.length) % cap) ≠ [] := by
      intro c; rw [c, List.length_nil] at hal; omega
    have hdis : k.status ≠ .empty → k.off + (d.take (d.length - (k.off + d.length) % cap)).length ≤ k.rs ∨ k.rs + cap ≤ k.off := by
      intro hs
      obtain ⟨b1, _⟩ := h.abs.block hs
      have hr := Nat.div_add_mod k.rs cap
      rw [hal]
      rcases hout hs with c | c
      · left
        -- the end of the direct write is a block boundary in (off, off + cap], as is rs
        have e : k.off + (d.length - (k.off + d.length) % cap) = cap * ((k.off + d.length) / cap) := by omega
        rw [e]
        rw [b1, Nat.add_zero] at hr
        have h1 : cap * ((k.off + d.length) / cap) < cap * (k.rs / cap + 1) := by
          rw [Nat.mul_add, Nat.mul_one, hr]; omega
        have := Nat.lt_of_mul_lt_mul_left h1
        rw [← hr]; exact Nat.mul_le_mul_left _ (by omega)
      · exact Or.inr c
    have hb := bypass_write z h.abs hc hnd hle _ hane (k.off + (d.length - (k.off + d.length) % cap)) .ok hdis
    by_cases h0 : (d.drop (d.length - (k.off + d.length) % cap)).length = 0
    · rw [if_pos h0]
      refine ⟨_, rfl, ?_, ?_, rfl⟩
      · rw [List.length_drop] at h0
        have e : d.take (d.length - (k.off + d.length) % cap) = d := List.take_of_length_le (by omega)
        simp only [e] at hb ⊢
        exact hb
      · show k.off + _ = _
        rw [List.length_drop] at h0; omega
    · rw [if_neg h0]
      have hbne : d.drop (d.length - (k.off + d.length) % cap) ≠ [] := fun c => h0 (by rw [c]; rfl)
      obtain ⟨k', e, w1, w2, w3⟩ := last _ _ (d.drop (d.length - (k.off + d.length) % cap)) hb (by show put z k.src.c _ _ = _; rw [hc])
        (by rw [put_length z L _ _ hane hle, hal]; show k.off + _ ≤ _; omega) hbne
        (by
          show (k.off + (d.length - (k.off + d.length) % cap)) % cap + _ ≤ cap
          rw [show k.off + (d.length - (k.off + d.length) % cap) = cap * ((k.off + d.length) / cap) by omega, Nat.mul_mod_right, List.length_drop]
          omega)
      refine ⟨k', e, ?_, ?_, w3⟩
      · have : k.off + (d.length - (k.off + d.length) % cap) = k.off + (d.take (d.length - (k.off + d.length) % cap)).length := by rw [hal]
        change Abs cap k' (put z _ (k.off + (d.length - (k.off + d.length) % cap)) _) at w1
        rw [this, put_put z L k.off _ _ hane hbne hle, List.take_append_drop] at w1
        exact w1
      · rw [w2, List.length_drop]; show k.off + _ + _ = _; omega
  · simp only [hq, if_false]
    have hge : k.off / cap ≤ (k.off + d.length) / cap := Nat.div_le_div_right (by omega)
    have he : (k.off + d.length) / cap = k.off / cap := by omega
    rw [he] at hd
    exact last k L d h.abs hc hle h.ne (by omega)

/-- Writing through the cache: what the file would become. -/
theorem write_spec (z : β) {cap : Nat} {L : List β} {k : C β} (h : Abs cap k L) (d : List β) (hd : d ≠ []) (hl : d.length ≤ cap)
    (ho : k.off ≤ L.length) : ∃ k', write z cap k d = some (d.length, k') ∧ WDone z cap L k.off d k' := by
  have h0 : WInv cap L k d := ⟨h, ho, hd⟩
  unfold write
  rw [writeLoop]
  rcases writeHead_spec z h0 with ⟨k', e, hk⟩ | ⟨e, hs⟩ | ⟨e, hs⟩ | ⟨k', a, b, e, hab, ha, hb, hc, hnd, hoff, _, hout⟩
  · rw [e]; exact ⟨k', rfl, hk⟩
  · rw [e]
    obtain ⟨f1, f2, f3, f4, f5, f6, f7, f8⟩ := flush_abs z h
    have := writeRest_spec z (k := flushCache z k) (d := d) ⟨f1, by rw [f3]; exact ho, hd⟩ f2 f4 hl d.length
      (fun q => by rw [f3, f5]; exact hs (fun q' => q (f7.2 q')))
    rw [f3] at this
    exact this
  · rw [e]
    have hnd : k.status ≠ .dirty := by rw [hs]; decide
    exact writeRest_spec z (k := k) (d := d) h0 (h.clean hnd) hnd hl d.length (fun q => absurd hs q)
  · rw [e]
    obtain ⟨k2, e2, w1, w2, w3⟩ := writeRest_spec z hb hc hnd (by rw [hab, List.length_append] at hl; omega) d.length (fun q => Or.inr (hout q))
    refine ⟨k2, e2, ?_, ?_, w3⟩
    · rw [hoff, put_put z L k.off a b ha hb.ne ho, ← hab] at w1
      exact w1
    · rw [w2, hoff, hab, List.length_append]; omega

/-- The size the cache reports. -/
theorem size_spec {cap : Nat} {L : List β} {k : C β} (h : Abs cap k L) : size k = L.length := by
  unfold size
  by_cases hs : k.status ≠ .empty
  · rw [if_pos hs]
    obtain ⟨b1, b2, b3, b4⟩ := h.block hs
    by_cases c : k.status = .dirty
    · obtain ⟨_, _, _, d4⟩ := h.dirty c
      omega
    · rw [h.clean c]; omega
  · rw [if_neg hs, h.clean (by intro c; exact hs (by rw [c]; decide))]

theorem truncate_spec (z : β) {cap : Nat} {L : List β} {k : C β} (h : Abs cap k L) (ho : k.off ≤ L.length) :
    Abs cap (truncate z k) (L.take k.off) ∧ (truncate z k).off = k.off := by
  have hz : ∀ c : List β, k.off ≤ c.length → (c ++ List.replicate (k.off - c.length) z).take k.off = c.take k.off := by
    intro c hc; rw [show k.off - c.length = 0 by omega, List.replicate_zero, List.append_nil]
  have htl : (L.take k.off).length = k.off := by rw [List.length_take]; omega
  -- the truncated source
  have hT : ∀ c : List β, ((⟨c, k.off⟩ : Plain β).truncate z).c = (c ++ List.replicate (k.off - c.length) z).take k.off := fun _ => rfl
  have hTl : ∀ c : List β, ((c ++ List.replicate (k.off - c.length) z).take k.off).length = k.off := by
    intro c; rw [List.length_take, List.length_append, List.length_replicate]; omega
  have hTt : ∀ (c : List β) (m : Nat), m ≤ k.off → m ≤ c.length → ((c ++ List.replicate (k.off - c.length) z).take k.off).take m = c.take m := by
    intro c m h1 h2
    rw [List.take_take, Nat.min_eq_left h1, List.take_append_of_le_length h2]
  have hTd : ∀ (c : List β) (m : Nat), k.off ≤ m → ((c ++ List.replicate (k.off - c.length) z).take k.off).drop m = [] := by
    intro c m h1; exact List.drop_of_length_le (by rw [hTl]; exact h1)
  have hLd : ∀ m, k.off ≤ m → (L.take k.off).drop m = [] := by
    intro m h1; exact List.drop_of_length_le (by rw [htl]; exact h1)
  unfold truncate
  by_cases h1 : k.re ≤ k.off
  · simp only [h1, if_true]
    refine ⟨⟨h.pos, h.mem, fun hnd => ?_, fun hs => ?_, fun hd => ?_⟩, trivial⟩
    · show ((⟨k.src.c, k.off⟩ : Plain β).truncate z).c = _
      rw [hT, h.clean hnd, hz _ ho]
    · obtain ⟨b1, b2, b3, b4⟩ := h.block hs
      refine ⟨b1, b2, ?_, ?_⟩
      · show k.re = min (k.rs + cap) (L.take k.off).length
        rw [htl]; omega
      · show k.data.take (k.re - k.rs) = ((L.take k.off).drop k.rs).take (k.re - k.rs)
        rw [b4, List.drop_take, List.take_take, Nat.min_eq_left (by omega)]
    · obtain ⟨d1, d2, d3, d4⟩ := h.dirty hd
      obtain ⟨b1, b2, b3, b4⟩ := h.block (by show k.status ≠ _; rw [hd]; decide)
      show k.rs ≤ ((⟨k.src.c, k.off⟩ : Plain β).truncate z).c.length ∧ (L.take k.off).take k.rs = ((⟨k.src.c, k.off⟩ : Plain β).truncate z).c.take k.rs ∧
        (L.take k.off).drop k.re = ((⟨k.src.c, k.off⟩ : Plain β).truncate z).c.drop k.re ∧
        (L.take k.off).length = max ((⟨k.src.c, k.off⟩ : Plain β).truncate z).c.length k.re
      rw [hT, hTl, htl, hTt _ _ (by omega) d1, List.take_take, Nat.min_eq_left (by omega : k.rs ≤ k.off)]
      refine ⟨by omega, d2, ?_, by omega⟩
      by_cases c : k.off ≤ k.src.c.length
      · rw [hz _ c, List.drop_take, List.drop_take, d3]
      · rw [hLd _ (by omega), hTd _ _ (by omega)]
  · by_cases h2 : k.rs ≤ k.off
    · simp only [h1, h2, if_true, if_false]
      refine ⟨⟨h.pos, h.mem, fun hnd => ?_, fun hs => ?_, fun hd => ?_⟩, trivial⟩
      · show ((⟨k.src.c, k.off⟩ : Plain β).truncate z).c = _
        rw [hT, h.clean hnd, hz _ ho]
      · obtain ⟨b1, b2, b3, b4⟩ := h.block hs
        refine ⟨b1, h2, ?_, ?_⟩
        · show k.off = min (k.rs + cap) (L.take k.off).length
          rw [htl]; omega
        · show k.data.take (k.off - k.rs) = ((L.take k.off).drop k.rs).take (k.off - k.rs)
          rw [List.drop_take, List.take_take, Nat.min_self]
          have := congrArg (List.take (k.off - k.rs)) b4
          rwa [List.take_take, List.take_take, Nat.min_eq_left (by omega)] at this
      · obtain ⟨d1, d2, d3, d4⟩ := h.dirty hd
        show k.rs ≤ ((⟨k.src.c, k.off⟩ : Plain β).truncate z).c.length ∧ (L.take k.off).take k.rs = ((⟨k.src.c, k.off⟩ : Plain β).truncate z).c.take k.rs ∧
          (L.take k.off).drop k.off = ((⟨k.src.c, k.off⟩ : Plain β).truncate z).c.drop k.off ∧
          (L.take k.off).length = max ((⟨k.src.c, k.off⟩ : Plain β).truncate z).c.length k.off
        rw [hT, hTl, htl, hTt _ _ h2 d1, List.take_take, Nat.min_eq_left h2, hLd _ (Nat.le_refl _), hTd _ _ (Nat.le_refl _)]
        exact ⟨h2, d2, rfl, by omega⟩
    · simp only [h1, h2, if_false]
      refine ⟨⟨h.pos, h.mem, fun _ => ?_, fun hs => absurd rfl hs, fun hd => nomatch hd⟩, trivial⟩
      show ((⟨k.src.c, k.off⟩ : Plain β).truncate z).c = _
      rw [hT]
      by_cases c : k.status = .dirty
      · obtain ⟨d1, d2, d3, d4⟩ := h.dirty c
        rw [hz _ (by omega)]
        have := congrArg (List.take k.off) d2
        rw [List.take_take, List.take_take, Nat.min_eq_left (by omega)] at this
        exact this.symm
      · rw [h.clean c, hz _ ho]

/-- A call on the cache and the same call on the file it stands for. -/
theorem step_spec (z : β) {cap : Nat} {f : Plain β} {k : C β} (h : Abs cap k f.c) (hp : k.off = f.pos) (op : COp β) (hf : Fine cap f op) :
    ∃ k', step z cap k op = some ((f.step z op).1, k') ∧ Abs cap k' (f.step z op).2.c ∧ k'.off = (f.step z op).2.pos := by
  cases op with
  | read n =>
    obtain ⟨r, e, r1, r2, r3, r4⟩ := read_spec z h n hf.1 (by rw [hp]; exact hf.2)
    refine ⟨r.2, ?_, r3, ?_⟩
    · show (read z cap k n).map _ = _
      rw [e, Option.map_some, r1, r4, hp]
      show some (CRes.read _ (if f.c.length ≤ f.pos then St.eof else St.ok), r.2) = some (CRes.read _ (if n ≠ 0 ∧ f.c.length ≤ f.pos then St.eof else St.ok), r.2)
      by_cases c : f.c.length ≤ f.pos
      · rw [if_pos c, if_pos ⟨hf.1, c⟩]; rfl
      · rw [if_neg c, if_neg (fun q => c q.2)]; rfl
    · rw [r2, r1, hp]; rfl
  | write d =>
    obtain ⟨k', e, w1, w2, w3⟩ := write_spec z h d hf.1 hf.2.1 (by rw [hp]; exact hf.2.2)
    refine ⟨k', ?_, ?_, ?_⟩
    · show (write z cap k d).map _ = _
      rw [e, Option.map_some, w3]; rfl
    · rw [hp] at w1; exact w1
    · rw [w2, hp]; rfl
  | seek o how =>
    have e : step z cap k (.seek o how) = (if seekTarget f.c.length f.pos o how < 0 then some (.rejected, { k with st := .ok })
        else some (.pos (seekTarget f.c.length f.pos o how).toNat, { k with off := (seekTarget f.c.length f.pos o how).toNat, st := .ok })) := by
      show (if seekTarget (size k) k.off o how < 0 then _ else _) = _
      rw [size_spec h, hp]
    have e' : f.step z (.seek o how) = (if seekTarget f.c.length f.pos o how < 0 then (.rejected, f)
        else (.pos (seekTarget f.c.length f.pos o how).toNat, { f with pos := (seekTarget f.c.length f.pos o how).toNat })) := rfl
    rw [e, e']
    by_cases c : seekTarget f.c.length f.pos o how < 0
    · rw [if_pos c, if_pos c]; exact ⟨_, rfl, h.off_irrel _ _, hp⟩
    · rw [if_neg c, if_neg c]; exact ⟨_, rfl, h.off_irrel _ _, rfl⟩
  | tell => exact ⟨k, by show some (CRes.pos k.off, k) = _; rw [hp]; rfl, h, hp⟩
  | size => exact ⟨k, by show some (CRes.pos (size k), k) = _; rw [size_spec h]; rfl, h, hp⟩
  | truncate =>
    obtain ⟨t1, t2⟩ := truncate_spec z h (by rw [hp]; exact hf)
    refine ⟨_, rfl, ?_, by rw [t2, hp]; rfl⟩
    have hf' : f.pos ≤ f.c.length := hf
    show Abs cap _ ((f.c ++ List.replicate (f.pos - f.c.length) z).take f.pos)
    rw [show f.pos - f.c.length = 0 by omega, List.replicate_zero, List.append_nil, ← hp]
    exact t1
  | flush =>
    obtain ⟨f1, f2, f3, _⟩ := flush_abs z h
    exact ⟨_, rfl, f1, by rw [f3, hp]; rfl⟩

theorem run_spec (z : β) {cap : Nat} (ops : List (COp β)) : ∀ {f : Plain β} {k : C β}, Abs cap k f.c → k.off = f.pos → FineHist z cap f ops →
    ∃ k', run z cap k ops = some ((f.run z ops).1, k') ∧ Abs cap k' (f.run z ops).2.c ∧ k'.off = (f.run z ops).2.pos := by
  induction ops with
  | nil => intro f k h hp _; exact ⟨k, rfl, h, hp⟩
  | cons op ops ih =>
    intro f k h hp hf
    obtain ⟨k1, e1, a1, p1⟩ := step_spec z h hp op hf.1
    obtain ⟨k2, e2, a2, p2⟩ := ih a1 p1 hf.2
    refine ⟨k2, ?_, a2, p2⟩
    rw [run, e1]
    simp only
    rw [e2]; rfl

/-- C39, for histories of nonempty transfers that start within the file and writes no longer than a block:
every call on a cache over a file answers as the file itself would, whatever the memory of the cache held, and
flushing brings the file to the contents it would have had. -/
theorem cache_transparent_partial (z : β) (cap : Nat) (hcap : 0 < cap) (f : Plain β) (mem : List β) (hm : mem.length = cap)
    (ops : List (COp β)) (hf : FineHist z cap f ops) :
    ∃ k, run z cap (C.new f mem) ops = some ((f.run z ops).1, k) ∧ (flushCache z k).src.c = (f.run z ops).2.c := by
  have h0 : Abs cap (C.new f mem) f.c :=
    ⟨hcap, hm, fun _ => rfl, fun q => absurd rfl q, fun q => nomatch q⟩
  obtain ⟨k, e, a, _⟩ := run_spec z ops h0 rfl hf
  exact ⟨k, e, (flush_abs z a).2.1⟩

/-- Non-vacuity: a history that crosses blocks, overwrites, truncates and grows the file. -/
example : FineHist 0 4 (⟨[1, 2, 3, 4, 5, 6, 7, 8, 9, 10], 0⟩ : Plain Nat)
    [.read 3, .write [20, 21, 22], .seek 0 .beg, .read 10, .seek (-2) .fin, .truncate, .write [30, 31, 32, 33], .size, .seek 2 .beg, .read 100, .read 1] := by
  simp only [FineHist, Fine]
  decide

/-! ### Where the cache is not transparent -/

/-- The results and the flushed file. -/
def outcome (cap : Nat) (f : Plain Nat) (mem : List Nat) (ops : List (COp Nat)) : Option (List (CRes Nat) × List Nat) :=
  (run 0 cap (C.new f mem) ops).map fun q => (q.1, (flushCache 0 q.2).src.c)

/-- A write longer than a block leaves a stale block behind: bytes just written read back as they were before. -/
theorem cache_stale_block :
    outcome 4 ⟨[1, 1, 1, 1, 1, 1, 1, 1], 4⟩ [9, 9, 9, 9] [.read 1, .seek 0 .beg, .write [2, 2, 2, 2, 2, 2, 2, 2], .seek 4 .beg, .read 4] =
      some ([.read [1] .ok, .pos 0, .write 8 .ok, .pos 4, .read [1, 1, 1, 1] .ok], [2, 2, 2, 2, 2, 2, 2, 2]) ∧
    ((⟨[1, 1, 1, 1, 1, 1, 1, 1], 4⟩ : Plain Nat).run 0 [.read 1, .seek 0 .beg, .write [2, 2, 2, 2, 2, 2, 2, 2], .seek 4 .beg, .read 4]).1 =
      [.read [1] .ok, .pos 0, .write 8 .ok, .pos 4, .read [2, 2, 2, 2] .ok] := by decide +kernel

/-- A write past the end of the file fills the gap with whatever the memory of the cache held. -/
theorem cache_gap_garbage :
    outcome 4 ⟨[1], 0⟩ [9, 9, 9, 9] [.seek 2 .beg, .write [2]] = some ([.pos 2, .write 1 .ok], [1, 9, 2]) ∧
    ((⟨[1], 0⟩ : Plain Nat).run 0 [.seek 2 .beg, .write [2]]).2.c = [1, 0, 2] := by decide +kernel

/-- Reading past the end of the file changes the size the cache reports. -/
theorem cache_size_after_read_past_end :
    outcome 4 ⟨[1], 0⟩ [9, 9, 9, 9] [.size, .seek 9 .beg, .read 1, .size] = some ([.pos 1, .pos 9, .read [] .eof, .pos 8], [1]) := by decide +kernel

/-- Writing nothing past the end of the file grows it. -/
theorem cache_empty_write_grows :
    outcome 4 ⟨[1], 0⟩ [9, 9, 9, 9] [.seek 3 .beg, .write []] = some ([.pos 3, .write 0 .ok], [1, 9, 9]) ∧
    ((⟨[1], 0⟩ : Plain Nat).run 0 [.seek 3 .beg, .write []]).2.c = [1] := by decide +kernel

/-- Reading nothing at the end of the file reports the end of the file. -/
theorem cache_empty_read_eof :
    outcome 4 ⟨[1], 1⟩ [9, 9, 9, 9] [.read 0] = some ([.read [] .eof], [1]) ∧
    ((⟨[1], 1⟩ : Plain Nat).run 0 [.read 0]).1 = [.read [] .ok] := by decide +kernel

end Verif.Stream.Cache
