import Verif.Stream.Cache
/-
The cache (include/stdex/stream.hpp 1801-2203) over a file whose writes may fail or be cut short at any time, and `cached_file` (3134-3213). Reading, seeking and truncating do not fail
here, except in the last section; the simplifications of Cache.lean apply otherwise.
-/
namespace Verif.Stream.Cache
open Verif.Stream
variable {β : Type}

/-! ### Model -/

/-- What a write of `d` transfers: `lim` are the bounds of the coming writes, which are not bounded when the list is used up. -/
def xfer (lim : List Nat) (d : List β) : List β :=
  match lim with
  | [] => d
  | n :: _ => d.take n

/-- `write_cache`, 2165-2171: the cache and the bounds left. -/
def writeCacheF (z : β) (k : C β) (lim : List Nat) : C β × List Nat :=
  let d := k.data.take (k.re - k.rs)
  ({ k with src := (⟨k.src.c, k.rs⟩ : Plain β).write z (xfer lim d), st := if (xfer lim d).length = d.length then .ok else .fail }, lim.tail)

/-- `flush_cache`, 2125-2138. -/
def flushF (z : β) (k : C β) (lim : List Nat) : C β × List Nat :=
  if k.status ≠ .dirty then ({ k with st := .ok }, lim)
  else if k.rs < k.re then
    let r := writeCacheF z k lim
    if r.1.st = .ok then ({ r.1 with status := .loaded }, r.2) else r
  else ({ k with st := .ok, status := .loaded }, lim)

/-- `invalidate_cache`, 2140-2149. -/
def invalidateF (z : β) (k : C β) (lim : List Nat) : C β × List Nat :=
  if k.status = .dirty ∧ k.rs < k.re then
    let r := writeCacheF z k lim
    if r.1.st ≠ .ok then r else ({ r.1 with status := .empty }, r.2)
  else ({ k with st := .ok, status := .empty }, lim)

/-- In `read`, 1891-1896: flush; a failure ends the call. -/
def readFlush (z : β) (length : Nat) (k : C β) (lim : List Nat) (acc : List β) (to_read : Nat) : ((List β × C β) ⊕ (C β × List β × Nat)) × List Nat :=
  let r := flushF z k lim
  if r.1.st ≠ .ok then (.inl (acc, { r.1 with st := if to_read < length then .ok else r.1.st }), r.2)
  else (.inr (r.1, acc, to_read), r.2)

/-- `read`, 1877-1897. -/
def readHeadF (z : β) (length : Nat) (k : C β) (lim : List Nat) (acc : List β) (to_read : Nat) : ((List β × C β) ⊕ (C β × List β × Nat)) × List Nat :=
  if k.status ≠ .empty then
    if k.rs ≤ k.off ∧ k.off < k.re then
      let remaining := k.re - k.off
      if to_read ≤ remaining then
        (.inl (acc ++ (k.data.drop (k.off - k.rs)).take to_read, { k with off := k.off + to_read, st := .ok }), lim)
      else readFlush z length { k with off := k.off + remaining } lim (acc ++ (k.data.drop (k.off - k.rs)).take remaining) (to_read - remaining)
    else readFlush z length k lim acc to_read
  else (.inr (k, acc, to_read), lim)

/-- The loop of `read`, 1876-1932 (`readBypass` and `readLoad` are in Cache.lean). -/
def readLoopF (z : β) (cap length : Nat) : Nat → C β → List Nat → List β → Nat → Option (List β × C β × List Nat)
  | 0, _, _, _, _ => none
  | fuel + 1, k, lim, acc, to_read =>
    match readHeadF z length k lim acc to_read with
    | (.inl r, lim) => some (r.1, r.2, lim)
    | (.inr (k, acc, to_read), lim) =>
      match readBypass cap length k acc to_read with
      | .inl r => some (r.1, r.2, lim)
      | .inr (k, acc, to_read) =>
        match readLoad cap length k acc to_read with
        | .inl r => some (r.1, r.2, lim)
        | .inr (k, acc, to_read) => readLoopF z cap length fuel k lim acc to_read

/-- In `write`, 1962-1964: flush; a failure ends the call. `inl`: how much is left to write. -/
def writeFlush (z : β) (k : C β) (lim : List Nat) (d : List β) : ((Nat × C β) ⊕ (C β × List β)) × List Nat :=
  let r := flushF z k lim
  if r.1.st ≠ .ok then (.inl (d.length, r.1), r.2) else (.inr (r.1, d), r.2)

/-- `write`, 1943-1965. -/
def writeHeadF (z : β) (cap : Nat) (k : C β) (lim : List Nat) (d : List β) : ((Nat × C β) ⊕ (C β × List β)) × List Nat :=
  if k.status ≠ .empty then
    let end_max := k.rs + cap
    if k.rs ≤ k.off ∧ k.off < end_max then
      let remaining := end_max - k.off
      if d.length ≤ remaining then
        (.inl (0, { k with data := memcpyTo k.data (k.off - k.rs) d, off := k.off + d.length, status := .dirty,
                           re := max k.re (k.off + d.length), st := .ok }), lim)
      else
        writeFlush z { k with data := memcpyTo k.data (k.off - k.rs) (d.take remaining), off := k.off + remaining,
                              status := .dirty, re := end_max } lim (d.drop remaining)
    else writeFlush z k lim d
  else (.inr (k, d), lim)

/-- `write`, 1967-1981. -/
def writeBypassF (z : β) (cap : Nat) (k : C β) (lim : List Nat) (d : List β) : ((Nat × C β) ⊕ (C β × List β)) × List Nat :=
  let end_max := k.off + d.length
  if k.off / cap < end_max / cap then
    let n := d.length - end_max % cap
    let e := xfer lim (d.take n)
    let k := { k with src := (⟨k.src.c, k.off⟩ : Plain β).write z e, off := k.off + e.length, st := if e.length = n then .ok else .fail }
    if (d.drop e.length).length = 0 ∨ k.st ≠ .ok then (.inl ((d.drop e.length).length, k), lim.tail) else (.inr (k, d.drop e.length), lim.tail)
  else (.inr (k, d), lim)

/-- The loop of `write`, 1942-1985. -/
def writeLoopF (z : β) (cap : Nat) : Nat → C β → List Nat → List β → Option (Nat × C β × List Nat)
  | 0, _, _, _ => none
  | fuel + 1, k, lim, d =>
    match writeHeadF z cap k lim d with
    | (.inl (left, k), lim) => some (left, k, lim)
    | (.inr (k, d), lim) =>
      match writeBypassF z cap k lim d with
      | (.inl (left, k), lim) => some (left, k, lim)
      | (.inr (k, d), lim) => writeLoopF z cap fuel (loadCache cap k k.off) lim d

/-- A call on the cache. -/
def stepF (z : β) (cap : Nat) (k : C β) (lim : List Nat) : COp β → Option (CRes β × C β × List Nat)
  | .read n => (readLoopF z cap n 2 k lim [] n).map fun r => (.read r.1 r.2.1.st, r.2)                    -- 1869-1933
  | .write d => (writeLoopF z cap 2 k lim d).map fun r => (.write (d.length - r.1) r.2.1.st, r.2)          -- 1935-1986
  | .flush => some (.done (flushF z k lim).1.st, flushF z k lim)                                           -- 1997-2006
  | op => (step z cap k op).map fun r => (r.1, r.2, lim)

def runF (z : β) (cap : Nat) : C β → List Nat → List (COp β) → Option (List (CRes β) × C β × List Nat)
  | k, lim, [] => some ([], k, lim)
  | k, lim, op :: ops =>
    match stepF z cap k lim op with
    | none => none
    | some (r, k', lim') => (runF z cap k' lim' ops).map fun q => (r :: q.1, q.2)

/-- The destructor, 1855-1867, and `done`, 1827-1840: the file, or `none`, an exception. -/
def doneF (z : β) (k : C β) (lim : List Nat) : Option (Plain β) :=
  let r := flushF z k lim
  if r.1.st ≠ .ok then none else some ⟨r.1.src.c, r.1.off⟩

/-- `close`, 1988-1995: the contents of the file that was closed, or `none`, an exception. -/
def closeF (z : β) (k : C β) (lim : List Nat) : Option (List β) × C β × List Nat :=
  let r := invalidateF z k lim
  if r.1.st ≠ .ok then (none, r) else (some r.1.src.c, r)

/-- `cached_file::open`, 3179-3192, where opening the next file gives `f` or fails: what the file that was open has been left with (`none`: it is still open), the cache.
`file::open` closes the old file first. -/
def openF (z : β) (k : C β) (lim : List Nat) (f : Option (Plain β)) : Option (List β) × C β × List Nat :=
  let r := invalidateF z k lim
  if r.1.st ≠ .ok then (none, { r.1 with st := .fail }, r.2)
  else match f with
    | some f => (some r.1.src.c, { r.1 with src := f, off := f.pos, st := .ok }, r.2)
    | none => (some r.1.src.c, { r.1 with st := .fail }, r.2)

/-! ### Specification -/

/-- The file as the caller must believe it to be after a call with this result: as many bytes were written as the call said. -/
def Believed (z : β) (f : Plain β) : COp β → CRes β → Plain β
  | .read _, .read d _ => { f with pos := f.pos + d.length }
  | .write d, .write n _ => f.write z (d.take n)
  | .seek _ _, .pos p => { f with pos := p }
  | .truncate, _ => f.truncate z
  | _, _ => f

/-- What a call may answer when `f` is the file: what the file would, or less where writing failed. A read gives bytes of the file; only one that gave none says so.
A write that is not complete always says so. -/
def Honest (z : β) (f : Plain β) : COp β → CRes β → Prop
  | .read n, r => r = (f.step z (.read n)).1 ∨ (∃ d st, r = .read d st ∧ d = (f.c.drop f.pos).take d.length ∧ d.length < n ∧ st = if d = [] then .fail else .ok)
  | .write d, r => ∃ n st, r = .write n st ∧ n ≤ d.length ∧ (st = .ok ↔ n = d.length)
  | .flush, r => r = .done .ok ∨ r = .done .fail
  | op, r => r = (f.step z op).1

/-- All calls start within the file as it is believed to be, see `Fine`. -/
def FineF (z : β) (cap : Nat) : Plain β → List (COp β) → List (CRes β) → Prop
  | f, op :: ops, r :: rs => Fine cap f op ∧ FineF z cap (Believed z f op r) ops rs
  | _, _, _ => True

def HonestRun (z : β) : Plain β → List (COp β) → List (CRes β) → Prop
  | _, [], rs => rs = []
  | f, op :: ops, r :: rs => Honest z f op r ∧ HonestRun z (Believed z f op r) ops rs
  | _, _ :: _, [] => False

def BelievedRun (z : β) : Plain β → List (COp β) → List (CRes β) → Plain β
  | f, op :: ops, r :: rs => BelievedRun z (Believed z f op r) ops rs
  | f, _, _ => f

/-! ### Proof -/

theorem xfer_take (lim : List Nat) (d : List β) : ∃ n, n ≤ d.length ∧ xfer lim d = d.take n ∧ (xfer lim d).length = n := by
  cases lim with
  | nil => exact ⟨d.length, Nat.le_refl _, (List.take_length).symm, rfl⟩
  | cons n ns =>
    refine ⟨min n d.length, Nat.min_le_right _ _, ?_, by show (d.take n).length = _; rw [List.length_take]⟩
    show d.take n = _
    by_cases h : n ≤ d.length
    · rw [Nat.min_eq_left h]
    · rw [Nat.min_eq_right (by omega), List.take_length, List.take_of_length_le (by omega)]

/-- A cut write of the block keeps what the cache stands for. -/
theorem writeCache_cut (z : β) {cap : Nat} {k : C β} {L : List β} (h : Abs cap k L) (hd : k.status = .dirty) (n : Nat) (hn : n ≤ k.re - k.rs) (s : St) :
    Abs cap { k with src := (⟨k.src.c, k.rs⟩ : Plain β).write z ((k.data.take (k.re - k.rs)).take n), st := s } L := by
  obtain ⟨d1, d2, d3, d4⟩ := h.dirty hd
  obtain ⟨b1, b2, b3, b4⟩ := h.block (by rw [hd]; decide)
  have hl : ((k.data.take (k.re - k.rs)).take n).length = n := by
    rw [List.length_take, List.length_take, h.mem]; omega
  refine ⟨h.pos, h.mem, fun q => absurd hd q, fun _ => ⟨b1, b2, b3, b4⟩, fun _ => ?_⟩
  show k.rs ≤ (put z k.src.c k.rs _).length ∧ L.take k.rs = (put z k.src.c k.rs _).take k.rs ∧ L.drop k.re = (put z k.src.c k.rs _).drop k.re ∧ L.length = max (put z k.src.c k.rs _).length k.re
  by_cases he : (k.data.take (k.re - k.rs)).take n = []
  · rw [he]; unfold put; rw [if_pos rfl]; exact ⟨d1, d2, d3, d4⟩
  · have hpl := put_length z k.src.c k.rs _ he d1
    rw [hl] at hpl
    refine ⟨by omega, ?_, ?_, by omega⟩
    · rw [put_take z k.src.c k.rs _ he d1 _ (Nat.le_refl _)]; exact d2
    · rw [put_drop z k.src.c k.rs _ he d1 _ (by rw [hl]; omega)]; exact d3

/-- A write of the block: done, or it says so and nothing is lost. -/
theorem writeCacheF_spec (z : β) {cap : Nat} {k : C β} {L : List β} (h : Abs cap k L) (hd : k.status = .dirty) (lim : List Nat) :
    ((writeCacheF z k lim).1 = writeCache z k ∧ (writeCacheF z k lim).1.st = .ok) ∨
    ((writeCacheF z k lim).1.st = .fail ∧ Abs cap (writeCacheF z k lim).1 L ∧ (writeCacheF z k lim).1.off = k.off ∧ (writeCacheF z k lim).1.status = .dirty) := by
  obtain ⟨b1, b2, b3, b4⟩ := h.block (by rw [hd]; decide)
  have hlen : (k.data.take (k.re - k.rs)).length = k.re - k.rs := by rw [List.length_take, h.mem]; omega
  obtain ⟨n, n1, n2, n3⟩ := xfer_take lim (k.data.take (k.re - k.rs))
  by_cases c : (xfer lim (k.data.take (k.re - k.rs))).length = (k.data.take (k.re - k.rs)).length
  · left
    have e : xfer lim (k.data.take (k.re - k.rs)) = k.data.take (k.re - k.rs) := by
      rw [n2, List.take_of_length_le (by omega)]
    unfold writeCacheF writeCache
    simp only [e, if_true, and_self]
  · right
    unfold writeCacheF
    refine ⟨if_neg c, ?_, rfl, hd⟩
    simp only [n2]
    exact writeCache_cut z h hd n (by omega) _

/-- Flushing: done, or it says so and nothing is lost. -/
theorem flushF_spec (z : β) {cap : Nat} {k : C β} {L : List β} (h : Abs cap k L) (lim : List Nat) :
    ((flushF z k lim).1 = flushCache z k ∧ (flushF z k lim).1.st = .ok) ∨
    ((flushF z k lim).1.st = .fail ∧ Abs cap (flushF z k lim).1 L ∧ (flushF z k lim).1.off = k.off) := by
  unfold flushF flushCache
  by_cases hd : k.status ≠ .dirty
  · rw [if_pos hd, if_pos hd]; exact Or.inl ⟨rfl, rfl⟩
  · rw [if_neg hd, if_neg hd]
    by_cases hr : k.rs < k.re
    · rw [if_pos hr, if_pos hr]
      rcases writeCacheF_spec z h (Decidable.not_not.1 hd) lim with ⟨e1, e2⟩ | ⟨e1, e2, e3, -⟩
      · left; simp only [e2, if_true]; rw [e1]; exact ⟨rfl, trivial⟩
      · right; simp only [e1]; rw [if_neg (by decide)]; exact ⟨e1, e2, e3⟩
    · rw [if_neg hr, if_neg hr]; exact Or.inl ⟨rfl, rfl⟩

theorem invalidateF_spec (z : β) {cap : Nat} {k : C β} {L : List β} (h : Abs cap k L) (lim : List Nat) :
    ((invalidateF z k lim).1.st = .ok ∧ (invalidateF z k lim).1.src.c = L ∧ (invalidateF z k lim).1.status = .empty ∧ (invalidateF z k lim).1.data = k.data ∧ (invalidateF z k lim).1.off = k.off) ∨
    ((invalidateF z k lim).1.st = .fail ∧ Abs cap (invalidateF z k lim).1 L ∧ (invalidateF z k lim).1.off = k.off) := by
  unfold invalidateF
  have hfl := flush_abs z h
  unfold flushCache at hfl
  by_cases hd : k.status = .dirty
  · rw [if_neg (fun q => q hd)] at hfl
    by_cases hr : k.rs < k.re
    · rw [if_pos hr] at hfl
      rw [if_pos ⟨hd, hr⟩]
      rcases writeCacheF_spec z h hd lim with ⟨e1, e2⟩ | ⟨e1, e2, e3, -⟩
      · left
        simp only [e2]
        rw [if_neg (by decide), e1]
        exact ⟨rfl, hfl.2.1, rfl, rfl, rfl⟩
      · right
        simp only [e1]
        rw [if_pos (by decide)]
        exact ⟨e1, e2, e3⟩
    · rw [if_neg hr] at hfl
      rw [if_neg (fun q => hr q.2)]
      exact Or.inl ⟨rfl, hfl.2.1, rfl, rfl, rfl⟩
  · rw [if_neg (fun q => hd q.1)]
    exact Or.inl ⟨rfl, h.clean hd, rfl, rfl, rfl⟩

/-! Reading -/

/-- A read that a failed write ended. -/
def RShort (cap : Nat) (L : List β) (o n : Nat) (r : List β × C β) : Prop :=
  r.1 = (L.drop o).take r.1.length ∧ r.1.length < n ∧ r.2.off = o + r.1.length ∧ Abs cap r.2 L ∧ r.2.st = if r.1 = [] then .fail else .ok

theorem readFlush_spec (z : β) {cap : Nat} {L : List β} {o n : Nat} {k : C β} {acc : List β} {t : Nat} (h : RInv cap L o n k acc t) (lim : List Nat) :
    (∃ r lim', readFlush z n k lim acc t = (.inl r, lim') ∧ RShort cap L o n r) ∨
    (∃ lim', readFlush z n k lim acc t = (.inr (flushCache z k, acc, t), lim')) := by
  have h1 := h.off; have h2 := h.sum; have h3 := h.ne
  unfold readFlush
  rcases flushF_spec z h.abs lim with ⟨e1, e2⟩ | ⟨e1, e2, e3⟩
  · right
    simp only [e2]
    rw [if_neg (by decide), e1]
    exact ⟨_, rfl⟩
  · left
    simp only [e1]
    rw [if_pos (by decide)]
    refine ⟨_, _, rfl, h.got, by show acc.length < n; omega, by show (flushF z k lim).1.off = _; rw [e3, h1], e2.off_irrel _ _, ?_⟩
    show (if t < n then St.ok else St.fail) = if acc = [] then St.fail else St.ok
    cases acc with
    | nil => rw [if_pos rfl, if_neg (by simp at h2; omega)]
    | cons x xs => rw [if_pos (show t < n by rw [List.length_cons] at h2; omega), if_neg (by simp)]

theorem readHeadF_spec (z : β) {cap : Nat} {L : List β} {o n : Nat} {k : C β} {acc : List β} {t : Nat} (h : RInv cap L o n k acc t) (lim : List Nat) :
    (∃ r lim', readHeadF z n k lim acc t = (.inl r, lim') ∧ RShort cap L o n r) ∨
    (∃ lim', readHeadF z n k lim acc t = (readHead z k acc t, lim')) := by
  have h1 := h.off; have h2 := h.sum; have h3 := h.ne; have h4 := h.le
  unfold readHeadF readHead
  by_cases hs : k.status ≠ .empty
  · rw [if_pos hs, if_pos hs]
    obtain ⟨b1, b2, b3, b4⟩ := h.abs.block hs
    by_cases hb : k.rs ≤ k.off ∧ k.off < k.re
    · rw [if_pos hb, if_pos hb]
      simp only []
      by_cases ht : t ≤ k.re - k.off
      · rw [if_pos ht, if_pos ht]; exact Or.inr ⟨_, rfl⟩
      · rw [if_neg ht, if_neg ht]
        have e := block_read h.abs hs hb.1 (k.re - k.off) (by omega)
        have hl : (acc ++ (k.data.drop (k.off - k.rs)).take (k.re - k.off)).length = acc.length + (k.re - k.off) := by
          rw [e, List.length_append, List.length_take, List.length_drop]; omega
        have hi : RInv cap L o n { k with off := k.off + (k.re - k.off) } (acc ++ (k.data.drop (k.off - k.rs)).take (k.re - k.off)) (t - (k.re - k.off)) := by
          refine ⟨h.abs.off_irrel _ k.st, ?_, ?_, ?_, ?_, by omega⟩
          · rw [hl]; conv => lhs; rw [e]
            exact h.more _
          · rw [hl]; show k.off + _ = _; omega
          · show k.off + _ ≤ _; omega
          · rw [hl]; omega
        exact readFlush_spec z hi lim
    · rw [if_neg hb, if_neg hb]
      exact readFlush_spec z h lim
  · rw [if_neg hs, if_neg hs]; exact Or.inr ⟨_, rfl⟩

theorem readF_spec (z : β) {cap : Nat} {L : List β} {k : C β} (h : Abs cap k L) (lim : List Nat) (n : Nat) (hn : n ≠ 0) (ho : k.off ≤ L.length) :
    ∃ r lim', readLoopF z cap n 2 k lim [] n = some (r.1, r.2, lim') ∧ (RDone cap L k.off n r ∨ RShort cap L k.off n r) := by
  have h0 : RInv cap L k.off n k [] n := ⟨h, by simp, rfl, ho, by simp, hn⟩
  rw [readLoopF]
  rcases readHeadF_spec z h0 lim with ⟨r, lim', e, hr⟩ | ⟨lim1, e⟩
  · rw [e]; exact ⟨r, lim', rfl, Or.inr hr⟩
  rw [e]
  rcases readHead_spec z h0 with ⟨r, e, hr⟩ | ⟨k1, a1, t1, e, h1, c1, _⟩
  · rw [e]; exact ⟨r, lim1, rfl, Or.inl hr⟩
  rw [e]
  simp only
  rcases readBypass_spec h1 c1 with ⟨r, e, hr⟩ | ⟨k2, a2, t2, e, h2, c2, _, q2⟩
  · rw [e]; exact ⟨r, lim1, rfl, Or.inl hr⟩
  rw [e]
  simp only
  rcases readLoad_spec h2 c2 with ⟨r, e, hr⟩ | ⟨k3, e, h3, c3, n3, rs3, o3, re3, lt3⟩
  · rw [e]; exact ⟨r, lim1, rfl, Or.inl hr⟩
  rw [e]
  simp only
  have q2' : k2.off % cap + t2 < cap := by
    rcases q2 with q | q
    · omega
    · exact q
  obtain ⟨b1, b2, b3, b4⟩ := h3.abs.block n3
  rw [readLoopF]
  rcases readHeadF_spec z h3 lim1 with ⟨r, lim', e, hr⟩ | ⟨lim2, e⟩
  · rw [e]; exact ⟨r, lim', rfl, Or.inr hr⟩
  rw [e]
  rcases readHead_spec z h3 with ⟨r, e, hr⟩ | ⟨k4, a4, t4, e, h4, c4, q4⟩
  · rw [e]; exact ⟨r, lim2, rfl, Or.inl hr⟩
  rw [e]
  simp only
  have hm := Nat.mod_le k2.off cap
  obtain ⟨q41, q42, q43⟩ := q4 n3 (by rw [rs3, o3]; omega) (by rw [o3]; exact re3)
  have hend : k4.off = L.length := by omega
  rcases readBypass_spec h4 c4 with ⟨r, e, hr⟩ | ⟨k5, a5, t5, e, h5, c5, m5, _⟩
  · rw [e]; exact ⟨r, lim2, rfl, Or.inl hr⟩
  rw [e]
  simp only
  have hend5 : L.length ≤ k5.off := by omega
  rcases readLoad_spec h5 c5 with ⟨r, e, hr⟩ | ⟨k6, e, _, _, _, _, _, _, lt6⟩
  · rw [e]; exact ⟨r, lim2, rfl, Or.inl hr⟩
  · omega

/-! Writing -/

/-- A write of which `left` bytes are left. -/
def WPart (z : β) (cap : Nat) (L : List β) (o : Nat) (d : List β) (left : Nat) (k : C β) : Prop :=
  left ≤ d.length ∧ Abs cap k (put z L o (d.take (d.length - left))) ∧ k.off = o + (d.length - left) ∧ (k.st = .ok ↔ left = 0)

theorem WDone.part {z : β} {cap : Nat} {L : List β} {o : Nat} {d : List β} {k : C β} (h : WDone z cap L o d k) : WPart z cap L o d 0 k := by
  obtain ⟨h1, h2, h3⟩ := h
  exact ⟨Nat.zero_le _, by rw [Nat.sub_zero, List.take_length]; exact h1, by rw [Nat.sub_zero]; exact h2, by simp [h3]⟩

/-- One write after another. -/
theorem WPart.after {z : β} {cap : Nat} {L : List β} {o : Nat} {a b : List β} {left : Nat} {k : C β} (ha : a ≠ []) (ho : o ≤ L.length)
    (h : WPart z cap (put z L o a) (o + a.length) b left k) : WPart z cap L o (a ++ b) left k := by
  obtain ⟨h1, h2, h3, h4⟩ := h
  have e : (a ++ b).take ((a ++ b).length - left) = a ++ b.take (b.length - left) := by
    rw [List.length_append, show a.length + b.length - left = a.length + (b.length - left) by omega, List.take_length_add_append]
  refine ⟨by rw [List.length_append]; omega, ?_, by rw [h3, List.length_append]; omega, h4⟩
  rw [e]
  by_cases hb : b.take (b.length - left) = []
  · rw [hb, List.append_nil]
    rw [hb] at h2
    have : put z (put z L o a) (o + a.length) [] = put z L o a := by unfold put; rw [if_pos rfl]
    rw [this] at h2; exact h2
  · rw [← put_put z L o a _ ha hb ho]; exact h2

theorem put_nil (z : β) (L : List β) (o : Nat) : put z L o [] = L := by unfold put; rw [if_pos rfl]

theorem writeFlush_spec (z : β) {cap : Nat} {L : List β} {k : C β} (h : Abs cap k L) (lim : List Nat) {d : List β} (hd : d ≠ []) :
    (∃ k' lim', writeFlush z k lim d = (.inl (d.length, k'), lim') ∧ WPart z cap L k.off d d.length k') ∨
    (∃ lim', writeFlush z k lim d = (.inr (flushCache z k, d), lim')) := by
  have hlen : 0 < d.length := List.length_pos_iff.2 hd
  unfold writeFlush
  rcases flushF_spec z h lim with ⟨e1, e2⟩ | ⟨e1, e2, e3⟩
  · right
    simp only [e2]
    rw [if_neg (by decide), e1]
    exact ⟨_, rfl⟩
  · left
    simp only [e1]
    rw [if_pos (by decide)]
    refine ⟨_, _, rfl, Nat.le_refl _, by rw [Nat.sub_self, List.take_zero, put_nil]; exact e2, by rw [e3, Nat.sub_self, Nat.add_zero], ?_⟩
    rw [e1]
    exact ⟨(fun q => nomatch q), fun q => by omega⟩

theorem writeHeadF_spec (z : β) {cap : Nat} {L : List β} {k : C β} {d : List β} (h : WInv cap L k d) (lim : List Nat) :
    (∃ left k' lim', writeHeadF z cap k lim d = (.inl (left, k'), lim') ∧ WPart z cap L k.off d left k') ∨
    (∃ lim' k' b, writeHeadF z cap k lim d = (.inr (k', b), lim') ∧ writeHead z cap k d = .inr (k', b)) := by
  have hle := h.le
  have hne := h.ne
  have hlen : 0 < d.length := List.length_pos_iff.2 hne
  unfold writeHeadF writeHead
  by_cases hs : k.status ≠ .empty
  · rw [if_pos hs, if_pos hs]
    obtain ⟨b1, b2, b3, b4⟩ := h.abs.block hs
    simp only []
    by_cases hb : k.rs ≤ k.off ∧ k.off < k.rs + cap
    · rw [if_pos hb, if_pos hb]
      by_cases hf : d.length ≤ k.rs + cap - k.off
      · left
        rw [if_pos hf]
        exact ⟨_, _, _, rfl, WDone.part ⟨block_write z h.abs hs hb.1 hle d hne (by omega) _ _ _ rfl, rfl, rfl⟩⟩
      · rw [if_neg hf, if_neg hf]
        have hal : (d.take (k.rs + cap - k.off)).length = k.rs + cap - k.off := by rw [List.length_take]; omega
        have hane : d.take (k.rs + cap - k.off) ≠ [] := by
          intro c; rw [c, List.length_nil] at hal; omega
        have hbne : d.drop (k.rs + cap - k.off) ≠ [] := by
          intro c
          have := congrArg List.length c
          rw [List.length_drop, List.length_nil] at this; omega
        have hw := block_write z h.abs hs hb.1 hle (d.take (k.rs + cap - k.off)) hane (by omega)
          (k.off + (k.rs + cap - k.off)) (k.rs + cap) k.st (by omega)
        rcases writeFlush_spec z hw lim hbne with ⟨k', lim', e, hp⟩ | ⟨lim', e⟩
        · left
          refine ⟨_, k', lim', e, ?_⟩
          have := WPart.after (a := d.take (k.rs + cap - k.off)) (o := k.off) hane hle (b := d.drop (k.rs + cap - k.off)) (k := k') (by rw [hal]; exact hp)
          rw [List.take_append_drop] at this
          exact this
        · exact Or.inr ⟨lim', _, _, e, rfl⟩
    · rw [if_neg hb, if_neg hb]
      rcases writeFlush_spec z h.abs lim hne with ⟨k', lim', e, hp⟩ | ⟨lim', e⟩
      · exact Or.inl ⟨_, k', lim', e, hp⟩
      · exact Or.inr ⟨lim', _, _, e, rfl⟩
  · rw [if_neg hs, if_neg hs]; exact Or.inr ⟨_, _, _, rfl, rfl⟩

theorem writeRestF_spec (z : β) {cap : Nat} {L : List β} {k : C β} {d : List β} (h : WInv cap L k d) (lim : List Nat) (hc : k.src.c = L)
    (hnd : k.status ≠ .dirty) (hlen : d.length ≤ cap)
    (hout : k.status ≠ .empty → k.off < k.rs ∨ k.rs + cap ≤ k.off) :
    ∃ left k' lim', (match writeBypassF z cap k lim d with
      | (.inl (left, k), lim) => some (left, k, lim)
      | (.inr (k, d), lim) => writeLoopF z cap 1 (loadCache cap k k.off) lim d) = some (left, k', lim') ∧ WPart z cap L k.off d left k' := by
  have hcap := h.abs.pos
  have hle := h.le
  have hm := Nat.mod_lt (k.off + d.length) hcap
  have hd := Nat.div_add_mod (k.off + d.length) cap
  have hd' := Nat.div_add_mod k.off cap
  have hm' := Nat.mod_lt k.off hcap
  have hdl : 0 < d.length := List.length_pos_iff.2 h.ne
  have last : ∀ (k : C β) (L : List β) (d : List β) (lim : List Nat), Abs cap k L → k.src.c = L → k.off ≤ L.length → d ≠ [] →
      k.off % cap + d.length ≤ cap → ∃ left k' lim', writeLoopF z cap 1 (loadCache cap k k.off) lim d = some (left, k', lim') ∧ WPart z cap L k.off d left k' := by
    intro k L d lim ha hc hle hne hfit
    obtain ⟨l1, l2, l3, l4, l5⟩ := load_abs ha hc hle
    have hlt := Nat.mod_lt k.off hcap
    have hml := Nat.mod_le k.off cap
    have hdp : 0 < d.length := List.length_pos_iff.2 hne
    have hw : WInv cap L (loadCache cap k k.off) d := ⟨l1, by rw [l3]; exact hle, hne⟩
    rw [writeLoopF]
    rcases writeHeadF_spec z hw lim with ⟨left, k', lim', e, hk⟩ | ⟨lim', k', b, _, e⟩
    · rw [e]; exact ⟨left, k', lim', rfl, by rwa [l3] at hk⟩
    · exfalso
      unfold writeHead at e
      rw [if_pos (by rw [l4]; decide)] at e
      simp only [l3, l5] at e
      rw [if_pos (by omega), if_pos (by omega)] at e
      cases e
  unfold writeBypassF
  by_cases hq : k.off / cap < (k.off + d.length) / cap
  · have hA : cap * (k.off / cap) + cap ≤ cap * ((k.off + d.length) / cap) := by
      rw [← Nat.mul_succ]; exact Nat.mul_le_mul_left _ hq
    simp only [hq, if_true]
    have hal : (d.take (d.length - (k.off + d.length) % cap)).length = d.length - (k.off + d.length) % cap := by
      rw [List.length_take]; omega
    obtain ⟨m, m1, m2, m3⟩ := xfer_take lim (d.take (d.length - (k.off + d.length) % cap))
    rw [hal] at m1
    rw [List.take_take, Nat.min_eq_left m1] at m2
    have hdis : k.status ≠ .empty → k.off + (d.take m).length ≤ k.rs ∨ k.rs + cap ≤ k.off := by
      intro hs
      obtain ⟨b1, _⟩ := h.abs.block hs
      have hr := Nat.div_add_mod k.rs cap
      have hml : (d.take m).length ≤ m := by rw [List.length_take]; omega
      rcases hout hs with c | c
      · left
        have e : k.off + (d.length - (k.off + d.length) % cap) = cap * ((k.off + d.length) / cap) := by omega
        rw [b1, Nat.add_zero] at hr
        have h1 : cap * ((k.off + d.length) / cap) < cap * (k.rs / cap + 1) := by
          rw [Nat.mul_add, Nat.mul_one, hr]; omega
        have h2 := Nat.lt_of_mul_lt_mul_left h1
        have h3 : cap * ((k.off + d.length) / cap) ≤ cap * (k.rs / cap) := Nat.mul_le_mul_left _ (by omega)
        omega
      · exact Or.inr c
    have hb : ∀ s, Abs cap { k with src := (⟨k.src.c, k.off⟩ : Plain β).write z (d.take m), off := k.off + m, st := s } (put z L k.off (d.take m)) := by
      intro s
      by_cases he : d.take m = []
      · rw [he, put_nil]
        have := h.abs.src_irrel (k.off + m) (k.off + ([] : List β).length) s
        show Abs cap { k with src := ⟨put z k.src.c k.off [], _⟩, off := _, st := _ } L
        rw [put_nil]; exact this
      · exact bypass_write z h.abs hc hnd hle _ he (k.off + m) s hdis
    rw [m3, m2]
    by_cases hfull : m = d.length - (k.off + d.length) % cap
    · by_cases h0 : (d.drop m).length = 0
      · rw [if_pos (Or.inl h0)]
        refine ⟨_, _, _, rfl, ?_⟩
        rw [h0]
        rw [List.length_drop] at h0
        refine ⟨Nat.zero_le _, ?_, ?_, ?_⟩
        · have e : d.take (d.length - 0) = d.take m := by rw [Nat.sub_zero, List.take_length, List.take_of_length_le (by omega)]
          rw [e]; exact hb _
        · show k.off + m = _; omega
        · show ((if m = _ then St.ok else St.fail) = St.ok ↔ _)
          rw [if_pos hfull]; exact ⟨fun _ => rfl, fun _ => rfl⟩
      · rw [if_neg (by rw [if_pos hfull]; intro q; rcases q with q | q; exact h0 q; exact q rfl)]
        have hbne : d.drop m ≠ [] := fun c => h0 (by rw [c]; rfl)
        have hml : (d.take m).length = m := by rw [List.length_take]; omega
        have hane : d.take m ≠ [] := by
          intro c; rw [c, List.length_nil] at hml; omega
        obtain ⟨left, k', lim', e, hp⟩ := last _ _ (d.drop m) lim.tail (hb (if m = d.length - (k.off + d.length) % cap then .ok else .fail)) (by show put z k.src.c _ _ = _; rw [hc])
          (by rw [put_length z L _ _ hane hle, hml]; show k.off + _ ≤ _; omega) hbne
          (by
            show (k.off + m) % cap + _ ≤ cap
            rw [show k.off + m = cap * ((k.off + d.length) / cap) by omega, Nat.mul_mod_right, List.length_drop]
            omega)
        refine ⟨left, k', lim', e, ?_⟩
        have := WPart.after (a := d.take m) (o := k.off) hane hle (b := d.drop m) (k := k') (by rw [hml]; exact hp)
        rw [List.take_append_drop] at this
        exact this
    · rw [if_pos (Or.inr (by rw [if_neg hfull]; decide))]
      refine ⟨_, _, _, rfl, ?_⟩
      rw [List.length_drop]
      refine ⟨by omega, ?_, ?_, ?_⟩
      · rw [show d.length - (d.length - m) = m by omega]; exact hb _
      · show k.off + m = _; omega
      · show ((if m = _ then St.ok else St.fail) = St.ok ↔ _)
        rw [if_neg hfull]; exact ⟨(fun q => nomatch q), fun q => by omega⟩
  · simp only [hq, if_false]
    have hge : k.off / cap ≤ (k.off + d.length) / cap := Nat.div_le_div_right (by omega)
    have he : (k.off + d.length) / cap = k.off / cap := by omega
    rw [he] at hd
    exact last k L d lim h.abs hc hle h.ne (by omega)

theorem writeF_spec (z : β) {cap : Nat} {L : List β} {k : C β} (h : Abs cap k L) (lim : List Nat) (d : List β) (hd : d ≠ []) (hl : d.length ≤ cap)
    (ho : k.off ≤ L.length) : ∃ left k' lim', writeLoopF z cap 2 k lim d = some (left, k', lim') ∧ WPart z cap L k.off d left k' := by
  have h0 : WInv cap L k d := ⟨h, ho, hd⟩
  rw [writeLoopF]
  rcases writeHeadF_spec z h0 lim with ⟨left, k', lim', e, hp⟩ | ⟨lim', k', b, e, e'⟩
  · rw [e]; exact ⟨left, k', lim', rfl, hp⟩
  rw [e]
  simp only
  rcases writeHead_spec z h0 with ⟨k1, e1, hk⟩ | ⟨e1, hs⟩ | ⟨e1, hs⟩ | ⟨k1, a, b1, e1, hab, ha, hb, hc, hnd, hoff, _, hout⟩
  · rw [e'] at e1; cases e1
  · rw [e'] at e1; cases e1
    obtain ⟨f1, f2, f3, f4, f5, f6, f7, f8⟩ := flush_abs z h
    have := writeRestF_spec z (k := flushCache z k) (d := d) ⟨f1, by rw [f3]; exact ho, hd⟩ lim' f2 f4 hl
      (fun q => by rw [f3, f5]; exact hs (fun q' => q (f7.2 q')))
    rw [f3] at this
    exact this
  · rw [e'] at e1; cases e1
    have hnd : k.status ≠ .dirty := by rw [hs]; decide
    exact writeRestF_spec z (k := k) (d := d) h0 lim' (h.clean hnd) hnd hl (fun q => absurd hs q)
  · rw [e'] at e1; cases e1
    obtain ⟨left, k2, lim2, e2, hp⟩ := writeRestF_spec z hb lim' hc hnd (by rw [hab, List.length_append] at hl; omega) (fun q => Or.inr (hout q))
    refine ⟨left, k2, lim2, e2, ?_⟩
    rw [hoff] at hp
    rw [hab]
    exact hp.after ha ho

/-! Histories -/

theorem stepF_spec (z : β) {cap : Nat} {f : Plain β} {k : C β} (h : Abs cap k f.c) (hp : k.off = f.pos) (lim : List Nat) (op : COp β) (hf : Fine cap f op) :
    ∃ r k' lim', stepF z cap k lim op = some (r, k', lim') ∧ Honest z f op r ∧ Abs cap k' (Believed z f op r).c ∧ k'.off = (Believed z f op r).pos ∧
      (op = .flush → r = .done .ok → k'.src.c = f.c) := by
  cases op with
  | read n =>
    obtain ⟨r, lim', e, hr⟩ := readF_spec z h lim n hf.1 (by rw [hp]; exact hf.2)
    refine ⟨.read r.1 r.2.st, r.2, lim', by show (readLoopF z cap n 2 k lim [] n).map _ = _; rw [e]; rfl, ?_, ?_, ?_, (fun q => nomatch q)⟩
    · rcases hr with ⟨r1, r2, r3, r4⟩ | ⟨r1, r2, r3, r4, r5⟩
      · left
        rw [r4, r1, hp]
        show CRes.read _ (if f.c.length ≤ f.pos then St.eof else St.ok) = CRes.read _ (if n ≠ 0 ∧ f.c.length ≤ f.pos then St.eof else St.ok)
        by_cases c : f.c.length ≤ f.pos
        · rw [if_pos c, if_pos ⟨hf.1, c⟩]; rfl
        · rw [if_neg c, if_neg (fun q => c q.2)]; rfl
      · exact Or.inr ⟨r.1, _, rfl, by rw [← hp]; exact r1, r2, r5⟩
    · rcases hr with ⟨_, _, r3, _⟩ | ⟨_, _, _, r4, _⟩
      · exact r3
      · exact r4
    · rcases hr with ⟨_, r2, _, _⟩ | ⟨_, _, r3, _, _⟩
      · show r.2.off = f.pos + r.1.length; rw [r2, hp]
      · show r.2.off = f.pos + r.1.length; rw [r3, hp]
  | write d =>
    obtain ⟨left, k', lim', e, w1, w2, w3, w4⟩ := writeF_spec z h lim d hf.1 hf.2.1 (by rw [hp]; exact hf.2.2)
    refine ⟨.write (d.length - left) k'.st, k', lim', by show (writeLoopF z cap 2 k lim d).map _ = _; rw [e]; rfl, ⟨_, _, rfl, Nat.sub_le _ _, ?_⟩, ?_, ?_, (fun q => nomatch q)⟩
    · rw [w4]
      have : 0 < d.length := List.length_pos_iff.2 hf.1
      omega
    · rw [hp] at w2; exact w2
    · show k'.off = f.pos + (d.take (d.length - left)).length
      rw [w3, hp, List.length_take]; omega
  | seek o how =>
    obtain ⟨k', e, a, b⟩ := step_spec z h hp (.seek o how) hf
    refine ⟨_, k', lim, by show (step z cap k (.seek o how)).map _ = _; rw [e]; rfl, rfl, ?_, ?_, (fun q => nomatch q)⟩
    · have hst : f.step z (.seek o how) = (if seekTarget f.c.length f.pos o how < 0 then (.rejected, f)
        else (.pos (seekTarget f.c.length f.pos o how).toNat, { f with pos := (seekTarget f.c.length f.pos o how).toNat })) := rfl
      rw [hst] at a ⊢
      by_cases c : seekTarget f.c.length f.pos o how < 0
      · rw [if_pos c] at a ⊢; exact a
      · rw [if_neg c] at a ⊢; exact a
    · have hst : f.step z (.seek o how) = (if seekTarget f.c.length f.pos o how < 0 then (.rejected, f)
        else (.pos (seekTarget f.c.length f.pos o how).toNat, { f with pos := (seekTarget f.c.length f.pos o how).toNat })) := rfl
      rw [hst] at b ⊢
      by_cases c : seekTarget f.c.length f.pos o how < 0
      · rw [if_pos c] at b ⊢; exact b
      · rw [if_neg c] at b ⊢; exact b
  | tell =>
    obtain ⟨k', e, a, b⟩ := step_spec z h hp .tell hf
    exact ⟨_, k', lim, by show (step z cap k .tell).map (fun r => (r.1, r.2, lim)) = _; rw [e]; rfl, rfl, a, b, (fun q => nomatch q)⟩
  | size =>
    obtain ⟨k', e, a, b⟩ := step_spec z h hp .size hf
    exact ⟨_, k', lim, by show (step z cap k .size).map (fun r => (r.1, r.2, lim)) = _; rw [e]; rfl, rfl, a, b, (fun q => nomatch q)⟩
  | truncate =>
    obtain ⟨k', e, a, b⟩ := step_spec z h hp .truncate hf
    exact ⟨_, k', lim, by show (step z cap k .truncate).map (fun r => (r.1, r.2, lim)) = _; rw [e]; rfl, rfl, a, b, (fun q => nomatch q)⟩
  | flush =>
    refine ⟨.done (flushF z k lim).1.st, (flushF z k lim).1, (flushF z k lim).2, rfl, ?_, ?_, ?_, ?_⟩
    · rcases flushF_spec z h lim with ⟨_, e⟩ | ⟨e, _⟩
      · left; rw [e]
      · right; rw [e]
    · rcases flushF_spec z h lim with ⟨e, _⟩ | ⟨_, e, _⟩
      · rw [e]; exact (flush_abs z h).1
      · exact e
    · rcases flushF_spec z h lim with ⟨e, _⟩ | ⟨_, _, e⟩
      · rw [e, (flush_abs z h).2.2.1]; exact hp
      · rw [e]; exact hp
    · intro _ hr
      rcases flushF_spec z h lim with ⟨e, _⟩ | ⟨e, _, _⟩
      · rw [e]; exact (flush_abs z h).2.1
      · rw [e] at hr; cases hr

theorem runF_spec (z : β) {cap : Nat} : ∀ (ops : List (COp β)) {f : Plain β} {k : C β} {lim : List Nat} {rs : List (CRes β)} {k' : C β} {lim' : List Nat}, Abs cap k f.c → k.off = f.pos →
    runF z cap k lim ops = some (rs, k', lim') → FineF z cap f ops rs → HonestRun z f ops rs ∧ Abs cap k' (BelievedRun z f ops rs).c ∧ k'.off = (BelievedRun z f ops rs).pos
  | [], f, k, lim, rs, k', lim', h, hp, e, _ => by
    cases e
    exact ⟨rfl, h, hp⟩
  | op :: ops, f, k, lim, rs, k', lim', h, hp, e, hf => by
    rw [runF] at e
    cases hs : stepF z cap k lim op with
    | none => rw [hs] at e; cases e
    | some q =>
      obtain ⟨r, k1, lim1⟩ := q
      rw [hs] at e
      simp only at e
      cases hr : runF z cap k1 lim1 ops with
      | none => rw [hr] at e; cases e
      | some q2 =>
        obtain ⟨rs2, k2, lim2⟩ := q2
        rw [hr] at e
        cases e
        obtain ⟨r', k1', lim1', e', s1, s2, s3, _⟩ := stepF_spec z h hp lim op hf.1
        rw [hs] at e'; cases e'
        obtain ⟨i1, i2, i3⟩ := runF_spec z ops s2 s3 hr hf.2
        exact ⟨⟨s1, i1⟩, i2, i3⟩

/-- Every history of fine calls runs to its end, however writing fails. -/
theorem runF_total (z : β) {cap : Nat} : ∀ (ops : List (COp β)) {f : Plain β} {k : C β} (lim : List Nat), Abs cap k f.c → k.off = f.pos → (∀ rs, FineF z cap f ops rs) →
    ∃ q, runF z cap k lim ops = some q
  | [], _, k, lim, _, _, _ => ⟨([], k, lim), rfl⟩
  | op :: ops, f, k, lim, h, hp, hf => by
    obtain ⟨r, k1, lim1, e, _, s2, s3, _⟩ := stepF_spec z h hp lim op (hf [.rejected]).1
    obtain ⟨q, e2⟩ := runF_total z ops lim1 s2 s3 (fun rs => (hf (r :: rs)).2)
    exact ⟨(r :: q.1, q.2), by rw [runF, e]; simp only; rw [e2]; rfl⟩

theorem new_abs {cap : Nat} (hcap : 0 < cap) (f : Plain β) (mem : List β) (hm : mem.length = cap) : Abs cap (C.new f mem) f.c :=
  ⟨hcap, hm, fun _ => rfl, fun q => absurd rfl q, fun q => nomatch q⟩

/-- C140: however writing fails, the calls on a cache do not lie (`HonestRun`); and where the cache is destroyed and does not throw, the file has exactly the bytes that calls said were written
(`BelievedRun`) and stands where the cache stood. -/
theorem cache_no_loss_partial (z : β) {cap : Nat} (hcap : 0 < cap) (f : Plain β) (mem : List β) (hm : mem.length = cap) (lim : List Nat) (ops : List (COp β))
    {rs : List (CRes β)} {k : C β} {lim' : List Nat} (hr : runF z cap (C.new f mem) lim ops = some (rs, k, lim')) (hf : FineF z cap f ops rs) :
    HonestRun z f ops rs ∧ ∀ g, doneF z k lim' = some g → g = BelievedRun z f ops rs := by
  obtain ⟨h1, h2, h3⟩ := runF_spec z ops (new_abs hcap f mem hm) rfl hr hf
  refine ⟨h1, fun g hg => ?_⟩
  unfold doneF at hg
  rcases flushF_spec z h2 lim' with ⟨e1, e2⟩ | ⟨e1, _, _⟩
  · simp only [e2] at hg
    rw [if_neg (by decide), e1, (flush_abs z h2).2.1, (flush_abs z h2).2.2.1, h3] at hg
    exact (Option.some.inj hg).symm
  · simp only [e1] at hg
    rw [if_pos (by decide)] at hg; cases hg

/-- When writing works again, nothing that was accepted has been lost: destroying the cache does not throw. -/
theorem cache_recovers_partial (z : β) {cap : Nat} (hcap : 0 < cap) (f : Plain β) (mem : List β) (hm : mem.length = cap) (lim : List Nat) (ops : List (COp β))
    {rs : List (CRes β)} {k : C β} {lim' : List Nat} (hr : runF z cap (C.new f mem) lim ops = some (rs, k, lim')) (hf : FineF z cap f ops rs) :
    doneF z k [] = some (BelievedRun z f ops rs) := by
  obtain ⟨h1, h2, h3⟩ := runF_spec z ops (new_abs hcap f mem hm) rfl hr hf
  have e : (flushF z k []).1 = flushCache z k := by
    unfold flushF flushCache writeCacheF writeCache xfer
    by_cases c1 : k.status = .dirty <;> by_cases c2 : k.rs < k.re <;> simp [c1, c2]
  unfold doneF
  simp only [e]
  rw [(flush_abs z h2).2.1, (flush_abs z h2).2.2.1, h3, if_neg (by rw [(flush_abs z h2).2.2.2.2.2.2.2]; decide)]

/-- A `flush` that says ok has brought to the file all that calls said was written. -/
theorem cache_flush_partial (z : β) {cap : Nat} (hcap : 0 < cap) (f : Plain β) (mem : List β) (hm : mem.length = cap) (lim : List Nat) (ops : List (COp β))
    {rs : List (CRes β)} {k : C β} {lim' : List Nat} (hr : runF z cap (C.new f mem) lim ops = some (rs, k, lim')) (hf : FineF z cap f ops rs)
    {k2 : C β} {lim2 : List Nat} (hs : stepF z cap k lim' .flush = some (.done .ok, k2, lim2)) : k2.src.c = (BelievedRun z f ops rs).c := by
  obtain ⟨h1, h2, h3⟩ := runF_spec z ops (new_abs hcap f mem hm) rfl hr hf
  obtain ⟨r, k', l', e, _, _, _, h4⟩ := stepF_spec z h2 h3 lim' .flush trivial
  rw [hs] at e; cases e
  exact h4 rfl rfl

/-- `close` throws, with the cache as it was, or leaves all that calls said was written in the file. -/
theorem cache_close_partial (z : β) {cap : Nat} (hcap : 0 < cap) (f : Plain β) (mem : List β) (hm : mem.length = cap) (lim : List Nat) (ops : List (COp β))
    {rs : List (CRes β)} {k : C β} {lim' : List Nat} (hr : runF z cap (C.new f mem) lim ops = some (rs, k, lim')) (hf : FineF z cap f ops rs) :
    (closeF z k lim').1 = some (BelievedRun z f ops rs).c ∨ ((closeF z k lim').1 = none ∧ Abs cap (closeF z k lim').2.1 (BelievedRun z f ops rs).c) := by
  obtain ⟨h1, h2, h3⟩ := runF_spec z ops (new_abs hcap f mem hm) rfl hr hf
  unfold closeF
  rcases invalidateF_spec z h2 lim' with ⟨e1, e2, _⟩ | ⟨e1, e2, _⟩
  · left; simp only [e1]; rw [if_neg (by decide), e2]
  · right; simp only [e1]; rw [if_pos (by decide)]; exact ⟨rfl, e2⟩

/-- `cached_file::open` while a file is open: either the old file could not be written; then it stays open with nothing lost, and the state is fail. Or it has all that calls said was written;
then the state is ok exactly if the new file could be opened, and the cache stands for that file at its position. -/
theorem cached_open_partial (z : β) {cap : Nat} (hcap : 0 < cap) (f : Plain β) (mem : List β) (hm : mem.length = cap) (lim : List Nat) (ops : List (COp β))
    {rs : List (CRes β)} {k : C β} {lim' : List Nat} (hr : runF z cap (C.new f mem) lim ops = some (rs, k, lim')) (hf : FineF z cap f ops rs) (g : Option (Plain β)) :
    ((openF z k lim' g).1 = none ∧ (openF z k lim' g).2.1.st = .fail ∧ Abs cap (openF z k lim' g).2.1 (BelievedRun z f ops rs).c ∧ (openF z k lim' g).2.1.off = (BelievedRun z f ops rs).pos) ∨
    ((openF z k lim' g).1 = some (BelievedRun z f ops rs).c ∧ ((openF z k lim' g).2.1.st = .ok ↔ g.isSome) ∧
      ∀ g', g = some g' → Abs cap (openF z k lim' g).2.1 g'.c ∧ (openF z k lim' g).2.1.off = g'.pos) := by
  obtain ⟨h1, h2, h3⟩ := runF_spec z ops (new_abs hcap f mem hm) rfl hr hf
  unfold openF
  rcases invalidateF_spec z h2 lim' with ⟨e1, e2, e3, e4, e5⟩ | ⟨e1, e2, e3⟩
  · right
    simp only [e1]
    rw [if_neg (by decide)]
    cases g with
    | none => exact ⟨by rw [e2], ⟨(fun q => nomatch q), (fun q => nomatch q)⟩, (fun _ q => nomatch q)⟩
    | some g =>
      refine ⟨by rw [e2], ⟨fun _ => rfl, fun _ => rfl⟩, fun g' hg => ?_⟩
      cases hg
      refine ⟨⟨hcap, by show (invalidateF z k lim').1.data.length = _; rw [e4]; exact h2.mem, fun _ => rfl, fun q => absurd e3 q, fun q => by rw [e3] at q; cases q⟩, rfl⟩
  · left
    simp only [e1]
    rw [if_pos (by decide)]
    exact ⟨rfl, rfl, e2.off_irrel _ _, by rw [← h3]; exact e3⟩

/-! ### Where reading fails -/

/-- `load_cache`, 2151-2163, where the read delivers only `n` bytes before it fails. -/
def loadCut (cap n : Nat) (k : C β) (start : Nat) : C β :=
  let start := start - start % cap
  let r := (⟨k.src.c, start⟩ : Plain β).read (min n cap)
  { k with src := r.2, data := memcpyTo k.data 0 r.1.1, rs := start, re := start + r.1.1.length, status := .loaded, st := .ok }

/-- The end of `write` behind `load_cache`: one more round of the loop, in which all fits in the block, 1943-1954. -/
def writeAfter (cap n : Nat) (k : C β) (d : List β) : C β :=
  let k := loadCut cap n k k.off
  { k with data := memcpyTo k.data (k.off - k.rs) d, off := k.off + d.length, status := .dirty, re := max k.re (k.off + d.length), st := .ok }

/-- With reading that works it is `write`. -/
theorem writeAfter_write (z : β) {cap : Nat} (hcap : 0 < cap) (f : Plain β) (mem d : List β) (hs : f.pos % cap + d.length < cap) :
    write z cap (C.new f mem) d = some (d.length, writeAfter cap cap (C.new f mem) d) := by
  have hm := Nat.div_add_mod f.pos cap
  have hml := Nat.mod_le f.pos cap
  have hlt := Nat.mod_lt f.pos hcap
  have hq : ¬ f.pos / cap < (f.pos + d.length) / cap := by
    have : (f.pos + d.length) / cap = f.pos / cap := by
      conv => lhs; rw [← hm, Nat.add_assoc, Nat.mul_add_div hcap, Nat.div_eq_of_lt hs, Nat.add_zero]
    omega
  unfold write
  rw [writeLoop]
  have e1 : writeHead z cap (C.new f mem) d = .inr (C.new f mem, d) := rfl
  have e2 : writeBypass z cap (C.new f mem) d = .inr (C.new f mem, d) := if_neg hq
  rw [e1]; simp only; rw [e2]; simp only
  rw [writeLoop]
  have hw : writeHead z cap (loadCache cap (C.new f mem) (C.new f mem).off) d = .inl (writeAfter cap cap (C.new f mem) d) := by
    unfold writeHead
    rw [if_pos (by show Status.loaded ≠ .empty; decide)]
    simp only []
    rw [if_pos (by show f.pos - f.pos % cap ≤ f.pos ∧ f.pos < f.pos - f.pos % cap + cap; omega), if_pos (by show d.length ≤ f.pos - f.pos % cap + cap - f.pos; omega)]
    unfold writeAfter loadCut loadCache
    simp only [Nat.min_self]
  rw [hw]

/-- C140 is violated where reading fails: a write of one byte into a file that could not be read (a file opened only for writing, a read that a signal interrupted) says ok and, flushed,
replaces everything before the byte in its block with whatever the memory of the cache held. -/
theorem cache_read_failure_garbage (z x : β) {cap : Nat} (f : Plain β) (mem : List β) (hm : mem.length = cap) (hp : f.pos < cap) :
    (writeAfter cap 0 (C.new f mem) [x]).st = .ok ∧ (flushCache z (writeAfter cap 0 (C.new f mem) [x])).src.c = mem.take f.pos ++ [x] ++ f.c.drop (f.pos + 1) := by
  refine ⟨rfl, ?_⟩
  have e0 : f.pos - f.pos % cap = 0 := by rw [Nat.mod_eq_of_lt hp]; omega
  have hk : writeAfter cap 0 (C.new f mem) [x] = ⟨⟨f.c, 0⟩, memcpyTo (memcpyTo mem 0 []) (f.pos - 0) [x], .dirty, 0, max (0 + 0) (f.pos + 1), f.pos + 1, .ok⟩ := by
    unfold writeAfter loadCut C.new Plain.read
    simp only [Nat.zero_min, List.take_zero, List.length_nil, e0, List.length_singleton, Nat.add_zero]
  have hd : (memcpyTo (memcpyTo mem 0 []) (f.pos - 0) [x]).take (max (0 + 0) (f.pos + 1) - 0) = mem.take f.pos ++ [x] := by
    unfold memcpyTo
    simp only [List.take_zero, List.nil_append, List.length_nil, Nat.add_zero, Nat.sub_zero, List.drop_zero, Nat.zero_add, Nat.zero_max, Nat.max_eq_right (Nat.zero_le _)]
    rw [List.take_append_of_le_length (by simp; omega), List.take_of_length_le (by simp; omega)]
  rw [hk]
  unfold flushCache
  rw [if_neg (by simp), if_pos (by show 0 < max _ _; omega)]
  show put z f.c 0 ((memcpyTo (memcpyTo mem 0 []) (f.pos - 0) [x]).take (max (0 + 0) (f.pos + 1) - 0)) = _
  rw [hd, put_noGap z _ _ _ (by simp) (Nat.zero_le _)]
  simp only [List.take_zero, List.nil_append, List.length_append, List.length_take, List.length_singleton, Nat.zero_add]
  rw [Nat.min_eq_left (by omega)]

/-! ### Examples -/

/-- A file of ten bytes, blocks of four: writes transfer one byte of two, none, none, and then all. -/
example : (runF 0 4 (C.new (⟨[1, 2, 3, 4, 5, 6, 7, 8, 9, 10], 2⟩ : Plain Nat) [0, 0, 0, 0]) [1, 0, 0] [.write [20, 21, 22], .write [30], .seek 5 .beg, .write [40], .flush, .flush]).map (fun q => (q.1, q.2.1.src.c)) =
    some ([.write 1 .fail, .write 0 .fail, .pos 5, .write 1 .ok, .done .fail, .done .ok], [1, 2, 20, 4, 5, 40, 7, 8, 9, 10]) := by decide +kernel
example : FineF 0 4 (⟨[1, 2, 3, 4, 5, 6, 7, 8, 9, 10], 2⟩ : Plain Nat) [.write [20, 21, 22], .write [30], .seek 5 .beg, .write [40], .flush, .flush]
    [.write 1 .fail, .write 0 .fail, .pos 5, .write 1 .ok, .done .fail, .done .ok] := by
  simp only [FineF, Fine]; decide
example : (flushCache 0 (writeAfter 4 0 (C.new (⟨[1, 2, 3, 4], 2⟩ : Plain Nat) [9, 9, 9, 9]) [7])).src.c = [9, 9, 7, 4] := by decide +kernel

end Verif.Stream.Cache
