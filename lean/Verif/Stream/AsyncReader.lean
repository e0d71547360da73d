import Verif.Stream.RingSteps
import Verif.Stream.Basic
/-
Model of `stdex::stream::async_reader` (include/stdex/stream.hpp 1252-1312): the worker thread reads the source
into the ring, the user thread reads from the ring. Every step of either thread is one event of the ring model
(`Verif.Ring.Sys.step`), a single byte stored or loaded, or a local step, so all schedules are covered.

* The source is a list of bytes. A read may deliver any number of them and end in any state.
* The worker's return from `m_source->read` and its `m_ring.push` are one step: nothing of the return can be seen
  by the user's thread before the push (1300-1301).
* A `none` among the bytes the user gets is memory nobody has written.
* Not modelled: the destructor (it waits for the user's calls to end), `close`/`flush` (passed to the source).
-/
namespace Verif.Stream.AsyncReader
open Verif.Stream
variable {β : Type}

/-- Where the worker is in `process`, 1293-1307: at `back()`, in `m_source->read` with `i` bytes delivered, at the
test of 1302, or finished. -/
inductive WPC where
  | back (waited : Bool) | fill (len i : Nat) | check | done

/-- Where the user is: not in a call, at `front()` 1274 with `acc` delivered, or in `memcpy` 1281 of `n` bytes with
`tmp` copied. -/
inductive UPC (β : Type) where
  | idle
  | front (length : Nat) (acc : List (Option β)) (waited : Bool)
  | copy (length : Nat) (acc : List (Option β)) (n : Nat) (tmp : List (Option β))

/-- What has been copied for a call not yet returned, up to the last `pop`. -/
def UPC.acc : UPC β → List (Option β)
  | .idle => []
  | .front _ acc _ => acc
  | .copy _ acc _ _ => acc

/-- A returned call: requested length, delivered bytes, state. -/
structure Call (β : Type) where
  length : Nat
  bytes : List (Option β)
  st : St

structure A (β : Type) where
  s : Ring.Sys β
  /-- Bytes the source has not delivered yet. -/
  src : List β
  /-- State of the source. -/
  srcSt : St
  w : WPC
  u : UPC β
  log : List (Call β)

/-- All bytes returned to the user. -/
def heard (log : List (Call β)) : List (Option β) := log.flatMap (·.bytes)

/-- Start, 1256-1259. -/
def A.init (src : List β) : A β := ⟨Ring.Sys.init, src, .ok, .back false, .idle, []⟩

/-- One step of either thread. -/
inductive Step (N : Nat) : A β → A β → Prop where
  /-- 1297, space available. -/
  | back {a : A β} {b s' off len} : a.w = .back b → a.s.step N (.back b) = some (s', .res (.window off len)) →
      Step N a { a with s := s', w := .fill len 0 }
  /-- 1297, blocking (a later attempt may come from a spurious wake-up). -/
  | backBlock {a : A β} {b s'} : a.w = .back b → a.s.step N (.back b) = some (s', .res .block) →
      Step N a { a with s := s', w := .back true }
  /-- 1298-1299. -/
  | backNull {a : A β} {b s'} : a.w = .back b → a.s.step N (.back b) = some (s', .res .null) →
      Step N a { a with s := s', w := .done }
  /-- The source stores its next byte, 1300. -/
  | byte {a : A β} {len i x s' o} : a.w = .fill len i → i < len → a.src[i]? = some x → a.s.step N (.store i x) = some (s', o) →
      Step N a { a with s := s', w := .fill len (i + 1) }
  /-- The source returns, in any state; 1300-1301. -/
  | push {a : A β} {len i s' o} (st : St) : a.w = .fill len i → a.s.step N (.push i) = some (s', o) →
      Step N a { a with s := s', src := a.src.drop i, srcSt := st, w := .check }
  /-- 1302, ok. -/
  | more {a : A β} : a.w = .check → a.srcSt = .ok → Step N a { a with w := .back false }
  /-- 1302-1305. -/
  | quit {a : A β} {s' o} : a.w = .check → a.srcSt ≠ .ok → a.s.step N .quit = some (s', o) → Step N a { a with s := s', w := .done }
  /-- The user calls `read`, 1268-1272. -/
  | call {a : A β} (length : Nat) : a.u = .idle → Step N a { a with u := .front length [] false }
  /-- 1274 and 1279-1280, data available. -/
  | front {a : A β} {length acc b s' off len} : a.u = .front length acc b →
      a.s.step N (.front b) = some (s', .res (.window off len)) →
      Step N a { a with s := s', u := .copy length acc (min (length - acc.length) len) [] }
  | frontBlock {a : A β} {length acc b s'} : a.u = .front length acc b → a.s.step N (.front b) = some (s', .res .block) →
      Step N a { a with s := s', u := .front length acc true }
  /-- 1275-1278. -/
  | frontNull {a : A β} {length acc b s'} : a.u = .front length acc b → a.s.step N (.front b) = some (s', .res .null) →
      Step N a { a with s := s', u := .idle, log := a.log ++ [⟨length, acc, if length - acc.length < length ∨ length = 0 then .ok else a.srcSt⟩] }
  /-- A byte of the `memcpy`, 1281. -/
  | load {a : A β} {length acc n tmp v s'} : a.u = .copy length acc n tmp → tmp.length < n →
      a.s.step N (.load tmp.length) = some (s', .val v) →
      Step N a { a with s := s', u := .copy length acc n (tmp ++ [v]) }
  /-- 1282-1284 and 1288: more is needed. -/
  | pop {a : A β} {length acc n tmp s' o} : a.u = .copy length acc n tmp → tmp.length = n → length - acc.length - n ≠ 0 →
      a.s.step N (.pop n) = some (s', o) → Step N a { a with s := s', u := .front length (acc ++ tmp) false }
  /-- 1282-1287: done. -/
  | popRet {a : A β} {length acc n tmp s' o} : a.u = .copy length acc n tmp → tmp.length = n → length - acc.length - n = 0 →
      a.s.step N (.pop n) = some (s', o) → Step N a { a with s := s', u := .idle, log := a.log ++ [⟨length, acc ++ tmp, .ok⟩] }

/-- States reachable in any schedule, from a source containing `orig`. -/
inductive Reach (N : Nat) (orig : List β) : A β → Prop where
  | init : Reach N orig (A.init orig)
  | step {a a' : A β} : Reach N orig a → Step N a a' → Reach N orig a'

/-! ### The invariant -/

/-- What holds of a returned call. -/
structure CallOk (a : A β) (r : Call β) : Prop where
  le : r.bytes.length ≤ r.length
  full : r.bytes.length = r.length → r.st = .ok
  short : r.bytes.length < r.length → a.s.ring.quit = true ∧ a.s.got.length = a.s.sent.length ∧ a.u.acc = [] ∧ r.st = if r.bytes = [] then a.srcSt else .ok

structure Inv (N : Nat) (orig : List β) (a : A β) : Prop where
  ring : Ring.Reach N a.s
  src : a.s.sent ++ a.src = orig
  done : a.s.ring.quit = true → a.w = .done ∧ a.srcSt ≠ .ok
  done' : a.w = .done → a.s.ring.quit = true
  fill : ∀ len i, a.w = .fill len i → i ≤ len ∧ i ≤ a.src.length ∧ Ring.collect a.s.staged i = some (a.src.take i) ∧ ∃ off, a.s.pwin = some (off, len)
  got : a.s.got = heard a.log ++ a.u.acc
  front : ∀ l acc b, a.u = .front l acc b → acc.length < l ∨ (l = 0 ∧ acc = [])
  copy : ∀ l acc n tmp, a.u = .copy l acc n tmp → acc.length + n ≤ l ∧ tmp.length ≤ n ∧ a.s.got.length + n ≤ a.s.sent.length ∧
    (n = 0 → l = 0) ∧ (∃ off len, a.s.cwin = some (off, len) ∧ n ≤ len) ∧ tmp = (List.range tmp.length).map fun i => a.s.sent[a.s.got.length + i]?
  log : ∀ r ∈ a.log, CallOk a r

theorem collect_len {f : Nat → Option β} {n : Nat} {xs : List β} (h : Ring.collect f n = some xs) : xs.length = n := (Ring.collect_spec f n xs h).1

theorem inv_step {N : Nat} (hN : 0 < N) {orig : List β} {a a' : A β} (h : Inv N orig a) (hs : Step N a a') : Inv N orig a' := by
  have hfifo := Ring.ring_fifo hN h.ring
  cases hs with
  | @back b s' off len hw e =>
    obtain ⟨r1, r2, r3, r4, r5, r6⟩ := Ring.step_back e
    have hnd : a.s.ring.quit ≠ true := fun q => by have := (h.done q).1; rw [hw] at this; cases this
    refine ⟨.step h.ring e, by rw [r3]; exact h.src, fun q => absurd (r2 ▸ q) hnd, (fun q => nomatch q), ?_, ?_, h.front, ?_, ?_⟩
    · intro l i q; cases q
      exact ⟨Nat.zero_le _, Nat.zero_le _, rfl, off, r6 off len rfl⟩
    · rw [r4]; exact h.got
    · intro l acc n tmp q
      have := h.copy l acc n tmp q
      rw [r3, r4, r5]; exact this
    · intro r hr
      have := h.log r hr
      exact ⟨this.le, this.full, fun q => absurd (this.short q).1 hnd⟩
  | @backBlock b s' hw e =>
    obtain ⟨r1, r2, r3, r4, r5, r6⟩ := Ring.step_back e
    have hnd : a.s.ring.quit ≠ true := fun q => by have := (h.done q).1; rw [hw] at this; cases this
    refine ⟨.step h.ring e, by rw [r3]; exact h.src, fun q => absurd (r2 ▸ q) hnd, (fun q => nomatch q), (fun _ _ q => nomatch q), ?_, h.front, ?_, ?_⟩
    · rw [r4]; exact h.got
    · intro l acc n tmp q
      have := h.copy l acc n tmp q
      rw [r3, r4, r5]; exact this
    · intro r hr
      have := h.log r hr
      exact ⟨this.le, this.full, fun q => absurd (this.short q).1 hnd⟩
  | @backNull b s' hw e =>
    obtain ⟨r1, r2, r3, r4, r5, r6⟩ := Ring.step_back e
    have hq := Ring.back_null r1.symm
    have := (h.done hq).1; rw [hw] at this; cases this
  | @byte len i x s' o hw hi hx e =>
    obtain ⟨r1, r2, r3, r4, r5, r6, r7, r8⟩ := Ring.step_store e
    have hnd : a.s.ring.quit ≠ true := fun q => by have := (h.done q).1; rw [hw] at this; cases this
    obtain ⟨f1, f2, f3, off, f4⟩ := h.fill len i hw
    refine ⟨.step h.ring e, by rw [r4]; exact h.src, fun q => absurd (r3 ▸ q) hnd, (fun q => nomatch q), ?_, ?_, h.front, ?_, ?_⟩
    · intro l j q; cases q
      obtain ⟨hlt, rfl⟩ := List.getElem?_eq_some_iff.1 hx
      refine ⟨hi, hlt, ?_, off, by rw [r7]; exact f4⟩
      rw [r8, Ring.collect_step f3, List.take_succ_eq_append_getElem]
    · rw [r5]; exact h.got
    · intro l acc n tmp q
      have := h.copy l acc n tmp q
      rw [r4, r5, r6]; exact this
    · intro r hr
      have := h.log r hr
      exact ⟨this.le, this.full, fun q => absurd (this.short q).1 hnd⟩
  | @push len i s' o st hw e =>
    obtain ⟨⟨xs, r1, r2⟩, r3, r4, r5, r6⟩ := Ring.step_push e
    have hnd : a.s.ring.quit ≠ true := fun q => by have := (h.done q).1; rw [hw] at this; cases this
    obtain ⟨f1, f2, f3, off, f4⟩ := h.fill len i hw
    have hxs : xs = a.src.take i := by rw [f3] at r1; exact (Option.some.inj r1).symm
    refine ⟨.step h.ring e, ?_, fun q => absurd (r5 ▸ q) hnd, (fun q => nomatch q), (fun _ _ q => nomatch q), ?_, h.front, ?_, ?_⟩
    · show s'.sent ++ a.src.drop i = orig
      rw [r2, hxs, List.append_assoc, List.take_append_drop]; exact h.src
    · rw [r3]; exact h.got
    · intro l acc n tmp q
      obtain ⟨c1, c2, c3, c4, c5, c6⟩ := h.copy l acc n tmp q
      show _ ∧ _ ∧ s'.got.length + n ≤ s'.sent.length ∧ _ ∧ (∃ off len, s'.cwin = some (off, len) ∧ _) ∧ tmp = (List.range tmp.length).map fun i => s'.sent[s'.got.length + i]?
      rw [r3, r4]
      refine ⟨c1, c2, by rw [r2, List.length_append]; omega, c4, c5, ?_⟩
      rw [r2]
      conv => lhs; rw [c6]
      apply List.map_congr_left
      intro j hj
      have := List.mem_range.1 hj
      rw [List.getElem?_append_left (by omega)]
    · intro r hr
      have := h.log r hr
      exact ⟨this.le, this.full, fun q => absurd (this.short q).1 hnd⟩
  | more hw hok =>
    refine ⟨h.ring, h.src, fun q => ?_, (fun q => nomatch q), (fun _ _ q => nomatch q), h.got, h.front, h.copy, ?_⟩
    · have := (h.done q).1; rw [hw] at this; cases this
    · intro r hr; have := h.log r hr; exact ⟨this.le, this.full, this.short⟩
  | @quit s' o hw hok e =>
    obtain ⟨r1, r2, r3, r4, r5, r6, r7⟩ := Ring.step_quit e
    have hnd : a.s.ring.quit ≠ true := fun q => by have := (h.done q).1; rw [hw] at this; cases this
    refine ⟨.step h.ring e, by rw [r1]; exact h.src, fun _ => ⟨rfl, hok⟩, fun _ => r6, (fun _ _ q => nomatch q), by rw [r2]; exact h.got, h.front, ?_, ?_⟩
    · intro l acc n tmp q
      have := h.copy l acc n tmp q
      rw [r1, r2, r5]; exact this
    · intro r hr
      have := h.log r hr
      exact ⟨this.le, this.full, fun q => absurd (this.short q).1 hnd⟩
  | call l hu =>
    refine ⟨h.ring, h.src, h.done, h.done', h.fill, ?_, ?_, (fun _ _ _ _ q => nomatch q), ?_⟩
    · have := h.got; rw [hu] at this; exact this
    · intro l' acc b q; cases q
      by_cases c : l = 0
      · exact Or.inr ⟨c, rfl⟩
      · exact Or.inl (by simp; omega)
    · intro r hr; have := h.log r hr
      exact ⟨this.le, this.full, fun q => ⟨(this.short q).1, (this.short q).2.1, rfl, (this.short q).2.2.2⟩⟩
  | @front l acc b s' off len hu e =>
    obtain ⟨r1, r2, r3, r4, r5, r6, r7⟩ := Ring.step_front e
    have hwin := (Ring.ring_windows hN h.ring b off len).2 r1.symm
    refine ⟨.step h.ring e, by rw [r3]; exact h.src, by rw [r2]; exact h.done, by rw [r2]; exact h.done', ?_, ?_, (fun _ _ _ q => nomatch q), ?_, ?_⟩
    · intro l i q
      rw [r5, r6]; exact h.fill l i q
    · have := h.got; rw [hu] at this; rw [r4]; exact this
    · intro l' acc' n tmp q; cases q
      have hf := h.front l acc b hu
      refine ⟨?_, Nat.zero_le _, ?_, ?_, ⟨off, len, r7 off len rfl, Nat.min_le_right _ _⟩, rfl⟩
      · rcases hf with c | ⟨c, d⟩
        · omega
        · subst d; simp [Nat.min_le_left]
      · rw [r3, r4]; omega
      · intro q
        rcases hf with c | ⟨c, d⟩
        · omega
        · exact c
    · intro r hr
      have := h.log r hr
      refine ⟨this.le, this.full, ?_⟩
      show _ → s'.ring.quit = true ∧ s'.got.length = s'.sent.length ∧ acc = [] ∧ _
      have hsh := this.short
      rw [hu] at hsh
      rw [r2, r3, r4]; exact hsh
  | @frontBlock l acc b s' hu e =>
    obtain ⟨r1, r2, r3, r4, r5, r6, r7⟩ := Ring.step_front e
    refine ⟨.step h.ring e, by rw [r3]; exact h.src, by rw [r2]; exact h.done, by rw [r2]; exact h.done', ?_, ?_, ?_, (fun _ _ _ _ q => nomatch q), ?_⟩
    · intro l i q
      rw [r5, r6]; exact h.fill l i q
    · have := h.got; rw [hu] at this; rw [r4]; exact this
    · intro l' acc' b' q; cases q; exact h.front l acc b hu
    · intro r hr
      have := h.log r hr
      refine ⟨this.le, this.full, ?_⟩
      show _ → s'.ring.quit = true ∧ s'.got.length = s'.sent.length ∧ acc = [] ∧ _
      have hsh := this.short
      rw [hu] at hsh
      rw [r2, r3, r4]; exact hsh
  | @frontNull l acc b s' hu e =>
    obtain ⟨r1, r2, r3, r4, r5, r6, r7⟩ := Ring.step_front e
    obtain ⟨hq, hz⟩ := Ring.front_null r1.symm
    have hf := h.front l acc b hu
    refine ⟨.step h.ring e, by rw [r3]; exact h.src, by rw [r2]; exact h.done, by rw [r2]; exact h.done', ?_, ?_, (fun _ _ _ q => nomatch q), (fun _ _ _ _ q => nomatch q), ?_⟩
    · intro l i q
      rw [r5, r6]; exact h.fill l i q
    · have := h.got; rw [hu] at this
      rw [r4, this]; simp [heard, UPC.acc]
    · intro r hr
      rcases List.mem_append.1 hr with hr | hr
      · have := h.log r hr
        refine ⟨this.le, this.full, ?_⟩
        show _ → s'.ring.quit = true ∧ s'.got.length = s'.sent.length ∧ [] = [] ∧ _
        rw [r2, r3, r4]; exact fun q => ⟨(this.short q).1, (this.short q).2.1, rfl, (this.short q).2.2.2⟩
      · rw [List.mem_singleton] at hr
        subst hr
        refine ⟨?_, ?_, ?_⟩
        · show acc.length ≤ l
          rcases hf with c | ⟨c, d⟩
          · omega
          · subst d; simp
        · intro q
          have q' : acc.length = l := q
          show (if _ then _ else _) = St.ok
          rw [if_pos]
          rcases hf with c | ⟨c, d⟩
          · omega
          · exact Or.inr c
        · intro q
          have q' : acc.length < l := q
          show s'.ring.quit = true ∧ s'.got.length = s'.sent.length ∧ [] = [] ∧ (if l - acc.length < l ∨ l = 0 then St.ok else a.srcSt) = if acc = [] then a.srcSt else .ok
          rw [r2, r3, r4]
          refine ⟨hq, by omega, rfl, ?_⟩
          by_cases c : acc = []
          · subst c
            rw [if_pos rfl, if_neg (by simp; intro q; subst q; simp at q')]
          · have : 0 < acc.length := List.length_pos_iff.2 c
            rw [if_neg c, if_pos (by omega)]
  | @load l acc n tmp v s' hu hlt e =>
    obtain rfl := Ring.step_load e
    obtain ⟨c1, c2, c3, c4, c5, c6⟩ := h.copy l acc n tmp hu
    refine ⟨h.ring, h.src, h.done, h.done', h.fill, ?_, (fun _ _ _ q => nomatch q), ?_, ?_⟩
    · have := h.got; rw [hu] at this; exact this
    · intro l' acc' n' tmp' q; cases q
      refine ⟨c1, by rw [List.length_append]; exact hlt, c3, c4, c5, ?_⟩
      rw [List.length_append, List.length_singleton, List.range_succ, List.map_append, List.map_singleton, ← c6, (Ring.ring_load hN h.ring e).1]
    · intro r hr; have := h.log r hr
      have hsh := this.short
      rw [hu] at hsh
      exact ⟨this.le, this.full, hsh⟩
  | @pop l acc n tmp s' o hu hn hm e =>
    obtain ⟨c1, c2, c3, c4, c5, c6⟩ := h.copy l acc n tmp hu
    have hg := Ring.got_drop hN h.ring n c3 e
    obtain ⟨r1, r2, r3, r4, r5, r6⟩ := Ring.step_pop e
    refine ⟨.step h.ring e, by rw [r1]; exact h.src, by rw [r5]; exact h.done, by rw [r5]; exact h.done', ?_, ?_, ?_, (fun _ _ _ _ q => nomatch q), ?_⟩
    · intro l i q
      rw [r3, r4]; exact h.fill l i q
    · have := h.got; rw [hu] at this
      show s'.got = heard a.log ++ (acc ++ tmp)
      rw [hg, ← List.append_assoc, c6, hn]
      exact congrArg (· ++ _) this
    · intro l' acc' b' q; cases q
      rw [List.length_append]; omega
    · intro r hr
      have := h.log r hr
      refine ⟨this.le, this.full, fun q => ?_⟩
      obtain ⟨s1, s2, s3⟩ := this.short q
      have hz : n = 0 := by omega
      have := c4 hz
      omega
  | @popRet l acc n tmp s' o hu hn hm e =>
    obtain ⟨c1, c2, c3, c4, c5, c6⟩ := h.copy l acc n tmp hu
    have hg := Ring.got_drop hN h.ring n c3 e
    obtain ⟨r1, r2, r3, r4, r5, r6⟩ := Ring.step_pop e
    refine ⟨.step h.ring e, by rw [r1]; exact h.src, by rw [r5]; exact h.done, by rw [r5]; exact h.done', ?_, ?_, (fun _ _ _ q => nomatch q), (fun _ _ _ _ q => nomatch q), ?_⟩
    · intro l i q
      rw [r3, r4]; exact h.fill l i q
    · have := h.got; rw [hu] at this
      show s'.got = heard (a.log ++ _) ++ []
      rw [hg, List.append_nil, heard, List.flatMap_append]
      simp only [List.flatMap_cons, List.flatMap_nil, List.append_nil]
      rw [← List.append_assoc, c6, hn]
      exact congrArg (· ++ _) this
    · intro r hr
      rcases List.mem_append.1 hr with hr | hr
      · have := h.log r hr
        refine ⟨this.le, this.full, fun q => ?_⟩
        obtain ⟨s1, s2, s3⟩ := this.short q
        show s'.ring.quit = true ∧ s'.got.length = s'.sent.length ∧ [] = [] ∧ _
        rw [r5, r1, r2]
        exact ⟨s1, by omega, rfl, s3.2⟩
      · rw [List.mem_singleton] at hr
        subst hr
        refine ⟨?_, fun _ => rfl, fun q => ?_⟩
        · show (acc ++ tmp).length ≤ l; rw [List.length_append]; omega
        · have q' : (acc ++ tmp).length < l := q
          rw [List.length_append] at q'; omega

theorem reach_inv {N : Nat} (hN : 0 < N) {orig : List β} {a : A β} (h : Reach N orig a) : Inv N orig a := by
  induction h with
  | init =>
    refine ⟨.init, rfl, (fun q => nomatch q), (fun q => nomatch q), (fun _ _ q => nomatch q), rfl, (fun _ _ _ q => nomatch q), (fun _ _ _ _ q => nomatch q), (fun _ q => nomatch q)⟩
  | step _ hs ih => exact inv_step hN ih hs

/-! ### Properties -/

/-- **C40** (reader) In every schedule: the bytes returned to the user, in order, are the first bytes of the source;
no call returns more than requested; a call that returns less than requested is possible only once the source has
stopped (not ok) and everything it has delivered has been returned, and then reports the source's state if it
returned nothing; every other call reports ok. -/
theorem async_reader_stream {N : Nat} (hN : 0 < N) {orig : List β} {a : A β} (h : Reach N orig a) :
    heard a.log = (orig.take (heard a.log).length).map some ∧
    ∀ r ∈ a.log, r.bytes.length ≤ r.length ∧
      (r.bytes.length = r.length → r.st = .ok) ∧
      (r.bytes.length < r.length → a.srcSt ≠ .ok ∧ (heard a.log).length + a.src.length = orig.length ∧
        r.st = if r.bytes = [] then a.srcSt else .ok) := by
  have hi := reach_inv hN h
  have hf := Ring.ring_fifo hN hi.ring
  have hsrc := hi.src
  have hg := hi.got
  have hgl := congrArg List.length hg
  rw [List.length_append] at hgl
  constructor
  · have e : heard a.log = a.s.got.take (heard a.log).length := by rw [hg, List.take_left]
    conv => lhs; rw [e, hf.1]
    rw [← hsrc, ← List.map_take, List.take_take, Nat.min_eq_left (by omega), List.take_append_of_le_length (by omega)]
  · intro r hr
    have hc := hi.log r hr
    refine ⟨hc.le, hc.full, fun q => ?_⟩
    obtain ⟨s1, s2, hacc, s3⟩ := hc.short q
    refine ⟨(hi.done s1).2, ?_, s3⟩
    rw [hacc, List.length_nil] at hgl
    rw [← hsrc, List.length_append]; omega

/-- **C40** (reader, memory) In every schedule the source fills only memory the ring granted to the worker, the user
copies only bytes that are there, and every commit and release is within what was granted. -/
theorem async_reader_memory {N : Nat} (hN : 0 < N) {orig : List β} {a : A β} (h : Reach N orig a) :
    (∀ len i, a.w = .fill len i → (∀ x, i < len → ∃ s', a.s.step N (.store i x) = some (s', .unit)) ∧
      ∃ s', a.s.step N (.push i) = some (s', .unit)) ∧
    (∀ l acc n tmp, a.u = .copy l acc n tmp → (tmp.length < n → ∃ x, a.s.step N (.load tmp.length) = some (a.s, .val (some x))) ∧
      (tmp.length = n → ∃ s', a.s.step N (.pop n) = some (s', .unit))) := by
  have hi := reach_inv hN h
  constructor
  · intro len i hw
    obtain ⟨f1, f2, f3, off, f4⟩ := hi.fill len i hw
    refine ⟨fun x hx => ?_, ?_⟩
    · simp only [Ring.Sys.step, f4, hx, if_true]; exact ⟨_, rfl⟩
    · simp only [Ring.Sys.step, f4, f1, if_true, f3]; exact ⟨_, rfl⟩
  · intro l acc n tmp hu
    obtain ⟨c1, c2, c3, c4, ⟨off, len, c5, c5'⟩, c6⟩ := hi.copy l acc n tmp hu
    refine ⟨fun hx => ?_, fun _ => ?_⟩
    · have e : a.s.step N (.load tmp.length) = some (a.s, .val (a.s.ring.data (off + tmp.length))) := by
        simp only [Ring.Sys.step, c5, show tmp.length < len by omega, if_true]
      have := (Ring.ring_load hN hi.ring e).1
      rw [this, List.getElem?_eq_getElem (by omega)] at e
      exact ⟨_, e⟩
    · simp only [Ring.Sys.step, c5, c5', if_true]; exact ⟨_, rfl⟩

/-- Non-vacuity: the source delivers two bytes, then ends; the user gets one, then the other and the end. -/
example : ∃ a : A Nat, Reach 2 [7, 8] a ∧ a.log.map (fun r => (r.length, r.bytes, r.st)) =
    [(1, [some 7], .ok), (5, [some 8], .ok), (5, [], .eof)] :=
  ⟨_, .step (.step (.step (.step (.step (.step (.step (.step (.step (.step (.step (.step (.step (.step (.step (.step .init
    (.back rfl rfl)) (.byte rfl (by decide) rfl rfl)) (.call 1 rfl)) (.byte rfl (by decide) rfl rfl)) (.push .eof rfl rfl))
    (.front rfl rfl)) (.load rfl (by decide) rfl)) (.popRet rfl rfl rfl rfl)) (.call 5 rfl)) (.quit rfl (by decide) rfl))
    (.front rfl rfl)) (.load rfl (by decide) rfl)) (.pop rfl rfl (by decide) rfl)) (.frontNull rfl rfl)) (.call 5 rfl)) (.frontNull rfl rfl), rfl⟩

end Verif.Stream.AsyncReader
