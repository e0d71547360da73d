import Verif.Stream.RingSteps
import Verif.Stream.Basic
/-
Model of `stdex::stream::async_writer` (include/stdex/stream.hpp 1319-1384): the user thread writes to the ring, the
worker thread writes from the ring to the destination. Every step of either thread is one event of the ring model
(`Verif.Ring.Sys.step`), a single byte stored or loaded, or a local step, so all schedules are covered.

* The destination may accept any part of what it is offered, and end in any state.
* The worker's return from `m_source->write` and its `m_ring.pop` are one step: the destination is looked at by the
  user only after `flush` or the destructor.
* A `none` among the bytes the destination gets is memory nobody has written.
* Not modelled: `converter::flush` of the destination itself (1361).
-/
namespace Verif.Stream.AsyncWriter
open Verif.Stream
variable {β : Type}

/-- Where the worker is in `process`, 1365-1379: at `front()`, in `m_source->write` of `len` bytes with `tmp` looked
at, at the test of 1374, or finished. -/
inductive WPC (β : Type) where
  | front (waited : Bool) | write (len : Nat) (tmp : List (Option β)) | check | done

/-- Where the user is: not in a call; in `write` at `back()` 1340 with `n` bytes handed over; in the `memcpy` 1347 of
`m` bytes with `i` copied; in `flush` at `sync()` 1360; in the destructor at `join()` 1331; past the destructor. -/
inductive UPC (β : Type) where
  | idle
  | back (data : List β) (n : Nat) (waited : Bool)
  | fill (data : List β) (n m i : Nat)
  | flush
  | join
  | gone

/-- The data of a call in progress. -/
def UPC.data : UPC β → List β
  | .back d _ _ => d
  | .fill d _ _ _ => d
  | _ => []

/-- How much of it was handed over. -/
def UPC.n : UPC β → Nat
  | .back _ n _ => n
  | .fill _ n _ _ => n
  | _ => 0

/-- A returned call; `flush` and the destructor with what the destination has at that moment. -/
inductive Ev (β : Type) where
  | wrote (data : List β) (n : Nat) (st : St)
  | flushed (dst : List (Option β))
  | destroyed (dst : List (Option β))

/-- The bytes a returned call reported as written. -/
def Ev.accepted : Ev β → List β
  | .wrote d n _ => d.take n
  | _ => []

/-- All bytes reported as written, in order. -/
def accepted (log : List (Ev β)) : List β := log.flatMap Ev.accepted

structure A (β : Type) where
  s : Ring.Sys β
  /-- What the destination has received. -/
  dst : List (Option β)
  dstSt : St
  w : WPC β
  u : UPC β
  log : List (Ev β)

/-- Start, 1323-1326. -/
def A.init : A β := ⟨Ring.Sys.init, [], .ok, .front false, .idle, []⟩

/-- One step of either thread. -/
inductive Step (N : Nat) : A β → A β → Prop where
  /-- 1369, data available. -/
  | front {a : A β} {b s' off len} : a.w = .front b → a.s.step N (.front b) = some (s', .res (.window off len)) →
      Step N a { a with s := s', w := .write len [] }
  | frontBlock {a : A β} {b s'} : a.w = .front b → a.s.step N (.front b) = some (s', .res .block) →
      Step N a { a with s := s', w := .front true }
  /-- 1370-1371. -/
  | frontNull {a : A β} {b s'} : a.w = .front b → a.s.step N (.front b) = some (s', .res .null) →
      Step N a { a with s := s', w := .done }
  /-- The destination looks at a byte, 1372. -/
  | load {a : A β} {len tmp v s'} : a.w = .write len tmp → tmp.length < len → a.s.step N (.load tmp.length) = some (s', .val v) →
      Step N a { a with s := s', w := .write len (tmp ++ [v]) }
  /-- The destination returns, having accepted `n` bytes, in any state; 1372-1373. -/
  | pop {a : A β} {len tmp s' o} (n : Nat) (st : St) : a.w = .write len tmp → n ≤ tmp.length → a.s.step N (.pop n) = some (s', o) →
      Step N a { a with s := s', dst := a.dst ++ tmp.take n, dstSt := st, w := .check }
  /-- 1374, ok. -/
  | more {a : A β} : a.w = .check → a.dstSt = .ok → Step N a { a with w := .front false }
  /-- 1374-1377. -/
  | fail {a : A β} {s' o} : a.w = .check → a.dstSt ≠ .ok → a.s.step N .quit = some (s', o) → Step N a { a with s := s', w := .done }
  /-- The user calls `write`, 1334-1338. -/
  | call {a : A β} (d : List β) : a.u = .idle → Step N a { a with u := .back d 0 false }
  /-- 1340 and 1345-1346, space available. -/
  | back {a : A β} {d n b s' off len} : a.u = .back d n b → a.s.step N (.back b) = some (s', .res (.window off len)) →
      Step N a { a with s := s', u := .fill d n (min (d.length - n) len) 0 }
  | backBlock {a : A β} {d n b s'} : a.u = .back d n b → a.s.step N (.back b) = some (s', .res .block) →
      Step N a { a with s := s', u := .back d n true }
  /-- 1341-1344. -/
  | backNull {a : A β} {d n b s'} : a.u = .back d n b → a.s.step N (.back b) = some (s', .res .null) →
      Step N a { a with s := s', u := .idle, log := a.log ++ [.wrote d n .fail] }
  /-- A byte of the `memcpy`, 1347. -/
  | store {a : A β} {d n m i x s' o} : a.u = .fill d n m i → i < m → d[n + i]? = some x → a.s.step N (.store i x) = some (s', o) →
      Step N a { a with s := s', u := .fill d n m (i + 1) }
  /-- 1348-1350 and 1354: more is left. -/
  | push {a : A β} {d n m s' o} : a.u = .fill d n m m → d.length - n - m ≠ 0 → a.s.step N (.push m) = some (s', o) →
      Step N a { a with s := s', u := .back d (n + m) false }
  /-- 1348-1353: done. -/
  | pushRet {a : A β} {d n m s' o} : a.u = .fill d n m m → d.length - n - m = 0 → a.s.step N (.push m) = some (s', o) →
      Step N a { a with s := s', u := .idle, log := a.log ++ [.wrote d d.length .ok] }
  /-- The user calls `flush`, 1358. -/
  | flush {a : A β} : a.u = .idle → Step N a { a with u := .flush }
  /-- `sync()` returns, 1360. -/
  | flushRet {a : A β} : a.u = .flush → a.s.ring.sync = true → Step N a { a with u := .idle, log := a.log ++ [.flushed a.dst] }
  /-- The destructor, 1330. -/
  | destroy {a : A β} {s' o} : a.u = .idle → a.s.step N .quit = some (s', o) → Step N a { a with s := s', u := .join }
  /-- `join()` returns, 1331. -/
  | joined {a : A β} : a.u = .join → a.w = .done → Step N a { a with u := .gone, log := a.log ++ [.destroyed a.dst] }

/-- States reachable in any schedule. -/
inductive Reach (N : Nat) : A β → Prop where
  | init : Reach N A.init
  | step {a a' : A β} : Reach N a → Step N a a' → Reach N a'

/-! ### The invariant -/

/-- What holds of a returned call, after the calls `before`. -/
def EvOk (a : A β) (before : List (Ev β)) : Ev β → Prop
  | .wrote d n st => (st = .ok ∧ n = d.length) ∨ (st = .fail ∧ n ≤ d.length ∧ a.dstSt ≠ .ok)
  | .flushed x => x = (accepted before).map some ∨ a.dstSt ≠ .ok
  | .destroyed x => x = (accepted before).map some ∨ a.dstSt ≠ .ok

/-- The destructor has started. -/
def UPC.ending : UPC β → Prop
  | .join => True
  | .gone => True
  | _ => False

structure Inv (N : Nat) (a : A β) : Prop where
  ring : Ring.Reach N a.s
  sent : a.s.sent = accepted a.log ++ a.u.data.take a.u.n
  dst : a.dst = a.s.got
  quit : a.s.ring.quit = true → (a.dstSt ≠ .ok ∧ a.w = .done) ∨ a.u.ending
  bad : a.dstSt ≠ .ok → a.w = .check ∨ a.w = .done
  done : a.w = .done → a.dstSt ≠ .ok ∨ (a.u.ending ∧ a.s.sent.length = a.s.got.length)
  write : ∀ len tmp, a.w = .write len tmp → tmp.length ≤ len ∧ a.s.got.length + len ≤ a.s.sent.length ∧
    (∃ off, a.s.cwin = some (off, len)) ∧ tmp = (List.range tmp.length).map fun i => a.s.sent[a.s.got.length + i]?
  back : ∀ d n b, a.u = .back d n b → n < d.length ∨ (d = [] ∧ n = 0)
  fill : ∀ d n m i, a.u = .fill d n m i → i ≤ m ∧ n + m ≤ d.length ∧ Ring.collect a.s.staged i = some ((d.drop n).take i) ∧
    ∃ off len, a.s.pwin = some (off, len) ∧ m ≤ len
  log : ∀ l1 e l2, a.log = l1 ++ e :: l2 → EvOk a l1 e

theorem EvOk.mono {a a' : A β} {l : List (Ev β)} {e : Ev β} (h : EvOk a l e) (hs : a.dstSt ≠ .ok → a'.dstSt ≠ .ok) : EvOk a' l e := by
  cases e with
  | wrote d n st => exact h.imp id fun q => ⟨q.1, q.2.1, hs q.2.2⟩
  | flushed x => exact h.imp id hs
  | destroyed x => exact h.imp id hs

/-- A record appended to the log. -/
theorem log_append {a a' : A β} {e : Ev β} (h : ∀ l1 e l2, a.log = l1 ++ e :: l2 → EvOk a l1 e) (hs : a'.dstSt = a.dstSt)
    (hl : a'.log = a.log ++ [e]) (he : EvOk a' a.log e) : ∀ l1 e l2, a'.log = l1 ++ e :: l2 → EvOk a' l1 e := by
  intro l1 e' l2 q
  rw [hl] at q
  rcases List.append_eq_append_iff.1 q with ⟨x, q1, q2⟩ | ⟨x, q1, q2⟩
  · -- the record is at or past the end of the old log
    cases x with
    | nil => 
      simp only [List.nil_append, List.append_nil] at q1 q2
      injection q2 with q3 q4
      subst q3; rw [q1]; exact he
    | cons y ys =>
      simp only [List.cons_append] at q2
      injection q2 with q3 q4
      cases ys <;> simp at q4
  · cases x with
    | nil =>
      simp only [List.nil_append, List.append_nil] at q1 q2
      injection q2 with q3 q4
      subst q3; rw [← q1]; exact he
    | cons y ys =>
      simp only [List.cons_append] at q2
      injection q2 with q3 q4
      subst q3
      exact (h l1 e' ys q1).mono (fun c => by rw [hs]; exact c)

theorem inv_step {N : Nat} (hN : 0 < N) {a a' : A β} (h : Inv N a) (hs : Step N a a') : Inv N a' := by
  have hfifo := Ring.ring_fifo hN h.ring
  cases hs with
  | @front b s' off len hw e =>
    obtain ⟨r1, r2, r3, r4, r5, r6, r7⟩ := Ring.step_front e
    have hwin := (Ring.ring_windows hN h.ring b off len).2 r1.symm
    have hok : ¬ a.dstSt ≠ .ok := fun q => by have := h.bad q; rw [hw] at this; rcases this with c | c <;> cases c
    refine ⟨.step h.ring e, by rw [r3]; exact h.sent, by rw [r4]; exact h.dst, ?_, fun q => absurd q hok, (fun q => nomatch q), ?_, h.back, ?_, h.log⟩
    · rw [r2]; exact fun q => (h.quit q).imp (fun c => absurd c.1 hok) id
    · intro l tmp q; cases q
      rw [r3, r4]
      exact ⟨Nat.zero_le _, by omega, ⟨off, r7 off len rfl⟩, rfl⟩
    · intro d n m i q
      rw [r5, r6]; exact h.fill d n m i q
  | @frontBlock b s' hw e =>
    obtain ⟨r1, r2, r3, r4, r5, r6, r7⟩ := Ring.step_front e
    have hok : ¬ a.dstSt ≠ .ok := fun q => by have := h.bad q; rw [hw] at this; rcases this with c | c <;> cases c
    refine ⟨.step h.ring e, by rw [r3]; exact h.sent, by rw [r4]; exact h.dst, ?_, fun q => absurd q hok, (fun q => nomatch q), (fun _ _ q => nomatch q), h.back, ?_, h.log⟩
    · rw [r2]; exact fun q => (h.quit q).imp (fun c => absurd c.1 hok) id
    · intro d n m i q
      rw [r5, r6]; exact h.fill d n m i q
  | @frontNull b s' hw e =>
    obtain ⟨r1, r2, r3, r4, r5, r6, r7⟩ := Ring.step_front e
    obtain ⟨hq, hz⟩ := Ring.front_null r1.symm
    have hok : ¬ a.dstSt ≠ .ok := fun q => by have := h.bad q; rw [hw] at this; rcases this with c | c <;> cases c
    have hend : a.u.ending := (h.quit hq).resolve_left fun c => hok c.1
    refine ⟨.step h.ring e, by rw [r3]; exact h.sent, by rw [r4]; exact h.dst, fun _ => Or.inr hend, fun _ => Or.inr rfl, ?_, (fun _ _ q => nomatch q), h.back, ?_, h.log⟩
    · intro _; rw [r3, r4]; exact Or.inr ⟨hend, by omega⟩
    · intro d n m i q
      rw [r5, r6]; exact h.fill d n m i q
  | @load len tmp v s' hw hlt e =>
    obtain rfl := Ring.step_load e
    obtain ⟨c1, c2, c3, c4⟩ := h.write len tmp hw
    have hok : ¬ a.dstSt ≠ .ok := fun q => by have := h.bad q; rw [hw] at this; rcases this with c | c <;> cases c
    refine ⟨h.ring, h.sent, h.dst, fun q => (h.quit q).imp (fun c => absurd c.1 hok) id, fun q => absurd q hok, (fun q => nomatch q), ?_, h.back, h.fill, h.log⟩
    intro l tmp' q; cases q
    refine ⟨by rw [List.length_append]; exact hlt, c2, c3, ?_⟩
    rw [List.length_append, List.length_singleton, List.range_succ, List.map_append, List.map_singleton, ← c4, (Ring.ring_load hN h.ring e).1]
  | @pop len tmp s' o n st hw hn e =>
    obtain ⟨c1, c2, c3, c4⟩ := h.write len tmp hw
    have hg := Ring.got_drop hN h.ring n (by omega) e
    obtain ⟨r1, r2, r3, r4, r5, r6⟩ := Ring.step_pop e
    have hok : ¬ a.dstSt ≠ .ok := fun q => by have := h.bad q; rw [hw] at this; rcases this with c | c <;> cases c
    have hndone : a.w ≠ .done := by rw [hw]; exact fun q => nomatch q
    refine ⟨.step h.ring e, by rw [r1]; exact h.sent, ?_, ?_, fun _ => Or.inl rfl, (fun q => nomatch q), (fun _ _ q => nomatch q), h.back, ?_, ?_⟩
    · show a.dst ++ tmp.take n = s'.got
      rw [hg, h.dst, c4, ← List.map_take, List.take_range, Nat.min_eq_left (by simpa using hn)]
    · rw [r5]; exact fun q => (h.quit q).imp (fun c => absurd c.2 hndone) id
    · intro d n m i q
      rw [r3, r4]; exact h.fill d n m i q
    · intro l1 e l2 q
      exact (h.log l1 e l2 q).mono fun c => absurd c hok
  | more hw hok =>
    refine ⟨h.ring, h.sent, h.dst, ?_, fun q => absurd hok q, (fun q => nomatch q), (fun _ _ q => nomatch q), h.back, h.fill, h.log⟩
    exact fun q => (h.quit q).imp (fun c => absurd hok c.1) id
  | @fail s' o hw hok e =>
    obtain ⟨r1, r2, r3, r4, r5, r6, r7⟩ := Ring.step_quit e
    refine ⟨.step h.ring e, by rw [r1]; exact h.sent, by rw [r2]; exact h.dst, fun _ => Or.inl ⟨hok, rfl⟩, fun _ => Or.inr rfl, fun _ => Or.inl hok, (fun _ _ q => nomatch q), h.back, ?_, h.log⟩
    intro d n m i q
    rw [r3, r4]; exact h.fill d n m i q
  | call d hu =>
    refine ⟨h.ring, ?_, h.dst, ?_, h.bad, ?_, h.write, ?_, (fun _ _ _ _ q => nomatch q), h.log⟩
    · have := h.sent; rw [hu] at this; exact this
    · intro q; exact (h.quit q).imp id fun c => by rw [hu] at c; exact c.elim
    · intro q; exact (h.done q).imp id fun c => by rw [hu] at c; exact c.1.elim
    · intro d' n b q; cases q
      by_cases c : d = []
      · exact Or.inr ⟨c, rfl⟩
      · exact Or.inl (List.length_pos_iff.2 c)
  | @back d n b s' off len hu e =>
    obtain ⟨r1, r2, r3, r4, r5, r6⟩ := Ring.step_back e
    have hb := h.back d n b hu
    refine ⟨.step h.ring e, ?_, by rw [r4]; exact h.dst, ?_, h.bad, ?_, ?_, (fun _ _ _ q => nomatch q), ?_, h.log⟩
    · have := h.sent; rw [hu] at this; rw [r3]; exact this
    · rw [r2]; intro q; exact (h.quit q).imp id fun c => by rw [hu] at c; exact c.elim
    · intro q; exact (h.done q).imp id fun c => by rw [hu] at c; exact c.1.elim
    · rw [r3, r4, r5]; exact h.write
    · intro d' n' m i q; cases q
      refine ⟨Nat.zero_le _, ?_, rfl, off, len, r6 off len rfl, Nat.min_le_right _ _⟩
      rcases hb with c | ⟨c, c'⟩
      · omega
      · subst c c'; simp
  | @backBlock d n b s' hu e =>
    obtain ⟨r1, r2, r3, r4, r5, r6⟩ := Ring.step_back e
    refine ⟨.step h.ring e, ?_, by rw [r4]; exact h.dst, ?_, h.bad, ?_, ?_, ?_, (fun _ _ _ _ q => nomatch q), h.log⟩
    · have := h.sent; rw [hu] at this; rw [r3]; exact this
    · rw [r2]; intro q; exact (h.quit q).imp id fun c => by rw [hu] at c; exact c.elim
    · intro q; exact (h.done q).imp id fun c => by rw [hu] at c; exact c.1.elim
    · rw [r3, r4, r5]; exact h.write
    · intro d' n' b' q; cases q; exact h.back d n b hu
  | @backNull d n b s' hu e =>
    obtain ⟨r1, r2, r3, r4, r5, r6⟩ := Ring.step_back e
    have hb := h.back d n b hu
    have hq := Ring.back_null r1.symm
    have hbad : a.dstSt ≠ .ok := by
      rcases h.quit hq with c | c
      · exact c.1
      · rw [hu] at c; exact c.elim
    refine ⟨.step h.ring e, ?_, by rw [r4]; exact h.dst, ?_, h.bad, fun _ => Or.inl hbad, ?_, (fun _ _ _ q => nomatch q), (fun _ _ _ _ q => nomatch q), ?_⟩
    · have := h.sent; rw [hu] at this; rw [r3, this]
      simp [accepted, Ev.accepted, UPC.data, UPC.n]
    · rw [r2]; intro q; exact (h.quit q).imp id fun c => by rw [hu] at c; exact c.elim
    · rw [r3, r4, r5]; exact h.write
    · refine log_append h.log rfl rfl (Or.inr ⟨rfl, ?_, hbad⟩)
      rcases hb with c | ⟨c, c'⟩
      · omega
      · rw [c']; exact Nat.zero_le _
  | @store d n m i x s' o hu hi hx e =>
    obtain ⟨r1, r2, r3, r4, r5, r6, r7, r8⟩ := Ring.step_store e
    obtain ⟨f1, f2, f3, off, len, f4, f5⟩ := h.fill d n m i hu
    refine ⟨.step h.ring e, ?_, by rw [r5]; exact h.dst, ?_, h.bad, ?_, ?_, (fun _ _ _ q => nomatch q), ?_, h.log⟩
    · have := h.sent; rw [hu] at this; rw [r4]; exact this
    · rw [r3]; intro q; exact (h.quit q).imp id fun c => by rw [hu] at c; exact c.elim
    · intro q; exact (h.done q).imp id fun c => by rw [hu] at c; exact c.1.elim
    · rw [r4, r5, r6]; exact h.write
    · intro d' n' m' i' q; cases q
      refine ⟨hi, f2, ?_, off, len, by rw [r7]; exact f4, f5⟩
      have hlt : i < (d.drop n).length := by rw [List.length_drop]; omega
      have hx' : x = (d.drop n)[i] := by
        rw [List.getElem_drop]
        rw [List.getElem?_eq_getElem (by omega)] at hx
        exact (Option.some.inj hx).symm
      rw [r8, Ring.collect_step f3, List.take_succ_eq_append_getElem hlt, hx']
  | @push d n m s' o hu hm e =>
    obtain ⟨⟨xs, r1, r2⟩, r3, r4, r5, r6⟩ := Ring.step_push e
    obtain ⟨f1, f2, f3, off, len, f4, f5⟩ := h.fill d n m m hu
    have hxs : xs = (d.drop n).take m := by rw [f3] at r1; exact (Option.some.inj r1).symm
    refine ⟨.step h.ring e, ?_, by rw [r3]; exact h.dst, ?_, h.bad, ?_, ?_, ?_, (fun _ _ _ _ q => nomatch q), h.log⟩
    · have := h.sent; rw [hu] at this
      rw [r2, this, hxs, List.append_assoc]
      show _ ++ (d.take n ++ _) = _ ++ d.take (n + m)
      rw [List.take_add]
    · rw [r5]; intro q; exact (h.quit q).imp id fun c => by rw [hu] at c; exact c.elim
    · intro q; exact (h.done q).imp id fun c => by rw [hu] at c; exact c.1.elim
    · intro l tmp q
      obtain ⟨c1, c2, c3, c4⟩ := h.write l tmp q
      rw [r3, r4]
      refine ⟨c1, by rw [r2, List.length_append]; omega, c3, ?_⟩
      rw [r2]
      conv => lhs; rw [c4]
      apply List.map_congr_left
      intro j hj
      have := List.mem_range.1 hj
      rw [List.getElem?_append_left (by omega)]
    · intro d' n' b' q; cases q; omega
  | @pushRet d n m s' o hu hm e =>
    obtain ⟨⟨xs, r1, r2⟩, r3, r4, r5, r6⟩ := Ring.step_push e
    obtain ⟨f1, f2, f3, off, len, f4, f5⟩ := h.fill d n m m hu
    have hxs : xs = (d.drop n).take m := by rw [f3] at r1; exact (Option.some.inj r1).symm
    refine ⟨.step h.ring e, ?_, by rw [r3]; exact h.dst, ?_, h.bad, ?_, ?_, (fun _ _ _ q => nomatch q), (fun _ _ _ _ q => nomatch q), ?_⟩
    · have := h.sent; rw [hu] at this
      rw [r2, this, hxs, List.append_assoc]
      show _ ++ (d.take n ++ _) = _
      rw [← List.take_add, List.take_of_length_le (by omega : d.length ≤ n + m)]
      simp [accepted, Ev.accepted, UPC.data, UPC.n]
    · rw [r5]; intro q; exact (h.quit q).imp id fun c => by rw [hu] at c; exact c.elim
    · intro q; exact (h.done q).imp id fun c => by rw [hu] at c; exact c.1.elim
    · intro l tmp q
      obtain ⟨c1, c2, c3, c4⟩ := h.write l tmp q
      rw [r3, r4]
      refine ⟨c1, by rw [r2, List.length_append]; omega, c3, ?_⟩
      rw [r2]
      conv => lhs; rw [c4]
      apply List.map_congr_left
      intro j hj
      have := List.mem_range.1 hj
      rw [List.getElem?_append_left (by omega)]
    · exact log_append h.log rfl rfl (Or.inl ⟨rfl, rfl⟩)
  | flush hu =>
    refine ⟨h.ring, ?_, h.dst, ?_, h.bad, ?_, h.write, (fun _ _ _ q => nomatch q), (fun _ _ _ _ q => nomatch q), h.log⟩
    · have := h.sent; rw [hu] at this; exact this
    · intro q; exact (h.quit q).imp id fun c => by rw [hu] at c; exact c.elim
    · intro q; exact (h.done q).imp id fun c => by rw [hu] at c; exact c.1.elim
  | flushRet hu hsync =>
    have hsent := h.sent
    rw [hu] at hsent
    simp only [UPC.data, UPC.n, List.take_nil, List.append_nil] at hsent
    refine ⟨h.ring, ?_, h.dst, ?_, h.bad, ?_, h.write, (fun _ _ _ q => nomatch q), (fun _ _ _ _ q => nomatch q), ?_⟩
    · rw [hsent]; simp [accepted, Ev.accepted, UPC.data, UPC.n]
    · intro q; exact (h.quit q).imp id fun c => by rw [hu] at c; exact c.elim
    · intro q; exact (h.done q).imp id fun c => by rw [hu] at c; exact c.1.elim
    · refine log_append h.log rfl rfl ?_
      show a.dst = (accepted a.log).map some ∨ a.dstSt ≠ .ok
      by_cases hq : a.s.ring.quit = true
      · right
        rcases h.quit hq with c | c
        · exact c.1
        · rw [hu] at c; exact c.elim
      · left
        have hz : a.s.ring.size = 0 := by simpa [Ring.Ring.sync, Ring.Ring.empty, hq] using hsync
        rw [h.dst, hfifo.1, ← hsent, List.take_of_length_le (by omega)]
  | @destroy s' o hu e =>
    obtain ⟨r1, r2, r3, r4, r5, r6, r7⟩ := Ring.step_quit e
    refine ⟨.step h.ring e, ?_, by rw [r2]; exact h.dst, fun _ => Or.inr trivial, h.bad, ?_, ?_, (fun _ _ _ q => nomatch q), (fun _ _ _ _ q => nomatch q), h.log⟩
    · have := h.sent; rw [hu] at this; rw [r1]; exact this
    · intro q; exact (h.done q).imp id fun c => by rw [hu] at c; exact c.1.elim
    · rw [r1, r2, r5]; exact h.write
  | joined hu hw =>
    have hsent := h.sent
    rw [hu] at hsent
    simp only [UPC.data, UPC.n, List.take_nil, List.append_nil] at hsent
    refine ⟨h.ring, ?_, h.dst, fun _ => Or.inr trivial, h.bad, ?_, h.write, (fun _ _ _ q => nomatch q), (fun _ _ _ _ q => nomatch q), ?_⟩
    · rw [hsent]; simp [accepted, Ev.accepted, UPC.data, UPC.n]
    · intro q; exact (h.done q).imp id fun c => ⟨trivial, c.2⟩
    · refine log_append h.log rfl rfl ?_
      show a.dst = (accepted a.log).map some ∨ a.dstSt ≠ .ok
      rcases h.done hw with c | c
      · exact Or.inr c
      · left
        rw [h.dst, hfifo.1, ← hsent, List.take_of_length_le (by omega)]

theorem reach_inv {N : Nat} (hN : 0 < N) {a : A β} (h : Reach N a) : Inv N a := by
  induction h with
  | init =>
    refine ⟨.init, rfl, rfl, (fun q => nomatch q), fun q => absurd rfl q, (fun q => nomatch q), (fun _ _ q => nomatch q), (fun _ _ _ q => nomatch q), (fun _ _ _ _ q => nomatch q), ?_⟩
    intro l1 e l2 q
    cases l1 <;> cases q
  | step _ hs ih => exact inv_step hN ih hs

/-! ### Properties -/

/-- **C40** (writer) In every schedule: what the destination has received is, in order and without repetition, the
beginning of what the user has handed over (calls returned, then the call in progress); a write reports ok and its
full length, unless the destination has failed; whenever `flush` or the destructor returned, everything reported as
written before was with the destination, unless the destination has failed. -/
theorem async_writer_stream {N : Nat} (hN : 0 < N) {a : A β} (h : Reach N a) :
    a.dst = ((accepted a.log ++ a.u.data).take a.dst.length).map some ∧
    (∀ l1 d n st l2, a.log = l1 ++ .wrote d n st :: l2 →
      (st = .ok ∧ n = d.length) ∨ (st = .fail ∧ n ≤ d.length ∧ a.dstSt ≠ .ok)) ∧
    (∀ l1 x l2, a.log = l1 ++ .flushed x :: l2 → x = (accepted l1).map some ∨ a.dstSt ≠ .ok) ∧
    (∀ l1 x l2, a.log = l1 ++ .destroyed x :: l2 → x = (accepted l1).map some ∨ a.dstSt ≠ .ok) := by
  have hi := reach_inv hN h
  have hf := Ring.ring_fifo hN hi.ring
  refine ⟨?_, fun l1 d n st l2 q => hi.log l1 _ l2 q, fun l1 x l2 q => hi.log l1 _ l2 q, fun l1 x l2 q => hi.log l1 _ l2 q⟩
  have hs := hi.sent
  have hd := congrArg List.length hi.dst
  conv => lhs; rw [hi.dst, hf.1, ← hd]
  apply congrArg
  have e : accepted a.log ++ a.u.data = a.s.sent ++ a.u.data.drop a.u.n := by
    rw [hs, List.append_assoc, List.take_append_drop]
  rw [e, List.take_append_of_le_length (by omega)]

/-- **C40** (writer, memory) In every schedule the user's bytes go only to memory the ring granted to the user, the
destination is shown only bytes that are there, and every commit and release is within what was granted. -/
theorem async_writer_memory {N : Nat} (hN : 0 < N) {a : A β} (h : Reach N a) :
    (∀ d n m i, a.u = .fill d n m i → (i < m → ∃ x s', d[n + i]? = some x ∧ a.s.step N (.store i x) = some (s', .unit)) ∧
      (i = m → ∃ s', a.s.step N (.push m) = some (s', .unit))) ∧
    (∀ len tmp, a.w = .write len tmp → (tmp.length < len → ∃ x, a.s.step N (.load tmp.length) = some (a.s, .val (some x))) ∧
      (∀ n ≤ tmp.length, ∃ s', a.s.step N (.pop n) = some (s', .unit))) := by
  have hi := reach_inv hN h
  constructor
  · intro d n m i hu
    obtain ⟨f1, f2, f3, off, len, f4, f5⟩ := hi.fill d n m i hu
    refine ⟨fun hx => ?_, fun hx => ?_⟩
    · have hlt : n + i < d.length := by omega
      refine ⟨d[n + i], { a.s with ring := a.s.ring.store (off + i) d[n + i], staged := fun j => if j = i then some d[n + i] else a.s.staged j },
        List.getElem?_eq_getElem hlt, ?_⟩
      simp only [Ring.Sys.step, f4, show i < len by omega, if_true]
    · subst hx
      simp only [Ring.Sys.step, f4, f5, if_true, f3]; exact ⟨_, rfl⟩
  · intro len tmp hw
    obtain ⟨c1, c2, ⟨off, c3⟩, c4⟩ := hi.write len tmp hw
    refine ⟨fun hx => ?_, fun n hn => ?_⟩
    · have e : a.s.step N (.load tmp.length) = some (a.s, .val (a.s.ring.data (off + tmp.length))) := by
        simp only [Ring.Sys.step, c3, hx, if_true]
      have := (Ring.ring_load hN hi.ring e).1
      rw [this, List.getElem?_eq_getElem (by omega)] at e
      exact ⟨_, e⟩
    · simp only [Ring.Sys.step, c3, show n ≤ len by omega, if_true]; exact ⟨_, rfl⟩

/-- A reachable state: two bytes written, the worker about to hand them to the destination. -/
theorem demo1 : Reach 2 (⟨⟨⟨0, 2, false, fun j => if j = 1 then some 8 else if j = 0 then some 7 else none⟩, none,
    fun j => if j = 1 then some 8 else if j = 0 then some 7 else none, some (0, 2), [7, 8], []⟩, [], .ok, .write 2 [], .idle,
    [.wrote [7, 8] 2 .ok]⟩ : A Nat) :=
  .step (.step (.step (.step (.step (.step .init
    (.call [7, 8] rfl)) (.back rfl rfl)) (.store rfl (by decide) rfl rfl)) (.store rfl (by decide) rfl rfl)) (.pushRet rfl rfl rfl))
    (.front rfl rfl)

/-- The destination has looked at both bytes. -/
theorem demo2 : Reach 2 (⟨⟨⟨0, 2, false, fun j => if j = 1 then some 8 else if j = 0 then some 7 else none⟩, none,
    fun j => if j = 1 then some 8 else if j = 0 then some 7 else none, some (0, 2), [7, 8], []⟩, [], .ok, .write 2 [some 7, some 8], .idle,
    [.wrote [7, 8] 2 .ok]⟩ : A Nat) :=
  .step (.step demo1 (.load (s' := ⟨⟨0, 2, false, _⟩, _, _, _, _, _⟩) (v := some 7) rfl (by decide) rfl)) (.load (len := 2) (tmp := [some 7]) (v := some 8) rfl (by decide) rfl)

/-- Non-vacuity: a write, a flush during which the destination receives it, the destructor. -/
example : ∃ a : A Nat, Reach 2 a ∧ a.log = [.wrote [7, 8] 2 .ok, .flushed [some 7, some 8], .destroyed [some 7, some 8]] :=
  ⟨_, .step (.step (.step (.step (.step (.step (.step demo2
    (.flush rfl)) (.pop 2 .ok rfl (Nat.le_refl 2) rfl)) (.flushRet rfl rfl))
    (.destroy rfl rfl)) (.more rfl rfl)) (.frontNull rfl rfl)) (.joined rfl rfl), rfl⟩

/-- Non-vacuity: a destination that fails having taken one byte; the flush returns without the other. -/
example : ∃ a : A Nat, Reach 2 a ∧ a.dstSt = .fail ∧ a.log = [.wrote [7, 8] 2 .ok, .flushed [some 7]] :=
  ⟨_, .step (.step (.step (.step demo2 (.pop 1 .fail rfl (by decide) rfl)) (.fail rfl (fun q => nomatch q) rfl)) (.flush rfl)) (.flushRet rfl rfl), rfl, rfl⟩

end Verif.Stream.AsyncWriter
