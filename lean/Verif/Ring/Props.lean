import Verif.Ring.Sync
/-!
# Properties C01-C04: `stdex::ring`

`Reach N s`: `s` is reachable by any interleaving of producer, consumer and quit events.
`s.sent`: the values the producer itself stored and committed, in order.
`s.got`: the memory cells the consumer saw in the windows it popped, in order.
-/
namespace Verif.Ring
variable {α : Type}

/-- **C01** What the consumer popped is, cell by cell, a prefix of what the producer
committed; the rest is exactly the `m_size` elements still stored. -/
theorem ring_fifo {N : Nat} (hN : 0 < N) {s : Sys α} (h : Reach N s) :
    s.got = (s.sent.take s.got.length).map some ∧
    s.sent.length = s.got.length + s.ring.size ∧ s.ring.size ≤ N := by
  obtain ⟨q, hi⟩ := reach_inv hN h
  have hl := hi.log
  have hlen := congrArg List.length hl
  simp [hi.qlen] at hlen
  refine ⟨?_, hlen, hi.size_le⟩
  have := congrArg (List.take s.got.length) hl
  simpa using this.symm

/-- **C01** (reads) What the consumer loads at offset `i` of the window it holds is the
`i`-th committed and not yet popped element - no matter what the producer has been
storing in between. -/
theorem ring_load {N : Nat} (hN : 0 < N) {s s' : Sys α} (h : Reach N s) {i : Nat} {v : Option α}
    (hs : s.step N (.load i) = some (s', .val v)) :
    v = s.sent[s.got.length + i]? ∧ s.got.length + i < s.sent.length := by
  obtain ⟨q, hi⟩ := reach_inv hN h
  simp only [Sys.step] at hs
  split at hs
  · rename_i off len hr
    split at hs
    · rename_i hlt
      simp at hs
      obtain ⟨rfl, rfl⟩ := hs
      obtain ⟨h1, h2, h3⟩ := hi.cw off len hr
      have hq := hi.qlen
      have hc := hi.cell i (by omega)
      have h4 : off + i = wrap N (s.ring.head + i) := by
        rw [wrap, Nat.mod_eq_of_lt (by omega), h1]
      have hl := hi.log
      have hlen := congrArg List.length hl
      simp [hq] at hlen
      have h5 : (s.sent.map some)[s.got.length + i]? = (s.got ++ q.map some)[s.got.length + i]? := by
        rw [hl]
      rw [List.getElem?_append_right (by omega)] at h5
      simp [List.getElem?_eq_getElem (show i < q.length by omega)] at h5
      refine ⟨?_, by omega⟩
      rw [h4, hc, h5]
    · simp at hs
  · simp at hs

/-- **C02** The window `back()` grants is non-empty, inside the array, and none of its
cells holds a committed, unpopped element; the one `front()` grants is non-empty, inside
the array and consists of the oldest committed elements. -/
theorem ring_windows {N : Nat} (hN : 0 < N) {s : Sys α} (h : Reach N s) (w : Bool) (off len : Nat) :
    (s.ring.back N w = .window off len →
      0 < len ∧ off + len ≤ N ∧
      ∀ i < len, ∀ j < s.ring.size, off + i ≠ (s.ring.head + j) % N) ∧
    (s.ring.front N w = .window off len →
      0 < len ∧ off + len ≤ N ∧ len ≤ s.ring.size ∧
      ∀ i < len, off + i = (s.ring.head + i) % N) := by
  obtain ⟨q, hi⟩ := reach_inv hN h
  constructor
  · intro hb
    obtain ⟨h1, h2, h3, h4⟩ := back_window hi.head_lt hi.size_le hb
    refine ⟨h2, h4, ?_⟩
    intro i hlt j hj
    have e : off + i = wrap N (s.ring.head + s.ring.size + i) := by
      rw [← wrap_add, ← h1]; exact (Nat.mod_eq_of_lt (by omega)).symm
    rw [e]
    exact mod_ne (by omega) (by omega)
  · intro hb
    obtain ⟨h1, h2, h3, h4⟩ := front_window hi.head_lt hi.size_le hb
    refine ⟨h2, h4, h3, ?_⟩
    intro i hlt
    rw [Nat.mod_eq_of_lt (by omega), h1]

/-- **C02** At any time the window the producer is filling and the window the consumer is
reading are inside the array and disjoint; and a `push`/`pop` of at most the granted
length satisfies the assertions of ring.hpp 66 and 101, even if the other side moved in
the meantime. -/
theorem ring_windows_disjoint {N : Nat} (hN : 0 < N) {s : Sys α} (h : Reach N s) :
    (∀ o l o' l', s.pwin = some (o, l) → s.cwin = some (o', l') →
      o + l ≤ N ∧ o' + l' ≤ N ∧ ∀ i < l, ∀ j < l', o + i ≠ o' + j) ∧
    (∀ o l n, s.pwin = some (o, l) → n ≤ l → s.ring.pushOk N n) ∧
    (∀ o l n, s.cwin = some (o, l) → n ≤ l → s.ring.popOk N n) := by
  obtain ⟨q, hi⟩ := reach_inv hN h
  refine ⟨?_, ?_, ?_⟩
  · intro o l o' l' hp hc
    obtain ⟨h1, h2, h3, _⟩ := hi.pw o l hp
    obtain ⟨h4, h5, h6⟩ := hi.cw o' l' hc
    refine ⟨h3, h6, ?_⟩
    intro i hlt j hj
    have e : o + i = wrap N (s.ring.head + s.ring.size + i) := by
      rw [← wrap_add, ← h1]; exact (Nat.mod_eq_of_lt (by omega)).symm
    have e' : o' + j = (s.ring.head + j) % N := by
      rw [Nat.mod_eq_of_lt (by omega), h4]
    rw [e, e']
    exact mod_ne (by omega) (by omega)
  · intro o l n hp hn
    obtain ⟨h1, h2, h3, _⟩ := hi.pw o l hp
    have hh := hi.head_lt
    unfold Ring.pushOk
    rcases wrap_cases hi.head_lt hi.size_le with ⟨ha, hb⟩ | ⟨ha, hb⟩ <;> rw [hb] at h1 ⊢ <;>
      split <;> omega
  · intro o l n hc hn
    obtain ⟨h4, h5, h6⟩ := hi.cw o l hc
    unfold Ring.popOk
    split <;> omega

/-- **C03** Once quit is set it stays set. -/
theorem ring_quit_sticky {N : Nat} {s s' : Sys α} {op : Op α} {o : Out α}
    (hq : s.ring.quit = true) (h : s.step N op = some (s', o)) : s'.ring.quit = true := by
  cases op <;> simp only [Sys.step] at h <;> (repeat' split at h) <;> simp at h <;>
    (obtain ⟨rfl, -⟩ := h) <;> first | exact hq | rfl

/-- **C03** After `quit()` nothing blocks; `front()` still delivers (a non-empty window)
while committed elements are left and returns null exactly when there are none;
`back()` returns null at its first test exactly when the ring is full. -/
theorem ring_quit {N : Nat} (hN : 0 < N) {s : Sys α} (h : Reach N s) (hq : s.ring.quit = true) :
    (∀ w, s.ring.back N w ≠ .block) ∧ (∀ w, s.ring.front N w ≠ .block) ∧ s.ring.sync = true ∧
    (∀ w, s.ring.front N w = .null ↔ s.sent.length = s.got.length) ∧
    (s.ring.back N false = .null ↔ s.ring.size = N) := by
  have hl := (ring_fifo hN h).2
  refine ⟨?_, ?_, by simp [Ring.sync, hq], ?_, ?_⟩
  · intro w; cases w <;> by_cases hz : N - s.ring.size = 0 <;> simp [Ring.back, Ring.space, hq, hz]
  · intro w; cases w <;> by_cases hz : s.ring.size = 0 <;> simp [Ring.front, Ring.empty, hq, hz]
  · intro w
    cases w <;> by_cases hz : s.ring.size = 0 <;> simp [Ring.front, Ring.empty, hq, hz] <;> omega
  · by_cases hz : N - s.ring.size = 0 <;> simp [Ring.back, Ring.space, hq, hz] <;> omega

/-- **C03** Without `quit()`, `front()` blocks exactly when nothing is pending and
`back()` exactly when the ring is full; `sync()` exactly when something is pending. -/
theorem ring_blocking {N : Nat} (hN : 0 < N) {s : Sys α} (h : Reach N s)
    (hq : s.ring.quit = false) (w : Bool) :
    (s.ring.front N w = .block ↔ s.sent.length = s.got.length) ∧
    (s.ring.back N w = .block ↔ s.ring.size = N) ∧
    (s.ring.sync = false ↔ s.got.length < s.sent.length) ∧
    s.ring.front N w ≠ .null ∧ s.ring.back N w ≠ .null := by
  obtain ⟨hl, hle⟩ := (ring_fifo hN h).2
  rw [hl]
  generalize s.got.length = g
  clear hl h
  obtain ⟨⟨head, size, quit, data⟩, _, _, _, _, _⟩ := s
  simp only at *
  subst hq
  by_cases hz : size = 0
  · have h0 : ¬ N = 0 := by omega
    cases w <;> simp [Ring.front, Ring.back, Ring.sync, Ring.space, Ring.empty, hz, h0] <;> omega
  · by_cases hz' : N - size = 0
    · cases w <;> simp [Ring.front, Ring.back, Ring.sync, Ring.space, Ring.empty, hz, hz'] <;> omega
    · cases w <;> simp [Ring.front, Ring.back, Ring.sync, Ring.space, Ring.empty, hz, hz'] <;> omega

/-- **C04** No lost wake-up.  Two threads, any interleaving, any number of `quit()`
calls, spurious wake-ups included: whenever a thread sleeps although the condition it
waits for holds, some other thread is between leaving its critical section and the
`notify_one` on the condition variable the sleeper waits for. -/
theorem ring_no_lost_wakeup {N : Nat} (hN : 0 < N) {s : CState} (h : CReach N false s) :
    (s.p = .sleepBack → (s.ring.quit = true ∨ s.ring.size < N) → s.c = .notify ∨ s.q = .set) ∧
    (s.p = .sleepSync → (s.ring.quit = true ∨ s.ring.size = 0) → s.c = .notify ∨ s.q = .set) ∧
    (s.c = .sleep → (s.ring.quit = true ∨ 0 < s.ring.size) →
      s.p = .notify ∨ s.q = .set ∨ s.q = .notifiedHead) := by
  have hi := creach_inv hN h
  exact ⟨hi.backW, hi.syncW, hi.frontW⟩

/-- **C04** ... and that notification does wake the sleeper: when the thread leaves the
notifying program point, nobody sleeps on the condition variable it notified. -/
theorem ring_notification_wakes {N : Nat} (hN : 0 < N) {s s' : CState} (h : CReach N false s)
    (hs : CStep N false s s') :
    (s.c = .notify → s'.c ≠ .notify → s'.p.asleep = false) ∧
    (s.q = .set → s'.q ≠ .set → s'.p.asleep = false) ∧
    (s.p = .notify → s'.p ≠ .notify → s'.c ≠ .sleep) ∧
    (s.q = .notifiedHead → s'.q ≠ .notifiedHead → s'.c ≠ .sleep) := by
  have ht := (creach_inv hN h).noThird
  have key : ∀ {p p' t'}, WakeHead p .idle p' t' → p'.asleep = false := by
    intro p p' t' hw
    obtain ⟨_, h1, h2, _⟩ := wakeHead_idle hw
    cases p' <;> simp_all [PPC.asleep]
  have keyC : ∀ c, wakeC c ≠ .sleep := by intro c; cases c <;> simp [wakeC]
  have keyC2 : wakeC .notify = .notify := rfl
  have keyP : ∀ {p' t'}, WakeHead .notify .idle p' t' → p' = .notify := by
    intro p' t' hw; exact (wakeHead_idle hw).2.2.2.2 rfl
  cases hs with
  | popNotify hw =>
    simp only at ht; subst ht
    have := key hw
    refine ⟨fun _ _ => this, fun e e' => absurd e e', ?_, fun e e' => absurd e e'⟩
    intro e e'; simp only at e; subst e; exact absurd (keyP hw) e'
  | quitNotifyHead hw =>
    simp only at ht; subst ht
    have := key hw
    refine ⟨fun e e' => absurd e e', fun _ _ => this, ?_, by simp⟩
    intro e e'; simp only at e; subst e; exact absurd (keyP hw) e'
  | quitNotifyTail =>
    refine ⟨?_, by simp, fun e e' => absurd e e', fun _ _ => keyC _⟩
    intro e e'; simp only at e; subst e; exact absurd keyC2 e'
  | pushNotify =>
    refine ⟨?_, fun e e' => absurd e e', fun _ _ => keyC _, fun e e' => absurd e e'⟩
    intro e e'; simp only at e; subst e; exact absurd keyC2 e'
  | third h => contradiction
  | thirdAgain h => contradiction
  | _ => simp_all

/-- **C04** No deadlock: unless `quit()` is in the middle of notifying, producer and
consumer never sleep at the same time; and once `quit()` has completed, nobody who
sleeps is without a pending notification from the other side. -/
theorem ring_no_deadlock {N : Nat} (hN : 0 < N) {s : CState} (h : CReach N false s)
    (hq : s.q = .idle) :
    ¬ (s.p.asleep = true ∧ s.c = .sleep) ∧
    (s.ring.quit = true → (s.p.asleep = true → s.c = .notify) ∧ (s.c = .sleep → s.p = .notify)) := by
  have hi := creach_inv hN h
  have h1 := hi.backW; have h2 := hi.syncW; have h3 := hi.frontW
  obtain ⟨r, p, c, q, t⟩ := s
  simp only at *
  subst hq
  constructor
  · rintro ⟨hp, rfl⟩
    by_cases hz : r.size = 0
    · cases p <;> simp [PPC.asleep] at hp <;> simp [hz, hN] at h1 h2
    · cases p <;> simp [PPC.asleep] at hp <;> simp at h3 <;> omega
  · intro hquit
    constructor
    · intro hp; cases p <;> simp [PPC.asleep] at hp <;> simp_all
    · intro hc; simp_all

/-- **C04, limit of the claim** If a *second* thread calls `sync()` while the producer
waits in `back()`, `notify_one` on the shared condition variable `m_head_moved` may wake
the wrong one: a state is reachable where the producer sleeps in `back()` although the
ring is empty, the consumer sleeps in `front()`, and no notification is pending.  (With
capacity 1; nobody misused the interface.) -/
theorem ring_third_thread_deadlock :
    ∃ s, CReach 1 true s ∧ s.p = .sleepBack ∧ s.c = .sleep ∧ s.q = .idle ∧ s.t = .idle ∧
      s.ring.quit = false ∧ s.ring.size = 0 := by
  let r0 : Ring Unit := init
  let r1 := r0.push 1
  let r2 := r1.pop 1 1
  have e1 : CReach 1 true ⟨r0, .hold 1, .idle, .idle, .idle⟩ := .step .init .back
  have e2 : CReach 1 true ⟨r1, .notify, .idle, .idle, .idle⟩ := .step e1 (.push (Nat.le_refl 1))
  have e3 : CReach 1 true ⟨r1, .idle, .idle, .idle, .idle⟩ := .step e2 .pushNotify
  have e4 : CReach 1 true ⟨r1, .sleepBack, .idle, .idle, .idle⟩ := .step e3 .back
  have e5 : CReach 1 true ⟨r1, .sleepBack, .idle, .idle, .sleep⟩ := .step e4 (.third rfl)
  have hf : afterFront (r1.front 1 false) = .hold 1 := by decide
  have e6 : CReach 1 true ⟨r1, .sleepBack, .hold 1, .idle, .sleep⟩ := hf ▸ .step e5 .front
  have e7 : CReach 1 true ⟨r2, .sleepBack, .notify, .idle, .sleep⟩ := .step e6 (.pop (Nat.le_refl 1))
  have e8 : CReach 1 true ⟨r2, .sleepBack, .idle, .idle, .woken⟩ := .step e7 (.popNotify .third)
  have e9 : CReach 1 true ⟨r2, .sleepBack, .idle, .idle, .idle⟩ := .step e8 (.thirdAgain rfl)
  have e10 : CReach 1 true ⟨r2, .sleepBack, .sleep, .idle, .idle⟩ := .step e9 .front
  exact ⟨_, e10, rfl, rfl, rfl, rfl, rfl, rfl⟩

/-! ## The hypotheses are met by non-trivial states -/

/-- Run a list of events. -/
def Sys.run (N : Nat) (s : Sys α) : List (Op α) → Option (Sys α)
  | [] => some s
  | op :: ops => match s.step N op with
    | some (s', _) => Sys.run N s' ops
    | none => none

theorem reach_run {N : Nat} {s s' : Sys α} {ops} (h : Reach N s) (hr : s.run N ops = some s') :
    Reach N s' := by
  induction ops generalizing s with
  | nil => simp [Sys.run] at hr; exact hr ▸ h
  | cons op ops ih =>
    simp only [Sys.run] at hr
    split at hr
    · rename_i s1 o heq
      exact ih (.step h heq) hr
    · simp at hr

/-- A trace on capacity 3 that wraps around: 2 in, 2 out, 3 more in (in two windows). -/
def demo : List (Op Nat) :=
  [.back false, .store 0 10, .store 1 11, .push 2, .front false, .load 1, .pop 2,
   .back false, .store 0 12, .push 1, .front false, .back false, .store 1 14, .store 0 13, .push 2,
   .load 0, .quit]

example : ∃ s, (Sys.init : Sys Nat).run 3 demo = some s ∧ Reach 3 s ∧
    s.sent = [10, 11, 12, 13, 14] ∧ s.got = [some 10, some 11] ∧ s.ring.quit = true ∧
    s.ring.size = 3 ∧ s.ring.head = 2 ∧ s.cwin = some (2, 1) ∧
    (∃ s', s.step 3 (.load 0) = some (s', .val (some 12))) ∧
    s.ring.back 3 false = .null ∧ s.ring.front 3 false = .window 2 1 := by
  refine ⟨_, rfl, reach_run .init (ops := demo) rfl, ?_⟩
  exact ⟨by decide, by decide, by decide, by decide, by decide, by decide, ⟨_, rfl⟩, by decide, by decide⟩

/-- A reachable state (two threads, capacity 1) in which the producer sleeps in `back()`
although there is space: the consumer is about to notify. -/
example : ∃ s, CReach 1 false s ∧ s.p = .sleepBack ∧ s.ring.size = 0 ∧ s.c = .notify := by
  let r0 : Ring Unit := init
  let r1 := r0.push 1
  have e1 : CReach 1 false ⟨r0, .hold 1, .idle, .idle, .idle⟩ := .step .init .back
  have e2 : CReach 1 false ⟨r1, .notify, .idle, .idle, .idle⟩ := .step e1 (.push (Nat.le_refl 1))
  have e3 : CReach 1 false ⟨r1, .idle, .idle, .idle, .idle⟩ := .step e2 .pushNotify
  have e4 : CReach 1 false ⟨r1, .sleepBack, .idle, .idle, .idle⟩ := .step e3 .back
  have hf : afterFront (r1.front 1 false) = .hold 1 := by decide
  have e6 : CReach 1 false ⟨r1, .sleepBack, .hold 1, .idle, .idle⟩ := hf ▸ .step e4 .front
  have e7 : CReach 1 false ⟨r1.pop 1 1, .sleepBack, .notify, .idle, .idle⟩ :=
    .step e6 (.pop (Nat.le_refl 1))
  exact ⟨_, e7, rfl, rfl, rfl⟩

end Verif.Ring
