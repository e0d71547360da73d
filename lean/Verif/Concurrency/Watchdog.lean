/-
Model of `stdex::watchdog` (include/stdex/watchdog.hpp 21-101): the watchdog thread, any number
of threads calling `reset()`, the thread running the destructor, and a clock.

Every critical section is one atomic step; `notify_one` is a separate step after it.
`wait_for(lk, timeout, pred)` returns `true` when it finds `pred` true, and `false` only when the
deadline (time of the call + timeout) has passed and `pred` is false; a sleeper is made to
test `pred` by a notification or spuriously.  The counter `m_phase` is `size_t` and wraps.
Only the watchdog thread waits on `m_cv`, so `notify_one` wakes it if it sleeps.
-/
namespace Verif.Watchdog

/-- Where the watchdog thread is in `run()` (lines 67-91). -/
inductive PC where
  /-- in front of line 72 -/
  | top
  /-- asleep in `wait_for` (line 74) -/
  | sleep1
  /-- made runnable inside `wait_for` -/
  | woken1
  /-- behind line 80, in front of `m_callback()` (line 82) -/
  | fire
  /-- in front of line 85 -/
  | called
  /-- asleep in `wait` (line 86) -/
  | sleep2
  /-- made runnable inside `wait` -/
  | woken2
  /-- `run()` returned -/
  | done
deriving DecidableEq, Repr

/-- What an observer sees. -/
inductive Ev where
  /-- a `reset()` call -/
  | reset
  /-- `wait_for` reported a timeout -/
  | timeout
  /-- the callback is invoked -/
  | callback
  /-- the destructor set `m_quit` -/
  | quit
  /-- the destructor returned -/
  | joined
deriving DecidableEq, Repr

structure State where
  /-- `m_phase`, line 94 -/
  mphase : BitVec 64
  /-- `m_quit`, line 95 -/
  mquit : Bool
  /-- `phase`, line 69 -/
  phase : BitVec 64
  /-- time at which `wait_for` gives up -/
  deadline : Nat
  pc : PC
  /-- `notify_one` calls of lines 47 and 63 still to be made -/
  pending : Nat
  now : Nat
  /-- time-stamped history, latest first -/
  log : List (Ev × Nat)

/-- Constructor, lines 30-36. -/
def init : State := ⟨0, false, 0, 0, .top, 0, 0, []⟩

/-- The predicate of lines 74 and 86. -/
def State.pred (s : State) : Bool := s.mquit || s.phase != s.mphase

/-- Behind a `wait_for` that returned true: lines 75-78; behind `wait`: lines 87-90. -/
def State.leave (s : State) : State := { s with pc := if s.mquit then .done else .top }

/-- Atomic steps; `T` is `m_timeout`. -/
inductive Step (T : Nat) : State → State → Prop where
  /-- time passes -/
  | tick (s : State) : Step T s { s with now := s.now + 1 }
  /-- lines 59-62 (`m_phase++`), not after the destructor returned -/
  | reset (s : State) : (∀ t, (Ev.joined, t) ∉ s.log) →
      Step T s { s with mphase := s.mphase + 1, pending := s.pending + 1,
                        log := (.reset, s.now) :: s.log }
  /-- lines 43-46 -/
  | quit (s : State) : s.mquit = false →
      Step T s { s with mquit := true, pending := s.pending + 1, log := (.quit, s.now) :: s.log }
  /-- lines 47 and 63 -/
  | notify (s : State) : 0 < s.pending →
      Step T s { s with pending := s.pending - 1,
                        pc := if s.pc = .sleep1 then .woken1 else
                              if s.pc = .sleep2 then .woken2 else s.pc }
  /-- lines 48-49: `join` returns when `run()` has returned -/
  | join (s : State) : s.pc = .done → s.mquit = true → (∀ t, (Ev.joined, t) ∉ s.log) →
      Step T s { s with log := (.joined, s.now) :: s.log }
  /-- lines 72-74: sample the phase, first test of the predicate -/
  | start (s : State) : s.pc = .top →
      Step T s (let s' := { s with phase := s.mphase, deadline := s.now + T, pc := .sleep1 }
                if s'.pred then s'.leave else s')
  /-- spurious wake-up, line 74 -/
  | spurious1 (s : State) : s.pc = .sleep1 → Step T s { s with pc := .woken1 }
  /-- the predicate is tested again, line 74 -/
  | test1 (s : State) : s.pc = .woken1 →
      Step T s (if s.pred then s.leave else { s with pc := .sleep1 })
  /-- the deadline passed, line 74: last test of the predicate -/
  | expire (s : State) : (s.pc = .sleep1 ∨ s.pc = .woken1) → s.deadline ≤ s.now →
      Step T s (if s.pred then s.leave
                else { s with pc := .fire, log := (.timeout, s.now) :: s.log })
  /-- line 82 -/
  | call (s : State) : s.pc = .fire →
      Step T s { s with pc := .called, log := (.callback, s.now) :: s.log }
  /-- lines 85-86, first test -/
  | wait2 (s : State) : s.pc = .called →
      Step T s (if s.pred then s.leave else { s with pc := .sleep2 })
  /-- spurious wake-up, line 86 -/
  | spurious2 (s : State) : s.pc = .sleep2 → Step T s { s with pc := .woken2 }
  /-- the predicate is tested again, line 86 -/
  | test2 (s : State) : s.pc = .woken2 →
      Step T s (if s.pred then s.leave else { s with pc := .sleep2 })

inductive Reach (T : Nat) : State → Prop where
  | init : Reach T init
  | step {s s' : State} : Reach T s → Step T s s' → Reach T s'

/-- Number of events of a kind. -/
def count (e : Ev) (l : List (Ev × Nat)) : Nat := (l.filter (fun x => x.1 = e)).length

/-! ### Specification, in terms of the history only -/

/-- Every reported timeout comes at least `T` after every earlier reset, at time `T` or later,
and without an earlier quit. -/
def Silent (T : Nat) (log : List (Ev × Nat)) : Prop :=
  ∀ later earlier τ, log = later ++ (.timeout, τ) :: earlier →
    T ≤ τ ∧ (∀ ρ, (Ev.reset, ρ) ∈ earlier → ρ + T ≤ τ) ∧ (∀ ρ, (Ev.quit, ρ) ∉ earlier)

/-- Between any two timeouts there is a reset. -/
def Once (log : List (Ev × Nat)) : Prop :=
  ∀ a b c τ τ', log = a ++ (.timeout, τ) :: (b ++ (.timeout, τ') :: c) → ∃ ρ, (Ev.reset, ρ) ∈ b

/-- A reset happened since the latest timeout (if any). -/
def ResetSince (log : List (Ev × Nat)) : Prop :=
  ∀ b c τ, log = b ++ (.timeout, τ) :: c → ∃ ρ, (Ev.reset, ρ) ∈ b

/-- Nothing is called back after the destructor returned. -/
def QuietAfterJoin (log : List (Ev × Nat)) : Prop :=
  ∀ a b t, log = a ++ (.joined, t) :: b → ∀ τ, (Ev.callback, τ) ∉ a

/-! ### Invariant -/

structure Inv (T : Nat) (s : State) : Prop where
  times : ∀ e t, (e, t) ∈ s.log → t ≤ s.now
  mphase : s.mphase = BitVec.ofNat 64 (count .reset s.log)
  quit : s.mquit = true ↔ ∃ t, (Ev.quit, t) ∈ s.log
  /-- the sampled phase is the number of resets at the time it was sampled -/
  sampled : s.pc ≠ .top → s.pc ≠ .done → ∃ k, k ≤ count .reset s.log ∧ s.phase = BitVec.ofNat 64 k ∧
    (k = count .reset s.log → (s.pc = .sleep1 ∨ s.pc = .woken1) →
      ∀ ρ, (Ev.reset, ρ) ∈ s.log → ρ + T ≤ s.deadline) ∧
    (k ≠ count .reset s.log → ResetSince s.log)
  deadline : (s.pc = .sleep1 ∨ s.pc = .woken1) → T ≤ s.deadline
  since : (s.pc = .top ∨ s.pc = .sleep1 ∨ s.pc = .woken1) → ResetSince s.log
  once : Once s.log
  silent : Silent T s.log
  calls : count .timeout s.log = count .callback s.log + (if s.pc = .fire then 1 else 0)
  joined : (∃ t, (Ev.joined, t) ∈ s.log) → s.pc = .done
  quiet : QuietAfterJoin s.log
  /-- no lost wake-up -/
  awake : (s.pc = .sleep1 ∨ s.pc = .sleep2) → s.pred = true → 0 < s.pending

theorem count_cons (e : Ev) (x : Ev × Nat) (l : List (Ev × Nat)) :
    count e (x :: l) = count e l + (if x.1 = e then 1 else 0) := by
  unfold count
  by_cases h : x.1 = e <;> simp [List.filter_cons, h]

theorem resetSince_cons {x : Ev × Nat} {l : List (Ev × Nat)} (hx : x.1 ≠ .timeout)
    (h : ResetSince l) : ResetSince (x :: l) := by
  intro b c τ e
  cases b with
  | nil => rw [List.nil_append] at e; cases e; exact absurd rfl hx
  | cons y b =>
    rw [List.cons_append] at e
    obtain ⟨e1, e2⟩ := List.cons.inj e
    obtain ⟨ρ, hρ⟩ := h b c τ e2
    exact ⟨ρ, List.mem_cons_of_mem _ hρ⟩

theorem resetSince_reset (t : Nat) (l : List (Ev × Nat)) : ResetSince ((.reset, t) :: l) := by
  intro b c τ e
  cases b with
  | nil => rw [List.nil_append] at e; cases e
  | cons y b =>
    rw [List.cons_append] at e
    obtain ⟨e1, e2⟩ := List.cons.inj e
    exact ⟨t, by rw [e1]; exact List.mem_cons_self⟩

theorem once_cons {x : Ev × Nat} {l : List (Ev × Nat)} (hx : x.1 = .timeout → ResetSince l)
    (h : Once l) : Once (x :: l) := by
  intro a b c τ τ' e
  cases a with
  | nil =>
    rw [List.nil_append] at e
    obtain ⟨e1, e2⟩ := List.cons.inj e
    exact hx (by rw [e1]) b c τ' e2
  | cons y a =>
    rw [List.cons_append] at e
    obtain ⟨e1, e2⟩ := List.cons.inj e
    exact h a b c τ τ' e2

theorem silent_cons {T : Nat} {x : Ev × Nat} {l : List (Ev × Nat)}
    (hx : x.1 = .timeout → T ≤ x.2 ∧ (∀ ρ, (Ev.reset, ρ) ∈ l → ρ + T ≤ x.2) ∧ (∀ ρ, (Ev.quit, ρ) ∉ l))
    (h : Silent T l) : Silent T (x :: l) := by
  intro a b τ e
  cases a with
  | nil =>
    rw [List.nil_append] at e
    obtain ⟨e1, e2⟩ := List.cons.inj e
    subst e2
    have := hx (by rw [e1])
    rw [e1] at this
    exact this
  | cons y a =>
    rw [List.cons_append] at e
    obtain ⟨e1, e2⟩ := List.cons.inj e
    exact h a b τ e2

theorem quiet_cons {x : Ev × Nat} {l : List (Ev × Nat)}
    (hx : x.1 = .callback → ∀ t, (Ev.joined, t) ∉ l) (h : QuietAfterJoin l) :
    QuietAfterJoin (x :: l) := by
  intro a b t e τ hτ
  cases a with
  | nil => cases hτ
  | cons y a =>
    rw [List.cons_append] at e
    obtain ⟨e1, e2⟩ := List.cons.inj e
    rcases List.mem_cons.1 hτ with h1 | h1
    · exact hx (by rw [e1, ← h1]) t (by rw [e2]; simp)
    · exact h a b t e2 τ h1

theorem inv_init (T : Nat) : Inv T init := by
  refine ⟨?_, rfl, ?_, ?_, ?_, ?_, ?_, ?_, rfl, ?_, ?_, ?_⟩
  all_goals simp [init, ResetSince, Once, Silent, QuietAfterJoin]

theorem ofNat_ne {a b : Nat} (h : BitVec.ofNat 64 a ≠ BitVec.ofNat 64 b) : a ≠ b :=
  fun e => h (by rw [e])

/-- The watchdog thread leaves a wait because the predicate holds. -/
theorem Inv.leave {T : Nat} {s : State} (h : Inv T s)
    (hpc : s.pc = .sleep1 ∨ s.pc = .woken1 ∨ s.pc = .called ∨ s.pc = .woken2)
    (hp : s.pred = true) : Inv T s.leave := by
  have hn : s.pc ≠ .top ∧ s.pc ≠ .done ∧ s.pc ≠ .fire := by
    rcases hpc with h | h | h | h <;> rw [h] <;> decide
  have hpc' : s.leave.pc = .top ∨ s.leave.pc = .done := by
    unfold State.leave; cases s.mquit <;> simp
  have since : s.leave.pc = .top → ResetSince s.log := by
    intro ht
    have hq : s.mquit = false := by
      cases hq : s.mquit with
      | false => rfl
      | true => rw [State.leave, hq] at ht; cases ht
    unfold State.pred at hp
    rw [hq, Bool.false_or, bne_iff_ne] at hp
    obtain ⟨k, _, hk2, _, hk4⟩ := h.sampled hn.1 hn.2.1
    apply hk4
    rw [hk2, h.mphase] at hp
    exact ofNat_ne hp
  refine ⟨h.times, h.mphase, h.quit, ?_, ?_, ?_, h.once, h.silent, ?_, ?_, h.quiet, ?_⟩
  · intro h1 h2; rcases hpc' with e | e <;> contradiction
  · intro h1; rcases hpc' with e | e <;> rw [e] at h1 <;> simp at h1
  · intro h1
    rcases hpc' with e | e
    · exact since e
    · rw [e] at h1; simp at h1
  · have hc := h.calls
    simp only [hn.2.2, if_false] at hc
    show count .timeout s.log = count .callback s.log + _
    rcases hpc' with e | e <;> rw [e] <;> simpa using hc
  · intro hj
    exact absurd (h.joined hj) hn.2.1
  · intro h1; rcases hpc' with e | e <;> rw [e] at h1 <;> simp at h1

/-- Only `pc` changes between two places of the same wait. -/
theorem Inv.same1 {T : Nat} {s : State} (h : Inv T s) (hpc : s.pc = .sleep1 ∨ s.pc = .woken1)
    (x : PC) (hx : x = .sleep1 ∨ x = .woken1)
    (haw : x = .sleep1 → s.pred = true → 0 < s.pending) : Inv T { s with pc := x } := by
  have hn : s.pc ≠ .top ∧ s.pc ≠ .done ∧ s.pc ≠ .fire := by
    rcases hpc with h | h <;> rw [h] <;> decide
  have hx' : x ≠ .fire ∧ x ≠ .done ∧ x ≠ .sleep2 := by
    rcases hx with h | h <;> rw [h] <;> decide
  refine ⟨h.times, h.mphase, h.quit, ?_, fun _ => h.deadline hpc, fun _ => h.since (Or.inr hpc),
    h.once, h.silent, ?_, ?_, h.quiet, ?_⟩
  · intro _ _
    obtain ⟨k, a, b, c, d⟩ := h.sampled hn.1 hn.2.1
    exact ⟨k, a, b, fun e _ => c e hpc, d⟩
  · have hc := h.calls
    simp only [hn.2.2, if_false] at hc
    simp only [hx'.1, if_false]; exact hc
  · intro hj; exact absurd (h.joined hj) hn.2.1
  · rintro (h1 | h1) h2
    · exact haw h1 h2
    · exact absurd h1 hx'.2.2

theorem Inv.same2 {T : Nat} {s : State} (h : Inv T s)
    (hpc : s.pc = .called ∨ s.pc = .sleep2 ∨ s.pc = .woken2)
    (x : PC) (hx : x = .sleep2 ∨ x = .woken2)
    (haw : x = .sleep2 → s.pred = true → 0 < s.pending) : Inv T { s with pc := x } := by
  have hn : s.pc ≠ .top ∧ s.pc ≠ .done ∧ s.pc ≠ .fire := by
    rcases hpc with h | h | h <;> rw [h] <;> decide
  have hx' : x ≠ .fire ∧ x ≠ .done ∧ x ≠ .sleep1 ∧ x ≠ .woken1 ∧ x ≠ .top := by
    rcases hx with h | h <;> rw [h] <;> decide
  refine ⟨h.times, h.mphase, h.quit, ?_, ?_, ?_, h.once, h.silent, ?_, ?_, h.quiet, ?_⟩
  · intro _ _
    obtain ⟨k, a, b, c, d⟩ := h.sampled hn.1 hn.2.1
    refine ⟨k, a, b, fun _ h1 => ?_, d⟩
    rcases h1 with e | e
    · exact absurd e hx'.2.2.1
    · exact absurd e hx'.2.2.2.1
  · rintro (e | e)
    · exact absurd e hx'.2.2.1
    · exact absurd e hx'.2.2.2.1
  · rintro (e | e | e)
    · exact absurd e hx'.2.2.2.2
    · exact absurd e hx'.2.2.1
    · exact absurd e hx'.2.2.2.1
  · have hc := h.calls
    simp only [hn.2.2, if_false] at hc
    simp only [hx'.1, if_false]; exact hc
  · intro hj; exact absurd (h.joined hj) hn.2.1
  · rintro (h1 | h1) h2
    · exact absurd h1 hx'.2.2.1
    · exact haw h1 h2

/-- An event other than a reset, a timeout or a callback enters the log. -/
theorem Inv.event {T : Nat} {s : State} (h : Inv T s) (e : Ev)
    (he : e = .quit ∧ s.mquit = false ∨ e = .joined ∧ s.pc = .done ∧ s.mquit = true)
    (n : Nat) (hn : s.pending ≤ n) (hnq : e = .quit → 0 < n) (q : Bool) (hq : q = true) :
    Inv T { s with mquit := q, pending := n, log := (e, s.now) :: s.log } := by
  have ne : e ≠ .reset ∧ e ≠ .timeout ∧ e ≠ .callback := by
    rcases he with ⟨h, _⟩ | ⟨h, _⟩ <;> rw [h] <;> decide
  have mem : ∀ f t, f = Ev.reset ∨ f = .callback ∨ f = .timeout →
      (f, t) ∈ (e, s.now) :: s.log → (f, t) ∈ s.log := by
    intro f t hf hm
    rcases List.mem_cons.1 hm with h1 | h1
    · have : f = e := (Prod.mk.inj h1).1
      rcases hf with h | h | h
      · exact absurd (this.symm.trans h) ne.1
      · exact absurd (this.symm.trans h) ne.2.2
      · exact absurd (this.symm.trans h) ne.2.1
    · exact h1
  have cnt : ∀ f, f = Ev.reset ∨ f = .callback ∨ f = .timeout →
      count f ((e, s.now) :: s.log) = count f s.log := by
    intro f hf
    rw [count_cons]
    have : ¬ (e, s.now).1 = f := by
      intro c
      rcases hf with h | h | h
      · exact ne.1 (c.trans h)
      · exact ne.2.2 (c.trans h)
      · exact ne.2.1 (c.trans h)
    rw [if_neg this, Nat.add_zero]
  refine ⟨?_, ?_, ?_, ?_, h.deadline, ?_, ?_, ?_, ?_, ?_, ?_, ?_⟩
  · intro f t hm
    rcases List.mem_cons.1 hm with h1 | h1
    · rw [(Prod.mk.inj h1).2]; exact Nat.le_refl _
    · exact h.times f t h1
  · show s.mphase = BitVec.ofNat 64 (count .reset _)
    rw [cnt _ (Or.inl rfl)]; exact h.mphase
  · constructor
    · intro _
      rcases he with ⟨h1, _⟩ | ⟨_, _, h1⟩
      · exact ⟨s.now, by rw [h1]; exact List.mem_cons_self⟩
      · obtain ⟨t, ht⟩ := h.quit.1 h1
        exact ⟨t, List.mem_cons_of_mem _ ht⟩
    · intro _; exact hq
  · intro h1 h2
    obtain ⟨k, a, b, c, d⟩ := h.sampled h1 h2
    refine ⟨k, ?_, b, ?_, ?_⟩
    · show k ≤ count .reset _
      rw [cnt _ (Or.inl rfl)]; exact a
    · intro e1 h3 ρ hρ
      have e1 : k = count .reset ((e, s.now) :: s.log) := e1
      rw [cnt _ (Or.inl rfl)] at e1
      exact c e1 h3 ρ (mem _ _ (Or.inl rfl) hρ)
    · intro e1
      have e1 : k ≠ count .reset ((e, s.now) :: s.log) := e1
      rw [cnt _ (Or.inl rfl)] at e1
      exact resetSince_cons ne.2.1 (d e1)
  · intro h1; exact resetSince_cons ne.2.1 (h.since h1)
  · exact once_cons (fun c => absurd c ne.2.1) h.once
  · exact silent_cons (fun c => absurd c ne.2.1) h.silent
  · show count .timeout _ = count .callback _ + _
    rw [cnt _ (Or.inr (Or.inr rfl)), cnt _ (Or.inr (Or.inl rfl))]; exact h.calls
  · rintro ⟨t, ht⟩
    rcases List.mem_cons.1 ht with h1 | h1
    · rcases he with ⟨h2, _⟩ | ⟨_, h2, _⟩
      · rw [h2] at h1; cases h1
      · exact h2
    · exact h.joined ⟨t, h1⟩
  · exact quiet_cons (fun c => absurd c ne.2.2) h.quiet
  · intro h1 h2
    show 0 < n
    rcases he with ⟨h3, _⟩ | ⟨_, h3, _⟩
    · exact hnq h3
    · have h1 : s.pc = .sleep1 ∨ s.pc = .sleep2 := h1
      rw [h3] at h1; simp at h1

theorem Inv.step {T : Nat} {s s' : State} (h : Inv T s) (hb : count .reset s.log < 2 ^ 64)
    (st : Step T s s') : Inv T s' := by
  cases st with
  | tick =>
    refine ⟨fun e t ht => ?_, h.mphase, h.quit, h.sampled, h.deadline, h.since, h.once, h.silent,
      h.calls, h.joined, h.quiet, h.awake⟩
    have := h.times e t ht
    show t ≤ s.now + 1; omega
  | reset hj =>
    refine ⟨?_, ?_, ?_, ?_, h.deadline, fun _ => resetSince_reset _ _, ?_, ?_, ?_, ?_, ?_, ?_⟩
    · intro f t hm
      rcases List.mem_cons.1 hm with h1 | h1
      · rw [(Prod.mk.inj h1).2]; exact Nat.le_refl _
      · exact h.times f t h1
    · show s.mphase + 1 = BitVec.ofNat 64 (count .reset ((.reset, s.now) :: s.log))
      rw [count_cons, h.mphase]
      simp [BitVec.ofNat_add]
    · constructor
      · intro hq
        obtain ⟨t, ht⟩ := h.quit.1 hq
        exact ⟨t, List.mem_cons_of_mem _ ht⟩
      · rintro ⟨t, ht⟩
        rcases List.mem_cons.1 ht with h1 | h1
        · cases h1
        · exact h.quit.2 ⟨t, h1⟩
    · intro h1 h2
      obtain ⟨k, a, b, c, d⟩ := h.sampled h1 h2
      have hc : count .reset ((.reset, s.now) :: s.log) = count .reset s.log + 1 := by
        rw [count_cons]; simp
      refine ⟨k, ?_, b, ?_, fun _ => resetSince_reset _ _⟩
      · show k ≤ count .reset ((.reset, s.now) :: s.log)
        omega
      · intro e1
        have e1 : k = count .reset ((.reset, s.now) :: s.log) := e1
        omega
    · exact once_cons (fun c => by cases c) h.once
    · exact silent_cons (fun c => by cases c) h.silent
    · have := h.calls
      show count .timeout ((.reset, s.now) :: s.log) = count .callback ((.reset, s.now) :: s.log) + _
      rw [count_cons, count_cons]
      simp
      exact this
    · rintro ⟨t, ht⟩
      rcases List.mem_cons.1 ht with h1 | h1
      · cases h1
      · exact h.joined ⟨t, h1⟩
    · exact quiet_cons (fun c => by cases c) h.quiet
    · intro _ _; exact Nat.succ_pos _
  | quit hq =>
    exact h.event .quit (Or.inl ⟨rfl, hq⟩) _ (Nat.le_succ _) (fun _ => Nat.succ_pos _) true rfl
  | notify hp =>
    by_cases e1 : s.pc = .sleep1
    · simp only [e1, if_true]
      have := h.same1 (Or.inl e1) .woken1 (Or.inr rfl) (fun c => by cases c)
      exact ⟨this.times, this.mphase, this.quit, this.sampled, this.deadline, this.since, this.once,
        this.silent, this.calls, this.joined, this.quiet, fun c => by rcases c with c | c <;> cases c⟩
    · by_cases e2 : s.pc = .sleep2
      · simp only [e2, if_true]
        have := h.same2 (Or.inr (Or.inl e2)) .woken2 (Or.inr rfl) (fun c => by cases c)
        exact ⟨this.times, this.mphase, this.quit, this.sampled, this.deadline, this.since, this.once,
          this.silent, this.calls, this.joined, this.quiet, fun c => by rcases c with c | c <;> cases c⟩
      · simp only [e1, e2, if_false]
        exact ⟨h.times, h.mphase, h.quit, h.sampled, h.deadline, h.since, h.once,
          h.silent, h.calls, h.joined, h.quiet, fun c => by
            rcases c with c | c
            · exact absurd c e1
            · exact absurd c e2⟩
  | join h1 h2 h3 =>
    have := h.event .joined (Or.inr ⟨rfl, h1, h2⟩) s.pending (Nat.le_refl _) (fun c => by cases c) s.mquit h2
    exact this
  | start hpc =>
    have hn : s.pc ≠ .done ∧ s.pc ≠ .fire := by rw [hpc]; decide
    have key : Inv T { s with phase := s.mphase, deadline := s.now + T, pc := .woken1 } := by
      refine ⟨h.times, h.mphase, h.quit, ?_, ?_, ?_, h.once, h.silent, ?_, ?_, h.quiet, ?_⟩
      · intro _ _
        refine ⟨count .reset s.log, Nat.le_refl _, h.mphase, ?_, fun c => absurd rfl c⟩
        intro _ _ ρ hρ
        show ρ + T ≤ s.now + T
        have := h.times _ _ hρ
        omega
      · intro _; exact Nat.le_add_left _ _
      · intro _; exact h.since (Or.inl hpc)
      · have := h.calls
        simp only [hn.2, if_false] at this
        exact this
      · intro hj; exact absurd (h.joined hj) hn.1
      · rintro (c | c) <;> cases c
    by_cases hp : ({ s with phase := s.mphase, deadline := s.now + T, pc := .sleep1 } : State).pred = true
    · simp only [hp, if_true]
      exact key.leave (Or.inr (Or.inl rfl)) hp
    · simp only [hp]
      exact key.same1 (Or.inr rfl) .sleep1 (Or.inl rfl) (fun _ c => absurd c hp)
  | spurious1 hpc => exact h.same1 (Or.inl hpc) _ (Or.inr rfl) (fun c => by cases c)
  | test1 hpc =>
    by_cases hp : s.pred = true
    · simp only [hp, if_true]; exact h.leave (Or.inr (Or.inl hpc)) hp
    · simp only [hp]
      exact h.same1 (Or.inr hpc) .sleep1 (Or.inl rfl) (fun _ c => absurd c hp)
  | expire hpc hd =>
    have hn : s.pc ≠ .top ∧ s.pc ≠ .done ∧ s.pc ≠ .fire := by
      rcases hpc with h | h <;> rw [h] <;> decide
    by_cases hp : s.pred = true
    · simp only [hp, if_true]
      apply h.leave _ hp
      rcases hpc with h | h
      · exact Or.inl h
      · exact Or.inr (Or.inl h)
    · simp only [hp]
      have hq : s.mquit = false := by
        cases hq : s.mquit with
        | false => rfl
        | true => exact absurd (by unfold State.pred; rw [hq]; rfl) hp
      have he : s.phase = s.mphase := by
        unfold State.pred at hp
        rw [hq, Bool.false_or, bne_iff_ne] at hp
        exact Classical.not_not.1 hp
      obtain ⟨k, a, b, c, d⟩ := h.sampled hn.1 hn.2.1
      have hk : k = count .reset s.log := by
        rw [b, h.mphase] at he
        have := congrArg BitVec.toNat he
        rw [BitVec.toNat_ofNat, BitVec.toNat_ofNat, Nat.mod_eq_of_lt hb,
          Nat.mod_eq_of_lt (Nat.lt_of_le_of_lt a hb)] at this
        exact this
      have hs := h.since (Or.inr hpc)
      have cr : count .reset ((.timeout, s.now) :: s.log) = count .reset s.log := by
        rw [count_cons]; simp
      refine ⟨?_, ?_, ?_, ?_, ?_, ?_, ?_, ?_, ?_, ?_, ?_, ?_⟩
      · intro f t hm
        rcases List.mem_cons.1 hm with h1 | h1
        · rw [(Prod.mk.inj h1).2]; exact Nat.le_refl _
        · exact h.times f t h1
      · exact h.mphase.trans (congrArg _ cr.symm)
      · constructor
        · intro hq
          obtain ⟨t, ht⟩ := h.quit.1 hq
          exact ⟨t, List.mem_cons_of_mem _ ht⟩
        · rintro ⟨t, ht⟩
          rcases List.mem_cons.1 ht with h1 | h1
          · cases h1
          · exact h.quit.2 ⟨t, h1⟩
      · intro _ _
        refine ⟨k, ?_, b, ?_, ?_⟩
        · exact Nat.le_of_eq (hk.trans cr.symm)
        · rintro _ (c | c) <;> cases c
        · intro c'; exact absurd (hk.trans cr.symm) c'
      · rintro (c | c) <;> cases c
      · rintro (c | c | c) <;> cases c
      · exact once_cons (fun _ => hs) h.once
      · refine silent_cons (fun _ => ⟨?_, ?_, ?_⟩) h.silent
        · exact Nat.le_trans (h.deadline hpc) hd
        · intro ρ hρ
          exact Nat.le_trans (c hk hpc ρ hρ) hd
        · intro ρ hρ
          have := h.quit.2 ⟨ρ, hρ⟩
          rw [hq] at this; cases this
      · have := h.calls
        simp only [hn.2.2, if_false] at this
        show count .timeout ((.timeout, s.now) :: s.log) = count .callback ((.timeout, s.now) :: s.log) + _
        rw [count_cons, count_cons]
        simp
        exact this
      · rintro ⟨t, ht⟩
        rcases List.mem_cons.1 ht with h1 | h1
        · cases h1
        · exact absurd (h.joined ⟨t, h1⟩) hn.2.1
      · exact quiet_cons (fun c => by cases c) h.quiet
      · rintro (c | c) <;> cases c
  | call hpc =>
    have hn : s.pc ≠ .top ∧ s.pc ≠ .done := by rw [hpc]; decide
    obtain ⟨k, a, b, c, d⟩ := h.sampled hn.1 hn.2
    have cr : count .reset ((.callback, s.now) :: s.log) = count .reset s.log := by
      rw [count_cons]; simp
    refine ⟨?_, ?_, ?_, ?_, ?_, ?_, ?_, ?_, ?_, ?_, ?_, ?_⟩
    · intro f t hm
      rcases List.mem_cons.1 hm with h1 | h1
      · rw [(Prod.mk.inj h1).2]; exact Nat.le_refl _
      · exact h.times f t h1
    · exact h.mphase.trans (congrArg _ cr.symm)
    · constructor
      · intro hq
        obtain ⟨t, ht⟩ := h.quit.1 hq
        exact ⟨t, List.mem_cons_of_mem _ ht⟩
      · rintro ⟨t, ht⟩
        rcases List.mem_cons.1 ht with h1 | h1
        · cases h1
        · exact h.quit.2 ⟨t, h1⟩
    · intro _ _
      refine ⟨k, ?_, b, ?_, ?_⟩
      · exact Nat.le_trans a (Nat.le_of_eq cr.symm)
      · rintro _ (c | c) <;> cases c
      · intro c'
        exact resetSince_cons (fun c => by cases c) (d (fun e => c' (e.trans cr.symm)))
    · rintro (c | c) <;> cases c
    · rintro (c | c | c) <;> cases c
    · exact once_cons (fun c => by cases c) h.once
    · exact silent_cons (fun c => by cases c) h.silent
    · have := h.calls
      simp only [hpc, if_true] at this
      show count .timeout ((.callback, s.now) :: s.log) = count .callback ((.callback, s.now) :: s.log) + _
      rw [count_cons, count_cons]
      simp
      exact this
    · rintro ⟨t, ht⟩
      rcases List.mem_cons.1 ht with h1 | h1
      · cases h1
      · exact absurd (h.joined ⟨t, h1⟩) hn.2
    · exact quiet_cons (fun _ t ht => absurd (h.joined ⟨t, ht⟩) hn.2) h.quiet
    · rintro (c | c) <;> cases c
  | wait2 hpc =>
    by_cases hp : s.pred = true
    · simp only [hp, if_true]; exact h.leave (Or.inr (Or.inr (Or.inl hpc))) hp
    · simp only [hp]
      exact h.same2 (Or.inl hpc) .sleep2 (Or.inl rfl) (fun _ c => absurd c hp)
  | spurious2 hpc => exact h.same2 (Or.inr (Or.inl hpc)) _ (Or.inr rfl) (fun c => by cases c)
  | test2 hpc =>
    by_cases hp : s.pred = true
    · simp only [hp, if_true]; exact h.leave (Or.inr (Or.inr (Or.inr hpc))) hp
    · simp only [hp]
      exact h.same2 (Or.inr (Or.inr hpc)) .sleep2 (Or.inl rfl) (fun _ c => absurd c hp)

/-- The history only grows. -/
theorem Step.log_le {T : Nat} {s s' : State} (st : Step T s s') :
    count .reset s.log ≤ count .reset s'.log := by
  have hl : ∀ s : State, s.leave.log = s.log := fun _ => rfl
  cases st with
  | reset _ | quit _ | join _ _ _ | call _ =>
    refine Nat.le_trans (Nat.le_add_right _ _) (Nat.le_of_eq (count_cons _ _ _).symm)
  | tick | notify _ | spurious1 _ | spurious2 _ => exact Nat.le_refl _
  | start _ => simp only []; split <;> exact Nat.le_refl _
  | test1 _ | wait2 _ | test2 _ => split <;> exact Nat.le_refl _
  | expire _ _ =>
    split
    · exact Nat.le_refl _
    · refine Nat.le_trans (Nat.le_add_right _ _) (Nat.le_of_eq (count_cons _ _ _).symm)

theorem Reach.inv {T : Nat} {s : State} (h : Reach T s) (hb : count .reset s.log < 2 ^ 64) :
    Inv T s := by
  induction h with
  | init => exact inv_init T
  | step _ st ih =>
    have := st.log_le
    exact (ih (by omega)).step (by omega) st

/-! ### C27 -/

/-- C27.  With fewer than 2^64 resets, every timeout the watchdog acts on comes a whole period
after construction and after every reset made until then, and not after quit was requested:
resets that keep arriving in time keep it silent. -/
theorem fires_only_when_silent {T : Nat} {s : State} (h : Reach T s)
    (hb : count .reset s.log < 2 ^ 64) : Silent T s.log := (h.inv hb).silent

/-- C27.  It fires once per missed period: between two timeouts there is a reset. -/
theorem fires_once {T : Nat} {s : State} (h : Reach T s)
    (hb : count .reset s.log < 2 ^ 64) : Once s.log := (h.inv hb).once

/-- C27.  The callback is invoked exactly once for each timeout (the last one possibly still
about to be invoked). -/
theorem one_callback_per_timeout {T : Nat} {s : State} (h : Reach T s)
    (hb : count .reset s.log < 2 ^ 64) :
    count .callback s.log ≤ count .timeout s.log ∧ count .timeout s.log ≤ count .callback s.log + 1 ∧
    (s.pc ≠ .fire → count .callback s.log = count .timeout s.log) := by
  have := (h.inv hb).calls
  by_cases e : s.pc = .fire
  · rw [if_pos e] at this
    exact ⟨by omega, by omega, fun c => absurd e c⟩
  · rw [if_neg e] at this
    exact ⟨by omega, by omega, fun _ => by omega⟩

/-- C27.  No callback after the destructor returned. -/
theorem quiet_after_destructor {T : Nat} {s : State} (h : Reach T s)
    (hb : count .reset s.log < 2 ^ 64) : QuietAfterJoin s.log := (h.inv hb).quiet

/-- C27.  No lost wake-up: while the watchdog sleeps although a reset or quit has
happened since it sampled the phase, a notification is still to come. -/
theorem no_lost_wakeup {T : Nat} {s : State} (h : Reach T s) (hb : count .reset s.log < 2 ^ 64)
    (hs : s.pc = .sleep1 ∨ s.pc = .sleep2) (hp : s.pred = true) : 0 < s.pending :=
  (h.inv hb).awake hs hp

/-- C27.  It does fire: if it has been waiting since its deadline with no reset and no quit, the
only thing `wait_for` can do is report the timeout, and the callback follows. -/
theorem fires_when_silent {T : Nat} {s : State} (h : Reach T s)
    (hs : s.pc = .sleep1 ∨ s.pc = .woken1) (hd : s.deadline ≤ s.now) (hp : s.pred = false) :
    ∃ s' s'', Step T s s' ∧ Step T s' s'' ∧ Reach T s'' ∧ s''.log = (.callback, s.now) :: (.timeout, s.now) :: s.log := by
  have st := Step.expire (T := T) s hs hd
  rw [hp] at st
  have st : Step T s { s with pc := .fire, log := (.timeout, s.now) :: s.log } := st
  have st2 := Step.call (T := T) { s with pc := .fire, log := (.timeout, s.now) :: s.log } rfl
  exact ⟨_, _, st, st2, (h.step st).step st2, rfl⟩

/-- The destructor can always finish once the watchdog thread reached the end, and the thread gets
there from every waiting place by its own steps once quit is set. -/
theorem quit_leads_to_done {T : Nat} {s : State} (h : Reach T s) (hq : s.mquit = true)
    (hpc : s.pc = .top ∨ s.pc = .woken1 ∨ s.pc = .woken2 ∨ s.pc = .called) :
    ∃ s', Step T s s' ∧ s'.pc = .done := by
  have hp : s.pred = true := by unfold State.pred; rw [hq]; rfl
  have hl : s.leave.pc = .done := by unfold State.leave; rw [hq]; rfl
  rcases hpc with e | e | e | e
  · refine ⟨_, Step.start s e, ?_⟩
    have hp' : ({ s with phase := s.mphase, deadline := s.now + T, pc := .sleep1 } : State).pred = true := by
      unfold State.pred; show (s.mquit || _) = true; rw [hq]; rfl
    simp only [hp', if_true]
    show (if s.mquit = true then PC.done else PC.top) = .done
    rw [hq]; rfl
  · exact ⟨_, Step.test1 s e, by rw [hp]; exact hl⟩
  · exact ⟨_, Step.test2 s e, by rw [hp]; exact hl⟩
  · exact ⟨_, Step.wait2 s e, by rw [hp]; exact hl⟩

/-- Non-vacuity, and the limit of the guarantee: with timeout 2, a reset at time 1, the watchdog times
out at time 3; the destructor begins (`quit`) before the callback is invoked, and the
callback still runs - the guarantee is "not after the destructor returned", not "not after
it began". -/
theorem callback_after_quit_possible : ∃ s, Reach 2 s ∧
    s.log = [(.joined, 3), (.callback, 3), (.quit, 3), (.timeout, 3), (.reset, 1)] := by
  have a := Reach.init.step (Step.start (T := 2) _ rfl)
  have a := a.step (Step.tick _)
  have a := a.step (Step.reset _ (fun t h => by cases h))
  have a := a.step (Step.notify _ (by decide))
  have a := a.step (Step.test1 _ rfl)
  have a := a.step (Step.start _ rfl)
  have a := a.step (Step.tick _)
  have a := a.step (Step.tick _)
  have a := a.step (Step.expire _ (Or.inl rfl) (by decide))
  have a := a.step (Step.quit _ rfl)
  have a := a.step (Step.call _ rfl)
  have a := a.step (Step.wait2 _ rfl)
  have a := a.step (Step.join _ rfl rfl (fun t h => by
    rcases List.mem_cons.1 h with h | h
    · cases h
    rcases List.mem_cons.1 h with h | h
    · cases h
    rcases List.mem_cons.1 h with h | h
    · cases h
    rcases List.mem_cons.1 h with h | h
    · cases h
    cases h))
  exact ⟨_, a, rfl⟩

end Verif.Watchdog
