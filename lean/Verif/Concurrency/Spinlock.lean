/-
Model of `stdex::spinlock` (include/stdex/spinlock.hpp 21-75): any number of threads, every
interleaving of their atomic accesses to `m_lock`.

Memory model.  `exchange` is a read-modify-write and therefore reads the latest value of
`m_lock` (C++ [atomics.order]); a relaxed `load` may return a stale value and is modelled as
returning an arbitrary Boolean (more behaviours than any hardware has).  Release/acquire is
modelled with views: data protected by the lock is represented by the number `writes` of
writes made to it, each thread has the number of writes that happened before its current
point (`seen`), a release store publishes the thread's view with the value, an acquire
exchange joins the published view to the thread's view, and an exchange keeps the published
view in place (it continues the release sequence).
-/
namespace Verif.Spinlock

/-- Where a thread is. -/
inductive PC where
  /-- not using the lock -/
  | idle
  /-- in `lock()` in front of the exchange, line 34 -/
  | lockEx
  /-- in `lock()` in front of the load, line 38 -/
  | lockSpin
  /-- in `try_lock()` in front of the load, line 64 -/
  | tryLoad
  /-- in `try_lock()` in front of the exchange, line 65 -/
  | tryEx
  /-- `lock()` returned or `try_lock()` returned true, `unlock()` not yet called -/
  | held
deriving DecidableEq, Repr

structure State where
  /-- `m_lock` (line 24) -/
  lock : Bool
  /-- the view published with the value of `m_lock` -/
  view : Nat
  /-- number of writes to the protected data -/
  writes : Nat
  pc : Nat → PC
  /-- writes known to each thread -/
  seen : Nat → Nat

/-- Function update. -/
def upd {α : Type} (f : Nat → α) (t : Nat) (x : α) : Nat → α := fun u => if u = t then x else f u

/-- Line 24: `m_lock = { false }`, no thread uses it yet. -/
def init : State := ⟨false, 0, 0, fun _ => .idle, fun _ => 0⟩

/-- `m_lock.exchange(true, memory_order_acquire)`, lines 34 and 65: the old value is
`s.lock`; on `false` the thread continues at `ok`, on `true` at `fail`. -/
def exchange (s : State) (t : Nat) (ok fail : PC) : State :=
  { s with
    lock := true
    seen := upd s.seen t (max (s.seen t) s.view)
    pc := upd s.pc t (if s.lock then fail else ok) }

/-- Atomic steps of thread `t`. -/
inductive Step : State → State → Prop where
  /-- call of `lock()` -/
  | callLock (s : State) (t : Nat) : s.pc t = .idle → Step s { s with pc := upd s.pc t .lockEx }
  /-- line 34 -/
  | lockEx (s : State) (t : Nat) : s.pc t = .lockEx → Step s (exchange s t .held .lockSpin)
  /-- line 38; `b` is the value loaded -/
  | lockSpin (s : State) (t : Nat) (b : Bool) : s.pc t = .lockSpin →
      Step s { s with pc := upd s.pc t (if b then .lockSpin else .lockEx) }
  /-- call of `try_lock()` -/
  | callTry (s : State) (t : Nat) : s.pc t = .idle → Step s { s with pc := upd s.pc t .tryLoad }
  /-- line 64; `b` is the value loaded, `true`: returns false -/
  | tryLoad (s : State) (t : Nat) (b : Bool) : s.pc t = .tryLoad →
      Step s { s with pc := upd s.pc t (if b then .idle else .tryEx) }
  /-- line 65: returns true / false -/
  | tryEx (s : State) (t : Nat) : s.pc t = .tryEx → Step s (exchange s t .held .idle)
  /-- the holder writes the protected data -/
  | write (s : State) (t : Nat) : s.pc t = .held →
      Step s { s with writes := s.writes + 1, seen := upd s.seen t (s.writes + 1) }
  /-- `unlock()`, line 73: release store -/
  | unlock (s : State) (t : Nat) : s.pc t = .held →
      Step s { s with lock := false, view := s.seen t, pc := upd s.pc t .idle }

inductive Reach : State → Prop where
  | init : Reach init
  | step {s s' : State} : Reach s → Step s s' → Reach s'

theorem upd_same {α : Type} (f : Nat → α) (t : Nat) (x : α) : upd f t x t = x := by simp [upd]
theorem upd_ne {α : Type} (f : Nat → α) {t u : Nat} (x : α) (h : u ≠ t) : upd f t x u = f u := by
  simp [upd, h]

/-- The invariant. -/
structure Inv (s : State) : Prop where
  held : ∀ t, s.pc t = .held → s.lock = true
  one : ∀ t u, s.pc t = .held → s.pc u = .held → t = u
  some : s.lock = true → ∃ t, s.pc t = .held
  free : s.lock = false → s.view = s.writes
  sees : ∀ t, s.pc t = .held → s.seen t = s.writes
  bound : ∀ t, s.seen t ≤ s.writes
  vbound : s.view ≤ s.writes

/-- A step that moves one thread between non-holding places. -/
theorem Inv.move {s : State} (h : Inv s) (t : Nat) (x : PC) (h1 : s.pc t ≠ .held) (h2 : x ≠ .held) :
    Inv { s with pc := upd s.pc t x } := by
  have key : ∀ u, upd s.pc t x u = .held → u ≠ t ∧ s.pc u = .held := by
    intro u hu
    by_cases e : u = t
    · subst e; rw [upd_same] at hu; exact absurd hu h2
    · rw [upd_ne _ _ e] at hu; exact ⟨e, hu⟩
  refine ⟨fun u hu => h.held u (key u hu).2, fun u w hu hw => h.one u w (key u hu).2 (key w hw).2,
    fun hl => ?_, h.free, fun u hu => h.sees u (key u hu).2, h.bound, h.vbound⟩
  obtain ⟨u, hu⟩ := h.some hl
  have : u ≠ t := fun e => h1 (e ▸ hu)
  exact ⟨u, by show upd s.pc t x u = .held; rw [upd_ne _ _ this]; exact hu⟩

theorem Inv.exch {s : State} (h : Inv s) (t : Nat) (fail : PC) (h1 : s.pc t ≠ .held)
    (h2 : fail ≠ .held) : Inv (exchange s t .held fail) := by
  cases hl : s.lock with
  | true =>
    have h' := h.move t fail h1 h2
    have e : exchange s t .held fail =
        { s with pc := upd s.pc t fail, seen := upd s.seen t (max (s.seen t) s.view) } := by
      simp only [exchange, hl, if_true]
    rw [e]
    refine ⟨h'.held, h'.one, h'.some, h'.free, ?_, ?_, h.vbound⟩
    · intro u hu
      have hut : u ≠ t := by
        intro e; subst e
        have : upd s.pc u fail u = .held := hu
        rw [upd_same] at this; exact h2 this
      show upd s.seen t _ u = s.writes
      rw [upd_ne _ _ hut]; exact h'.sees u hu
    · intro u
      show upd s.seen t _ u ≤ s.writes
      by_cases e : u = t
      · subst e; rw [upd_same]
        have := h.bound u; have := h.vbound; omega
      · rw [upd_ne _ _ e]; exact h.bound u
  | false =>
    have none : ∀ u, s.pc u ≠ .held := fun u hu => by
      have := h.held u hu; rw [hl] at this; cases this
    have e : exchange s t .held fail =
        { s with lock := true, pc := upd s.pc t .held,
                 seen := upd s.seen t (max (s.seen t) s.view) } := by
      simp only [exchange, hl]; rfl
    rw [e]
    have key : ∀ u, upd s.pc t .held u = .held → u = t := by
      intro u hu
      by_cases e : u = t
      · exact e
      · rw [upd_ne _ _ e] at hu; exact absurd hu (none u)
    refine ⟨fun _ _ => rfl, fun u w hu hw => (key u hu).trans (key w hw).symm,
      fun _ => ⟨t, upd_same _ _ _⟩, (fun h => by cases h), ?_, ?_, h.vbound⟩
    · intro u hu
      have := key u hu; subst this
      show upd s.seen u _ u = s.writes
      rw [upd_same]
      have := h.bound u; have := h.free hl; omega
    · intro u
      show upd s.seen t _ u ≤ s.writes
      by_cases e : u = t
      · subst e; rw [upd_same]
        have := h.bound u; have := h.vbound; omega
      · rw [upd_ne _ _ e]; exact h.bound u

theorem inv_init : Inv init := by
  refine ⟨?_, ?_, ?_, fun _ => rfl, ?_, fun _ => Nat.le_refl _, Nat.le_refl _⟩ <;>
    simp [init]

theorem Inv.step {s s' : State} (h : Inv s) (st : Step s s') : Inv s' := by
  cases st with
  | callLock t hp => exact h.move t _ (by rw [hp]; decide) (by decide)
  | lockEx t hp => exact h.exch t _ (by rw [hp]; decide) (by decide)
  | lockSpin t b hp => exact h.move t _ (by rw [hp]; decide) (by cases b <;> decide)
  | callTry t hp => exact h.move t _ (by rw [hp]; decide) (by decide)
  | tryLoad t b hp => exact h.move t _ (by rw [hp]; decide) (by cases b <;> decide)
  | tryEx t hp => exact h.exch t _ (by rw [hp]; decide) (by decide)
  | write t hp =>
    refine ⟨h.held, h.one, h.some, fun hl => ?_, ?_, ?_, ?_⟩
    · have := h.held t hp; rw [this] at hl; cases hl
    · intro u hu
      have := h.one u t hu hp; subst this
      exact upd_same _ _ _
    · intro u
      show upd s.seen t _ u ≤ s.writes + 1
      by_cases e : u = t
      · subst e; rw [upd_same]; exact Nat.le_refl _
      · rw [upd_ne _ _ e]; have := h.bound u; omega
    · show s.view ≤ s.writes + 1
      have := h.vbound; omega
  | unlock t hp =>
    have none : ∀ u, upd s.pc t .idle u ≠ .held := by
      intro u hu
      by_cases e : u = t
      · subst e; rw [upd_same] at hu; cases hu
      · rw [upd_ne _ _ e] at hu; exact e (h.one u t hu hp)
    refine ⟨fun u hu => absurd hu (none u), fun u _ hu => absurd hu (none u), (fun h => by cases h),
      fun _ => h.sees t hp, fun u hu => absurd hu (none u), h.bound, h.bound t⟩

theorem Reach.inv {s : State} (h : Reach s) : Inv s := by
  induction h with
  | init => exact inv_init
  | step _ st ih => exact ih.step st

/-! ### C26 -/

/-- C26.  At most one thread holds the lock. -/
theorem mutual_exclusion {s : State} (h : Reach s) (t u : Nat)
    (ht : s.pc t = .held) (hu : s.pc u = .held) : t = u := h.inv.one t u ht hu

/-- C26.  A thread becomes a holder only in a step before which nobody held the lock. -/
theorem acquire_only_free {s s' : State} (h : Reach s) (st : Step s s') (t : Nat)
    (h1 : s.pc t ≠ .held) (h2 : s'.pc t = .held) : ∀ u, s.pc u ≠ .held := by
  intro u hu
  have h' : Reach s' := h.step st
  have stays : s'.pc u = .held := by
    have ex : ∀ w ok fail, s.pc w ≠ .held → ok = PC.held → (exchange s w ok fail).pc u = .held := by
      intro w ok fail hw _
      have : u ≠ w := fun e => hw (e ▸ hu)
      show upd s.pc w _ u = .held
      rw [upd_ne _ _ this]; exact hu
    have mv : ∀ w x, s.pc w ≠ .held → upd s.pc w x u = .held := by
      intro w x hw
      have : u ≠ w := fun e => hw (e ▸ hu)
      rw [upd_ne _ _ this]; exact hu
    cases st with
    | callLock w hp => exact mv w _ (by rw [hp]; decide)
    | lockEx w hp => exact ex w _ _ (by rw [hp]; decide) rfl
    | lockSpin w b hp => exact mv w _ (by rw [hp]; decide)
    | callTry w hp => exact mv w _ (by rw [hp]; decide)
    | tryLoad w b hp => exact mv w _ (by rw [hp]; decide)
    | tryEx w hp => exact ex w _ _ (by rw [hp]; decide) rfl
    | write w hp => exact hu
    | unlock w hp =>
      have e : u = w := h.inv.one u w hu hp
      subst e
      exfalso
      have : upd s.pc u .idle t = .held := h2
      by_cases e : t = u
      · subst e; exact h1 hu
      · rw [upd_ne _ _ e] at this; exact h1 this
  have := h'.inv.one t u h2 stays
  subst this
  exact h1 hu

/-- C26.  The holder has seen every write made under the lock by anybody before
(release/acquire publication). -/
theorem holder_sees_all {s : State} (h : Reach s) (t : Nat) (ht : s.pc t = .held) :
    s.seen t = s.writes := h.inv.sees t ht

/-- C26.  The lock variable is set exactly while somebody holds the lock. -/
theorem lock_iff_held {s : State} (h : Reach s) : s.lock = true ↔ ∃ t, s.pc t = .held :=
  ⟨h.inv.some, fun ⟨t, ht⟩ => h.inv.held t ht⟩

/-- C26.  When nobody holds the lock, any thread that is inside `lock()` or `try_lock()` (or calls
them now) can acquire it by its own steps alone. -/
theorem free_can_be_acquired {s : State} (h : Reach s) (hfree : ∀ u, s.pc u ≠ .held) (t : Nat) :
    ∃ s', Reach s' ∧ s'.pc t = .held ∧ (∀ u, u ≠ t → s'.pc u = s.pc u) := by
  have hl : s.lock = false := by
    cases e : s.lock with
    | false => rfl
    | true => obtain ⟨u, hu⟩ := h.inv.some e; exact absurd hu (hfree u)
  have fin : ∀ s1 : State, Reach s1 → s1.lock = false → (s1.pc t = .lockEx ∨ s1.pc t = .tryEx) →
      (∀ u, u ≠ t → s1.pc u = s.pc u) →
      ∃ s', Reach s' ∧ s'.pc t = .held ∧ (∀ u, u ≠ t → s'.pc u = s.pc u) := by
    intro s1 h1 hl1 hp hu
    have hpc : ∀ fail, (exchange s1 t .held fail).pc t = .held ∧
        (∀ u, u ≠ t → (exchange s1 t .held fail).pc u = s.pc u) := by
      intro fail
      constructor
      · show upd s1.pc t _ t = .held
        rw [upd_same, hl1]; rfl
      · intro u hut
        show upd s1.pc t _ u = _
        rw [upd_ne _ _ hut]; exact hu u hut
    rcases hp with hp | hp
    · exact ⟨_, h1.step (.lockEx s1 t hp), (hpc _).1, (hpc _).2⟩
    · exact ⟨_, h1.step (.tryEx s1 t hp), (hpc _).1, (hpc _).2⟩
  have others : ∀ x u, u ≠ t → upd s.pc t x u = s.pc u := fun x u hu => upd_ne _ _ hu
  cases hp : s.pc t with
  | idle =>
    exact fin _ (h.step (.callLock s t hp)) hl (Or.inl (upd_same _ _ _)) (others _)
  | lockEx => exact fin s h hl (Or.inl hp) (fun _ _ => rfl)
  | lockSpin =>
    exact fin _ (h.step (.lockSpin s t false hp)) hl (Or.inl (upd_same _ _ _)) (others _)
  | tryLoad =>
    exact fin _ (h.step (.tryLoad s t false hp)) hl (Or.inr (upd_same _ _ _)) (others _)
  | tryEx => exact fin s h hl (Or.inr hp) (fun _ _ => rfl)
  | held => exact absurd hp (hfree t)

/-- Non-vacuity: thread 7 takes the lock, writes, releases; thread 9, which was spinning meanwhile,
gets the lock and has seen the write. -/
example : ∃ s, Reach s ∧ s.pc 9 = .held ∧ s.writes = 1 ∧ s.seen 9 = 1 := by
  have a := Reach.init.step (.callLock _ 7 rfl)
  have a := a.step (.lockEx _ 7 rfl)
  have a := a.step (.callLock _ 9 rfl)
  have a := a.step (.lockEx _ 9 rfl)
  have a := a.step (.write _ 7 rfl)
  have a := a.step (.lockSpin _ 9 true rfl)
  have a := a.step (.unlock _ 7 rfl)
  have a := a.step (.lockSpin _ 9 false rfl)
  have a := a.step (.lockEx _ 9 rfl)
  exact ⟨_, a, rfl, rfl, rfl⟩

end Verif.Spinlock
