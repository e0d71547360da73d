import Verif.Ring.Lemmas
/-!
# The blocking protocol of `stdex::ring` (ring.hpp 43-129): mutex and condition variables

Every critical section is one atomic step.  `wait(lk, pred)` tests `pred`, and if it is
false atomically releases the mutex and goes to sleep; a sleeper is made runnable by a
`notify_one` on its condition variable or spuriously, and then tests `pred` again under
the mutex.  `notify_one` is called *after* the critical section (ring.hpp 70, 106,
118-119), so it is a separate step and other threads may run in between.

Threads: a producer (calls `back`, `push`, `sync`), a consumer (calls `front`, `pop`), a
thread that may call `quit()` any number of times, and - only if `third = true` - one
more thread that calls `sync()` while the producer is in `back()`.
-/
namespace Verif.Ring

/-- Producer: outside, asleep in / woken inside `back()` (line 47) or `sync()` (line
128), holding a window of `len` elements, or between lines 69 and 70 of `push`. -/
inductive PPC where
  | idle | sleepBack | wokenBack | sleepSync | wokenSync | hold (len : Nat) | notify
deriving DecidableEq

/-- Consumer: same for `front()` (line 82) and `pop` (between lines 105 and 106). -/
inductive CPC where
  | idle | sleep | woken | hold (len : Nat) | notify
deriving DecidableEq

/-- `quit()`: between lines 117/118 (`set`) and 118/119 (`notifiedHead`). -/
inductive QPC where
  | idle | set | notifiedHead
deriving DecidableEq

/-- A further thread calling `sync()`. -/
inductive TPC where
  | idle | sleep | woken
deriving DecidableEq

structure CState where
  ring : Ring Unit
  p : PPC
  c : CPC
  q : QPC
  t : TPC

def CState.init : CState := ⟨Ring.init, .idle, .idle, .idle, .idle⟩

/-- Continuation of the producer after the test in `back()`. -/
def afterBack : Res → PPC
  | .block => .sleepBack
  | .null => .idle
  | .window _ len => .hold len

/-- Continuation of the consumer after the test in `front()`. -/
def afterFront : Res → CPC
  | .block => .sleep
  | .null => .idle
  | .window _ len => .hold len

/-- `m_head_moved.notify_one()` when only the producer can sleep on it. -/
def wakeP : PPC → PPC
  | .sleepBack => .wokenBack
  | .sleepSync => .wokenSync
  | x => x

/-- `m_tail_moved.notify_one()`. -/
def wakeC : CPC → CPC
  | .sleep => .woken
  | x => x

def PPC.asleep : PPC → Bool
  | .sleepBack => true
  | .sleepSync => true
  | _ => false

/-- `m_head_moved.notify_one()` in general: wakes the producer or the third thread if one
of them sleeps there - the choice between two sleepers is arbitrary - and is lost if
nobody sleeps. -/
inductive WakeHead : PPC → TPC → PPC → TPC → Prop where
  | none {p t} : p.asleep = false → t ≠ .sleep → WakeHead p t p t
  | prod {p t} : p.asleep = true → WakeHead p t (wakeP p) t
  | third {p} : WakeHead p .sleep p .woken

/-- Atomic steps. -/
inductive CStep (N : Nat) (third : Bool) : CState → CState → Prop where
  | back {r c q t} : CStep N third ⟨r, .idle, c, q, t⟩ ⟨r, afterBack (r.back N false), c, q, t⟩
  | backAgain {r c q t} :
      CStep N third ⟨r, .wokenBack, c, q, t⟩ ⟨r, afterBack (r.back N true), c, q, t⟩
  | backSpurious {r c q t} : CStep N third ⟨r, .sleepBack, c, q, t⟩ ⟨r, .wokenBack, c, q, t⟩
  | sync {r c q t} : CStep N third ⟨r, .idle, c, q, t⟩
      ⟨r, if r.sync then .idle else .sleepSync, c, q, t⟩
  | syncAgain {r c q t} : CStep N third ⟨r, .wokenSync, c, q, t⟩
      ⟨r, if r.sync then .idle else .sleepSync, c, q, t⟩
  | syncSpurious {r c q t} : CStep N third ⟨r, .sleepSync, c, q, t⟩ ⟨r, .wokenSync, c, q, t⟩
  | push {r c q t len n} : n ≤ len →
      CStep N third ⟨r, .hold len, c, q, t⟩ ⟨r.push n, .notify, c, q, t⟩
  | pushNotify {r c q t} : CStep N third ⟨r, .notify, c, q, t⟩ ⟨r, .idle, wakeC c, q, t⟩
  | front {r p q t} : CStep N third ⟨r, p, .idle, q, t⟩ ⟨r, p, afterFront (r.front N false), q, t⟩
  | frontAgain {r p q t} :
      CStep N third ⟨r, p, .woken, q, t⟩ ⟨r, p, afterFront (r.front N true), q, t⟩
  | frontSpurious {r p q t} : CStep N third ⟨r, p, .sleep, q, t⟩ ⟨r, p, .woken, q, t⟩
  | pop {r p q t len n} : n ≤ len →
      CStep N third ⟨r, p, .hold len, q, t⟩ ⟨r.pop N n, p, .notify, q, t⟩
  | popNotify {r p p' q t t'} : WakeHead p t p' t' →
      CStep N third ⟨r, p, .notify, q, t⟩ ⟨r, p', .idle, q, t'⟩
  | quit {r p c t} : CStep N third ⟨r, p, c, .idle, t⟩ ⟨r.setQuit, p, c, .set, t⟩
  | quitNotifyHead {r p p' c t t'} : WakeHead p t p' t' →
      CStep N third ⟨r, p, c, .set, t⟩ ⟨r, p', c, .notifiedHead, t'⟩
  | quitNotifyTail {r p c t} :
      CStep N third ⟨r, p, c, .notifiedHead, t⟩ ⟨r, p, wakeC c, .idle, t⟩
  | third {r p c q} : third = true →
      CStep N third ⟨r, p, c, q, .idle⟩ ⟨r, p, c, q, if r.sync then .idle else .sleep⟩
  | thirdAgain {r p c q} : third = true →
      CStep N third ⟨r, p, c, q, .woken⟩ ⟨r, p, c, q, if r.sync then .idle else .sleep⟩

inductive CReach (N : Nat) (third : Bool) : CState → Prop where
  | init : CReach N third CState.init
  | step {s s'} : CReach N third s → CStep N third s s' → CReach N third s'

/-! ## Inductive invariant (two threads) -/

structure CInv (N : Nat) (s : CState) : Prop where
  head_lt : s.ring.head < N
  size_le : s.ring.size ≤ N
  pw : ∀ len, s.p = .hold len → len + s.ring.size ≤ N
  cw : ∀ len, s.c = .hold len → len ≤ s.ring.size
  noThird : s.t = .idle
  backW : s.p = .sleepBack → (s.ring.quit = true ∨ s.ring.size < N) → s.c = .notify ∨ s.q = .set
  syncW : s.p = .sleepSync → (s.ring.quit = true ∨ s.ring.size = 0) → s.c = .notify ∨ s.q = .set
  frontW : s.c = .sleep → (s.ring.quit = true ∨ 0 < s.ring.size) →
    s.p = .notify ∨ s.q = .set ∨ s.q = .notifiedHead

theorem afterBack_sleep {N : Nat} {r : Ring Unit} {w} (h : afterBack (r.back N w) = .sleepBack) :
    r.quit = false ∧ N ≤ r.size := by
  cases w <;> cases hquit : r.quit <;> by_cases hz : N - r.size = 0 <;>
    simp [Ring.back, Ring.space, hquit, hz, afterBack] at h ⊢ <;> omega

theorem afterFront_sleep {N : Nat} {r : Ring Unit} {w} (h : afterFront (r.front N w) = .sleep) :
    r.quit = false ∧ r.size = 0 := by
  cases w <;> cases hquit : r.quit <;> by_cases hz : r.size = 0 <;>
    simp [Ring.front, Ring.empty, hquit, hz, afterFront] at h ⊢

theorem afterBack_hold {N : Nat} {r : Ring Unit} {w len} (hh : r.head < N) (hs : r.size ≤ N)
    (h : afterBack (r.back N w) = .hold len) : len + r.size ≤ N := by
  cases hb : r.back N w with
  | window off len' =>
    obtain ⟨_, _, h3, _⟩ := back_window hh hs hb
    simp [hb, afterBack] at h; omega
  | _ => simp [hb, afterBack] at h

theorem afterFront_hold {N : Nat} {r : Ring Unit} {w len} (hh : r.head < N) (hs : r.size ≤ N)
    (h : afterFront (r.front N w) = .hold len) : len ≤ r.size := by
  cases hb : r.front N w with
  | window off len' =>
    obtain ⟨_, _, h3, _⟩ := front_window hh hs hb
    simp [hb, afterFront] at h; omega
  | _ => simp [hb, afterFront] at h

theorem afterBack_ne {r : Res} : afterBack r ≠ .sleepSync ∧ afterBack r ≠ .notify := by
  cases r <;> simp [afterBack]

theorem afterFront_ne {r : Res} : afterFront r ≠ .notify := by
  cases r <;> simp [afterFront]

theorem wakeHead_idle {p p' : PPC} {t'} (h : WakeHead p .idle p' t') :
    t' = .idle ∧ p' ≠ .sleepBack ∧ p' ≠ .sleepSync ∧ (∀ len, p' = .hold len → p = .hold len) ∧
    (p = .notify → p' = .notify) := by
  cases h with
  | none h1 h2 => cases p <;> simp_all [PPC.asleep]
  | prod h1 => cases p <;> simp_all [PPC.asleep, wakeP]

theorem cinv_step {N : Nat} (hN : 0 < N) {s s' : CState} (hi : CInv N s)
    (h : CStep N false s s') : CInv N s' := by
  obtain ⟨hh, hs, hpw, hcw, ht, hb, hsy, hf⟩ := hi
  cases h with
  | back =>
    refine ⟨hh, hs, fun len e => afterBack_hold hh hs e, hcw, ht, ?_, ?_, ?_⟩
    · intro e h'; have := afterBack_sleep e; simp at h'; rcases h' with h' | h' <;> simp_all <;> omega
    · intro e; exact absurd e afterBack_ne.1
    · intro e h'; have := hf e h'; simp_all
  | backAgain =>
    refine ⟨hh, hs, fun len e => afterBack_hold hh hs e, hcw, ht, ?_, ?_, ?_⟩
    · intro e h'; have := afterBack_sleep e; simp at h'; rcases h' with h' | h' <;> simp_all <;> omega
    · intro e; exact absurd e afterBack_ne.1
    · intro e h'; have := hf e h'; simp_all
  | backSpurious => exact ⟨hh, hs, by simp, hcw, ht, by simp, by simp, by simpa using hf⟩
  | sync =>
    refine ⟨hh, hs, ?_, hcw, ht, ?_, ?_, ?_⟩
    · intro len e; simp only at e; split at e <;> simp at e
    · intro e; simp only at e; split at e <;> simp at e
    · intro e h'; simp only at e; split at e
      · simp at e
      · rename_i hn; simp [Ring.sync, Ring.empty] at hn; simp at h'; simp_all
    · intro e h'; have := hf e h'; simp_all
  | syncAgain =>
    refine ⟨hh, hs, ?_, hcw, ht, ?_, ?_, ?_⟩
    · intro len e; simp only at e; split at e <;> simp at e
    · intro e; simp only at e; split at e <;> simp at e
    · intro e h'; simp only at e; split at e
      · simp at e
      · rename_i hn; simp [Ring.sync, Ring.empty] at hn; simp at h'; simp_all
    · intro e h'; have := hf e h'; simp_all
  | syncSpurious => exact ⟨hh, hs, by simp, hcw, ht, by simp, by simp, by simpa using hf⟩
  | @push r c q t len n hle =>
    have := hpw len rfl
    refine ⟨hh, by simp [Ring.push] at *; omega, by simp, ?_, ht, by simp, by simp, by simp⟩
    intro len' e; have := hcw len' e; simp [Ring.push] at *; omega
  | @pushNotify r c q t =>
    refine ⟨hh, hs, by simp, ?_, ht, by simp, by simp, ?_⟩
    · intro len' e; cases c <;> simp [wakeC] at e; subst e; exact hcw _ rfl
    · intro e; cases c <;> simp [wakeC] at e
  | front =>
    refine ⟨hh, hs, hpw, fun len e => afterFront_hold hh hs e, ht, ?_, ?_, ?_⟩
    · intro e h'; have := hb e h'; simp_all
    · intro e h'; have := hsy e h'; simp_all
    · intro e h'; have := afterFront_sleep e; simp at h'; rcases h' with h' | h' <;> simp_all
  | frontAgain =>
    refine ⟨hh, hs, hpw, fun len e => afterFront_hold hh hs e, ht, ?_, ?_, ?_⟩
    · intro e h'; have := hb e h'; simp_all
    · intro e h'; have := hsy e h'; simp_all
    · intro e h'; have := afterFront_sleep e; simp at h'; rcases h' with h' | h' <;> simp_all
  | frontSpurious =>
    refine ⟨hh, hs, hpw, by simp, ht, ?_, ?_, by simp⟩
    · intro e h'; have := hb e h'; simp_all
    · intro e h'; have := hsy e h'; simp_all
  | @pop r p q t len n hle =>
    have := hcw len rfl
    refine ⟨wrap_lt hN _, by simp [Ring.pop] at *; omega, ?_, by simp, ht, by simp, by simp, by simp⟩
    intro len' e; have := hpw len' e; simp [Ring.pop] at *; omega
  | @popNotify r p p' q t t' hw =>
    simp at ht; subst ht
    obtain ⟨rfl, h1, h2, h3, h4⟩ := wakeHead_idle hw
    refine ⟨hh, hs, fun len e => hpw len (h3 len e), by simp, rfl, ?_, ?_, by simp⟩
    · intro e; exact absurd e h1
    · intro e; exact absurd e h2
  | quit =>
    exact ⟨hh, hs, hpw, hcw, ht, by simp, by simp, by simp⟩
  | @quitNotifyHead r p p' c t t' hw =>
    simp at ht; subst ht
    obtain ⟨rfl, h1, h2, h3, h4⟩ := wakeHead_idle hw
    refine ⟨hh, hs, fun len e => hpw len (h3 len e), hcw, rfl, ?_, ?_, by simp⟩
    · intro e; exact absurd e h1
    · intro e; exact absurd e h2
  | @quitNotifyTail r p c t =>
    refine ⟨hh, hs, hpw, ?_, ht, ?_, ?_, ?_⟩
    · intro len' e; cases c <;> simp [wakeC] at e; subst e; exact hcw _ rfl
    · intro e h'; have := hb e h'; simp at this; subst this; simp [wakeC]
    · intro e h'; have := hsy e h'; simp at this; subst this; simp [wakeC]
    · intro e; cases c <;> simp [wakeC] at e
  | third h => simp at h
  | thirdAgain h => simp at h

theorem creach_inv {N : Nat} (hN : 0 < N) {s : CState} (h : CReach N false s) : CInv N s := by
  induction h with
  | init => constructor <;> simp [CState.init, init, hN]
  | step _ hs ih => exact cinv_step hN ih hs

end Verif.Ring
