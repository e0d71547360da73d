/-
Model of `stdex::pool<T>` (include/stdex/pool.hpp 22-107).  One list of available objects per
NUMA node.  `push` and `pop` run inside the node's spin lock (73, 91), so concurrent use is
an interleaving of atomic `push`/`pop` events; `clear` (98-106) empties node after node and
other threads' `push`/`pop` may come in between, so it is a `clearNode` event per node, in
any order and at any distance.  Mutual exclusion of the spin lock itself is property C26.
-/
namespace Verif.Pool

variable {T : Type} [DecidableEq T]

/-- `m_available`, pool.hpp 39.  A node without a map entry has the empty list (59 creates
it on first access). -/
abbrev State (T : Type) := Int → List T

/-- Atomic events of an execution. -/
inductive Ev (T : Type) where
  | push (numa : Int) (r : T)
  | pop (numa : Int)
  | clearNode (numa : Int)
deriving DecidableEq

/-- What a `pop` returned: an object, or the null object `T()`. -/
abbrev Ret (T : Type) := Option T

/-- `push`, pool.hpp 88-93 (`push_front`). -/
def push (s : State T) (n : Int) (r : T) : State T := fun m => if m = n then r :: s n else s m

/-- `pop`, pool.hpp 70-80 (`front`, `pop_front`, or `T()`). -/
def pop (s : State T) (n : Int) : Ret T × State T :=
  match s n with
  | r :: l => (some r, fun m => if m = n then l else s m)
  | [] => (none, s)

/-- Body of the loop of `clear`, pool.hpp 101-105, for one node. -/
def clearNode (s : State T) (n : Int) : State T := fun m => if m = n then [] else s m

/-- One event: the value returned (`pop` only) and the new state. -/
def step (s : State T) : Ev T → Ret T × State T
  | .push n r => (none, push s n r)
  | .pop n => pop s n
  | .clearNode n => (none, clearNode s n)

/-- A new pool, pool.hpp 39. -/
def init : State T := fun _ => []

/-- State after an execution. -/
def after (s : State T) : List (Ev T) → State T
  | [] => s
  | e :: h => after (step s e).2 h

/-- The execution annotated with what each event returned. -/
def trace (s : State T) : List (Ev T) → List (Ev T × Ret T)
  | [] => []
  | e :: h => (e, (step s e).1) :: trace (step s e).2 h

/-! ## Specification: counting events of the history -/

/-- How often object `r` was handed in for node `n`. -/
def pushes (n : Int) (r : T) (t : List (Ev T × Ret T)) : Nat := t.countP (fun x => x.1 = .push n r)

/-- How often a `pop` for node `n` handed out object `r`. -/
def pops (n : Int) (r : T) (t : List (Ev T × Ret T)) : Nat := t.countP (fun x => x.1 = .pop n ∧ x.2 = some r)

/-- Histories whose events for node `n` are matched: every `pop` of `n` has its `push`, like
brackets.  Events of other nodes are unrestricted. -/
inductive Matched (n : Int) : List (Ev T) → Prop
  | nil : Matched n []
  | otherPush (m r) : m ≠ n → Matched n [.push m r]
  | otherPop (m) : m ≠ n → Matched n [.pop m]
  | otherClear (m) : m ≠ n → Matched n [.clearNode m]
  | pair (r h) : Matched n h → Matched n (.push n r :: h ++ [.pop n])
  | app (h k) : Matched n h → Matched n k → Matched n (h ++ k)

/-! ## Proofs -/

theorem after_append (s : State T) (h k : List (Ev T)) : after s (h ++ k) = after (after s h) k := by
  induction h generalizing s with
  | nil => rfl
  | cons e h ih => exact ih _

theorem step_other (s : State T) (n : Int) (e : Ev T) (h : ∀ r, e ≠ .push n r) (h2 : e ≠ .pop n)
    (h3 : e ≠ .clearNode n) : (step s e).2 n = s n := by
  cases e with
  | push m r =>
    have : n ≠ m := fun x => h r (by rw [x])
    simp [step, push, this]
  | pop m =>
    have : n ≠ m := fun x => h2 (by rw [x])
    simp only [step, pop]
    cases s m <;> simp [this]
  | clearNode m =>
    have : n ≠ m := fun x => h3 (by rw [x])
    simp [step, clearNode, this]

theorem matched_keeps {n : Int} {h : List (Ev T)} (hm : Matched n h) : ∀ s : State T, after s h n = s n := by
  induction hm with
  | nil => intro s; rfl
  | otherPush m r hm => intro s; exact step_other s n _ (by rintro r ⟨⟩; exact hm rfl) (by rintro ⟨⟩) (by rintro ⟨⟩)
  | otherPop m hm => intro s; exact step_other s n _ (by rintro r ⟨⟩) (by rintro ⟨⟩; exact hm rfl) (by rintro ⟨⟩)
  | otherClear m hm => intro s; exact step_other s n _ (by rintro r ⟨⟩) (by rintro ⟨⟩) (by rintro ⟨⟩; exact hm rfl)
  | pair r h _ ih =>
    intro s
    show after (push s n r) (h ++ [.pop n]) n = _
    rw [after_append]
    have : after (push s n r) h n = r :: s n := by rw [ih]; simp [push]
    simp [after, step, pop, this]
  | app h k _ _ ih1 ih2 => intro s; rw [after_append, ih2, ih1]

theorem conserve (n : Int) (r : T) (h : List (Ev T)) : ∀ s : State T,
    pops n r (trace s h) + (after s h n).count r ≤ pushes n r (trace s h) + (s n).count r ∧
    ((∀ e ∈ h, e ≠ .clearNode n) →
      pops n r (trace s h) + (after s h n).count r = pushes n r (trace s h) + (s n).count r) := by
  induction h with
  | nil => intro s; simp [pops, pushes, trace, after]
  | cons e h ih =>
    intro s
    obtain ⟨i1, i2⟩ := ih (step s e).2
    have key : ∀ a b c d : Nat, pops n r (trace s (e :: h)) = a + pops n r (trace (step s e).2 h) →
        pushes n r (trace s (e :: h)) = b + pushes n r (trace (step s e).2 h) →
        ((step s e).2 n).count r = c → (s n).count r = d → 
        (a + c ≤ b + d ∧ (e ≠ .clearNode n → a + c = b + d)) →
        (pops n r (trace s (e :: h)) + (after s (e :: h) n).count r ≤
          pushes n r (trace s (e :: h)) + (s n).count r ∧
        ((∀ e' ∈ e :: h, e' ≠ .clearNode n) →
          pops n r (trace s (e :: h)) + (after s (e :: h) n).count r =
            pushes n r (trace s (e :: h)) + (s n).count r)) := by
      intro a b c d h1 h2 h3 h4 ⟨h5, h6⟩
      rw [h1, h2, h4]
      rw [h3] at i1 i2
      refine ⟨?_, fun hc => ?_⟩
      · show _ + (after (step s e).2 h n).count r ≤ _; omega
      · have j1 := i2 (fun e' he => hc e' (List.mem_cons_of_mem _ he))
        have j2 := h6 (hc e List.mem_cons_self)
        show _ + (after (step s e).2 h n).count r = _; omega
    by_cases hp : e = .pop n
    · subst hp
      rcases hs : s n with _ | ⟨x, l⟩
      · rw [← hs]
        refine key 0 0 0 0 ?_ ?_ ?_ ?_ (by simp)
        · simp [pops, trace, step, pop, hs]
        · simp [pushes, trace]
        · simp [step, pop, hs]
        · simp [hs]
      · rw [← hs]
        refine key (if x = r then 1 else 0) 0 (l.count r) ((x :: l).count r) ?_ ?_ ?_ ?_ ?_
        · simp only [pops, trace, List.countP_cons, step, pop, hs]
          by_cases hx : x = r <;> simp [hx] <;> omega
        · simp [pushes, trace]
        · simp [step, pop, hs]
        · rw [hs]
        · rw [List.count_cons]
          by_cases hx : x = r <;> simp [hx] <;> omega
    · by_cases hu : ∃ x, e = .push n x
      · obtain ⟨x, rfl⟩ := hu
        refine key 0 (if x = r then 1 else 0) ((x :: s n).count r) ((s n).count r) ?_ ?_ ?_ rfl ?_
        · simp [pops, trace, List.countP_cons]
        · simp only [pushes, trace, List.countP_cons]
          by_cases hx : x = r <;> simp [hx] <;> omega
        · simp [step, push]
        · rw [List.count_cons]
          by_cases hx : x = r <;> simp [hx] <;> omega
      · have hz1 : pops n r (trace s (e :: h)) = 0 + pops n r (trace (step s e).2 h) := by
          simp [pops, trace, List.countP_cons, hp]
        have hz2 : pushes n r (trace s (e :: h)) = 0 + pushes n r (trace (step s e).2 h) := by
          have : e ≠ .push n r := fun x => hu ⟨r, x⟩
          simp [pushes, trace, List.countP_cons, this]
        by_cases hcl : e = .clearNode n
        · subst hcl
          refine key 0 0 0 ((s n).count r) hz1 hz2 (by simp [step, clearNode]) rfl (by simp)
        · refine key 0 0 ((s n).count r) ((s n).count r) hz1 hz2 ?_ rfl (by simp)
          rw [step_other s n e (fun x hx => hu ⟨x, hx⟩) hp hcl]

/-! ## Properties -/

/-- **C14** In every execution (any interleaving of any number of threads) and for every
object `r` and node `n`: `r` was handed out by `pop`s for node `n` at most as often as it had
been handed in by `push`es for node `n`; what is neither handed out nor discarded by `clear`
is still available.  (Applied to prefixes of an execution: an object pushed once is returned
at most once and not before it was pushed.) -/
theorem pool_no_duplication (h : List (Ev T)) (n : Int) (r : T) :
    pops n r (trace init h) ≤ pushes n r (trace init h) ∧
    ((∀ e ∈ h, e ≠ .clearNode n) →
      pops n r (trace init h) + (after init h n).count r = pushes n r (trace init h)) := by
  obtain ⟨h1, h2⟩ := conserve n r h init
  have h0 : ((init : State T) n).count r = 0 := rfl
  rw [h0] at h1 h2
  exact ⟨by omega, fun x => by have := h2 x; omega⟩

/-- **C14** Most recently pushed first: after any execution, if `r` is pushed and the events
in between are matched for the node, the next `pop` for this node returns `r`. -/
theorem pool_lifo (h k : List (Ev T)) (n : Int) (r : T) (hk : Matched n k) :
    (pop (after init (h ++ .push n r :: k)) n).1 = some r := by
  rw [after_append]
  have : after (after init h) (.push n r :: k) n = r :: after init h n := by
    show after (push (after init h) n r) k n = _
    rw [matched_keeps hk]; simp [push]
  simp [pop, this]

/-- **C14** `pop` returns the null object iff the node has nothing available, which is the case
for a new pool and after `clear` as long as the events for the node are matched. -/
theorem pool_empty (h k : List (Ev T)) (n : Int) (hk : Matched n k) :
    (pop (after init k) n).1 = none ∧
    (pop (after init (h ++ .clearNode n :: k)) n).1 = none ∧
    ∀ s : State T, (pop s n).1 = none ↔ s n = [] := by
  have hn : ∀ s : State T, (pop s n).1 = none ↔ s n = [] := by
    intro s; simp only [pop]; cases s n <;> simp
  refine ⟨(hn _).mpr (by rw [matched_keeps hk]; rfl), (hn _).mpr ?_, hn⟩
  rw [after_append]
  show after (clearNode (after init h) n) k n = _
  rw [matched_keeps hk]; simp [clearNode]

/-! ## Non-vacuity -/
example : Matched 0 [Ev.push 0 7, .push 1 5, .pop 0] :=
  .pair 7 [.push 1 5] (.otherPush 1 5 (by decide))
example : trace (init : State Nat) [.push 0 1, .push 0 2, .push 1 3, .pop 0, .pop 1, .pop 1, .pop 0, .pop 0] =
    [(.push 0 1, none), (.push 0 2, none), (.push 1 3, none), (.pop 0, some 2), (.pop 1, some 3),
     (.pop 1, none), (.pop 0, some 1), (.pop 0, none)] := by decide

end Verif.Pool
