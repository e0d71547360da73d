import Verif.Stream.Basic
/-
Model of `stdex::stream::replicator` (include/stdex/stream.hpp 1084-1243): one user thread, one worker thread per
attached stream, a mutex and a condition variable per worker. Steps of all threads interleave arbitrarily.

* A worker's mutex is held by the worker throughout an operation of its stream (`Pc.busy`); all other critical
  sections are single steps. Waiting on a condition variable, being notified and waking up spuriously are modelled.
* A stream may accept any part of a write and end in any state.
* `push_back` and `remove` may be called between operations. Not modelled: the destructor (as `remove` of all).
-/
namespace Verif.Stream.Replicator
open Verif.Stream
variable {β : Type}

/-- A call on the replicator. -/
inductive ROp (β : Type) where
  | write (d : List β) | close | flush

/-- The count a call starts from, 1142 (`close` and `flush` have none). -/
def ROp.len : ROp β → Nat
  | .write d => d.length
  | _ => 0

/-- `op_t`, 1208-1214. -/
inductive WOp (β : Type) where
  | noop | quit | run (op : ROp β)

/-- Where a worker is in `process_op`, 1181-1204: about to test `op` 1185, waiting, operating on its stream, past
`lk.unlock()` before `notify_one` 1202, or returned. -/
inductive Pc where
  | test | asleep | busy | notify | exited
deriving DecidableEq

/-- What an operation of a stream reports. -/
structure Res where
  n : Nat
  st : St

/-- A worker with its stream: `applied` are the operations on the stream, with their results; `since` is how many
calls had returned when the stream was attached. -/
structure W (β : Type) where
  op : WOp β
  pc : Pc
  applied : List (ROp β × Res)
  since : Nat

/-- The user thread: not in a call; about to hand `op` to worker `i` 1134-1139, or to notify it 1140; collecting from
worker `i` 1144-1152 with `n`, `st` so far, waiting on its condition variable or not; in `remove` of worker `i`:
notifying 1121, joining 1122. -/
inductive U (β : Type) where
  | idle
  | set (op : ROp β) (i : Nat)
  | note (op : ROp β) (i : Nat)
  | wait (op : ROp β) (i n : Nat) (st : St) (asleep : Bool)
  | rmNote (i : Nat)
  | join (i : Nat)

structure A (β : Type) where
  ws : List (W β)
  u : U β
  /-- Returned calls with what they reported. -/
  log : List (ROp β × Res)

def A.init : A β := ⟨[], .idle, []⟩

/-- The result of the last operation of a worker's stream. -/
def W.last (w : W β) : Res := (w.applied.getLast?.map (·.2)).getD ⟨0, .ok⟩

/-- `num_written` so far, 1148-1149; not used by `close`, `flush`. -/
def collectN (op : ROp β) (n : Nat) (r : Res) : Nat :=
  match op with
  | .write _ => if r.n < n then r.n else n
  | _ => n

/-- `m_state` so far, 1150-1151 and 1237-1238. -/
def collectSt (st : St) (r : Res) : St := if st = .ok then r.st else st

/-- Waking the worker from its condition variable. -/
def W.wake (w : W β) : W β := if w.pc = .asleep then { w with pc := .test } else w

/-- Waking the user, if it waits on the condition variable of worker `i`. -/
def U.wake (i : Nat) : U β → U β
  | .wait op j n st true => .wait op j n st (!decide (i = j))
  | u => u

/-- One step of one thread; `sp` marks spurious wake-ups. -/
inductive Step : (sp : Bool) → A β → A β → Prop where
  /-- A call, 1129 / 1156 / 1161. -/
  | call {a : A β} (op : ROp β) : a.u = .idle → Step false a { a with u := .set op 0 }
  /-- 1134-1139 (waits for the worker's mutex). -/
  | set {a : A β} {op i w} : a.u = .set op i → a.ws[i]? = some w → w.pc ≠ .busy →
      Step false a { a with ws := a.ws.set i { w with op := .run op }, u := .note op i }
  /-- 1140: only the worker can be waiting. -/
  | note {a : A β} {op i w} : a.u = .note op i → a.ws[i]? = some w →
      Step false a { a with ws := a.ws.set i w.wake, u := .set op (i + 1) }
  /-- 1142-1144. -/
  | all {a : A β} {op i} : a.u = .set op i → a.ws[i]? = none → Step false a { a with u := .wait op 0 op.len .ok false }
  /-- 1147, predicate true; 1148-1151. -/
  | got {a : A β} {op i n st w} : a.u = .wait op i n st false → a.ws[i]? = some w → w.pc ≠ .busy → w.op = .noop →
      Step false a { a with u := .wait op (i + 1) (collectN op n w.last) (collectSt st w.last) false }
  /-- 1147, predicate false. -/
  | sleep {a : A β} {op i n st w} : a.u = .wait op i n st false → a.ws[i]? = some w → w.pc ≠ .busy → w.op ≠ .noop →
      Step false a { a with u := .wait op i n st true }
  | spuriousU {a : A β} {op i n st} : a.u = .wait op i n st true → Step true a { a with u := .wait op i n st false }
  /-- 1153 / 1240. -/
  | ret {a : A β} {op i n st} : a.u = .wait op i n st false → a.ws[i]? = none →
      Step false a { a with u := .idle, log := a.log ++ [(op, ⟨n, st⟩)] }
  /-- `push_back`, 1104-1107: the new worker starts at its test. -/
  | attach {a : A β} : a.u = .idle → Step false a { a with ws := a.ws ++ [⟨.noop, .test, [], a.log.length⟩] }
  /-- `remove`, 1117-1120. -/
  | remove {a : A β} {i w} : a.u = .idle → a.ws[i]? = some w → w.pc ≠ .busy →
      Step false a { a with ws := a.ws.set i { w with op := .quit }, u := .rmNote i }
  /-- 1121. -/
  | rmNote {a : A β} {i w} : a.u = .rmNote i → a.ws[i]? = some w → Step false a { a with ws := a.ws.set i w.wake, u := .join i }
  /-- 1122-1124. -/
  | removed {a : A β} {i w} : a.u = .join i → a.ws[i]? = some w → w.pc = .exited → Step false a { a with ws := a.ws.eraseIdx i, u := .idle }
  /-- 1185, nothing to do. -/
  | wSleep {a : A β} {i w} : a.ws[i]? = some w → w.pc = .test → w.op = .noop → Step false a { a with ws := a.ws.set i { w with pc := .asleep } }
  | spuriousW {a : A β} {i w} : a.ws[i]? = some w → w.pc = .asleep → Step true a { a with ws := a.ws.set i { w with pc := .test } }
  /-- 1187-1188. -/
  | wQuit {a : A β} {i w} : a.ws[i]? = some w → w.pc = .test → w.op = .quit → Step false a { a with ws := a.ws.set i { w with pc := .exited } }
  /-- 1189-1197, the operation begins. -/
  | wBegin {a : A β} {i w op} : a.ws[i]? = some w → w.pc = .test → w.op = .run op → Step false a { a with ws := a.ws.set i { w with pc := .busy } }
  /-- The operation ends with any result, 1200-1201. -/
  | wEnd {a : A β} {i w op} (r : Res) : a.ws[i]? = some w → w.pc = .busy → w.op = .run op →
      Step false a { a with ws := a.ws.set i { w with pc := .notify, op := .noop, applied := w.applied ++ [(op, r)] } }
  /-- 1202: only the user can be waiting. -/
  | wNote {a : A β} {i w} : a.ws[i]? = some w → w.pc = .notify → Step false a { a with ws := a.ws.set i { w with pc := .test }, u := a.u.wake i }

/-- States reachable in any schedule. -/
inductive Reach : A β → Prop where
  | init : Reach A.init
  | step {sp : Bool} {a a' : A β} : Reach a → Step sp a a' → Reach a'

/-! ### The invariant -/

/-- The operations a stream attached after `since` calls should have seen from the returned calls. -/
def hist (log : List (ROp β × Res)) (since : Nat) : List (ROp β) := (log.drop since).map (·.1)

/-- Worker `w` has not been given the current operation. -/
structure Before (log : List (ROp β × Res)) (w : W β) : Prop where
  cur : w.op = .noop
  ops : w.applied.map (·.1) = hist log w.since
  pc : w.pc ≠ .busy ∧ w.pc ≠ .exited

/-- It has finished the current operation. -/
structure After (log : List (ROp β × Res)) (op : ROp β) (w : W β) : Prop where
  cur : w.op = .noop
  ops : w.applied.map (·.1) = hist log w.since ++ [op]
  pc : w.pc ≠ .busy ∧ w.pc ≠ .exited

/-- It has the current operation to do. `told`: the user has notified it. -/
structure During (log : List (ROp β × Res)) (op : ROp β) (told : Prop) (w : W β) : Prop where
  cur : w.op = .run op
  ops : w.applied.map (·.1) = hist log w.since
  pc : w.pc ≠ .exited
  awake : told → w.pc ≠ .asleep

/-- What is true of worker `j`, given where the user is. -/
def WOk (log : List (ROp β × Res)) (u : U β) (j : Nat) (w : W β) : Prop :=
  match u with
  | .idle => Before log w
  | .set op i => if j < i then During log op True w ∨ After log op w else Before log w
  | .note op i => if j < i then During log op True w ∨ After log op w else if j = i then During log op False w ∨ After log op w else Before log w
  | .wait op i _ _ _ => if j < i then After log op w else During log op True w ∨ After log op w
  | .rmNote i => if j = i then w.op = .quit ∧ w.pc ≠ .busy ∧ w.applied.map (·.1) = hist log w.since else Before log w
  | .join i => if j = i then w.op = .quit ∧ w.pc ≠ .busy ∧ w.pc ≠ .asleep ∧ w.applied.map (·.1) = hist log w.since else Before log w

/-- What is true of the results collected, and of a sleeping user. -/
def UOk (ws : List (W β)) : U β → Prop
  | .wait op i n st asleep =>
    i ≤ ws.length ∧ n = (ws.take i).foldl (fun n w => collectN op n w.last) op.len ∧
    st = (ws.take i).foldl (fun st w => collectSt st w.last) .ok ∧
    (asleep = true → ∃ w, ws[i]? = some w ∧ (w.op ≠ .noop ∨ w.pc = .notify))
  | .note _ i => i < ws.length
  | .set _ i => i ≤ ws.length
  | .rmNote i => i < ws.length
  | .join i => i < ws.length
  | .idle => True

structure Inv (a : A β) : Prop where
  w : ∀ j w, a.ws[j]? = some w → WOk a.log a.u j w ∧ w.since ≤ a.log.length
  u : UOk a.ws a.u

theorem foldl_set {γ δ : Type} (f : δ → γ → δ) (z : δ) (ws : List γ) (i j : Nat) (w w' : γ) (hw : ws[i]? = some w)
    (h : j ≤ i ∨ ∀ x, f x w' = f x w) : ((ws.set i w').take j).foldl f z = (ws.take j).foldl f z := by
  rcases h with h | h
  · rw [List.take_set_of_le h]
  · induction ws generalizing z i j with
    | nil => rfl
    | cons y ys ih =>
      cases j with
      | zero => rfl
      | succ j =>
        cases i with
        | zero =>
          simp only [List.getElem?_cons_zero, Option.some.injEq] at hw
          subst hw
          simp [h]
        | succ i =>
          simp only [List.getElem?_cons_succ] at hw
          simp only [List.set_cons_succ, List.take_succ_cons, List.foldl_cons]
          exact ih _ _ _ hw

/-- The user's side when worker `i` changes from `w` to `w'`. -/
theorem uok_set {ws : List (W β)} {u : U β} {i : Nat} {w w' : W β} (hw : ws[i]? = some w) (h : UOk ws u)
    (hl : ∀ op j n st s, u = .wait op j n st s → j ≤ i ∨ w'.applied = w.applied)
    (hs : ∀ op n st, u = .wait op i n st true → w'.op ≠ .noop ∨ w'.pc = .notify) : UOk (ws.set i w') u := by
  cases u with
  | idle => trivial
  | set op j => show j ≤ (ws.set i w').length; rw [List.length_set]; exact h
  | note op j => show j < (ws.set i w').length; rw [List.length_set]; exact h
  | rmNote j => show j < (ws.set i w').length; rw [List.length_set]; exact h
  | join j => show j < (ws.set i w').length; rw [List.length_set]; exact h
  | wait op j n st s =>
    obtain ⟨h1, h2, h3, h4⟩ := h
    have e := hl op j n st s rfl
    have hlast : j ≤ i ∨ w'.last = w.last := e.imp id fun q => by unfold W.last; rw [q]
    refine ⟨by rw [List.length_set]; exact h1, ?_, ?_, ?_⟩
    · rw [foldl_set _ _ ws i j w w' hw (hlast.imp id fun q x => by rw [q])]; exact h2
    · rw [foldl_set _ _ ws i j w w' hw (hlast.imp id fun q x => by rw [q])]; exact h3
    · intro q
      obtain ⟨x, x1, x2⟩ := h4 q
      by_cases c : i = j
      · subst c
        refine ⟨w', ?_, hs op n st (by rw [q])⟩
        rw [List.getElem?_set_self (List.getElem?_eq_some_iff.1 hw).1]
      · exact ⟨x, by rw [List.getElem?_set_ne c]; exact x1, x2⟩

/-- A step of worker `i`. -/
theorem inv_set {a : A β} (h : Inv a) {i : Nat} {w w' : W β} (hw : a.ws[i]? = some w) (hsince : w'.since = w.since)
    (hok : WOk a.log a.u i w')
    (hl : ∀ op j n st s, a.u = .wait op j n st s → j ≤ i ∨ w'.applied = w.applied)
    (hs : ∀ op n st, a.u = .wait op i n st true → w'.op ≠ .noop ∨ w'.pc = .notify) :
    Inv { a with ws := a.ws.set i w' } := by
  refine ⟨?_, uok_set hw h.u hl hs⟩
  intro j x hx
  by_cases c : i = j
  · subst c
    have hx' : (a.ws.set i w')[i]? = some x := hx
    rw [List.getElem?_set_self (List.getElem?_eq_some_iff.1 hw).1] at hx'
    cases hx'
    exact ⟨hok, by rw [hsince]; exact (h.w i w hw).2⟩
  · have hx' : (a.ws.set i w')[j]? = some x := hx
    rw [List.getElem?_set_ne c] at hx'
    exact h.w j x hx'

/-- Changes of `pc` only. -/
theorem wok_pc {log : List (ROp β × Res)} {u : U β} {i : Nat} {w : W β} (h : WOk log u i w) (p : Pc)
    (h1 : p = .busy → ∃ op, w.op = .run op) (h2 : p = .exited → w.op = .quit) (h3 : p = .asleep → w.op = .noop) :
    WOk log u i { w with pc := p } := by
  have hb : ∀ (_ : Prop), Before log w → Before log { w with pc := p } := fun _ q =>
    ⟨q.cur, q.ops, fun c => (by obtain ⟨op, e⟩ := h1 c; rw [q.cur] at e; cases e), fun c => (by have e := h2 c; rw [q.cur] at e; cases e)⟩
  have ha : ∀ op, After log op w → After log op { w with pc := p } := fun op q =>
    ⟨q.cur, q.ops, fun c => (by obtain ⟨op, e⟩ := h1 c; rw [q.cur] at e; cases e), fun c => (by have e := h2 c; rw [q.cur] at e; cases e)⟩
  have hd : ∀ op t, During log op t w → During log op t { w with pc := p } := fun op t q =>
    ⟨q.cur, q.ops, fun c => (by have e := h2 c; rw [q.cur] at e; cases e), fun _ c => (by have e := h3 c; rw [q.cur] at e; cases e)⟩
  have hq : w.op = .quit → p ≠ .busy ∧ p ≠ .asleep := fun q =>
    ⟨fun c => (by obtain ⟨op, e⟩ := h1 c; rw [q] at e; cases e), fun c => (by have e := h3 c; rw [q] at e; cases e)⟩
  cases u with
  | idle => exact hb True h
  | set op j =>
    simp only [WOk] at h ⊢
    by_cases c : i < j
    · rw [if_pos c] at h ⊢; exact h.imp (hd op _) (ha op)
    · rw [if_neg c] at h ⊢; exact hb True h
  | note op j =>
    simp only [WOk] at h ⊢
    by_cases c : i < j
    · rw [if_pos c] at h ⊢; exact h.imp (hd op _) (ha op)
    · rw [if_neg c] at h ⊢
      by_cases c2 : i = j
      · rw [if_pos c2] at h ⊢; exact h.imp (hd op _) (ha op)
      · rw [if_neg c2] at h ⊢; exact hb True h
  | wait op j n st s =>
    simp only [WOk] at h ⊢
    by_cases c : i < j
    · rw [if_pos c] at h ⊢; exact ha op h
    · rw [if_neg c] at h ⊢; exact h.imp (hd op _) (ha op)
  | rmNote j =>
    simp only [WOk] at h ⊢
    by_cases c : i = j
    · rw [if_pos c] at h ⊢; exact ⟨h.1, (hq h.1).1, h.2.2⟩
    · rw [if_neg c] at h ⊢; exact hb True h
  | join j =>
    simp only [WOk] at h ⊢
    by_cases c : i = j
    · rw [if_pos c] at h ⊢; exact ⟨h.1, (hq h.1).1, (hq h.1).2, h.2.2.2⟩
    · rw [if_neg c] at h ⊢; exact hb True h

/-- The workers' side depends on the user's position only through where it is, not on whether it sleeps. -/
theorem wok_wake {log : List (ROp β × Res)} {u : U β} {i j : Nat} {w : W β} (h : WOk log u j w) : WOk log (u.wake i) j w := by
  cases u with
  | wait op k n st s => cases s <;> exact h
  | _ => exact h

theorem inv_step {sp : Bool} {a a' : A β} (h : Inv a) (hs : Step sp a a') : Inv a' := by
  cases hs with
  | call op hu =>
    refine ⟨fun j w hw => ?_, Nat.zero_le _⟩
    have := h.w j w hw
    rw [hu] at this
    exact this
  | @set _ op i w hu hw hb =>
    have hlt := (List.getElem?_eq_some_iff.1 hw).1
    refine ⟨fun j x hx => ?_, ?_⟩
    · by_cases c : i = j
      · subst c
        have hx' : (a.ws.set i _)[i]? = some x := hx
        rw [List.getElem?_set_self hlt] at hx'
        cases hx'
        have := h.w i w hw
        rw [hu] at this
        simp only [WOk, Nat.lt_irrefl, if_false, if_true] at this ⊢
        exact ⟨Or.inl ⟨rfl, this.1.ops, this.1.pc.2, fun q => q.elim⟩, this.2⟩
      · have hx' : (a.ws.set i _)[j]? = some x := hx
        rw [List.getElem?_set_ne c] at hx'
        have := h.w j x hx'
        rw [hu] at this
        simp only [WOk, show j ≠ i from fun q => c q.symm, if_false] at this ⊢
        exact this
    · show i < (a.ws.set i _).length
      rw [List.length_set]; exact hlt
  | @note _ op i w hu hw =>
    have hlt := (List.getElem?_eq_some_iff.1 hw).1
    refine ⟨fun j x hx => ?_, ?_⟩
    · by_cases c : i = j
      · subst c
        have hx' : (a.ws.set i _)[i]? = some x := hx
        rw [List.getElem?_set_self hlt] at hx'
        cases hx'
        have := h.w i w hw
        rw [hu] at this
        simp only [WOk, Nat.lt_irrefl, if_false, if_true, Nat.lt_succ_self] at this ⊢
        unfold W.wake
        by_cases hp : w.pc = .asleep
        · rw [if_pos hp]
          refine ⟨this.1.imp (fun q => ⟨q.cur, q.ops, (fun c => nomatch c), fun _ c => nomatch c⟩) (fun q => ⟨q.cur, q.ops, (fun c => nomatch c), fun c => nomatch c⟩), this.2⟩
        · rw [if_neg hp]
          exact ⟨this.1.imp (fun q => ⟨q.cur, q.ops, q.pc, fun _ => hp⟩) id, this.2⟩
      · have hx' : (a.ws.set i _)[j]? = some x := hx
        rw [List.getElem?_set_ne c] at hx'
        have := h.w j x hx'
        rw [hu] at this
        simp only [WOk, show j ≠ i from fun q => c q.symm, if_false] at this ⊢
        by_cases c2 : j < i
        · rw [if_pos c2] at this; rw [if_pos (by omega)]; exact this
        · rw [if_neg c2] at this; rw [if_neg (by omega)]; exact this
    · show i + 1 ≤ (a.ws.set i _).length
      rw [List.length_set]; exact hlt
  | @all _ op i hu hn =>
    have hle := List.getElem?_eq_none_iff.1 hn
    refine ⟨fun j w hw => ?_, Nat.zero_le _, rfl, rfl, fun q => nomatch q⟩
    have := h.w j w hw
    have hlt : j < a.ws.length := (List.getElem?_eq_some_iff.1 hw).1
    rw [hu] at this
    simp only [WOk, show j < i by omega, if_true, Nat.not_lt_zero, if_false] at this ⊢
    exact this
  | @got _ op i n st w hu hw hb hop =>
    have hlt := (List.getElem?_eq_some_iff.1 hw).1
    have huo := h.u
    rw [hu] at huo
    obtain ⟨u1, u2, u3, u4⟩ := huo
    refine ⟨fun j x hx => ?_, hlt, ?_, ?_, fun q => nomatch q⟩
    · have := h.w j x hx
      rw [hu] at this
      simp only [WOk] at this ⊢
      by_cases c : j < i
      · rw [if_pos c] at this; rw [if_pos (by omega)]; exact this
      · rw [if_neg c] at this
        by_cases c2 : j = i
        · subst c2
          rw [if_pos (by omega)]
          have hx' : a.ws[j]? = some x := hx
          rw [hw] at hx'; cases hx'
          refine ⟨this.1.resolve_left fun q => ?_, this.2⟩
          have := q.cur; rw [hop] at this; cases this
        · rw [if_neg (by omega)]; exact this
    · show collectN op n w.last = _
      rw [List.take_add_one, hw, List.foldl_append, ← u2]; rfl
    · show collectSt st w.last = _
      rw [List.take_add_one, hw, List.foldl_append, ← u3]; rfl
  | @sleep _ op i n st w hu hw hb hop =>
    have huo := h.u
    rw [hu] at huo
    refine ⟨fun j x hx => ?_, huo.1, huo.2.1, huo.2.2.1, fun _ => ⟨w, hw, Or.inl hop⟩⟩
    have := h.w j x hx
    rw [hu] at this
    exact this
  | @spuriousU _ op i n st hu =>
    have huo := h.u
    rw [hu] at huo
    refine ⟨fun j x hx => ?_, huo.1, huo.2.1, huo.2.2.1, fun q => nomatch q⟩
    have := h.w j x hx
    rw [hu] at this
    exact this
  | @ret _ op i n st hu hn =>
    have hle := List.getElem?_eq_none_iff.1 hn
    refine ⟨fun j x hx => ?_, trivial⟩
    have := h.w j x hx
    have hlt := (List.getElem?_eq_some_iff.1 hx).1
    rw [hu] at this
    simp only [WOk, show j < i by simp at hlt; omega, if_true] at this ⊢
    refine ⟨⟨this.1.cur, ?_, this.1.pc⟩, by show _ ≤ (a.log ++ _).length; rw [List.length_append]; omega⟩
    show _ = hist (a.log ++ [(op, ⟨n, st⟩)]) x.since
    rw [this.1.ops, hist, hist, List.drop_append_of_le_length this.2, List.map_append]; rfl
  | attach hu =>
    refine ⟨fun j x hx => ?_, by show UOk _ a.u; rw [hu]; trivial⟩
    show WOk a.log a.u j x ∧ x.since ≤ a.log.length
    rw [hu]
    show Before a.log x ∧ x.since ≤ a.log.length
    have hx' : (a.ws ++ [_])[j]? = some x := hx
    by_cases c : j < a.ws.length
    · rw [List.getElem?_append_left c] at hx'
      have := h.w j x hx'
      rw [hu] at this
      exact this
    · rw [List.getElem?_append_right (by omega)] at hx'
      cases hk : j - a.ws.length with
      | zero =>
        rw [hk, List.getElem?_cons_zero] at hx'
        cases hx'
        refine ⟨⟨rfl, ?_, (fun c => nomatch c), fun c => nomatch c⟩, Nat.le_refl _⟩
        simp [hist]
      | succ k => rw [hk] at hx'; simp at hx'
  | @remove _ i w hu hw hb =>
    have hlt := (List.getElem?_eq_some_iff.1 hw).1
    refine ⟨fun j x hx => ?_, ?_⟩
    · by_cases c : i = j
      · subst c
        have hx' : (a.ws.set i _)[i]? = some x := hx
        rw [List.getElem?_set_self hlt] at hx'
        cases hx'
        have := h.w i w hw
        rw [hu] at this
        simp only [WOk, if_true]
        exact ⟨⟨trivial, hb, this.1.ops⟩, this.2⟩
      · have hx' : (a.ws.set i _)[j]? = some x := hx
        rw [List.getElem?_set_ne c] at hx'
        have := h.w j x hx'
        rw [hu] at this
        simp only [WOk, show j ≠ i from fun q => c q.symm, if_false] at this ⊢
        exact this
    · show i < (a.ws.set i _).length
      rw [List.length_set]; exact hlt
  | @rmNote _ i w hu hw =>
    have hlt := (List.getElem?_eq_some_iff.1 hw).1
    refine ⟨fun j x hx => ?_, ?_⟩
    · by_cases c : i = j
      · subst c
        have hx' : (a.ws.set i _)[i]? = some x := hx
        rw [List.getElem?_set_self hlt] at hx'
        cases hx'
        have := h.w i w hw
        rw [hu] at this
        simp only [WOk, if_true] at this ⊢
        unfold W.wake
        by_cases hp : w.pc = .asleep
        · rw [if_pos hp]; exact ⟨⟨this.1.1, (fun c => nomatch c), (fun c => nomatch c), this.1.2.2⟩, this.2⟩
        · rw [if_neg hp]; exact ⟨⟨this.1.1, this.1.2.1, hp, this.1.2.2⟩, this.2⟩
      · have hx' : (a.ws.set i _)[j]? = some x := hx
        rw [List.getElem?_set_ne c] at hx'
        have := h.w j x hx'
        rw [hu] at this
        simp only [WOk, show j ≠ i from fun q => c q.symm, if_false] at this ⊢
        exact this
    · show i < (a.ws.set i _).length
      rw [List.length_set]; exact hlt
  | @removed _ i w hu hw hp =>
    have hlt := (List.getElem?_eq_some_iff.1 hw).1
    refine ⟨fun j x hx => ?_, trivial⟩
    show Before a.log x ∧ x.since ≤ a.log.length
    have hx' : (a.ws.eraseIdx i)[j]? = some x := hx
    rw [List.getElem?_eraseIdx] at hx'
    split at hx'
    · rename_i c
      have := h.w j x hx'
      rw [hu] at this
      simp only [WOk, show j ≠ i by omega, if_false] at this
      exact this
    · rename_i c
      have := h.w (j + 1) x hx'
      rw [hu] at this
      simp only [WOk, show j + 1 ≠ i by omega, if_false] at this
      exact this
  | @wSleep _ i w hw hp hop =>
    refine inv_set h (w' := { w with pc := .asleep }) hw rfl (wok_pc (h.w i w hw).1 _ (fun c => nomatch c) (fun c => nomatch c) fun _ => hop) (fun _ _ _ _ _ _ => Or.inr rfl) ?_
    intro op n st q
    have huo := h.u
    rw [q] at huo
    obtain ⟨x, x1, x2⟩ := huo.2.2.2 rfl
    rw [hw] at x1; cases x1
    rcases x2 with x2 | x2
    · exact absurd hop x2
    · rw [hp] at x2; cases x2
  | @spuriousW _ i w hw hp =>
    refine inv_set h (w' := { w with pc := .test }) hw rfl (wok_pc (h.w i w hw).1 _ (fun c => nomatch c) (fun c => nomatch c) (fun c => nomatch c)) (fun _ _ _ _ _ _ => Or.inr rfl) ?_
    intro op n st q
    have huo := h.u
    rw [q] at huo
    obtain ⟨x, x1, x2⟩ := huo.2.2.2 rfl
    rw [hw] at x1; cases x1
    rcases x2 with x2 | x2
    · exact Or.inl x2
    · rw [hp] at x2; cases x2
  | @wQuit _ i w hw hp hop =>
    refine inv_set h (w' := { w with pc := .exited }) hw rfl (wok_pc (h.w i w hw).1 _ (fun c => nomatch c) (fun _ => hop) (fun c => nomatch c)) (fun _ _ _ _ _ _ => Or.inr rfl) ?_
    intro op n st q
    exact Or.inl (by show w.op ≠ _; rw [hop]; exact fun c => nomatch c)
  | @wBegin _ i w op hw hp hop =>
    refine inv_set h (w' := { w with pc := .busy }) hw rfl (wok_pc (h.w i w hw).1 _ (fun _ => ⟨op, hop⟩) (fun c => nomatch c) (fun c => nomatch c)) (fun _ _ _ _ _ _ => Or.inr rfl) ?_
    intro op n st q
    exact Or.inl (by show w.op ≠ _; rw [hop]; exact fun c => nomatch c)
  | @wEnd _ i w op r hw hp hop =>
    have key : ∀ op' t, During a.log op' t w → op = op' ∧ After a.log op' { w with pc := .notify, op := .noop, applied := w.applied ++ [(op, r)] } := by
      intro op' t q
      have e := q.cur
      rw [hop] at e; cases e
      refine ⟨rfl, rfl, ?_, (fun c => nomatch c), fun c => nomatch c⟩
      show (w.applied ++ _).map _ = _
      rw [List.map_append, q.ops]; rfl
    have nb : ¬ Before a.log w := fun q => by have := q.cur; rw [hop] at this; cases this
    have na : ∀ op', ¬ After a.log op' w := fun op' q => by have := q.cur; rw [hop] at this; cases this
    have hok := (h.w i w hw).1
    have hok' : WOk a.log a.u i { w with pc := .notify, op := .noop, applied := w.applied ++ [(op, r)] } := by
      cases hu : a.u with
      | idle => rw [hu] at hok; exact absurd hok nb
      | set op' j =>
        rw [hu] at hok
        simp only [WOk] at hok ⊢
        split at hok
        · rename_i c
          rw [if_pos c]
          exact Or.inr (key op' _ (hok.resolve_right (na op'))).2
        · exact absurd hok nb
      | note op' j =>
        rw [hu] at hok
        simp only [WOk] at hok ⊢
        split at hok
        · rename_i c
          rw [if_pos c]
          exact Or.inr (key op' _ (hok.resolve_right (na op'))).2
        · rename_i c
          split at hok
          · rename_i c2
            rw [if_neg c, if_pos c2]
            exact Or.inr (key op' _ (hok.resolve_right (na op'))).2
          · exact absurd hok nb
      | wait op' j n st s =>
        rw [hu] at hok
        simp only [WOk] at hok ⊢
        split at hok
        · exact absurd hok (na op')
        · rename_i c
          rw [if_neg c]
          exact Or.inr (key op' _ (hok.resolve_right (na op'))).2
      | rmNote j =>
        rw [hu] at hok
        simp only [WOk] at hok
        split at hok
        · have := hok.1; rw [hop] at this; cases this
        · exact absurd hok nb
      | join j =>
        rw [hu] at hok
        simp only [WOk] at hok
        split at hok
        · have := hok.1; rw [hop] at this; cases this
        · exact absurd hok nb
    refine inv_set h (w' := { w with pc := .notify, op := .noop, applied := w.applied ++ [(op, r)] }) hw rfl hok' ?_ (fun _ _ _ _ => Or.inr rfl)
    intro op' j n st s q
    rw [q] at hok
    simp only [WOk] at hok
    split at hok
    · exact absurd hok (na op')
    · exact Or.inl (by omega)
  | @wNote _ i w hw hp =>
    have hlt := (List.getElem?_eq_some_iff.1 hw).1
    have hwk : WOk a.log a.u i { w with pc := .test } := wok_pc (h.w i w hw).1 _ (fun c => nomatch c) (fun c => nomatch c) (fun c => nomatch c)
    refine ⟨fun j x hx => ?_, ?_⟩
    · have hx' : (a.ws.set i { w with pc := .test })[j]? = some x := hx
      by_cases c : i = j
      · subst c
        rw [List.getElem?_set_self hlt] at hx'
        cases hx'
        exact ⟨wok_wake hwk, (h.w i w hw).2⟩
      · rw [List.getElem?_set_ne c] at hx'
        exact ⟨wok_wake (h.w j x hx').1, (h.w j x hx').2⟩
    · have huo := h.u
      show UOk (a.ws.set i { w with pc := .test }) (a.u.wake i)
      cases hu : a.u with
      | wait op j n st s =>
        rw [hu] at huo
        cases s with
        | false =>
          exact uok_set hw huo (fun _ _ _ _ _ _ => Or.inr rfl) (fun _ _ _ q => nomatch q)
        | true =>
          show UOk _ (.wait op j n st (!decide (i = j)))
          by_cases c : i = j
          · rw [decide_eq_true c]
            have : UOk (β := β) a.ws (.wait op j n st false) := ⟨huo.1, huo.2.1, huo.2.2.1, fun q => nomatch q⟩
            exact uok_set hw this (fun _ _ _ _ _ _ => Or.inr rfl) (fun _ _ _ q => nomatch q)
          · rw [decide_eq_false c]
            refine uok_set hw huo (fun _ _ _ _ _ _ => Or.inr rfl) ?_
            intro _ _ _ q; injection q with _ q; exact absurd q.symm c
      | idle => rw [hu] at huo; exact uok_set hw huo (fun _ _ _ _ _ q => nomatch q) (fun _ _ _ q => nomatch q)
      | set op j => rw [hu] at huo; exact uok_set hw huo (fun _ _ _ _ _ q => nomatch q) (fun _ _ _ q => nomatch q)
      | note op j => rw [hu] at huo; exact uok_set hw huo (fun _ _ _ _ _ q => nomatch q) (fun _ _ _ q => nomatch q)
      | rmNote j => rw [hu] at huo; exact uok_set hw huo (fun _ _ _ _ _ q => nomatch q) (fun _ _ _ q => nomatch q)
      | join j => rw [hu] at huo; exact uok_set hw huo (fun _ _ _ _ _ q => nomatch q) (fun _ _ _ q => nomatch q)

theorem reach_inv {a : A β} (h : Reach a) : Inv a := by
  induction h with
  | init => exact ⟨(fun j w q => by simp [A.init] at q), trivial⟩
  | step _ hs ih => exact inv_step ih hs

/-! ### Properties -/

/-- The call in progress. -/
def U.current : U β → Option (ROp β)
  | .set op _ => some op
  | .note op _ => some op
  | .wait op _ _ _ _ => some op
  | _ => none

/-- **C41** (order) In every schedule each attached stream has seen exactly the calls returned since it was attached,
once each and in order, and possibly the call in progress; so no stream is given a call before all streams have
finished the previous one. A stream operates only on the call in progress. -/
theorem replicator_order {a : A β} (h : Reach a) (w : W β) (hw : w ∈ a.ws) :
    (w.applied.map (·.1) = hist a.log w.since ∨
      ∃ op, a.u.current = some op ∧ w.applied.map (·.1) = hist a.log w.since ++ [op]) ∧
    (w.pc = .busy → ∃ op, a.u.current = some op ∧ w.op = .run op ∧ w.applied.map (·.1) = hist a.log w.since) := by
  obtain ⟨j, hj⟩ := List.getElem?_of_mem hw
  have hi := ((reach_inv h).w j w hj).1
  have hb : Before a.log w → (w.applied.map (·.1) = hist a.log w.since ∨ ∃ op, a.u.current = some op ∧ w.applied.map (·.1) = hist a.log w.since ++ [op]) ∧
      (w.pc = .busy → ∃ op, a.u.current = some op ∧ w.op = .run op ∧ w.applied.map (·.1) = hist a.log w.since) :=
    fun q => ⟨Or.inl q.ops, fun c => absurd c q.pc.1⟩
  have ha : ∀ op, a.u.current = some op → After a.log op w → (w.applied.map (·.1) = hist a.log w.since ∨ ∃ op, a.u.current = some op ∧ w.applied.map (·.1) = hist a.log w.since ++ [op]) ∧
      (w.pc = .busy → ∃ op, a.u.current = some op ∧ w.op = .run op ∧ w.applied.map (·.1) = hist a.log w.since) :=
    fun op e q => ⟨Or.inr ⟨op, e, q.ops⟩, fun c => absurd c q.pc.1⟩
  have hd : ∀ op t, a.u.current = some op → During a.log op t w → (w.applied.map (·.1) = hist a.log w.since ∨ ∃ op, a.u.current = some op ∧ w.applied.map (·.1) = hist a.log w.since ++ [op]) ∧
      (w.pc = .busy → ∃ op, a.u.current = some op ∧ w.op = .run op ∧ w.applied.map (·.1) = hist a.log w.since) :=
    fun op t e q => ⟨Or.inl q.ops, fun _ => ⟨op, e, q.cur, q.ops⟩⟩
  cases hu : a.u with
  | idle => rw [hu] at hi; rw [← hu]; exact hb hi
  | set op i =>
    have e : a.u.current = some op := by rw [hu]; rfl
    rw [hu] at hi; simp only [WOk] at hi; rw [← hu]
    split at hi
    · exact hi.elim (hd op _ e) (ha op e)
    · exact hb hi
  | note op i =>
    have e : a.u.current = some op := by rw [hu]; rfl
    rw [hu] at hi; simp only [WOk] at hi; rw [← hu]
    split at hi
    · exact hi.elim (hd op _ e) (ha op e)
    · split at hi
      · exact hi.elim (hd op _ e) (ha op e)
      · exact hb hi
  | wait op i n st s =>
    have e : a.u.current = some op := by rw [hu]; rfl
    rw [hu] at hi; simp only [WOk] at hi; rw [← hu]
    split at hi
    · exact ha op e hi
    · exact hi.elim (hd op _ e) (ha op e)
  | rmNote i =>
    rw [hu] at hi; simp only [WOk] at hi; rw [← hu]
    split at hi
    · exact ⟨Or.inl hi.2.2, fun c => absurd c hi.2.1⟩
    · exact hb hi
  | join i =>
    rw [hu] at hi; simp only [WOk] at hi; rw [← hu]
    split at hi
    · exact ⟨Or.inl hi.2.2.2, fun c => absurd c hi.2.1⟩
    · exact hb hi

/-- **C41** (order) Between calls each attached stream has seen all calls returned since it was attached. -/
theorem replicator_idle {a : A β} (h : Reach a) (hu : a.u = .idle) (w : W β) (hw : w ∈ a.ws) :
    w.applied.map (·.1) = (a.log.drop w.since).map (·.1) := by
  rcases (replicator_order h w hw).1 with q | ⟨op, e, _⟩
  · exact q
  · rw [hu] at e; cases e

/-- The first state that is not ok. -/
def firstBad (l : List St) : St := (l.find? (· ≠ .ok)).getD .ok

theorem fold_n (d : List β) (ws : List (W β)) : ∀ n, ws.foldl (fun n w => collectN (.write d) n w.last) n = (ws.map (·.last.n)).foldl min n := by
  induction ws with
  | nil => intro n; rfl
  | cons w ws ih =>
    intro n
    simp only [List.foldl_cons, List.map_cons]
    rw [ih]
    apply congrArg (fun m => (ws.map (·.last.n)).foldl min m)
    unfold collectN
    simp only
    split <;> omega

theorem fold_st (ws : List (W β)) : ∀ st, ws.foldl (fun st w => collectSt st w.last) st = if st = .ok then firstBad (ws.map (·.last.st)) else st := by
  induction ws with
  | nil => intro st; by_cases c : st = .ok <;> simp [firstBad, c]
  | cons w ws ih =>
    intro st
    simp only [List.foldl_cons, List.map_cons]
    rw [ih]
    by_cases c : st = .ok
    · subst c
      unfold collectSt firstBad
      by_cases c2 : w.last.st = .ok <;> simp [c2]
    · simp [collectSt, c]

/-- **C41** (result) When a call is about to return, every stream has finished it, and what it reports is: for a
write, the least number of bytes any stream took (at most all of them); the first state that is not ok, if any. -/
theorem replicator_result {a : A β} (h : Reach a) {op : ROp β} {i n : Nat} {st : St}
    (hu : a.u = .wait op i n st false) (hn : a.ws[i]? = none) :
    (∀ w ∈ a.ws, w.applied.map (·.1) = hist a.log w.since ++ [op]) ∧
    (∀ d, op = .write d → n = (a.ws.map (·.last.n)).foldl min d.length) ∧
    st = firstBad (a.ws.map (·.last.st)) := by
  have hi := reach_inv h
  have huo := hi.u
  rw [hu] at huo
  obtain ⟨u1, u2, u3, _⟩ := huo
  have hle := List.getElem?_eq_none_iff.1 hn
  rw [List.take_of_length_le hle] at u2 u3
  refine ⟨fun w hw => ?_, fun d hd => ?_, ?_⟩
  · obtain ⟨j, hj⟩ := List.getElem?_of_mem hw
    have hlt := (List.getElem?_eq_some_iff.1 hj).1
    have := (hi.w j w hj).1
    rw [hu] at this
    simp only [WOk, show j < i by omega, if_true] at this
    exact this.ops
  · subst hd
    rw [u2, fold_n]; rfl
  · rw [u3, fold_st]; rfl

/-- **C41** (no lost wake-up) In every schedule, while the user is in a call or removes a stream, some thread can go on
without a spurious wake-up. -/
theorem replicator_progress {a : A β} (h : Reach a) (hu : a.u ≠ .idle) : ∃ a', Step false a a' := by
  have hi := reach_inv h
  have huo := hi.u
  have wnext : ∀ (i : Nat) (w : W β), a.ws[i]? = some w → w.pc = .busy → ∃ a', Step false a a' := by
    intro i w hw hb
    have hb' := (replicator_order h w (List.mem_of_getElem? hw)).2 hb
    obtain ⟨op, _, e, _⟩ := hb'
    exact ⟨_, .wEnd ⟨0, .ok⟩ hw hb e⟩
  cases hc : a.u with
  | idle => exact absurd hc hu
  | set op i =>
    cases hw : a.ws[i]? with
    | none => exact ⟨_, .all hc hw⟩
    | some w =>
      by_cases hb : w.pc = .busy
      · exact wnext i w hw hb
      · exact ⟨_, .set hc hw hb⟩
  | note op i =>
    rw [hc] at huo
    exact ⟨_, .note hc (List.getElem?_eq_getElem huo)⟩
  | rmNote i =>
    rw [hc] at huo
    exact ⟨_, .rmNote hc (List.getElem?_eq_getElem huo)⟩
  | join i =>
    rw [hc] at huo
    have hw : a.ws[i]? = some (a.ws[i]'huo) := List.getElem?_eq_getElem huo
    generalize (a.ws[i]'huo) = w at hw
    have := (hi.w i w hw).1
    rw [hc] at this
    simp only [WOk, if_true] at this
    cases hp : w.pc with
    | test => exact ⟨_, .wQuit hw hp this.1⟩
    | asleep => exact absurd hp this.2.2.1
    | busy => exact wnext i w hw hp
    | notify => exact ⟨_, .wNote hw hp⟩
    | exited => exact ⟨_, .removed hc hw hp⟩
  | wait op i n st s =>
    cases hw : a.ws[i]? with
    | none =>
      cases s with
      | false => exact ⟨_, .ret hc hw⟩
      | true =>
        rw [hc] at huo
        obtain ⟨x, x1, _⟩ := huo.2.2.2 rfl
        rw [hw] at x1; cases x1
    | some w =>
      have hok := (hi.w i w hw).1
      rw [hc] at hok
      simp only [WOk, Nat.lt_irrefl, if_false] at hok
      cases s with
      | false =>
        by_cases hb : w.pc = .busy
        · exact wnext i w hw hb
        · cases ho : w.op with
          | noop => exact ⟨_, .got hc hw hb ho⟩
          | quit => exact ⟨_, .sleep hc hw hb (by rw [ho]; exact fun q => nomatch q)⟩
          | run o => exact ⟨_, .sleep hc hw hb (by rw [ho]; exact fun q => nomatch q)⟩
      | true =>
        rw [hc] at huo
        obtain ⟨x, x1, x2⟩ := huo.2.2.2 rfl
        rw [hw] at x1; cases x1
        by_cases hnp : w.pc = .notify
        · exact ⟨_, .wNote hw hnp⟩
        · have hne := x2.resolve_right hnp
          rcases hok with q | q
          · cases hp : w.pc with
            | test => exact ⟨_, .wBegin hw hp q.cur⟩
            | asleep => exact absurd hp (q.awake trivial)
            | busy => exact wnext i w hw hp
            | notify => exact absurd hp hnp
            | exited => exact absurd hp q.pc
          · exact absurd q.cur hne

/-! ### Termination -/

/-- What a worker still has to do. -/
def W.weight (w : W β) : Nat :=
  match w.pc, w.op with
  | .exited, _ => 0
  | .asleep, .noop => 0
  | .test, .noop => 1
  | .notify, .noop => 5
  | .busy, _ => 6
  | .test, .run _ => 7
  | .asleep, .run _ => 8
  | .notify, .run _ => 9
  | .test, .quit => 1
  | .asleep, .quit => 2
  | .notify, .quit => 5

/-- What the user still has to do in the call, with `l` streams. -/
def U.weight (l : Nat) : U β → Nat
  | .idle => 0
  | .set _ i => 3 + 3 * l + 20 * (l - i)
  | .note _ i => 3 + 3 * l + 20 * (l - (i + 1)) + 10
  | .wait _ i _ _ s => 1 + 3 * (l - i) + (if s then 0 else 1)
  | .rmNote _ => 5
  | .join _ => 3

def A.weight (a : A β) : Nat := a.u.weight a.ws.length + (a.ws.map W.weight).sum

theorem sum_set {γ : Type} (f : γ → Nat) (ws : List γ) (i : Nat) (w w' : γ) (h : ws[i]? = some w) :
    ((ws.set i w').map f).sum + f w = (ws.map f).sum + f w' := by
  induction ws generalizing i with
  | nil => cases h
  | cons x xs ih =>
    cases i with
    | zero => simp only [List.getElem?_cons_zero, Option.some.injEq] at h; subst h; simp; omega
    | succ i =>
      simp only [List.getElem?_cons_succ] at h
      have := ih i h
      simp only [List.set_cons_succ, List.map_cons, List.sum_cons]; omega

theorem sum_erase {γ : Type} (f : γ → Nat) (ws : List γ) (i : Nat) : ((ws.eraseIdx i).map f).sum ≤ (ws.map f).sum := by
  induction ws generalizing i with
  | nil => simp
  | cons x xs ih =>
    cases i with
    | zero => simp
    | succ i => have := ih i; simp only [List.eraseIdx_cons_succ, List.map_cons, List.sum_cons]; omega

/-- **C41** (termination) In a call (or in `remove`) every step of any thread but a spurious wake-up uses up some of a
finite weight: if the streams' operations return and wake-ups are not spurious for ever, so does the call. -/
theorem replicator_terminates {a a' : A β} (hu : a.u ≠ .idle) (hs : Step false a a') : a'.weight < a.weight := by
  have wake_le : ∀ w : W β, w.wake.weight ≤ w.weight + 1 := by
    rintro ⟨op, pc, ap, s⟩
    cases pc <;> cases op <;> simp [W.wake, W.weight]
  have upd : ∀ (i : Nat) (w w' : W β), a.ws[i]? = some w → w'.weight < w.weight →
      ({ a with ws := a.ws.set i w' } : A β).weight < a.weight := by
    intro i w w' hw hlt
    have := sum_set W.weight a.ws i w w' hw
    simp only [A.weight, List.length_set]; omega
  cases hs with
  | call op h => exact absurd h hu
  | attach h => exact absurd h hu
  | remove h => exact absurd h hu
  | @set _ op i w h hw hb =>
    have hlt := (List.getElem?_eq_some_iff.1 hw).1
    have e := sum_set W.weight a.ws i w { w with op := .run op } hw
    have b : ({ w with op := .run op } : W β).weight ≤ 9 := by
      obtain ⟨o, pc, ap, s⟩ := w
      cases pc <;> simp [W.weight]
    simp only [A.weight, List.length_set, h, U.weight]; omega
  | @note _ op i w h hw =>
    have hlt := (List.getElem?_eq_some_iff.1 hw).1
    have e := sum_set W.weight a.ws i w w.wake hw
    have b := wake_le w
    simp only [A.weight, List.length_set, h, U.weight]; omega
  | @all _ op i h hn =>
    simp only [A.weight, h, U.weight, Bool.false_eq_true, if_false]; omega
  | @got _ op i n st w h hw hb ho =>
    have hlt := (List.getElem?_eq_some_iff.1 hw).1
    simp only [A.weight, h, U.weight, Bool.false_eq_true, if_false]; omega
  | @sleep _ op i n st w h hw hb ho =>
    simp only [A.weight, h, U.weight, Bool.false_eq_true, if_false, if_true]; omega
  | @ret _ op i n st h hn =>
    simp only [A.weight, h, U.weight, Bool.false_eq_true, if_false]; omega
  | @rmNote _ i w h hw =>
    have e := sum_set W.weight a.ws i w w.wake hw
    have b := wake_le w
    simp only [A.weight, List.length_set, h, U.weight]; omega
  | @removed _ i w h hw hp =>
    have e := sum_erase W.weight a.ws i
    simp only [A.weight, h, U.weight]; omega
  | @wSleep _ i w hw hp ho => exact upd i w _ hw (by simp [W.weight, hp, ho])
  | @wQuit _ i w hw hp ho => exact upd i w _ hw (by simp [W.weight, hp, ho])
  | @wBegin _ i w op hw hp ho => exact upd i w _ hw (by simp [W.weight, hp, ho])
  | @wEnd _ i w op r hw hp ho => exact upd i w _ hw (by simp [W.weight, hp])
  | @wNote _ i w hw hp =>
    have e := sum_set W.weight a.ws i w { w with pc := .test } hw
    have b : ({ w with pc := .test } : W β).weight + 2 ≤ w.weight := by
      obtain ⟨o, pc, ap, s⟩ := w
      cases hp
      cases o <;> simp [W.weight]
    have c : (a.u.wake i).weight a.ws.length ≤ a.u.weight a.ws.length + 1 := by
      cases a.u with
      | wait op j n st s =>
        cases s
        · simp [U.wake]
        · by_cases q : i = j <;> simp [U.wake, U.weight, q]
      | _ => simp [U.wake]
    simp only [A.weight, List.length_set]; omega

/-- Non-vacuity: two streams; the second takes one byte of two and fails; the call reports that. -/
example : ∃ a : A Nat, Reach a ∧ a.u = .idle ∧ a.ws.length = 2 ∧ a.log.map (fun e => (e.2.n, e.2.st)) = [(1, .fail)] :=
  ⟨_, .step (.step (.step (.step (.step (.step (.step (.step (.step (.step (.step (.step (.step (.step (.step (.step .init
    (.attach rfl)) (.attach rfl)) (.wSleep (i := 0) rfl rfl rfl)) (.call (.write [7, 8]) rfl)) (.set rfl rfl (fun q => nomatch q)))
    (.note rfl rfl)) (.wBegin (i := 0) rfl rfl rfl)) (.set rfl rfl (fun q => nomatch q))) (.wBegin (i := 1) rfl rfl rfl)) (.note rfl rfl))
    (.all rfl rfl)) (.wEnd (i := 1) ⟨1, .fail⟩ rfl rfl rfl)) (.wEnd (i := 0) ⟨2, .ok⟩ rfl rfl rfl)) (.got rfl rfl (fun q => nomatch q) rfl))
    (.got rfl rfl (fun q => nomatch q) rfl)) (.ret rfl rfl), rfl, rfl, rfl⟩

end Verif.Stream.Replicator
