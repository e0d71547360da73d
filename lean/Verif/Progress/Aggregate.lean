/-
Combined progress of several workers (include/stdex/progress.hpp: aggregate_progress), as a transition system: every access to an atomic
variable, acquisition of the shared mutex and call of the host indicator is a step, and steps of the threads interleave in any order. Worker `i`
is used by one thread at a time. `T` is any commutative ring: machine integers that wrap (`BitVec w`) as well as the integers, for signed types
that do not overflow.
-/
namespace Verif.Progress

open Lean.Grind

variable {α : Type} [CommRing α]

/-- Calls of the host indicator. `other`: `set_text`, `show`, `cancel`. -/
inductive HCall (α : Type) where
  | range (start stop : α)
  | set (value : α)
  | other

/-- Where a thread is within a member function of a `worker_progress`. -/
inductive WPh (α : Type) where
  | idle
  /-- `set(v)`, 429-436: before the atomic addition, before `m_value = value`. -/
  | addV (v : α)
  | storeV (v combined : α)
  /-- `set_range(s, e)`, 410-421: before the additions to `m_start`, to `m_end`, before `m_start = start; m_end = end`. -/
  | addS (s e : α)
  | addE (s e combinedS : α)
  | storeR (s e combinedS combinedE : α)
  /-- `std::shared_lock lk(m_host.m_mutex)`. -/
  | lock (call : HCall α)
  /-- `if (m_host.m_host)`. -/
  | locked (call : HCall α)
  /-- Within the host's function. -/
  | calling (h : Nat) (call : HCall α)
  | unlock

/-- `worker_progress`, 380-391. -/
structure Wk (α : Type) where
  ph : WPh α
  start : α
  stop : α
  value : α

/-- Where a thread is within `attach`, 497-506, or `detach`, 513-519. -/
inductive CPh (α : Type) where
  | idle
  | lockA (h : Option Nat)
  | lockD
  /-- Before `m_start` is loaded, before `m_end` is, within `set_range`, before `m_value` is loaded, within `set`. -/
  | loadS (h : Nat)
  | loadE (h : Nat) (s : α)
  | inRange (h : Nat)
  | loadV (h : Nat)
  | inSet (h : Nat)
  | unlock

/-- Events, for the specification: they do not influence the program. -/
inductive Ev (α : Type) where
  /-- worker `i`: `set(v)` is called -/
  | callSet (i : Nat) (v : α)
  | callRange (i : Nat) (s e : α)
  /-- worker `i` added to `m_value`, with this result -/
  | addedV (i : Nat) (v total : α)
  | addedS (i : Nat) (s total : α)
  | addedE (i : Nat) (e total : α)
  /-- worker `i` calls host `h` -/
  | hostW (i h : Nat) (call : HCall α)
  /-- `attach` calls host `h` -/
  | hostC (h : Nat) (call : HCall α)
  | attached (h : Option Nat)
  | detached (h : Option Nat)

/-- `aggregate_progress`, 465-468, the threads, and the history. -/
structure Agg (α : Type) where
  start : α
  stop : α
  value : α
  host : Option Nat
  wk : Nat → Wk α
  ct : Nat → CPh α
  hist : List (Ev α)

/-- Constructor, 477-489, for host `h`. -/
def Agg.new (h : Option Nat) : Agg α :=
  ⟨0, 0, 0, h, fun _ => ⟨.idle, 0, 0, 0⟩, fun _ => .idle,
    match h with | none => [] | some h => [.hostC h (.range 0 0), .hostC h (.set 0)]⟩

def upd {β : Type} (f : Nat → β) (i : Nat) (x : β) : Nat → β := fun j => if j = i then x else f j

/-- Does a thread in this phase hold the mutex shared? -/
def WPh.shared : WPh α → Prop
  | .locked _ | .calling .. | .unlock => True
  | _ => False

/-- Does a thread in this phase hold the mutex exclusively? -/
def CPh.unique : CPh α → Prop
  | .idle | .lockA _ | .lockD => False
  | _ => True

/-- The steps, with `n` workers. -/
inductive Step (n : Nat) : Agg α → Agg α → Prop
  | callSet (s : Agg α) (i v) : i < n → (s.wk i).ph = .idle →
      Step n s { s with wk := upd s.wk i { s.wk i with ph := .addV v }, hist := s.hist ++ [.callSet i v] }
  | addV (s : Agg α) (i v) : i < n → (s.wk i).ph = .addV v →
      Step n s { s with value := s.value + (v - (s.wk i).value), wk := upd s.wk i { s.wk i with ph := .storeV v (s.value + (v - (s.wk i).value)) }, hist := s.hist ++ [.addedV i v (s.value + (v - (s.wk i).value))] }
  | storeV (s : Agg α) (i v c) : i < n → (s.wk i).ph = .storeV v c →
      Step n s { s with wk := upd s.wk i { s.wk i with value := v, ph := .lock (.set c) } }
  | callRange (s : Agg α) (i a b) : i < n → (s.wk i).ph = .idle →
      Step n s { s with wk := upd s.wk i { s.wk i with ph := .addS a b }, hist := s.hist ++ [.callRange i a b] }
  | addS (s : Agg α) (i a b) : i < n → (s.wk i).ph = .addS a b →
      Step n s { s with start := s.start + (a - (s.wk i).start), wk := upd s.wk i { s.wk i with ph := .addE a b (s.start + (a - (s.wk i).start)) }, hist := s.hist ++ [.addedS i a (s.start + (a - (s.wk i).start))] }
  | addE (s : Agg α) (i a b c) : i < n → (s.wk i).ph = .addE a b c →
      Step n s { s with stop := s.stop + (b - (s.wk i).stop), wk := upd s.wk i { s.wk i with ph := .storeR a b c (s.stop + (b - (s.wk i).stop)) }, hist := s.hist ++ [.addedE i b (s.stop + (b - (s.wk i).stop))] }
  | storeR (s : Agg α) (i a b c d) : i < n → (s.wk i).ph = .storeR a b c d →
      Step n s { s with wk := upd s.wk i { s.wk i with start := a, stop := b, ph := .lock (.range c d) } }
  | callOther (s : Agg α) (i) : i < n → (s.wk i).ph = .idle →
      Step n s { s with wk := upd s.wk i { s.wk i with ph := .lock .other } }
  | lockS (s : Agg α) (i call) : i < n → (s.wk i).ph = .lock call → (∀ j, ¬ (s.ct j).unique) →
      Step n s { s with wk := upd s.wk i { s.wk i with ph := .locked call } }
  | hostCall (s : Agg α) (i call h) : i < n → (s.wk i).ph = .locked call → s.host = some h →
      Step n s { s with wk := upd s.wk i { s.wk i with ph := .calling h call }, hist := s.hist ++ [.hostW i h call] }
  | hostNone (s : Agg α) (i call) : i < n → (s.wk i).ph = .locked call → s.host = none →
      Step n s { s with wk := upd s.wk i { s.wk i with ph := .unlock } }
  | hostRet (s : Agg α) (i h call) : i < n → (s.wk i).ph = .calling h call →
      Step n s { s with wk := upd s.wk i { s.wk i with ph := .unlock } }
  | unlockS (s : Agg α) (i) : i < n → (s.wk i).ph = .unlock →
      Step n s { s with wk := upd s.wk i { s.wk i with ph := .idle } }
  | callAttach (s : Agg α) (j h) : s.ct j = .idle → Step n s { s with ct := upd s.ct j (.lockA h) }
  | attachSome (s : Agg α) (j h) : s.ct j = .lockA (some h) → (∀ k, ¬ (s.ct k).unique) → (∀ i, ¬ (s.wk i).ph.shared) →
      Step n s { s with host := some h, ct := upd s.ct j (.loadS h), hist := s.hist ++ [.attached (some h)] }
  | attachNone (s : Agg α) (j) : s.ct j = .lockA none → (∀ k, ¬ (s.ct k).unique) → (∀ i, ¬ (s.wk i).ph.shared) →
      Step n s { s with host := none, ct := upd s.ct j .unlock, hist := s.hist ++ [.attached none] }
  | loadS (s : Agg α) (j h) : s.ct j = .loadS h → Step n s { s with ct := upd s.ct j (.loadE h s.start) }
  | loadE (s : Agg α) (j h a) : s.ct j = .loadE h a →
      Step n s { s with ct := upd s.ct j (.inRange h), hist := s.hist ++ [.hostC h (.range a s.stop)] }
  | retRange (s : Agg α) (j h) : s.ct j = .inRange h → Step n s { s with ct := upd s.ct j (.loadV h) }
  | loadV (s : Agg α) (j h) : s.ct j = .loadV h →
      Step n s { s with ct := upd s.ct j (.inSet h), hist := s.hist ++ [.hostC h (.set s.value)] }
  | retSet (s : Agg α) (j h) : s.ct j = .inSet h → Step n s { s with ct := upd s.ct j .unlock }
  | callDetach (s : Agg α) (j) : s.ct j = .idle → Step n s { s with ct := upd s.ct j .lockD }
  | detach (s : Agg α) (j) : s.ct j = .lockD → (∀ k, ¬ (s.ct k).unique) → (∀ i, ¬ (s.wk i).ph.shared) →
      Step n s { s with host := none, ct := upd s.ct j .unlock, hist := s.hist ++ [.detached s.host] }
  | unlockU (s : Agg α) (j) : s.ct j = .unlock → Step n s { s with ct := upd s.ct j .idle }

/-- Reachable states, with `n` workers and initial host `h0`. -/
inductive Reach (n : Nat) (h0 : Option Nat) : Agg α → Prop
  | init : Reach n h0 (Agg.new h0)
  | step {s t} : Reach n h0 s → Step n s t → Reach n h0 t

/-! ### Specification, in terms of the history -/

/-- The last event `f` selects something from. -/
def lastOf {β : Type} (f : Ev α → Option β) (d : β) (hist : List (Ev α)) : β := hist.foldl (fun acc e => (f e).getD acc) d

/-- The value worker `i` was last told to `set`. -/
def reqV (hist : List (Ev α)) (i : Nat) : α := lastOf (fun e => match e with | .callSet j v => if j = i then some v else none | _ => none) 0 hist

/-- The range worker `i` was last told. -/
def reqS (hist : List (Ev α)) (i : Nat) : α := lastOf (fun e => match e with | .callRange j a _ => if j = i then some a else none | _ => none) 0 hist
def reqE (hist : List (Ev α)) (i : Nat) : α := lastOf (fun e => match e with | .callRange j _ b => if j = i then some b else none | _ => none) 0 hist

/-- The value of worker `i` that is accounted for. -/
def appV (hist : List (Ev α)) (i : Nat) : α := lastOf (fun e => match e with | .addedV j v _ => if j = i then some v else none | _ => none) 0 hist
def appS (hist : List (Ev α)) (i : Nat) : α := lastOf (fun e => match e with | .addedS j v _ => if j = i then some v else none | _ => none) 0 hist
def appE (hist : List (Ev α)) (i : Nat) : α := lastOf (fun e => match e with | .addedE j v _ => if j = i then some v else none | _ => none) 0 hist

/-- Sum over the workers. -/
def sumTo : Nat → (Nat → α) → α
  | 0, _ => 0
  | n + 1, f => sumTo n f + f n

/-! ### Proofs -/

omit [CommRing α] in
theorem lastOf_snoc {β : Type} (f : Ev α → Option β) (d : β) (h : List (Ev α)) (e : Ev α) :
    lastOf f d (h ++ [e]) = (f e).getD (lastOf f d h) := by
  unfold lastOf; rw [List.foldl_append]; rfl

theorem sum_congr {f g : Nat → α} : ∀ {n : Nat}, (∀ i < n, f i = g i) → sumTo n f = sumTo n g := by
  intro n
  induction n with
  | zero => intro _; rfl
  | succ n ih => intro h; rw [sumTo, sumTo, ih (fun i hi => h i (by omega)), h n (by omega)]

theorem sum_upd {f g : Nat → α} {i : Nat} (ho : ∀ j, j ≠ i → g j = f j) : ∀ {n : Nat}, i < n → sumTo n g = sumTo n f + (g i - f i) := by
  intro n
  induction n with
  | zero => intro h; omega
  | succ n ih =>
    intro h
    rw [sumTo, sumTo]
    by_cases c : i = n
    · subst c
      rw [sum_congr (g := f) (fun j hj => ho j (by omega))]
      grind
    · rw [ih (by omega), ho n (by omega)]
      grind

/-- Locks. -/
structure Inv1 (s : Agg α) : Prop where
  calling : ∀ i h c, (s.wk i).ph = .calling h c → s.host = some h
  excl : ∀ i j, (s.wk i).ph.shared → (s.ct j).unique → False
  one : ∀ j k, (s.ct j).unique → (s.ct k).unique → j = k
  hosts : ∀ j h, (s.ct j = .loadS h ∨ (∃ a, s.ct j = .loadE h a) ∨ s.ct j = .inRange h ∨ s.ct j = .loadV h ∨ s.ct j = .inSet h) → s.host = some h

theorem inv1_step {n : Nat} {s t : Agg α} (h : Inv1 s) (st : Step n s t) : Inv1 t := by
  obtain ⟨a, b, c, d⟩ := h
  cases st <;> constructor <;> simp only [upd] <;> grind [WPh.shared, CPh.unique]

theorem reqV_snoc (h : List (Ev α)) (e : Ev α) (i : Nat) : reqV (h ++ [e]) i = match e with | .callSet j v => if j = i then v else reqV h i | _ => reqV h i := by
  unfold reqV; rw [lastOf_snoc]; cases e <;> simp only [Option.getD_none]; split <;> rfl
theorem reqS_snoc (h : List (Ev α)) (e : Ev α) (i : Nat) : reqS (h ++ [e]) i = match e with | .callRange j v _ => if j = i then v else reqS h i | _ => reqS h i := by
  unfold reqS; rw [lastOf_snoc]; cases e <;> simp only [Option.getD_none]; split <;> rfl
theorem reqE_snoc (h : List (Ev α)) (e : Ev α) (i : Nat) : reqE (h ++ [e]) i = match e with | .callRange j _ v => if j = i then v else reqE h i | _ => reqE h i := by
  unfold reqE; rw [lastOf_snoc]; cases e <;> simp only [Option.getD_none]; split <;> rfl
theorem appV_snoc (h : List (Ev α)) (e : Ev α) (i : Nat) : appV (h ++ [e]) i = match e with | .addedV j v _ => if j = i then v else appV h i | _ => appV h i := by
  unfold appV; rw [lastOf_snoc]; cases e <;> simp only [Option.getD_none]; split <;> rfl
theorem appS_snoc (h : List (Ev α)) (e : Ev α) (i : Nat) : appS (h ++ [e]) i = match e with | .addedS j v _ => if j = i then v else appS h i | _ => appS h i := by
  unfold appS; rw [lastOf_snoc]; cases e <;> simp only [Option.getD_none]; split <;> rfl
theorem appE_snoc (h : List (Ev α)) (e : Ev α) (i : Nat) : appE (h ++ [e]) i = match e with | .addedE j v _ => if j = i then v else appE h i | _ => appE h i := by
  unfold appE; rw [lastOf_snoc]; cases e <;> simp only [Option.getD_none]; split <;> rfl

/-- What is accounted for and what was requested, by the phase of the worker. -/
def WkOk (h : List (Ev α)) (i : Nat) (w : Wk α) : Prop :=
  match w.ph with
  | .addV v => reqV h i = v ∧ appV h i = w.value ∧ reqS h i = w.start ∧ appS h i = w.start ∧ reqE h i = w.stop ∧ appE h i = w.stop
  | .storeV v _ => reqV h i = v ∧ appV h i = v ∧ reqS h i = w.start ∧ appS h i = w.start ∧ reqE h i = w.stop ∧ appE h i = w.stop
  | .addS a b => reqV h i = w.value ∧ appV h i = w.value ∧ reqS h i = a ∧ appS h i = w.start ∧ reqE h i = b ∧ appE h i = w.stop
  | .addE a b _ => reqV h i = w.value ∧ appV h i = w.value ∧ reqS h i = a ∧ appS h i = a ∧ reqE h i = b ∧ appE h i = w.stop
  | .storeR a b _ _ => reqV h i = w.value ∧ appV h i = w.value ∧ reqS h i = a ∧ appS h i = a ∧ reqE h i = b ∧ appE h i = b
  | _ => reqV h i = w.value ∧ appV h i = w.value ∧ reqS h i = w.start ∧ appS h i = w.start ∧ reqE h i = w.stop ∧ appE h i = w.stop

structure Inv2 (n : Nat) (s : Agg α) : Prop where
  wk : ∀ i, WkOk s.hist i (s.wk i)
  value : s.value = sumTo n (appV s.hist)
  start : s.start = sumTo n (appS s.hist)
  stop : s.stop = sumTo n (appE s.hist)

theorem inv2_step {n : Nat} {s t : Agg α} (h : Inv2 n s) (st : Step n s t) : Inv2 n t := by
  obtain ⟨a, b, c, d⟩ := h
  have e1 : ∀ i, i < n → ∀ v x, sumTo n (appV (s.hist ++ [.addedV i v x])) = sumTo n (appV s.hist) + (v - appV s.hist i) := by
    intro i hi v x
    rw [sum_upd (f := appV s.hist) (i := i) (fun j hj => by rw [appV_snoc]; simp only; rw [if_neg (Ne.symm hj)]) hi, appV_snoc]
    simp
  have e2 : ∀ i, i < n → ∀ v x, sumTo n (appS (s.hist ++ [.addedS i v x])) = sumTo n (appS s.hist) + (v - appS s.hist i) := by
    intro i hi v x
    rw [sum_upd (f := appS s.hist) (i := i) (fun j hj => by rw [appS_snoc]; simp only; rw [if_neg (Ne.symm hj)]) hi, appS_snoc]
    simp
  have e3 : ∀ i, i < n → ∀ v x, sumTo n (appE (s.hist ++ [.addedE i v x])) = sumTo n (appE s.hist) + (v - appE s.hist i) := by
    intro i hi v x
    rw [sum_upd (f := appE s.hist) (i := i) (fun j hj => by rw [appE_snoc]; simp only; rw [if_neg (Ne.symm hj)]) hi, appE_snoc]
    simp
  have f1 : ∀ e, (∀ i v x, e ≠ .addedV i v x) → appV (s.hist ++ [e]) = appV s.hist := by
    intro e he; funext j; rw [appV_snoc]; cases e <;> first | rfl | exact absurd rfl (he _ _ _)
  have f2 : ∀ e, (∀ i v x, e ≠ .addedS i v x) → appS (s.hist ++ [e]) = appS s.hist := by
    intro e he; funext j; rw [appS_snoc]; cases e <;> first | rfl | exact absurd rfl (he _ _ _)
  have f3 : ∀ e, (∀ i v x, e ≠ .addedE i v x) → appE (s.hist ++ [e]) = appE s.hist := by
    intro e he; funext j; rw [appE_snoc]; cases e <;> first | rfl | exact absurd rfl (he _ _ _)
  cases st
  all_goals constructor
  all_goals first
    | (intro i; have := a i; simp only [upd, WkOk] at this ⊢; grind [reqV_snoc, reqS_snoc, reqE_snoc, appV_snoc, appS_snoc, appE_snoc])
    | (simp only; first | assumption | (rw [f1 _ (by simp)]; assumption) | (rw [f2 _ (by simp)]; assumption) | (rw [f3 _ (by simp)]; assumption) | skip)
  case value i v hi hp => have := a i; simp only [WkOk, hp] at this; rw [e1 i hi, b, this.2.1]
  case addS.start i v w hi hp => have := a i; simp only [WkOk, hp] at this; rw [e2 i hi, c, this.2.2.2.1]
  case addE.stop i v w x hi hp => have := a i; simp only [WkOk, hp] at this; rw [e3 i hi, d, this.2.2.2.2.2]

/-- The sum worker `i` got from its addition, since its current `set` was called. -/
def pendV (hist : List (Ev α)) (i : Nat) : Option α :=
  lastOf (fun e => match e with | .callSet j _ => if j = i then some none else none | .addedV j _ c => if j = i then some (some c) else none | _ => none) none hist
def pendS (hist : List (Ev α)) (i : Nat) : Option α :=
  lastOf (fun e => match e with | .callRange j _ _ => if j = i then some none else none | .addedS j _ c => if j = i then some (some c) else none | _ => none) none hist
def pendE (hist : List (Ev α)) (i : Nat) : Option α :=
  lastOf (fun e => match e with | .callRange j _ _ => if j = i then some none else none | .addedE j _ c => if j = i then some (some c) else none | _ => none) none hist

omit [CommRing α] in
theorem pendV_snoc (h : List (Ev α)) (e : Ev α) (i : Nat) : pendV (h ++ [e]) i =
    match e with | .callSet j _ => if j = i then none else pendV h i | .addedV j _ c => if j = i then some c else pendV h i | _ => pendV h i := by
  unfold pendV; rw [lastOf_snoc]; cases e <;> simp only [Option.getD_none] <;> split <;> rfl
omit [CommRing α] in
theorem pendS_snoc (h : List (Ev α)) (e : Ev α) (i : Nat) : pendS (h ++ [e]) i =
    match e with | .callRange j _ _ => if j = i then none else pendS h i | .addedS j _ c => if j = i then some c else pendS h i | _ => pendS h i := by
  unfold pendS; rw [lastOf_snoc]; cases e <;> simp only [Option.getD_none] <;> split <;> rfl
omit [CommRing α] in
theorem pendE_snoc (h : List (Ev α)) (e : Ev α) (i : Nat) : pendE (h ++ [e]) i =
    match e with | .callRange j _ _ => if j = i then none else pendE h i | .addedE j _ c => if j = i then some c else pendE h i | _ => pendE h i := by
  unfold pendE; rw [lastOf_snoc]; cases e <;> simp only [Option.getD_none] <;> split <;> rfl

/-- What holds of an event after history `a`. -/
def EvOk (n : Nat) (a : List (Ev α)) : Ev α → Prop
  | .addedV i v c => c = sumTo n (appV (a ++ [.addedV i v c]))
  | .addedS i v c => c = sumTo n (appS (a ++ [.addedS i v c]))
  | .addedE i v c => c = sumTo n (appE (a ++ [.addedE i v c]))
  | .hostW i _ (.set c) => pendV a i = some c
  | .hostW i _ (.range c d) => pendS a i = some c ∧ pendE a i = some d
  | .hostC _ (.set c) => c = sumTo n (appV a)
  | .hostC _ (.range c d) => (∃ a', a' <+: a ∧ c = sumTo n (appS a')) ∧ d = sumTo n (appE a)
  | _ => True

inductive HistOk (n : Nat) : List (Ev α) → Prop
  | nil : HistOk n []
  | snoc {h e} : HistOk n h → EvOk n h e → HistOk n (h ++ [e])

theorem HistOk.at {n : Nat} {h : List (Ev α)} (hh : HistOk n h) : ∀ {a b e}, h = a ++ e :: b → EvOk n a e := by
  induction hh with
  | nil => intro a b e h; simp at h
  | @snoc h e' hh he ih =>
    intro a b e heq
    rcases List.eq_nil_or_concat b with rfl | ⟨b', x, rfl⟩
    · have := List.append_inj' heq rfl
      obtain ⟨rfl, h2⟩ := this
      injection h2 with h2
      subst h2
      exact he
    · rw [show a ++ e :: b'.concat x = (a ++ e :: b') ++ [x] by simp] at heq
      obtain ⟨h1, -⟩ := List.append_inj' heq rfl
      exact ih h1

/-- The call a worker is about to make, or makes, of the host. -/
def CallOk (h : List (Ev α)) (i : Nat) : HCall α → Prop
  | .set c => pendV h i = some c
  | .range c d => pendS h i = some c ∧ pendE h i = some d
  | .other => True

def PhOk (h : List (Ev α)) (i : Nat) : WPh α → Prop
  | .storeV _ c => pendV h i = some c
  | .addE _ _ c => pendS h i = some c
  | .storeR _ _ c d => pendS h i = some c ∧ pendE h i = some d
  | .lock call | .locked call | .calling _ call => CallOk h i call
  | _ => True

structure Inv3 (n : Nat) (s : Agg α) : Prop where
  hist : HistOk n s.hist
  ph : ∀ i, PhOk s.hist i (s.wk i).ph
  load : ∀ j h a, s.ct j = .loadE h a → ∃ a', a' <+: s.hist ∧ a = sumTo n (appS a')

/-- Is this an event of a `set` or `set_range` of worker `i`? -/
def Ev.of (i : Nat) : Ev α → Prop
  | .callSet j _ | .callRange j _ _ | .addedV j _ _ | .addedS j _ _ | .addedE j _ _ => j = i
  | _ => False

omit [CommRing α] in
theorem pend_other {h : List (Ev α)} {e : Ev α} {i : Nat} (he : ¬ e.of i) :
    pendV (h ++ [e]) i = pendV h i ∧ pendS (h ++ [e]) i = pendS h i ∧ pendE (h ++ [e]) i = pendE h i := by
  rw [pendV_snoc, pendS_snoc, pendE_snoc]
  cases e <;> simp only [Ev.of] at he <;> simp_all

omit [CommRing α] in
theorem PhOk_other {h : List (Ev α)} {e : Ev α} {i : Nat} (he : ¬ e.of i) {p : WPh α} (hp : PhOk h i p) : PhOk (h ++ [e]) i p := by
  obtain ⟨h1, h2, h3⟩ := pend_other (h := h) he
  unfold PhOk CallOk at *
  rw [h1, h2, h3]
  exact hp

theorem inv3_ph {n : Nat} {s t : Agg α} (b : ∀ i, PhOk s.hist i (s.wk i).ph) (st : Step n s t) : ∀ i, PhOk t.hist i (t.wk i).ph := by
  cases st
  all_goals intro k
  all_goals have hk := b k
  all_goals simp only [upd]
  all_goals try exact hk
  all_goals try exact PhOk_other (by simp [Ev.of]) hk
  all_goals split
  all_goals rename_i c
  all_goals try exact hk
  all_goals try exact PhOk_other (by first | (simp [Ev.of]; done) | exact fun q => c q.symm) hk
  all_goals subst c
  all_goals rename_i hp
  all_goals try rw [hp] at hk
  all_goals simp only [PhOk, CallOk, pendV_snoc, pendS_snoc, pendE_snoc, if_true] at hk ⊢
  all_goals try exact hk
  all_goals try trivial

theorem inv3_hist {n : Nat} {s t : Agg α} (i2 : Inv2 n s) (h : Inv3 n s) (st : Step n s t) : HistOk n t.hist := by
  have i2' := inv2_step i2 st
  obtain ⟨a, b, c⟩ := h
  cases st
  case addV => exact a.snoc i2'.value
  case addS => exact a.snoc i2'.start
  case addE => exact a.snoc i2'.stop
  case hostCall i call h hi hp hh =>
    refine a.snoc ?_
    have := b i
    rw [hp] at this
    cases call
    all_goals exact this
  case loadE j h x hj => exact a.snoc ⟨c j h x hj, i2.stop⟩
  case loadV j h hj => exact a.snoc i2.value
  all_goals first | exact a | exact a.snoc trivial

theorem inv3_step {n : Nat} {s t : Agg α} (i2 : Inv2 n s) (h : Inv3 n s) (st : Step n s t) : Inv3 n t := by
  refine ⟨inv3_hist i2 h st, inv3_ph h.ph st, ?_⟩
  have c := h.load
  have load' : ∀ e j h a, s.ct j = .loadE h a → ∃ a', a' <+: s.hist ++ [e] ∧ a = sumTo n (appS a') := by
    intro e j h x hx
    obtain ⟨a', h1, h2⟩ := c j h x hx
    exact ⟨a', h1.trans (List.prefix_append _ _), h2⟩
  cases st
  case loadS j h hj =>
    intro k h' x hx
    simp only [upd] at hx
    split at hx
    · injection hx with h1 h2
      exact ⟨s.hist, List.prefix_refl _, by rw [← h2, i2.start]⟩
    · exact c k h' x hx
  all_goals
    intro k h' x hx
    simp only [upd] at hx ⊢
    first
      | exact c k h' x hx
      | exact load' _ k h' x hx
      | (split at hx
         · cases hx
         · first | exact c k h' x hx | exact load' _ k h' x hx)

theorem reach_inv {n : Nat} {h0 : Option Nat} {s : Agg α} (hr : Reach n h0 s) : Inv1 s ∧ Inv2 n s ∧ Inv3 n s := by
  induction hr with
  | init =>
    have z : ∀ m, sumTo m (fun _ => (0 : α)) = 0 := by
      intro m
      induction m with
      | zero => rfl
      | succ m ih => rw [sumTo, ih]; grind
    refine ⟨?_, ?_, ?_⟩
    · constructor <;> simp [Agg.new, WPh.shared, CPh.unique]
    · have e1 : appV (Agg.new (α := α) h0).hist = fun _ => 0 := by cases h0 <;> rfl
      have e2 : appS (Agg.new (α := α) h0).hist = fun _ => 0 := by cases h0 <;> rfl
      have e3 : appE (Agg.new (α := α) h0).hist = fun _ => 0 := by cases h0 <;> rfl
      refine ⟨fun i => ?_, ?_, ?_, ?_⟩
      · cases h0 <;> exact ⟨rfl, rfl, rfl, rfl, rfl, rfl⟩
      · rw [e1, z]; rfl
      · rw [e2, z]; rfl
      · rw [e3, z]; rfl
    · refine ⟨?_, fun i => trivial, fun j h a q => by cases q⟩
      cases h0 with
      | none => exact .nil
      | some h =>
        have e1 : appV ([] : List (Ev α)) = fun _ => 0 := rfl
        have e2 : appS ([] : List (Ev α)) = fun _ => 0 := rfl
        have e3 : appE ([] : List (Ev α)) = fun _ => 0 := rfl
        have e4 : appV ([.hostC h (.range 0 0)] : List (Ev α)) = fun _ => 0 := rfl
        exact HistOk.snoc (h := [.hostC h (.range 0 0)]) (HistOk.snoc (h := []) .nil
          ⟨⟨[], List.prefix_refl _, by rw [e2, z]⟩, by rw [e3, z]⟩) (show (0 : α) = _ by rw [e4, z])
  | step _ st ih =>
    obtain ⟨a, b, c⟩ := ih
    exact ⟨inv1_step a st, inv2_step b st, inv3_step b c st⟩

theorem snoc_ind {β : Type} {P : List β → Prop} (h0 : P []) (hs : ∀ h e, P h → P (h ++ [e])) : ∀ l, P l := by
  intro l
  have : P l.reverse.reverse := by
    generalize l.reverse = r
    induction r with
    | nil => exact h0
    | cons x r ih => rw [List.reverse_cons]; exact hs _ _ ih
  rwa [List.reverse_reverse] at this

omit [CommRing α] in
/-- Where a pending sum comes from. -/
theorem pendV_split {i : Nat} {c : α} : ∀ h : List (Ev α), pendV h i = some c →
    ∃ a1 v a2, h = a1 ++ .addedV i v c :: a2 ∧ ∀ w, Ev.callSet i w ∉ a2 := by
  refine snoc_ind (fun hp => nomatch hp) (fun h e ih hp => ?_)
  rw [pendV_snoc] at hp
  have other : pendV h i = some c → (∀ w, e ≠ .callSet i w) → ∃ a1 v a2, h ++ [e] = a1 ++ .addedV i v c :: a2 ∧ ∀ w, Ev.callSet i w ∉ a2 := by
    intro hq hn
    obtain ⟨a1, v, a2, rfl, h2⟩ := ih hq
    refine ⟨a1, v, a2 ++ [e], by simp, fun w hw => ?_⟩
    rcases List.mem_append.1 hw with hw | hw
    · exact h2 w hw
    · exact hn w (List.mem_singleton.1 hw).symm
  cases e
  case callSet j v =>
    simp only at hp
    split at hp
    · cases hp
    · rename_i hj
      exact other hp (fun w q => by injection q with q; exact hj q)
  case addedV j v x =>
    simp only at hp
    split at hp
    · rename_i hj
      subst hj
      injection hp with hp
      subst hp
      exact ⟨h, v, [], rfl, by simp⟩
    · exact other hp (by simp)
  all_goals exact other hp (by simp)

omit [CommRing α] in
theorem pendS_split {i : Nat} {c : α} : ∀ h : List (Ev α), pendS h i = some c →
    ∃ a1 v a2, h = a1 ++ .addedS i v c :: a2 ∧ ∀ w z, Ev.callRange i w z ∉ a2 := by
  refine snoc_ind (fun hp => nomatch hp) (fun h e ih hp => ?_)
  rw [pendS_snoc] at hp
  have other : pendS h i = some c → (∀ w z, e ≠ .callRange i w z) → ∃ a1 v a2, h ++ [e] = a1 ++ .addedS i v c :: a2 ∧ ∀ w z, Ev.callRange i w z ∉ a2 := by
    intro hq hn
    obtain ⟨a1, v, a2, rfl, h2⟩ := ih hq
    refine ⟨a1, v, a2 ++ [e], by simp, fun w z hw => ?_⟩
    rcases List.mem_append.1 hw with hw | hw
    · exact h2 w z hw
    · exact hn w z (List.mem_singleton.1 hw).symm
  cases e
  case callRange j v y =>
    simp only at hp
    split at hp
    · cases hp
    · rename_i hj
      exact other hp (fun w z q => by injection q with q; exact hj q)
  case addedS j v x =>
    simp only at hp
    split at hp
    · rename_i hj
      subst hj
      injection hp with hp
      subst hp
      exact ⟨h, v, [], rfl, by simp⟩
    · exact other hp (by simp)
  all_goals exact other hp (by simp)

omit [CommRing α] in
theorem pendE_split {i : Nat} {c : α} : ∀ h : List (Ev α), pendE h i = some c →
    ∃ a1 v a2, h = a1 ++ .addedE i v c :: a2 ∧ ∀ w z, Ev.callRange i w z ∉ a2 := by
  refine snoc_ind (fun hp => nomatch hp) (fun h e ih hp => ?_)
  rw [pendE_snoc] at hp
  have other : pendE h i = some c → (∀ w z, e ≠ .callRange i w z) → ∃ a1 v a2, h ++ [e] = a1 ++ .addedE i v c :: a2 ∧ ∀ w z, Ev.callRange i w z ∉ a2 := by
    intro hq hn
    obtain ⟨a1, v, a2, rfl, h2⟩ := ih hq
    refine ⟨a1, v, a2 ++ [e], by simp, fun w z hw => ?_⟩
    rcases List.mem_append.1 hw with hw | hw
    · exact h2 w z hw
    · exact hn w z (List.mem_singleton.1 hw).symm
  cases e
  case callRange j v y =>
    simp only at hp
    split at hp
    · cases hp
    · rename_i hj
      exact other hp (fun w z q => by injection q with q; exact hj q)
  case addedE j v x =>
    simp only at hp
    split at hp
    · rename_i hj
      subst hj
      injection hp with hp
      subst hp
      exact ⟨h, v, [], rfl, by simp⟩
    · exact other hp (by simp)
  all_goals exact other hp (by simp)

/-- Without additions, what is accounted for stays. -/
theorem appV_tail {i : Nat} (h : List (Ev α)) : ∀ b : List (Ev α), (∀ j v c, Ev.addedV j v c ∉ b) → appV (h ++ b) i = appV h i := by
  refine snoc_ind (fun _ => by rw [List.append_nil]) (fun b e ih hn => ?_)
  rw [← List.append_assoc, appV_snoc, ← ih (fun j v c hm => hn j v c (List.mem_append_left _ hm))]
  cases e <;> first | rfl | exact absurd (List.mem_append_right _ (List.mem_singleton.2 rfl)) (hn _ _ _)

/-! ### Properties -/

/-- **C55** In any execution, when no worker is within a call, the combined value is the sum of the values the workers were last told to
set, and the combined range is the sum of their ranges. -/
theorem agg_quiescent {n : Nat} {h0 : Option Nat} {s : Agg α} (hr : Reach n h0 s) (hq : ∀ i < n, (s.wk i).ph = .idle) :
    s.value = sumTo n (reqV s.hist) ∧ s.start = sumTo n (reqS s.hist) ∧ s.stop = sumTo n (reqE s.hist) := by
  obtain ⟨-, i2, -⟩ := reach_inv hr
  have key : ∀ i < n, appV s.hist i = reqV s.hist i ∧ appS s.hist i = reqS s.hist i ∧ appE s.hist i = reqE s.hist i := by
    intro i hi
    have := i2.wk i
    simp only [WkOk, hq i hi] at this
    obtain ⟨a, b, c, d, e, f⟩ := this
    exact ⟨b.trans a.symm, d.trans c.symm, f.trans e.symm⟩
  rw [i2.value, i2.start, i2.stop]
  exact ⟨sum_congr fun i hi => (key i hi).1, sum_congr fun i hi => (key i hi).2.1, sum_congr fun i hi => (key i hi).2.2⟩

/-- **C55** At any time the combined value is a sum with, for each worker, the value last requested or, while the worker is in
`set` before its addition, the one before. -/
theorem agg_always {n : Nat} {h0 : Option Nat} {s : Agg α} (hr : Reach n h0 s) :
    s.value = sumTo n (appV s.hist) ∧ ∀ i, appV s.hist i = reqV s.hist i ∨ ∃ v, (s.wk i).ph = .addV v := by
  obtain ⟨-, i2, -⟩ := reach_inv hr
  refine ⟨i2.value, fun i => ?_⟩
  have := i2.wk i
  unfold WkOk at this
  split at this
  · rename_i v hp
    exact Or.inr ⟨v, hp⟩
  all_goals exact Or.inl (this.2.1.trans this.1.symm)

/-- **C55** Every value a worker's `set` reports to the host is the sum over the workers as it was at some moment during that call. -/
theorem agg_host {n : Nat} {h0 : Option Nat} {s : Agg α} (hr : Reach n h0 s) {a b : List (Ev α)} {i h : Nat} {c : α}
    (hh : s.hist = a ++ .hostW i h (.set c) :: b) :
    ∃ a1 v a2, a = a1 ++ .addedV i v c :: a2 ∧ (∀ w, Ev.callSet i w ∉ a2) ∧ c = sumTo n (appV (a1 ++ [.addedV i v c])) := by
  obtain ⟨-, -, i3⟩ := reach_inv hr
  obtain ⟨a1, v, a2, rfl, h2⟩ := pendV_split a (i3.hist.at hh)
  refine ⟨a1, v, a2, rfl, h2, ?_⟩
  exact i3.hist.at (a := a1) (b := a2 ++ .hostW i h (.set c) :: b) (e := .addedV i v c) (by rw [hh]; simp)

/-- **C55** The same for ranges; start and end are sums at two moments. -/
theorem agg_host_range {n : Nat} {h0 : Option Nat} {s : Agg α} (hr : Reach n h0 s) {a b : List (Ev α)} {i h : Nat} {c d : α}
    (hh : s.hist = a ++ .hostW i h (.range c d) :: b) :
    (∃ a1 v a2, a = a1 ++ .addedS i v c :: a2 ∧ (∀ w z, Ev.callRange i w z ∉ a2) ∧ c = sumTo n (appS (a1 ++ [.addedS i v c]))) ∧
    (∃ a1 v a2, a = a1 ++ .addedE i v d :: a2 ∧ (∀ w z, Ev.callRange i w z ∉ a2) ∧ d = sumTo n (appE (a1 ++ [.addedE i v d]))) := by
  obtain ⟨-, -, i3⟩ := reach_inv hr
  obtain ⟨p1, p2⟩ := i3.hist.at hh
  constructor
  · obtain ⟨a1, v, a2, rfl, h2⟩ := pendS_split a p1
    exact ⟨a1, v, a2, rfl, h2, i3.hist.at (a := a1) (b := a2 ++ .hostW i h (.range c d) :: b) (e := .addedS i v c) (by rw [hh]; simp)⟩
  · obtain ⟨a1, v, a2, rfl, h2⟩ := pendE_split a p2
    exact ⟨a1, v, a2, rfl, h2, i3.hist.at (a := a1) (b := a2 ++ .hostW i h (.range c d) :: b) (e := .addedE i v d) (by rw [hh]; simp)⟩

/-- **C55** `attach` (and the constructor) tells the host the sum at that moment. -/
theorem agg_attach {n : Nat} {h0 : Option Nat} {s : Agg α} (hr : Reach n h0 s) {a b : List (Ev α)} {h : Nat} {c : α}
    (hh : s.hist = a ++ .hostC h (.set c) :: b) : c = sumTo n (appV a) := by
  obtain ⟨-, -, i3⟩ := reach_inv hr
  exact i3.hist.at hh

omit [CommRing α] in
theorem pendV_tail {i : Nat} (h : List (Ev α)) : ∀ b : List (Ev α), (∀ j v c, Ev.addedV j v c ∉ b) → (∀ w, Ev.callSet i w ∉ b) → pendV (h ++ b) i = pendV h i := by
  refine snoc_ind (fun _ _ => by rw [List.append_nil]) (fun b e ih hn hc => ?_)
  rw [← List.append_assoc, pendV_snoc, ← ih (fun j v c hm => hn j v c (List.mem_append_left _ hm)) (fun w hm => hc w (List.mem_append_left _ hm))]
  cases e
  case callSet j w =>
    simp only
    rw [if_neg]
    rintro rfl
    exact absurd (List.mem_append_right _ (List.mem_singleton.2 rfl)) (hc w)
  all_goals first | rfl | exact absurd (List.mem_append_right _ (List.mem_singleton.2 rfl)) (hn _ _ _)

/-- **C55** If the last addition was made by worker `i`, then what its `set` tells the host afterwards is the combined value. What is missing is
the case that another worker makes its addition between that of worker `i` and the call of the host: see `agg_stale`. -/
theorem agg_unraced_partial {n : Nat} {h0 : Option Nat} {s : Agg α} (hr : Reach n h0 s) {a1 a2 b : List (Ev α)} {i h : Nat} {v x c : α}
    (hh : s.hist = a1 ++ .addedV i v x :: a2 ++ .hostW i h (.set c) :: b)
    (h1 : ∀ w, Ev.callSet i w ∉ a2) (h2 : ∀ j w y, Ev.addedV j w y ∉ a2 ++ b) : c = s.value := by
  obtain ⟨-, i2, i3⟩ := reach_inv hr
  have hp : pendV (a1 ++ .addedV i v x :: a2) i = some c := i3.hist.at hh
  rw [show a1 ++ .addedV i v x :: a2 = a1 ++ [.addedV i v x] ++ a2 by simp,
    pendV_tail _ _ (fun j w y hm => h2 j w y (List.mem_append_left _ hm)) h1, pendV_snoc] at hp
  simp only [if_true, Option.some.injEq] at hp
  subst hp
  have h3 : x = sumTo n (appV (a1 ++ [.addedV i v x])) :=
    i3.hist.at (a := a1) (b := a2 ++ .hostW i h (.set x) :: b) (e := .addedV i v x) (by rw [hh]; simp)
  rw [i2.value, hh]
  refine h3.trans (sum_congr ?_)
  intro j _
  rw [show a1 ++ .addedV i v x :: a2 ++ .hostW i h (.set x) :: b = (a1 ++ [.addedV i v x]) ++ (a2 ++ .hostW i h (.set x) :: b) by simp]
  refine (appV_tail _ _ ?_).symm
  intro j w y hm
  rcases List.mem_append.1 hm with hm | hm
  · exact h2 j w y (List.mem_append_left _ hm)
  · rcases List.mem_cons.1 hm with hm | hm
    · cases hm
    · exact h2 j w y (List.mem_append_right _ hm)

theorem sum_le {f g : Nat → Int} : ∀ {n : Nat}, (∀ i < n, f i ≤ g i) → sumTo n f ≤ sumTo n g := by
  intro n
  induction n with
  | zero => intro _; exact Int.le_refl _
  | succ n ih =>
    intro h
    have := ih (fun i hi => h i (by omega))
    have := h n (by omega)
    rw [sumTo, sumTo]
    show sumTo n f + f n ≤ sumTo n g + g n
    omega

/-- **C55** If every worker was last told a value within its range, the combined value is within the combined range. -/
theorem agg_within {n : Nat} {h0 : Option Nat} {s : Agg Int} (hr : Reach n h0 s) (hq : ∀ i < n, (s.wk i).ph = .idle)
    (hw : ∀ i < n, reqS s.hist i ≤ reqV s.hist i ∧ reqV s.hist i ≤ reqE s.hist i) : s.start ≤ s.value ∧ s.value ≤ s.stop := by
  obtain ⟨a, b, c⟩ := agg_quiescent hr hq
  rw [a, b, c]
  exact ⟨sum_le fun i hi => (hw i hi).1, sum_le fun i hi => (hw i hi).2⟩

/-- **C65** While a host is not attached, in particular after `detach` returned it, no thread is within a call of it. -/
theorem agg_detached {n : Nat} {h0 : Option Nat} {s : Agg α} (hr : Reach n h0 s) {h : Nat} (hh : s.host ≠ some h) :
    (∀ i call, (s.wk i).ph ≠ .calling h call) ∧ ∀ j, s.ct j ≠ .inRange h ∧ s.ct j ≠ .inSet h := by
  obtain ⟨i1, -, -⟩ := reach_inv hr
  exact ⟨fun i call q => hh (i1.calling i h call q),
    fun j => ⟨fun q => hh (i1.hosts j h (by simp [q])), fun q => hh (i1.hosts j h (by simp [q]))⟩⟩

/-- **C65** A host is only called while it is the attached one, and only `attach` and `detach` change which one that is. -/
theorem agg_attached {n : Nat} {s t : Agg α} (st : Step n s t) :
    (∀ i h call, t.hist = s.hist ++ [.hostW i h call] → s.host = some h) ∧
    (t.host = s.host ∨ (∃ h, t.hist = s.hist ++ [.attached h] ∧ t.host = h) ∨ (t.hist = s.hist ++ [.detached s.host] ∧ t.host = none)) := by
  cases st <;> simp_all

/-- With `BitVec 64` as `T` (`size_t`): worker 0 adds 1 and gets 1, worker 1 adds 1, gets 2 and reports 2 to the host, then worker 0 reports
1. Nobody is within a call any more, the combined value is 2, but the host was told 1 last. -/
theorem agg_stale : ∃ s : Agg (BitVec 64), Reach 2 (some 7) s ∧ (∀ i < 2, (s.wk i).ph = .idle) ∧ s.value = 2 ∧
    s.hist.getLast? = some (.hostW 0 7 (.set 1)) := by
  have r := Reach.init (α := BitVec 64) (n := 2) (h0 := some 7)
  have r := r.step (.callSet _ 0 1 (by omega) rfl)
  have r := r.step (.addV _ 0 1 (by omega) rfl)
  have r := r.step (.callSet _ 1 1 (by omega) rfl)
  have r := r.step (.addV _ 1 1 (by omega) rfl)
  have r := r.step (.storeV _ 1 1 2 (by omega) rfl)
  have r := r.step (.lockS _ 1 (.set 2) (by omega) rfl (fun _ h => h))
  have r := r.step (.hostCall _ 1 (.set 2) 7 (by omega) rfl rfl)
  have r := r.step (.hostRet _ 1 7 (.set 2) (by omega) rfl)
  have r := r.step (.unlockS _ 1 (by omega) rfl)
  have r := r.step (.storeV _ 0 1 1 (by omega) rfl)
  have r := r.step (.lockS _ 0 (.set 1) (by omega) rfl (fun _ h => h))
  have r := r.step (.hostCall _ 0 (.set 1) 7 (by omega) rfl rfl)
  have r := r.step (.hostRet _ 0 7 (.set 1) (by omega) rfl)
  have r := r.step (.unlockS _ 0 (by omega) rfl)
  refine ⟨_, r, ?_, rfl, rfl⟩
  intro i hi
  match i with
  | 0 => rfl
  | 1 => rfl

/-- A non-trivial case of `agg_quiescent`, `agg_host`, `agg_unraced_partial` and `agg_within`: of two workers, one sets its range to 0..5 and
then its value to 3, and reports it. -/
example : ∃ s : Agg Int, Reach 2 (some 7) s ∧ (∀ i < 2, (s.wk i).ph = .idle) ∧ s.value = 3 ∧ s.stop = 5 ∧
    (∀ i < 2, reqS s.hist i ≤ reqV s.hist i ∧ reqV s.hist i ≤ reqE s.hist i) ∧
    ∃ a1, s.hist = a1 ++ .addedV 1 3 3 :: [] ++ .hostW 1 7 (.set 3) :: [] := by
  have r := Reach.init (α := Int) (n := 2) (h0 := some 7)
  have r := r.step (.callRange _ 1 0 5 (by omega) rfl)
  have r := r.step (.addS _ 1 0 5 (by omega) rfl)
  have r := r.step (.addE _ 1 0 5 0 (by omega) rfl)
  have r := r.step (.storeR _ 1 0 5 0 5 (by omega) rfl)
  have r := r.step (.lockS _ 1 (.range 0 5) (by omega) rfl (fun _ h => h))
  have r := r.step (.hostCall _ 1 (.range 0 5) 7 (by omega) rfl rfl)
  have r := r.step (.hostRet _ 1 7 (.range 0 5) (by omega) rfl)
  have r := r.step (.unlockS _ 1 (by omega) rfl)
  have r := r.step (.callSet _ 1 3 (by omega) rfl)
  have r := r.step (.addV _ 1 3 (by omega) rfl)
  have r := r.step (.storeV _ 1 3 3 (by omega) rfl)
  have r := r.step (.lockS _ 1 (.set 3) (by omega) rfl (fun _ h => h))
  have r := r.step (.hostCall _ 1 (.set 3) 7 (by omega) rfl rfl)
  have r := r.step (.hostRet _ 1 7 (.set 3) (by omega) rfl)
  have r := r.step (.unlockS _ 1 (by omega) rfl)
  refine ⟨_, r, ?_, rfl, rfl, ?_, ⟨_, rfl⟩⟩
  · intro i hi
    match i with
    | 0 => rfl
    | 1 => rfl
  · intro i hi
    match i with
    | 0 => decide
    | 1 => decide

end Verif.Progress
