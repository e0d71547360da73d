/-
Lazy progress (include/stdex/progress.hpp: lazy_progress). Values and clock readings (in nanoseconds) are integers. `do_set` is what
a subclass overrides; it sees the value in `m_value`.
-/
namespace Verif.Progress

/-- 136-140. -/
structure Lazy where
  timeout : Int
  last : Int
  start : Int
  stop : Int
  value : Int

/-- Constructor, 89-94; `m_last` is the epoch, `high_resolution_clock` is `system_clock`. -/
def Lazy.new (timeout : Int) : Lazy := ⟨timeout, 0, 0, 0, -1⟩

/-- A call; `set` with what the clock says if it is asked. -/
inductive LOp where
  | range (start stop : Int)
  | set (value now : Int)
deriving DecidableEq

/-- `set_range`, 102-106, and `set`, 113-127: the value `do_set` is called with, if it is. -/
def Lazy.step (l : Lazy) : LOp → Option Int × Lazy
  | .range s e => (none, { l with start := s, stop := e })
  | .set value now =>
    if value = l.start ∨ value = l.stop then (some value, { l with last := now, value := value })
    else if value = l.value then (none, l)
    else if now - l.last < l.timeout then (none, l)
    else (some value, { l with last := now, value := value })

/-- A sequence of calls: with each, what `do_set` was called with. -/
def Lazy.run (l : Lazy) : List LOp → List (LOp × Option Int) × Lazy
  | [] => ([], l)
  | o :: os => let r := (l.step o).2.run os; ((o, (l.step o).1) :: r.1, r.2)

/-! ### Specification, in terms of the history -/

abbrev Hist := List (LOp × Option Int)

/-- The range in effect: that of the last `set_range`. -/
def rangeOf (h : Hist) : Int × Int := h.foldl (fun acc e => match e.1 with | .range s e => (s, e) | .set .. => acc) (0, 0)

/-- The last value forwarded, -1 if there was none, and when. -/
def lastForward (h : Hist) : Int × Int := h.foldl (fun acc e => match e with | (.set _ now, some v) => (v, now) | _ => acc) (-1, 0)

/-! ### Proofs -/

theorem lazy_history : ∀ (ops : List LOp) (pre : Hist) (l : Lazy),
    (l.start, l.stop) = rangeOf pre → (l.value, l.last) = lastForward pre →
    ∀ a o f b, (l.run ops).1 = a ++ (o, f) :: b →
      ∃ l' : Lazy, (l'.start, l'.stop) = rangeOf (pre ++ a) ∧ (l'.value, l'.last) = lastForward (pre ++ a) ∧ l'.timeout = l.timeout ∧ f = (l'.step o).1 := by
  intro ops
  induction ops with
  | nil => intro pre l _ _ a o f b h; simp [Lazy.run] at h
  | cons op ops ih =>
    intro pre l h1 h2 a o f b h
    rw [Lazy.run] at h
    cases a with
    | nil =>
      simp only [List.nil_append, List.cons.injEq, Prod.mk.injEq] at h
      obtain ⟨⟨rfl, rfl⟩, -⟩ := h
      exact ⟨l, by rw [List.append_nil]; exact h1, by rw [List.append_nil]; exact h2, rfl, rfl⟩
    | cons e a =>
      simp only [List.cons_append, List.cons.injEq] at h
      obtain ⟨he, h⟩ := h
      have key : (((l.step op).2.start, (l.step op).2.stop) = rangeOf (pre ++ [e])) ∧
          (((l.step op).2.value, (l.step op).2.last) = lastForward (pre ++ [e])) ∧ (l.step op).2.timeout = l.timeout := by
        unfold rangeOf at h1 ⊢
        unfold lastForward at h2 ⊢
        rw [List.foldl_append, List.foldl_append, ← h1, ← h2, ← he]
        cases op with
        | range s t => exact ⟨rfl, rfl, rfl⟩
        | set v now =>
          simp only [List.foldl_cons, List.foldl_nil, Lazy.step]
          by_cases c1 : v = l.start ∨ v = l.stop
          · simp only [if_pos c1]
            simp
          · simp only [if_neg c1]
            by_cases c2 : v = l.value
            · simp only [if_pos c2]
              simp
            · simp only [if_neg c2]
              by_cases c3 : now - l.last < l.timeout
              · simp only [if_pos c3]
                simp
              · simp only [if_neg c3]
                simp
      obtain ⟨l', r1, r2, r3, r4⟩ := ih (pre ++ [e]) (l.step op).2 key.1 key.2.1 a o f b h
      rw [List.append_assoc] at r1 r2
      exact ⟨l', r1, r2, by rw [r3, key.2.2], r4⟩

/-! ### Properties -/

/-- **C57** Whatever was called before: `set(v)` forwards `v` if it is the start or the end of the range, and otherwise exactly if it
differs from the value forwarded last and the timeout has passed since. It forwards nothing else, and `set_range` forwards nothing. -/
theorem lazy_spec (timeout : Int) (ops : List LOp) {a b : Hist} {o : LOp} {f : Option Int}
    (h : ((Lazy.new timeout).run ops).1 = a ++ (o, f) :: b) :
    match o with
    | .range .. => f = none
    | .set v now =>
      (f = some v ∨ f = none) ∧
      (f = some v ↔ v = (rangeOf a).1 ∨ v = (rangeOf a).2 ∨ (v ≠ (lastForward a).1 ∧ now - (lastForward a).2 ≥ timeout)) := by
  obtain ⟨l, h1, h2, h3, rfl⟩ := lazy_history ops [] (Lazy.new timeout) rfl rfl a o f b h
  rw [List.nil_append] at h1 h2
  cases o with
  | range s e => rfl
  | set v now =>
    have h3 : l.timeout = timeout := h3
    simp only
    rw [← h1, ← h2, ← h3]
    simp only [Lazy.step]
    by_cases c1 : v = l.start ∨ v = l.stop
    · simp only [if_pos c1]
      simp only [true_or, true_and, true_iff]
      rcases c1 with c | c
      · exact Or.inl c
      · exact Or.inr (Or.inl c)
    · simp only [if_neg c1]
      have n1 : v ≠ l.start := fun q => c1 (Or.inl q)
      have n2 : v ≠ l.stop := fun q => c1 (Or.inr q)
      by_cases c2 : v = l.value
      · simp only [if_pos c2]
        simp [n1, n2, c2]
        exact ⟨fun q => n1 (c2.trans q), fun q => n2 (c2.trans q)⟩
      · simp only [if_neg c2]
        by_cases c3 : now - l.last < l.timeout
        · simp only [if_pos c3]
          simp [n1, n2, c2]
          omega
        · simp only [if_neg c3]
          simp [n1, n2, c2]
          omega

/-- The operations of a run. -/
theorem run_ops : ∀ (ops : List LOp) (l : Lazy), ((l.run ops).1).map Prod.fst = ops := by
  intro ops
  induction ops with
  | nil => intro l; rfl
  | cons o ops ih => intro l; rw [Lazy.run, List.map_cons, ih]

theorem lastForward_mem (h : Hist) : lastForward h = (-1, 0) ∨ ∃ v now w, (LOp.set w now, some v) ∈ h ∧ lastForward h = (v, now) := by
  unfold lastForward
  suffices ∀ (h : Hist) (acc : Int × Int), h.foldl (fun acc e => match e with | (.set _ now, some v) => (v, now) | _ => acc) acc = acc ∨
      ∃ v now w, (LOp.set w now, some v) ∈ h ∧ h.foldl (fun acc e => match e with | (.set _ now, some v) => (v, now) | _ => acc) acc = (v, now) from this h _
  intro h
  induction h with
  | nil => intro acc; exact Or.inl rfl
  | cons e h ih =>
    intro acc
    rw [List.foldl_cons]
    rcases ih (match e with | (.set _ now, some v) => (v, now) | _ => acc) with q | ⟨v, now, w, m, q⟩
    · rw [q]
      match e with
      | (.set w now, some v) => exact Or.inr ⟨v, now, w, List.mem_cons_self, rfl⟩
      | (.set w now, none) => exact Or.inl rfl
      | (.range _ _, x) => exact Or.inl rfl
    · exact Or.inr ⟨v, now, w, List.mem_cons_of_mem _ m, q⟩

/-- The last forward is not earlier than any forward, on a clock that does not go back. -/
theorem lastForward_latest : ∀ (h : Hist) (acc : Int × Int), (h.filterMap fun e => match e.1 with | .set _ now => some now | _ => none).Pairwise (· ≤ ·) →
    (∀ e ∈ h, ∀ w now, e.1 = .set w now → acc.2 ≤ now) →
    let r := h.foldl (fun acc e => match e with | (.set _ now, some v) => (v, now) | _ => acc) acc
    acc.2 ≤ r.2 ∧ ∀ e ∈ h, ∀ w now v, e = (.set w now, some v) → now ≤ r.2 := by
  intro h
  induction h with
  | nil => intro acc _ _; exact ⟨Int.le_refl _, by simp⟩
  | cons e h ih =>
    intro acc hp ha
    simp only [List.foldl_cons]
    match e with
    | (.range s t, x) =>
      obtain ⟨i1, i2⟩ := ih acc hp (fun e he => ha e (List.mem_cons_of_mem _ he))
      refine ⟨i1, fun e he w now v q => ?_⟩
      rcases List.mem_cons.1 he with rfl | he
      · cases q
      · exact i2 e he w now v q
    | (.set w0 now0, none) =>
      obtain ⟨i1, i2⟩ := ih acc (List.Pairwise.tail hp) (fun e he => ha e (List.mem_cons_of_mem _ he))
      refine ⟨i1, fun e he w now v q => ?_⟩
      rcases List.mem_cons.1 he with rfl | he
      · cases q
      · exact i2 e he w now v q
    | (.set w0 now0, some v0) =>
      have hp' := List.pairwise_cons.1 (show List.Pairwise (· ≤ ·) (now0 :: h.filterMap fun e => match e.1 with | .set _ now => some now | _ => none) from hp)
      obtain ⟨i1, i2⟩ := ih (v0, now0) hp'.2 (fun e he w now q => hp'.1 now (List.mem_filterMap.2 ⟨e, he, by rw [q]⟩))
      have h0 := ha _ List.mem_cons_self w0 now0 rfl
      simp only at i1
      refine ⟨Int.le_trans h0 i1, fun e he w now v q => ?_⟩
      rcases List.mem_cons.1 he with rfl | he
      · simp only [Prod.mk.injEq, LOp.set.injEq] at q
        obtain ⟨⟨-, rfl⟩, -⟩ := q
        exact i1
      · exact i2 e he w now v q

/-- The clock readings of a history do not go back. -/
def Monotone (h : Hist) : Prop := (h.filterMap fun e => match e.1 with | .set _ now => some now | _ => none).Pairwise (· ≤ ·)

/-- **C57** Rate: on a clock that does not go back, a value within the range is forwarded no sooner than the timeout after anything forwarded before. -/
theorem lazy_rate (timeout : Int) (ops : List LOp) {a b c : Hist} {w v now w' v' now' : Int}
    (h : ((Lazy.new timeout).run ops).1 = a ++ (.set w' now', some v') :: b ++ (.set w now, some v) :: c)
    (hm : Monotone (a ++ (.set w' now', some v') :: b)) (h0 : ∀ e ∈ a ++ (LOp.set w' now', some v') :: b, ∀ x n, e.1 = .set x n → 0 ≤ n)
    (hs : v ≠ (rangeOf (a ++ (.set w' now', some v') :: b)).1) (he : v ≠ (rangeOf (a ++ (.set w' now', some v') :: b)).2) :
    now - now' ≥ timeout := by
  have sp := lazy_spec timeout ops h
  simp only at sp
  obtain ⟨s1, s2⟩ := sp
  have hv : v = w := by
    rcases s1 with q | q
    · injection q
    · cases q
  subst hv
  rcases s2.1 rfl with q | q | ⟨-, q⟩
  · exact absurd q hs
  · exact absurd q he
  · have := (lastForward_latest (a ++ (.set w' now', some v') :: b) (-1, 0) hm h0).2 (.set w' now', some v') (by simp) w' now' v' rfl
    have e : (lastForward (a ++ (LOp.set w' now', some v') :: b)).2 =
      ((a ++ (LOp.set w' now', some v') :: b).foldl (fun acc e => match e with | (.set _ now, some v) => (v, now) | _ => acc) ((-1, 0) : Int × Int)).2 := rfl
    omega

/-- **C57** Everything forwarded is a value the caller set, in the order of the calls; and if the last call sets the end of the range,
the end is what was forwarded last. -/
theorem lazy_forwards (timeout : Int) (ops : List LOp) :
    (∀ e ∈ ((Lazy.new timeout).run ops).1, ∀ x, e.2 = some x → ∃ now, e.1 = .set x now ∧ e.1 ∈ ops) ∧
    ∀ a v now f, ((Lazy.new timeout).run ops).1 = a ++ [(.set v now, f)] → v = (rangeOf a).2 →
      lastForward ((Lazy.new timeout).run ops).1 = (v, now) := by
  refine ⟨fun e he x hx => ?_, fun a v now f h hv => ?_⟩
  · obtain ⟨a, b, hab⟩ := List.append_of_mem he
    have hin : e.1 ∈ ops := by
      rw [← run_ops ops (Lazy.new timeout)]
      exact List.mem_map_of_mem he
    obtain ⟨o, f⟩ := e
    simp only at hx
    subst hx
    have sp := lazy_spec timeout ops hab
    cases o with
    | range s t => cases sp
    | set v now =>
      rcases sp.1 with q | q
      · injection q with q
        exact ⟨now, by rw [q], hin⟩
      · cases q
  · have sp := lazy_spec timeout ops h
    simp only at sp
    have := sp.2.2 (Or.inr (Or.inl hv))
    subst this
    rw [h]
    unfold lastForward
    rw [List.foldl_append]
    rfl

/-- A non-trivial case. -/
example : ((Lazy.new 10).run [.range 0 9, .set 0 100, .set 1 105, .set 1 110, .set 1 130, .set 2 131, .set 9 132, .set 9 133]).1.map Prod.snd =
    [none, some 0, none, some 1, none, some 2, some 9, some 9] := by decide +kernel

/-- `m_value` starts as -1: in a range around -1, `set(-1)` is not forwarded although nothing was forwarded before. -/
theorem lazy_minus_one : ((Lazy.new 10).run [.range (-5) 5, .set (-1) 1000]).1.map Prod.snd = [none, none] := by decide +kernel

end Verif.Progress
