/-!
# Model of `stdex::vector_queue<T>` (include/stdex/vector_queue.hpp 18-416), properties C11, C12

`size_t` arithmetic is modulo 2^64 (that matters: `abs(-1)`).  The array `m_data` is a
function from index to `Option α`; `none` is an element nobody assigned.  Division by zero
(`% m_size_max` with capacity 0) and access outside the array are the outcome `ub`.
-/
namespace Verif.VQ

/-! ## Model -/

/-- Data members, vector_queue.hpp 412-415. -/
structure VQ (α : Type) where
  data : Nat → Option α
  head : Nat
  count : Nat
  cap : Nat

variable {α : Type}

/-- Constructor, vector_queue.hpp 57-62. -/
def VQ.init (cap : Nat) : VQ α := ⟨fun _ => none, 0, 0, cap⟩

/-- `abs(pos)`, vector_queue.hpp 406-409, for capacity > 0: unsigned 64-bit sum, then `%`. -/
def VQ.abs (q : VQ α) (pos : Nat) : Nat := ((q.head + pos) % 2 ^ 64) % q.cap

/-- `(size_t)-1`. -/
def minusOne : Nat := 2 ^ 64 - 1

/-- Store `m_data[i] = v`. -/
def VQ.set (q : VQ α) (i : Nat) (v : α) : VQ α :=
  { q with data := fun j => if j = i then some v else q.data j }

/-- `push_back`, vector_queue.hpp 264-277 (and 286-299): new queue and returned index. -/
def VQ.pushBack (q : VQ α) (v : α) : VQ α × Nat :=
  if q.count < q.cap then
    let pos := q.abs q.count
    ({ q.set pos v with count := q.count + 1 }, pos)
  else
    let pos := q.head
    ({ q.set pos v with head := q.abs 1 }, pos)

/-- `pop_back`, vector_queue.hpp 304-308; `none` = throws. -/
def VQ.popBack (q : VQ α) : Option (VQ α) :=
  if q.count = 0 then none else some { q with count := q.count - 1 }

/-- `push_front`, vector_queue.hpp 317-324 (and 333-340). -/
def VQ.pushFront (q : VQ α) (v : α) : VQ α × Nat :=
  let q1 := { q with head := q.abs minusOne }
  let q2 := if q1.count < q1.cap then { q1 with count := q1.count + 1 } else q1
  (q2.set q2.head v, q2.head)

/-- `pop_front`, vector_queue.hpp 345-350. -/
def VQ.popFront (q : VQ α) : Option (VQ α) :=
  if q.count = 0 then none else some { q with head := q.abs 1, count := q.count - 1 }

/-- `at`/`operator[]`, vector_queue.hpp 192-229; `none` = throws. -/
def VQ.get (q : VQ α) (pos : Nat) : Option (Option α) :=
  if pos ≥ q.count then none else some (q.data (q.abs pos))

/-- `at_abs`, vector_queue.hpp 238-255. -/
def VQ.getAbs (q : VQ α) (pos : Nat) : Option (Option α) :=
  if pos ≥ q.cap then none else some (q.data pos)

/-- `front`, vector_queue.hpp 355-368. -/
def VQ.front (q : VQ α) : Option (Option α) :=
  if q.count = 0 then none else some (q.data q.head)

/-- `back` and `tail`, vector_queue.hpp 373-401. -/
def VQ.back (q : VQ α) : Option (Option α) :=
  if q.count = 0 then none else some (q.data (q.abs (q.count - 1)))

/-- `clear`, vector_queue.hpp 174-177 (`m_head` is kept). -/
def VQ.clear (q : VQ α) : VQ α := { q with count := 0 }

/-- Copy loop, vector_queue.hpp 76-79 / 123-126: copies the cells `abs(0) .. abs(n-1)`. -/
def copyCells (q : VQ α) : Nat → (Nat → Option α) → (Nat → Option α)
  | 0, d => d
  | n + 1, d =>
    let d := copyCells q n d
    fun j => if j = q.abs n then q.data (q.abs n) else d j

/-- Copy constructor, vector_queue.hpp 69-80, and copy assignment, 113-130 (the old
contents of `*this` are irrelevant: a new array is allocated). -/
def VQ.copy (q : VQ α) : VQ α :=
  ⟨copyCells q q.count (fun _ => none), q.head, q.count, q.cap⟩

/-- Move constructor, vector_queue.hpp 95-106, and move assignment, 137-153: new object,
and the moved-from one (`m_data = NULL`, capacity 0). -/
def VQ.move (q : VQ α) : VQ α × VQ α := (q, ⟨fun _ => none, 0, 0, 0⟩)

/-- Operations of a history. -/
inductive Op (α : Type) where
  | pushBack (v : α) | popBack | pushFront (v : α) | popFront | clear | copy
  | get (i : Nat) | front | back | size

/-- Observations. -/
inductive Out (α : Type) where
  | unit | throws | val (v : Option α) | num (n : Nat)
deriving DecidableEq

/-- One operation; `none` = undefined behaviour (capacity 0: `% 0`, or a store into an
empty array). -/
def VQ.step (q : VQ α) : Op α → Option (VQ α × Out α)
  | .pushBack v => if q.cap = 0 then none else some ((q.pushBack v).1, .unit)
  | .popBack => match q.popBack with
    | some q' => some (q', .unit)
    | none => some (q, .throws)
  | .pushFront v => if q.cap = 0 then none else some ((q.pushFront v).1, .unit)
  | .popFront => match q.popFront with
    | some q' => some (q', .unit)
    | none => some (q, .throws)
  | .clear => some (q.clear, .unit)
  | .copy => some (q.copy, .unit)
  | .get i => some (q, match q.get i with | some v => .val v | none => .throws)
  | .front => some (q, match q.front with | some v => .val v | none => .throws)
  | .back => some (q, match q.back with | some v => .val v | none => .throws)
  | .size => some (q, .num q.count)

/-- Run a history, collecting the observations. -/
def VQ.run (q : VQ α) : List (Op α) → Option (List (Out α))
  | [] => some []
  | op :: ops => do
    let (q', o) ← q.step op
    let os ← VQ.run q' ops
    pure (o :: os)

/-! ## Specification: a list of at most `cap` elements -/

def specStep (cap : Nat) (l : List α) : Op α → List α × Out α
  | .pushBack v => (if l.length < cap then l ++ [v] else l.tail ++ [v], .unit)
  | .popBack => if l = [] then (l, .throws) else (l.dropLast, .unit)
  | .pushFront v => (if l.length < cap then v :: l else v :: l.dropLast, .unit)
  | .popFront => match l with
    | [] => ([], .throws)
    | _ :: t => (t, .unit)
  | .clear => ([], .unit)
  | .copy => (l, .unit)
  | .get i => (l, if h : i < l.length then .val (some l[i]) else .throws)
  | .front => (l, match l.head? with | some v => .val (some v) | none => .throws)
  | .back => (l, match l.getLast? with | some v => .val (some v) | none => .throws)
  | .size => (l, .num l.length)

def specRun (cap : Nat) (l : List α) : List (Op α) → List (Out α)
  | [] => []
  | op :: ops => (specStep cap l op).2 :: specRun cap (specStep cap l op).1 ops

/-! ## Lemmas -/

/-- The queue `q` holds the list `l`. -/
structure Rep (q : VQ α) (l : List α) : Prop where
  cap_pos : 0 < q.cap
  cap_le : q.cap ≤ 2 ^ 63
  head_lt : q.head < q.cap
  len : q.count = l.length
  le : q.count ≤ q.cap
  cell : ∀ i (h : i < l.length), q.data ((q.head + i) % q.cap) = some l[i]

theorem abs_eq {q : VQ α} (hc : q.cap ≤ 2 ^ 63) (hh : q.head < q.cap) {i : Nat} (hi : i ≤ q.cap) :
    q.abs i = (q.head + i) % q.cap := by
  unfold VQ.abs; rw [Nat.mod_eq_of_lt (a := q.head + i)]; omega

theorem mod_ne {N a b : Nat} (h1 : a < b) (h2 : b < a + N) : b % N ≠ a % N := by
  intro h
  have := Nat.sub_mod_eq_zero_of_mod_eq h
  rw [Nat.mod_eq_of_lt (by omega)] at this
  omega

theorem rep_pushBack {q : VQ α} {l : List α} (h : Rep q l) (v : α) :
    Rep (q.pushBack v).1 (if l.length < q.cap then l ++ [v] else l.tail ++ [v]) ∧
    (q.pushBack v).1.cap = q.cap := by
  obtain ⟨h1, h2, h3, h4, h5, h6⟩ := h
  unfold VQ.pushBack
  by_cases hlt : q.count < q.cap
  · rw [if_pos hlt, if_pos (by omega)]
    refine ⟨⟨h1, h2, h3, by simp [VQ.set, h4], by simp [VQ.set]; omega, ?_⟩, rfl⟩
    intro i hi
    simp only [VQ.set]
    rw [abs_eq h2 h3 (by omega)]
    simp at hi
    by_cases he : i = l.length
    · subst he; rw [h4]; simp
    · rw [if_neg]
      · rw [List.getElem_append_left (by omega)]; exact h6 i (by omega)
      · intro hc; rw [h4] at hc
        exact mod_ne (by omega) (by omega) hc.symm
  · rw [if_neg hlt, if_neg (by omega)]
    have hcc : l.length = q.cap := by omega
    simp only [abs_eq h2 h3 (show 1 ≤ q.cap by omega)]
    refine ⟨⟨h1, h2, Nat.mod_lt _ h1, ?_, h5, ?_⟩, rfl⟩
    · simp [VQ.set, h4]; omega
    · intro i hi
      simp only [VQ.set]
      simp at hi
      rw [Nat.mod_add_mod, Nat.add_assoc, Nat.add_comm 1 i]
      by_cases he : i + 1 = l.length
      · rw [if_pos (by rw [he, hcc, Nat.add_mod_right, Nat.mod_eq_of_lt h3])]
        rw [List.getElem_append_right (by simp; omega)]
        simp
      · rw [if_neg]
        · rw [List.getElem_append_left (by simp; omega)]
          have := h6 (i + 1) (by omega)
          simp [this]
        · intro hc
          have : (q.head + (i + 1)) % q.cap ≠ q.head % q.cap := mod_ne (by omega) (by omega)
          rw [Nat.mod_eq_of_lt h3] at this
          exact this hc

/-- The condition under which `abs(-1)` is the predecessor index. -/
def FrontOk (q : VQ α) : Prop := 0 < q.head ∨ 2 ^ 64 % q.cap = 0 ∨ q.count = 0

theorem abs_minusOne {q : VQ α} (h1 : 0 < q.cap) (h2 : q.cap ≤ 2 ^ 63) (h3 : q.head < q.cap)
    (hf : 0 < q.head ∨ 2 ^ 64 % q.cap = 0) :
    q.abs minusOne < q.cap ∧ (q.abs minusOne + 1) % q.cap = q.head := by
  refine ⟨Nat.mod_lt _ h1, ?_⟩
  unfold VQ.abs minusOne
  by_cases h0 : 0 < q.head
  · have : (q.head + (2 ^ 64 - 1)) % 2 ^ 64 = q.head - 1 := by
      rw [show q.head + (2 ^ 64 - 1) = (q.head - 1) + 2 ^ 64 by omega, Nat.add_mod_right,
        Nat.mod_eq_of_lt (by omega)]
    rw [this, Nat.mod_eq_of_lt (by omega : q.head - 1 < q.cap), Nat.mod_eq_of_lt (by omega)]; omega
  · have hz : q.head = 0 := by omega
    have hd : 2 ^ 64 % q.cap = 0 := hf.resolve_left h0
    rw [hz, Nat.zero_add, Nat.mod_eq_of_lt (by omega : (2 : Nat) ^ 64 - 1 < 2 ^ 64), Nat.mod_add_mod]
    exact hd

/-- `push_front` with the new head index `m` already computed. -/
def VQ.pushFrontAt (q : VQ α) (m : Nat) (v : α) : VQ α :=
  ⟨fun j => if j = m then some v else q.data j, m,
    if q.count < q.cap then q.count + 1 else q.count, q.cap⟩

theorem pushFront_eq (q : VQ α) (v : α) : (q.pushFront v).1 = q.pushFrontAt (q.abs minusOne) v := by
  unfold VQ.pushFront VQ.pushFrontAt
  generalize q.abs minusOne = m
  by_cases hc : q.count < q.cap
  · simp only [hc, if_true]; rfl
  · simp only [hc, if_false]; rfl

theorem rep_frontAt {q : VQ α} {l : List α} (h : Rep q l) (m : Nat) (a1 : m < q.cap)
    (a2 : q.count = 0 ∨ (m + 1) % q.cap = q.head) (v : α) :
    Rep (q.pushFrontAt m v) (if l.length < q.cap then v :: l else v :: l.dropLast) := by
  obtain ⟨h1, h2, h3, h4, h5, h6⟩ := h
  have hlen : (if l.length < q.cap then v :: l else v :: l.dropLast).length =
      if q.count < q.cap then q.count + 1 else q.count := by
    rw [h4]
    split
    · simp
    · rw [List.length_cons, List.length_dropLast]; omega
  refine ⟨h1, h2, a1, hlen.symm, ?_, ?_⟩
  · show (if q.count < q.cap then q.count + 1 else q.count) ≤ q.cap
    split <;> omega
  · intro i hi
    show (if (m + i) % q.cap = m then some v else q.data ((m + i) % q.cap)) = _
    cases i with
    | zero =>
      rw [Nat.add_zero, Nat.mod_eq_of_lt a1, if_pos rfl]
      congr 1
      split <;> rfl
    | succ k =>
      have hk : k < l.length ∧ k + 1 < q.cap := by
        rw [hlen] at hi
        split at hi <;> omega
      have hne : (m + (k + 1)) % q.cap ≠ m := by
        have : (m + (k + 1)) % q.cap ≠ m % q.cap := mod_ne (by omega) (by omega)
        rwa [Nat.mod_eq_of_lt a1] at this
      have a2' : (m + 1) % q.cap = q.head := by
        rcases a2 with a2 | a2
        · omega
        · exact a2
      have hsh : (m + (k + 1)) % q.cap = (q.head + k) % q.cap := by
        rw [show m + (k + 1) = (m + 1) + k by omega, ← Nat.mod_add_mod, a2']
      rw [if_neg hne, hsh, h6 k hk.1]
      congr 1
      split
      · simp
      · simp [List.getElem_dropLast]

theorem rep_pushFront {q : VQ α} {l : List α} (h : Rep q l) (hf : FrontOk q) (v : α) :
    Rep (q.pushFront v).1 (if l.length < q.cap then v :: l else v :: l.dropLast) ∧
    (q.pushFront v).1.cap = q.cap := by
  rw [pushFront_eq]
  refine ⟨rep_frontAt h _ (Nat.mod_lt _ h.cap_pos) ?_ v, rfl⟩
  rcases hf with a | a | a
  · exact Or.inr (abs_minusOne h.cap_pos h.2 h.3 (Or.inl a)).2
  · exact Or.inr (abs_minusOne h.cap_pos h.2 h.3 (Or.inr a)).2
  · exact Or.inl a

theorem copyCells_spec {q : VQ α} {l : List α} (h : Rep q l) : ∀ n, n ≤ l.length → ∀ i, i < n →
    copyCells q n (fun _ => none) ((q.head + i) % q.cap) = q.data ((q.head + i) % q.cap) := by
  obtain ⟨h1, h2, h3, h4, h5, h6⟩ := h
  intro n
  induction n with
  | zero => intro _ i hi; omega
  | succ n ih =>
    intro hn i hi
    simp only [copyCells]
    rw [abs_eq h2 h3 (by omega)]
    split
    · rename_i he; rw [he]
    · rename_i he
      by_cases h' : i = n
      · subst h'; exact absurd rfl he
      · exact ih (by omega) i (by omega)

theorem rep_copy {q : VQ α} {l : List α} (h : Rep q l) : Rep q.copy l := by
  have hc := copyCells_spec h
  obtain ⟨h1, h2, h3, h4, h5, h6⟩ := h
  refine ⟨h1, h2, h3, h4, h5, ?_⟩
  intro i hi
  simp only [VQ.copy]
  rw [h4, hc l.length (by omega) i hi]
  exact h6 i hi

/-- Every operation but `push_front` is right in every represented state; `push_front`
is right under `FrontOk`. -/
theorem step_spec {q : VQ α} {l : List α} (h : Rep q l) (op : Op α)
    (hf : ∀ v, op = .pushFront v → FrontOk q) :
    ∃ q', q.step op = some (q', (specStep q.cap l op).2) ∧ Rep q' (specStep q.cap l op).1 ∧
      q'.cap = q.cap := by
  have hnz : q.cap ≠ 0 := by have := h.cap_pos; omega
  have h0 := h
  obtain ⟨h1, h2, h3, h4, h5, h6⟩ := h
  cases op with
  | pushBack v =>
    obtain ⟨a, b⟩ := rep_pushBack h0 v
    exact ⟨_, by simp [VQ.step, hnz, specStep], a, b⟩
  | pushFront v =>
    obtain ⟨a, b⟩ := rep_pushFront h0 (hf v rfl) v
    exact ⟨_, by simp [VQ.step, hnz, specStep], a, b⟩
  | popBack =>
    by_cases hz : q.count = 0
    · have hl : l = [] := List.eq_nil_of_length_eq_zero (by omega)
      exact ⟨q, by simp [VQ.step, VQ.popBack, hz, specStep, hl], by simpa [specStep, hl] using hl ▸ h0, rfl⟩
    · have hl : l ≠ [] := by intro e; subst e; simp at h4; omega
      refine ⟨{ q with count := q.count - 1 }, by simp [VQ.step, VQ.popBack, hz, specStep, hl], ?_, rfl⟩
      simp only [specStep, hl, if_false]
      refine ⟨h1, h2, h3, by simp [h4], by simp; omega, ?_⟩
      intro i hi
      simp at hi
      rw [List.getElem_dropLast]; exact h6 i (by omega)
  | popFront =>
    by_cases hz : q.count = 0
    · have hl : l = [] := List.eq_nil_of_length_eq_zero (by omega)
      exact ⟨q, by simp [VQ.step, VQ.popFront, hz, specStep, hl], by simpa [specStep, hl] using hl ▸ h0, rfl⟩
    · match l, h4, h6 with
      | [], h4, _ => simp at h4; omega
      | x :: t, h4, h6 =>
        refine ⟨{ q with head := q.abs 1, count := q.count - 1 },
          by simp [VQ.step, VQ.popFront, hz, specStep], ?_, rfl⟩
        simp only [specStep]
        rw [abs_eq h2 h3 (by omega)]
        simp at h4
        refine ⟨h1, h2, Nat.mod_lt _ h1, by simp; omega, by simp; omega, ?_⟩
        intro i hi
        simp only
        rw [Nat.mod_add_mod, Nat.add_assoc, Nat.add_comm 1 i]
        have := h6 (i + 1) (by simp; omega)
        simpa using this
  | clear =>
    exact ⟨q.clear, by simp [VQ.step, specStep], ⟨h1, h2, h3, rfl, Nat.zero_le _, by simp [specStep]⟩, rfl⟩
  | copy => exact ⟨q.copy, by simp [VQ.step, specStep], rep_copy h0, rfl⟩
  | get i =>
    refine ⟨q, ?_, h0, rfl⟩
    simp only [VQ.step, VQ.get, specStep, h4]
    by_cases hi : i < l.length
    · have : ¬ i ≥ l.length := by omega
      simp [this, hi, abs_eq h2 h3 (show i ≤ q.cap by omega), h6 i hi]
    · have : i ≥ l.length := by omega
      simp [hi, this]
  | front =>
    refine ⟨q, ?_, h0, rfl⟩
    match l, h4, h6 with
    | [], h4, _ => simp at h4; simp [VQ.step, VQ.front, h4, specStep]
    | x :: t, h4, h6 =>
      have := h6 0 (by simp)
      rw [Nat.add_zero, Nat.mod_eq_of_lt h3] at this
      simp [VQ.step, VQ.front, h4, specStep, this]
  | back =>
    refine ⟨q, ?_, h0, rfl⟩
    by_cases hl : l = []
    · subst hl; simp at h4; simp [VQ.step, VQ.back, h4, specStep]
    · have hlen : 0 < l.length := List.length_pos_iff.mpr hl
      have := h6 (l.length - 1) (by omega)
      simp only [VQ.step, VQ.back, specStep, h4]
      rw [if_neg (by omega), List.getLast?_eq_getElem?, List.getElem?_eq_getElem (by omega),
        abs_eq h2 h3 (by omega), this]
  | size => exact ⟨q, by simp [VQ.step, specStep, h4], h0, rfl⟩

theorem rep_init {cap : Nat} (h0 : 0 < cap) (h1 : cap ≤ 2 ^ 63) : Rep (VQ.init cap : VQ α) [] :=
  ⟨h0, h1, h0, rfl, Nat.zero_le _, by simp⟩

theorem run_spec (ops : List (Op α)) : ∀ {q : VQ α} {l : List α}, Rep q l →
    (2 ^ 64 % q.cap = 0 ∨ ∀ v, Op.pushFront v ∉ ops) → q.run ops = some (specRun q.cap l ops) := by
  induction ops with
  | nil => intro q l _ _; rfl
  | cons op ops ih =>
    intro q l h hf
    obtain ⟨q', a1, a2, a3⟩ := step_spec h op (by
      intro v hv
      rcases hf with hf | hf
      · exact Or.inr (Or.inl hf)
      · exact absurd (by simp [hv]) (hf v))
    have := ih a2 (by
      rw [a3]
      rcases hf with hf | hf
      · exact Or.inl hf
      · exact Or.inr (fun v hv => hf v (by simp [hv])))
    rw [a3] at this
    simp [VQ.run, a1, specRun, this]

/-! ## Properties -/

/-- **C11** (partial) On a queue of capacity `cap > 0` every history of `push_back`,
`pop_back`, `push_front`, `pop_front`, `clear`, copying, `at`/`[]`, `front`, `back`, `size`
observes exactly what the bounded list observes (exceptions included) and never runs into
undefined behaviour - provided the capacity is a power of two, or the history does not use
`push_front`.

Full claim: without the last proviso.  It is false, see `vq_push_front_corrupts`. -/
theorem vq_deque_partial (cap : Nat) (h0 : 0 < cap) (h1 : cap ≤ 2 ^ 63) (ops : List (Op α))
    (h : (∃ k, cap = 2 ^ k) ∨ ∀ v, Op.pushFront v ∉ ops) :
    (VQ.init cap : VQ α).run ops = some (specRun cap [] ops) := by
  refine run_spec ops (rep_init h0 h1) (h.imp ?_ (fun x => x))
  rintro ⟨k, rfl⟩
  show 2 ^ 64 % 2 ^ k = 0
  have hk : k ≤ 64 := by
    by_cases hk : k ≤ 64
    · exact hk
    · have : (2 : Nat) ^ 63 < 2 ^ k := Nat.pow_lt_pow_right (by omega) (by omega)
      omega
  exact Nat.mod_eq_zero_of_dvd (Nat.pow_dvd_pow 2 hk)

/-- **C11** The index `push_back`/`push_front` returns addresses the element just pushed:
`at_abs` of it gives the value. -/
theorem vq_push_index (q : VQ α) (l : List α) (h : Rep q l) (v : α) :
    (q.pushBack v).1.getAbs (q.pushBack v).2 = some (some v) ∧
    (q.pushFront v).1.getAbs (q.pushFront v).2 = some (some v) := by
  obtain ⟨h1, h2, h3, h4, h5, h6⟩ := h
  constructor
  · unfold VQ.pushBack
    split
    · have : q.abs q.count < q.cap := Nat.mod_lt _ h1
      simp [VQ.getAbs, VQ.set]; omega
    · simp [VQ.getAbs, VQ.set]; omega
  · have : q.abs minusOne < q.cap := Nat.mod_lt _ h1
    unfold VQ.pushFront
    by_cases hc : q.count < q.cap <;> simp [VQ.getAbs, VQ.set, hc] <;> omega

/-- **C11 is violated** (vector_queue.hpp 319, 408): in a queue of capacity 3 holding
[10, 11], `push_front(9)` must give [9, 10, 11], but `abs(-1) = (0 + 2^64 - 1) % 3 = 0`,
so it gives [9, 11, <unassigned>]. -/
theorem vq_push_front_corrupts :
    (VQ.init 3 : VQ Nat).run [.pushBack 10, .pushBack 11, .pushFront 9, .get 0, .get 1, .get 2] =
      some [.unit, .unit, .unit, .val (some 9), .val (some 11), .val none] ∧
    specRun 3 [] [.pushBack 10, .pushBack 11, .pushFront 9, .get 0, .get 1, .get 2] =
      [.unit, .unit, .unit, .val (some 9), .val (some 10), .val (some (11 : Nat))] := by
  constructor <;> decide +kernel

/-- The exact extent of the fault: for *every* capacity `cap` that does not divide 2^64,
`push_front` on a fresh queue with one element `x` loses `x`: the second element is not `x`
any more (`cap ≥ 2`). -/
theorem vq_push_front_wrong (cap : Nat) (h0 : 2 ≤ cap) (h1 : cap ≤ 2 ^ 63) (h : 2 ^ 64 % cap ≠ 0)
    (x y : α) :
    (((VQ.init cap : VQ α).pushBack x).1.pushFront y).1.get 1 ≠ some (some x) ∨
    (((VQ.init cap : VQ α).pushBack x).1.pushFront y).1.get 0 ≠ some (some y) ∨ x = y := by
  left
  have e : (2 ^ 64 - 1) % cap + 1 < cap ∨ (2 ^ 64 - 1) % cap + 1 = cap := by
    have := Nat.mod_lt (2 ^ 64 - 1) (show cap > 0 by omega); omega
  have hd : (2 ^ 64 - 1) % cap + 1 < cap := by
    rcases e with e | e
    · exact e
    · exfalso; apply h
      have : (2 ^ 64) % cap = ((2 ^ 64 - 1) % cap + 1) % cap := by
        rw [Nat.mod_add_mod]
      rw [this, e, Nat.mod_self]
  simp only [VQ.pushBack, VQ.init, show (0 : Nat) < cap by omega, if_true, VQ.pushFront, VQ.set, VQ.abs,
    VQ.get, minusOne, show 0 + 1 < cap by omega]
  rw [show (0 + (2 ^ 64 - 1)) % 2 ^ 64 % cap = (2 ^ 64 - 1) % cap by
    rw [Nat.zero_add, Nat.mod_eq_of_lt (by omega : (2 : Nat) ^ 64 - 1 < 2 ^ 64)]]
  have hlt : (2 ^ 64 - 1) % cap + 1 < 2 ^ 64 := by omega
  rw [Nat.mod_eq_of_lt hlt, Nat.mod_eq_of_lt hd]
  simp

/-- **C12** Copying and moving give a queue holding the same list with the same capacity
and the same `head()`; the moved-from queue is empty. -/
theorem vq_copy_move (q : VQ α) (l : List α) (h : Rep q l) :
    Rep q.copy l ∧ q.copy.cap = q.cap ∧ q.copy.head = q.head ∧
    Rep q.move.1 l ∧ q.move.1.cap = q.cap ∧ q.move.2.count = 0 ∧ q.move.2.cap = 0 :=
  ⟨rep_copy h, rfl, rfl, h, rfl, rfl, rfl⟩

/-- **C12** Independence: what is done to the copy does not show in the original and vice
versa - any history run on the copy observes the same as on a list of the same contents,
whatever was done to the original. -/
theorem vq_copy_history (q : VQ α) (l : List α) (h : Rep q l) (ops : List (Op α))
    (hf : 2 ^ 64 % q.cap = 0 ∨ ∀ v, Op.pushFront v ∉ ops) :
    q.copy.run ops = some (specRun q.cap l ops) ∧ q.run ops = some (specRun q.cap l ops) :=
  ⟨run_spec ops (rep_copy h) hf, run_spec ops h hf⟩

/-! ## Non-vacuity -/

/-- States with `Rep` are exactly what histories produce; a wrapped-around one: -/
example : Rep ((((VQ.init 3 : VQ Nat).pushBack 1).1.pushBack 2).1.pushBack 3 |>.1.pushBack 4).1 [2, 3, 4] := by
  have a := (rep_pushBack (rep_init (α := Nat) (cap := 3) (by decide) (by decide)) 1).1
  have b := (rep_pushBack a 2).1
  have c := (rep_pushBack b 3).1
  exact (rep_pushBack c 4).1
example : (VQ.init 4 : VQ Nat).run [.pushFront 1, .pushBack 2, .pushFront 0, .pushBack 3, .pushFront 9,
    .get 0, .get 3, .back, .get 4, .popFront, .front, .size] =
    some [.unit, .unit, .unit, .unit, .unit, .val (some 9), .val (some 2), .val (some 2), .throws, .unit,
      .val (some 0), .num 3] := by decide +kernel
example : ∃ k, 4 = 2 ^ k := ⟨2, rfl⟩
example : (2 : Nat) ^ 64 % 3 ≠ 0 := by decide

end Verif.VQ
