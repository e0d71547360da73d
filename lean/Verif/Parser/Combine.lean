import Verif.Parser.Core
/-
The combinators keep the contract of a parser: what they match, and the intervals they leave.
-/
namespace Verif.Parser
open Verif.Interval

/-- A parser with what it is known to match, and the outcome of a match. -/
structure El where
  o : Obj
  f : Sem
  R : St → Nat → Nat → Prop

/-- The states of the elements cover the interval without gaps, in order. -/
def Tiles : List (St → Nat → Nat → Prop) → List St → Nat → Nat → Prop
  | [], [], i, j => i = j
  | R :: Rs, s :: ss, i, j => ∃ k, R s i k ∧ Tiles Rs ss k j
  | _, _, _, _ => False

theorem pair_cons (o : Obj) (os : List Obj) (ks : List St) : pair (o :: os) ks = (o, ks.headD fresh) :: pair os ks.tail := by
  cases ks <;> rfl

theorem chain_cons (f : Sem) (fs : List Sem) (i : Nat) : chain (f :: fs) i = (f i).bind fun j => chain fs j := rfl

theorem invalid_valid : (Ival.invalid : Ival Nat).valid = false := rfl

theorem invalAll_pair {n : Nat} : ∀ (es : List El) (ks : List St), (∀ e ∈ es, Contract n e.o e.f e.R) →
    (invalAll (pair (es.map El.o) ks)).length = es.length ∧ ∀ st ∈ invalAll (pair (es.map El.o) ks), st.iv.valid = false := by
  intro es
  induction es with
  | nil => intro ks _; exact ⟨rfl, fun _ h => nomatch h⟩
  | cons e es ih =>
    intro ks h
    have ⟨a, b⟩ := ih ks.tail fun x hx => h x (List.mem_cons_of_mem _ hx)
    rw [List.map_cons, pair_cons]
    refine ⟨congrArg (· + 1) a, ?_⟩
    intro st hst
    rcases List.mem_cons.1 hst with rfl | q
    · exact (h e List.mem_cons_self).inv _
    · exact b _ q

/-! #### Sequence -/

/-- The outcome of a sequence. -/
def seqR (es : List El) (s : St) (i j : Nat) : Prop := s.iv = ⟨i, j⟩ ∧ Tiles (es.map El.R) s.kids i j

theorem seqLoop_spec {n : Nat} : ∀ (es : List El) (ks : List St) (i : Nat), (∀ e ∈ es, Contract n e.o e.f e.R) → i ≤ n →
    ∃ ks', seqLoop (pair (es.map El.o) ks) i = some (chain (es.map El.f) i, ks') ∧ ks'.length = es.length ∧
      ∀ j, chain (es.map El.f) i = some j → Tiles (es.map El.R) ks' i j ∧ i ≤ j ∧ j ≤ n := by
  intro es
  induction es with
  | nil =>
    intro ks i _ hi
    refine ⟨[], rfl, rfl, ?_⟩
    intro j h
    have h : i = j := Option.some.inj h
    subst h
    exact ⟨rfl, Nat.le_refl _, hi⟩
  | cons e es ih =>
    intro ks i h hi
    have he := h e List.mem_cons_self
    have hs : ∀ x ∈ es, Contract n x.o x.f x.R := fun x hx => h x (List.mem_cons_of_mem _ hx)
    simp only [List.map_cons, pair_cons, chain_cons]
    cases hf : e.f i with
    | none =>
      have ⟨s', r, v⟩ := he.fails (ks.headD fresh) i hi hf
      refine ⟨s' :: invalAll (pair (es.map El.o) ks.tail), ?_, ?_, fun j q => nomatch q⟩
      · rw [seqLoop, r]; rfl
      · simp [(invalAll_pair es ks.tail hs).1]
    | some j =>
      have ⟨s', r, v⟩ := he.ok (ks.headD fresh) i j hi hf
      have ⟨b1, b2⟩ := he.bound i j hi hf
      have ⟨ks', q, l, t⟩ := ih ks.tail j hs b2
      refine ⟨s' :: ks', ?_, by simp [l], ?_⟩
      · rw [seqLoop, r]
        simp only [he.iv _ _ _ v, q]
        rfl
      · intro j' hj
        have ⟨t1, t2, t3⟩ := t j' hj
        exact ⟨⟨j, v, t1⟩, Nat.le_trans b1 t2, t3⟩

theorem seq_contract {n : Nat} {es : List El} (h : ∀ e ∈ es, Contract n e.o e.f e.R) :
    Contract n (seq (es.map El.o)) (chain (es.map El.f)) (seqR es) where
  ok s i j hi hf := by
    have ⟨ks', q, _, t⟩ := seqLoop_spec es s.kids i h hi
    refine ⟨.node ⟨i, j⟩ none ks', ?_, rfl, (t j hf).1⟩
    show (match seqLoop (pair (es.map El.o) s.kids) i with | none => none | some (some e, ks) => some (true, St.node ⟨i, e⟩ none ks) | some (none, ks) => some (false, St.node .invalid none ks)) = _
    rw [q, hf]
  fails s i hi hf := by
    have ⟨ks', q, _, t⟩ := seqLoop_spec es s.kids i h hi
    refine ⟨.node .invalid none ks', ?_, rfl⟩
    show (match seqLoop (pair (es.map El.o) s.kids) i with | none => none | some (some e, ks) => some (true, St.node ⟨i, e⟩ none ks) | some (none, ks) => some (false, St.node .invalid none ks)) = _
    rw [q, hf]
  iv _ _ _ r := r.1
  bound i j hi hf := by
    have ⟨ks', q, _, t⟩ := seqLoop_spec es [] i h hi
    exact (t j hf).2
  inv _ := rfl

/-! #### Branch -/

/-- The outcome of a branch: the interval is that of the element at the hit offset, the first that matches; no other
element has a valid interval. -/
def branchR (es : List El) (s : St) (i j : Nat) : Prop :=
  s.iv = ⟨i, j⟩ ∧ s.kids.length = es.length ∧ ∃ k e st, s.hit = some k ∧ es[k]? = some e ∧ s.kids[k]? = some st ∧ e.R st i j ∧ e.f i = some j ∧
    (∀ k' < k, ∀ e', es[k']? = some e' → e'.f i = none) ∧ (∀ k' st', k' ≠ k → s.kids[k']? = some st' → st'.iv.valid = false)

theorem branchLoop_spec {n : Nat} : ∀ (es : List El) (ks : List St) (i hit : Nat), (∀ e ∈ es, Contract n e.o e.f e.R) → i ≤ n →
    (∃ j ks' k e st, es.findSome? (fun e => e.f i) = some j ∧ branchLoop (pair (es.map El.o) ks) i hit = some (some (hit + k, ⟨i, j⟩), ks') ∧ ks'.length = es.length ∧
      es[k]? = some e ∧ ks'[k]? = some st ∧ e.R st i j ∧ e.f i = some j ∧
      (∀ k' < k, ∀ e', es[k']? = some e' → e'.f i = none) ∧ (∀ k' st', k' ≠ k → ks'[k']? = some st' → st'.iv.valid = false)) ∨
    (∃ ks', es.findSome? (fun e => e.f i) = none ∧ branchLoop (pair (es.map El.o) ks) i hit = some (none, ks') ∧ ks'.length = es.length) := by
  intro es
  induction es with
  | nil => intro ks i hit _ _; exact .inr ⟨[], rfl, rfl, rfl⟩
  | cons e es ih =>
    intro ks i hit h hi
    have he := h e List.mem_cons_self
    have hs : ∀ x ∈ es, Contract n x.o x.f x.R := fun x hx => h x (List.mem_cons_of_mem _ hx)
    simp only [List.map_cons, pair_cons, List.findSome?_cons, List.length_cons]
    cases hf : e.f i with
    | some j =>
      have ⟨s', r, v⟩ := he.ok (ks.headD fresh) i j hi hf
      have ⟨l, iv⟩ := invalAll_pair es ks.tail hs
      refine .inl ⟨j, s' :: invalAll (pair (es.map El.o) ks.tail), 0, e, s', rfl, ?_, by simp [l], rfl, rfl, v, hf, fun k' hk => absurd hk (Nat.not_lt_zero _), ?_⟩
      · rw [branchLoop, r]
        simp only [he.iv _ _ _ v, Nat.add_zero]
      · intro k' st' hk hst
        cases k' with
        | zero => exact absurd rfl hk
        | succ k' =>
          rw [List.getElem?_cons_succ] at hst
          exact iv _ (List.mem_of_getElem? hst)
    | none =>
      have ⟨s', r, v⟩ := he.fails (ks.headD fresh) i hi hf
      rcases ih ks.tail i (hit + 1) hs hi with ⟨j, ks', k, x, st, q1, q2, q3, q4, q5, q6, q6', q7, q8⟩ | ⟨ks', q1, q2, q3⟩
      · refine .inl ⟨j, s' :: ks', k + 1, x, st, q1, ?_, by simp [q3], q4, q5, q6, q6', ?_, ?_⟩
        · rw [branchLoop, r]
          simp only [q2]
          rw [show hit + 1 + k = hit + (k + 1) from by omega]
        · intro k' hk e' he'
          cases k' with
          | zero => cases he'; exact hf
          | succ k' => exact q7 k' (by omega) e' he'
        · intro k' st' hk hst
          cases k' with
          | zero => cases hst; exact v
          | succ k' => exact q8 k' st' (by omega) hst
      · refine .inr ⟨s' :: ks', q1, ?_, by simp [q3]⟩
        rw [branchLoop, r]
        simp only [q2]

theorem branch_contract {n : Nat} {es : List El} (h : ∀ e ∈ es, Contract n e.o e.f e.R) :
    Contract n (branch (es.map El.o)) (fun i => es.findSome? fun e => e.f i) (branchR es) where
  ok s i j hi hf := by
    rcases branchLoop_spec es s.kids i 0 h hi with ⟨j', ks', k, x, st, q1, q2, q3, q4, q5, q6, q7, q8⟩ | ⟨_, q1, _⟩
    · rw [q1] at hf
      cases hf
      refine ⟨.node ⟨i, j⟩ (some k) ks', ?_, rfl, q3, k, x, st, rfl, q4, q5, q6, q7, q8⟩
      show (match branchLoop (pair (es.map El.o) s.kids) i 0 with | none => none | some (some (hit, iv), ks) => some (true, St.node iv (some hit) ks) | some (none, ks) => some (false, St.node .invalid none ks)) = _
      rw [q2, Nat.zero_add]
    · rw [q1] at hf; cases hf
  fails s i hi hf := by
    rcases branchLoop_spec es s.kids i 0 h hi with ⟨j', ks', k, x, st, q1, q2, q3⟩ | ⟨ks', q1, q2, _⟩
    · rw [q1] at hf; cases hf
    · refine ⟨.node .invalid none ks', ?_, rfl⟩
      show (match branchLoop (pair (es.map El.o) s.kids) i 0 with | none => none | some (some (hit, iv), ks) => some (true, St.node iv (some hit) ks) | some (none, ks) => some (false, St.node .invalid none ks)) = _
      rw [q2]
  iv _ _ _ r := r.1
  bound i j hi hf := by
    have ⟨e, he, q⟩ := List.exists_of_findSome?_eq_some hf
    exact (h e he).bound i j hi q
  inv _ := rfl

/-! #### Iterations -/

/-- Repetition: at most `lim` times, at least `mn`, ending early at an element that matches nothing. -/
def iterSem (f : Sem) : Nat → Nat → Sem
  | 0, _, i => some i
  | lim + 1, mn, i =>
    match f i with
    | none => if mn = 0 then some i else none
    | some j => if j = i then some i else iterSem f lim (mn - 1) j

/-- The number of iterations after which the loop stops. -/
def iterLimit (mn mx : Nat) (greedy : Bool) : Nat := if greedy then mx else min mn mx

/-- The outcome of a repetition: the interval; the element failed, or was last seen at the end of the interval. -/
def iterR (mn mx : Nat) (greedy : Bool) (s : St) (i j : Nat) : Prop :=
  s.iv = ⟨i, j⟩ ∧ ∃ kid, s.kids = [kid] ∧ (iterLimit mn mx greedy = 0 ∨ kid.iv.valid = false ∨ (i ≤ kid.iv.start ∧ kid.iv.start ≤ j ∧ kid.iv.fin = j))

theorem iterLoop_spec {n : Nat} {e : El} (he : Contract n e.o e.f e.R) (mn mx : Nat) (greedy : Bool) (i0 : Nat) :
    ∀ (fuel k : Nat) (kid : St) (i : Nat), i0 ≤ i → i ≤ n → n - i < fuel → k ≤ iterLimit mn mx greedy →
    (k = 0 ∨ (i0 ≤ kid.iv.start ∧ kid.iv.start ≤ i ∧ kid.iv.fin = i)) →
    ∃ e' kid', iterLoop e.o mn mx greedy fuel k kid i = some ((iterSem e.f (iterLimit mn mx greedy - k) (mn - k) i).isSome, e', kid') ∧
      ∀ j, iterSem e.f (iterLimit mn mx greedy - k) (mn - k) i = some j → e' = j ∧ i ≤ j ∧ j ≤ n ∧
        ((iterLimit mn mx greedy = 0 ∧ k = 0) ∨ kid'.iv.valid = false ∨ (i0 ≤ kid'.iv.start ∧ kid'.iv.start ≤ j ∧ kid'.iv.fin = j)) := by
  intro fuel
  induction fuel with
  | zero => intro k kid i _ hi hf; omega
  | succ fuel ih =>
    intro k kid i h0 hi hf hk hkid
    have stop : ((!greedy && decide (k ≥ mn)) || decide (k ≥ mx)) = true ↔ iterLimit mn mx greedy - k = 0 := by
      unfold iterLimit
      cases greedy <;> simp <;> omega
    rw [iterLoop]
    by_cases c : iterLimit mn mx greedy - k = 0
    · rw [if_pos (stop.2 c), c]
      refine ⟨i, kid, rfl, ?_⟩
      intro j hj
      have hj : i = j := Option.some.inj hj
      subst hj
      refine ⟨rfl, Nat.le_refl _, hi, ?_⟩
      rcases hkid with hk0 | hk0
      · exact .inl ⟨by omega, hk0⟩
      · exact .inr (.inr hk0)
    · rw [if_neg (fun q => c (stop.1 q))]
      obtain ⟨lim, hl⟩ : ∃ lim, iterLimit mn mx greedy - k = lim + 1 := ⟨_, (Nat.succ_pred c).symm⟩
      rw [hl, iterSem]
      cases hfi : e.f i with
      | none =>
        have ⟨s', r, v⟩ := he.fails kid i hi hfi
        rw [r]
        refine ⟨i, s', ?_, ?_⟩
        · by_cases m : mn - k = 0
          · simp only [if_pos m, Option.isSome_some]; rw [decide_eq_true (by omega)]
          · simp only [if_neg m, Option.isSome_none]; rw [decide_eq_false (by omega)]
        · intro j hj
          by_cases m : mn - k = 0
          · simp only [if_pos m] at hj
            have hj : i = j := Option.some.inj hj
            subst hj
            exact ⟨rfl, Nat.le_refl _, hi, .inr (.inl v)⟩
          · simp only [if_neg m] at hj; cases hj
      | some j =>
        have ⟨s', r, v⟩ := he.ok kid i j hi hfi
        have ⟨b1, b2⟩ := he.bound i j hi hfi
        have hiv := he.iv _ _ _ v
        rw [r]
        by_cases m : j = i
        · subst m
          refine ⟨j, s', ?_, ?_⟩
          · simp [hiv]
          · intro j' hj
            simp only [if_pos] at hj
            have hj : j = j' := Option.some.inj hj
            subst hj
            refine ⟨rfl, Nat.le_refl _, hi, .inr (.inr ?_)⟩
            rw [hiv]
            exact ⟨h0, Nat.le_refl _, rfl⟩
        · have ⟨e', kid', q1, q2⟩ := ih (k + 1) s' j (by omega) b2 (by omega) (by omega) (.inr (by rw [hiv]; exact ⟨h0, b1, rfl⟩))
          rw [show iterLimit mn mx greedy - (k + 1) = lim from by omega, show mn - (k + 1) = mn - k - 1 from by omega] at q1 q2
          refine ⟨e', kid', ?_, ?_⟩
          · simp only [hiv, if_neg m]
            exact q1
          · intro j' hj
            simp only [if_neg m] at hj
            have ⟨a, b, c, d⟩ := q2 j' hj
            refine ⟨a, by omega, c, ?_⟩
            rcases d with d | d
            · omega
            · exact .inr d

theorem iter_contract {n fuel : Nat} {e : El} (he : Contract n e.o e.f e.R) (mn mx : Nat) (greedy : Bool) (hf : n < fuel) :
    Contract n (iter fuel e.o mn mx greedy) (iterSem e.f (iterLimit mn mx greedy) mn) (iterR mn mx greedy) where
  ok s i j hi hs := by
    have ⟨e', kid', q1, q2⟩ := iterLoop_spec he mn mx greedy i fuel 0 (s.kids.headD fresh) i (Nat.le_refl _) hi (by omega) (Nat.zero_le _) (.inl rfl)
    rw [Nat.sub_zero, Nat.sub_zero] at q1 q2
    have ⟨a, b, c, d⟩ := q2 j hs
    subst a
    refine ⟨.node ⟨i, e'⟩ none [kid'], ?_, rfl, kid', rfl, ?_⟩
    · show (match iterLoop e.o mn mx greedy fuel 0 (s.kids.headD fresh) i with | none => none | some (ok, e, kid) => some (ok, St.node (if ok then ⟨i, e⟩ else Ival.invalid) none [kid])) = _
      rw [q1, hs]; rfl
    · rcases d with d | d
      · exact .inl d.1
      · exact .inr d
  fails s i hi hs := by
    have ⟨e', kid', q1, q2⟩ := iterLoop_spec he mn mx greedy i fuel 0 (s.kids.headD fresh) i (Nat.le_refl _) hi (by omega) (Nat.zero_le _) (.inl rfl)
    rw [Nat.sub_zero, Nat.sub_zero] at q1
    refine ⟨.node .invalid none [kid'], ?_, rfl⟩
    show (match iterLoop e.o mn mx greedy fuel 0 (s.kids.headD fresh) i with | none => none | some (ok, e, kid) => some (ok, St.node (if ok then ⟨i, e⟩ else Ival.invalid) none [kid])) = _
    rw [q1, hs]; rfl
  iv _ _ _ r := r.1
  bound i j hi hs := by
    have ⟨e', kid', q1, q2⟩ := iterLoop_spec he mn mx greedy i fuel 0 fresh i (Nat.le_refl _) hi (by omega) (Nat.zero_le _) (.inl rfl)
    rw [Nat.sub_zero, Nat.sub_zero] at q2
    have ⟨a, b, c, d⟩ := q2 j hs
    exact ⟨b, c⟩
  inv _ := rfl

theorem times_succ (f : Sem) (k i : Nat) : times f (k + 1) i = (f i).bind fun j => times f k j := rfl

/-- Every one of the first `k` matches consumes something. -/
def Progress (f : Sem) (k i : Nat) : Prop := ∀ l < k, ∃ p q, times f l i = some p ∧ f p = some q ∧ q ≠ p

theorem progress_succ {f : Sem} {k i j : Nat} (h : f i = some j) : Progress f (k + 1) i ↔ j ≠ i ∧ Progress f k j := by
  constructor
  · intro p
    constructor
    · have ⟨a, b, q1, q2, q3⟩ := p 0 (by omega)
      have q1 : i = a := Option.some.inj q1
      subst q1
      rw [h] at q2
      cases q2
      exact q3
    · intro l hl
      have ⟨a, b, q1, q2, q3⟩ := p (l + 1) (by omega)
      rw [times_succ, h] at q1
      exact ⟨a, b, q1, q2, q3⟩
  · intro ⟨hj, p⟩ l hl
    cases l with
    | zero => exact ⟨i, j, rfl, h, hj⟩
    | succ l =>
      have ⟨a, b, q⟩ := p l (by omega)
      exact ⟨a, b, by rw [times_succ, h]; exact q.1, q.2⟩

/-- A repetition matches up to `j` just when some number of non-empty matches leads to `j`, and there is the largest number
allowed of them, or no further match and enough of them, or an empty match. -/
theorem iterSem_iff (f : Sem) : ∀ (lim mn i j : Nat), iterSem f lim mn i = some j ↔
    ∃ k ≤ lim, Progress f k i ∧ times f k i = some j ∧ (k = lim ∨ (f j = none ∧ mn ≤ k) ∨ f j = some j) := by
  intro lim
  induction lim with
  | zero =>
    intro mn i j
    constructor
    · intro h
      exact ⟨0, Nat.le_refl _, fun l hl => absurd hl (Nat.not_lt_zero _), h, .inl rfl⟩
    · rintro ⟨k, hk, _, h, _⟩
      cases Nat.le_zero.1 hk
      exact h
  | succ lim ih =>
    intro mn i j
    rw [iterSem]
    constructor
    · intro h
      cases hf : f i with
      | none =>
        rw [hf] at h
        simp only at h
        split at h
        · rename_i hm
          have h : i = j := Option.some.inj h
          subst h
          exact ⟨0, Nat.zero_le _, fun l hl => absurd hl (Nat.not_lt_zero _), rfl, .inr (.inl ⟨hf, by omega⟩)⟩
        · cases h
      | some p =>
        rw [hf] at h
        simp only at h
        split at h
        · rename_i hm
          have h : i = j := Option.some.inj h
          subst h
          exact ⟨0, Nat.zero_le _, fun l hl => absurd hl (Nat.not_lt_zero _), rfl, .inr (.inr (by rw [hf, hm]))⟩
        · rename_i hm
          have ⟨k, hk, a, b, c⟩ := (ih _ _ _).1 h
          refine ⟨k + 1, by omega, (progress_succ hf).2 ⟨hm, a⟩, by rw [times_succ, hf]; exact b, ?_⟩
          rcases c with c | c | c
          · exact .inl (by omega)
          · exact .inr (.inl ⟨c.1, by omega⟩)
          · exact .inr (.inr c)
    · rintro ⟨k, hk, a, b, c⟩
      cases k with
      | zero =>
        have b : i = j := Option.some.inj b
        subst b
        rcases c with c | c | c
        · omega
        · rw [c.1]; simp only; rw [if_pos (by omega)]
        · rw [c]; simp only; rw [if_pos trivial]
      | succ k =>
        have ⟨p, q, x, y, z⟩ := a 0 (by omega)
        have x : i = p := Option.some.inj x
        subst x
        have ⟨d1, d2⟩ := (progress_succ y).1 a
        rw [y]
        simp only
        rw [if_neg d1, ih]
        rw [times_succ, y] at b
        refine ⟨k, by omega, d2, b, ?_⟩
        rcases c with c | c | c
        · exact .inl (by omega)
        · exact .inr (.inl ⟨c.1, by omega⟩)
        · exact .inr (.inr c)

end Verif.Parser
