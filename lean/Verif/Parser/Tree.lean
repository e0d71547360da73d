import Verif.Parser.Perm
/-
Trees of parsers of any depth, and `search`.
-/
namespace Verif.Parser
open Verif.Interval

/-- A parser built of the combinators. -/
inductive Shape where
  | leaf (m : Leaf)
  | iter (el : Shape) (mn mx : Nat) (greedy : Bool)
  | seq (els : List Shape)
  | branch (els : List Shape)
  | perm (els : List Shape)

mutual
/-- The object a tree of parsers is. -/
def obj (fuel : Nat) : Shape → Obj
  | .leaf m => leaf m
  | .iter el mn mx g => iter fuel (obj fuel el) mn mx g
  | .seq els => seq (objs fuel els)
  | .branch els => branch (objs fuel els)
  | .perm els => perm (objs fuel els)
def objs (fuel : Nat) : List Shape → List Obj
  | [] => []
  | s :: r => obj fuel s :: objs fuel r
end

/-! ### Specification -/

mutual
/-- What a tree of parsers matches. -/
def sem : Shape → Sem
  | .leaf m => fun i => ((m i).join).map Prod.fst
  | .iter el mn mx g => iterSem (sem el) (iterLimit mn mx g) mn
  | .seq els => chain (sems els)
  | .branch els => fun i => (sems els).findSome? fun f => f i
  | .perm els => permSem (sems els)
def sems : List Shape → List Sem
  | [] => []
  | s :: r => sem s :: sems r
end

mutual
/-- What the states of a tree look like after a match from `i` to `j`. -/
def outcome : Shape → St → Nat → Nat → Prop
  | .leaf m => fun s i j => s.iv = ⟨i, j⟩ ∧ m i = some (some (j, s.hit))
  | .iter _ mn mx g => iterR mn mx g
  | .seq els => seqR (outcomes els)
  | .branch els => branchR (outcomes els)
  | .perm els => permR (outcomes els)
/-- (The object is of no consequence here.) -/
def outcomes : List Shape → List El
  | [] => []
  | s :: r => ⟨leaf fun _ => none, sem s, outcome s⟩ :: outcomes r
end

mutual
/-- The leaves of a tree are defined and match within a text of length `n`. -/
def Good (n : Nat) : Shape → Prop
  | .leaf m => ∀ i ≤ n, m i ≠ none ∧ ∀ j h, m i = some (some (j, h)) → i ≤ j ∧ j ≤ n
  | .iter el _ _ _ => Good n el
  | .seq els => Goods n els
  | .branch els => Goods n els
  | .perm els => Goods n els
def Goods (n : Nat) : List Shape → Prop
  | [] => True
  | s :: r => Good n s ∧ Goods n r
end

/-! ### Proofs -/

theorem leaf_contract {n : Nat} {m : Leaf} (h : ∀ i ≤ n, m i ≠ none ∧ ∀ j h, m i = some (some (j, h)) → i ≤ j ∧ j ≤ n) :
    Contract n (leaf m) (fun i => ((m i).join).map Prod.fst) (fun s i j => s.iv = ⟨i, j⟩ ∧ m i = some (some (j, s.hit))) where
  ok s i j hi hf := by
    cases hm : m i with
    | none => exact absurd hm (h i hi).1
    | some x =>
      rw [hm] at hf
      cases x with
      | none => cases hf
      | some p =>
        have hf : p.1 = j := Option.some.inj hf
        subst hf
        exact ⟨.node ⟨i, p.1⟩ p.2 [], by simp only [leaf, hm], rfl, rfl⟩
  fails s i hi hf := by
    cases hm : m i with
    | none => exact absurd hm (h i hi).1
    | some x =>
      rw [hm] at hf
      cases x with
      | none => exact ⟨.node .invalid none [], by simp only [leaf, hm], rfl⟩
      | some p => cases hf
  iv _ _ _ r := r.1
  bound i j hi hf := by
    cases hm : m i with
    | none => exact absurd hm (h i hi).1
    | some x =>
      rw [hm] at hf
      cases x with
      | none => cases hf
      | some p =>
        have hf : p.1 = j := Option.some.inj hf
        subst hf
        exact (h i hi).2 p.1 p.2 hm
  inv _ := rfl

theorem tiles_congr (es es' : List El) (h : es.map El.R = es'.map El.R) : seqR es = seqR es' := by
  unfold seqR; rw [h]

/-- The outcomes do not depend on the objects. -/
def SameFR (es es' : List El) : Prop := es.map El.f = es'.map El.f ∧ es.map El.R = es'.map El.R

theorem sameFR_get {es es' : List El} (h : SameFR es es') {k : Nat} {e : El} (hk : es[k]? = some e) : ∃ e', es'[k]? = some e' ∧ e'.f = e.f ∧ e'.R = e.R := by
  have h1 := congrArg (fun x => x[k]?) h.1
  have h2 := congrArg (fun x => x[k]?) h.2
  simp only [List.getElem?_map, hk, Option.map_some] at h1 h2
  cases he : es'[k]? with
  | none => rw [he] at h1; cases h1
  | some e' => rw [he] at h1 h2; exact ⟨e', rfl, (Option.some.inj h1).symm, (Option.some.inj h2).symm⟩

theorem sameFR_symm {es es' : List El} (h : SameFR es es') : SameFR es' es := ⟨h.1.symm, h.2.symm⟩

theorem sameFR_length {es es' : List El} (h : SameFR es es') : es.length = es'.length := by
  have := congrArg List.length h.1
  simpa using this

theorem branchR_congr {es es' : List El} (h : SameFR es es') {s : St} {i j : Nat} (r : branchR es s i j) : branchR es' s i j := by
  obtain ⟨a, b, k, e, st, c1, c2, c3, c4, c5, c6, c7⟩ := r
  have ⟨e', d1, d2, d3⟩ := sameFR_get h c2
  refine ⟨a, by rw [b, sameFR_length h], k, e', st, c1, d1, c3, by rw [d3]; exact c4, by rw [d2]; exact c5, ?_, c7⟩
  intro k' hk x hx
  have ⟨x', y1, y2, _⟩ := sameFR_get (sameFR_symm h) hx
  rw [← y2]
  exact c6 k' hk x' y1

theorem permR_congr {es es' : List El} (h : SameFR es es') : permR es = permR es' := by
  unfold permR
  rw [h.1, h.2, sameFR_length h]

theorem Contract.mono {n : Nat} {o : Obj} {f : Sem} {R R' : St → Nat → Nat → Prop} (h : Contract n o f R) (hr : ∀ s i j, R s i j → R' s i j)
    (hiv : ∀ s i j, R' s i j → s.iv = ⟨i, j⟩) : Contract n o f R' where
  ok s i j hi hf := have ⟨s', a, b⟩ := h.ok s i j hi hf; ⟨s', a, hr _ _ _ b⟩
  fails := h.fails
  iv := hiv
  bound := h.bound
  inv := h.inv

/-- The elements with their own objects. -/
def realEls (fuel : Nat) (l : List Shape) : List El := l.map fun s => ⟨obj fuel s, sem s, outcome s⟩

theorem real_o (fuel : Nat) : ∀ l, (realEls fuel l).map El.o = objs fuel l
  | [] => rfl
  | s :: r => by rw [objs, ← real_o fuel r]; rfl

theorem real_f (fuel : Nat) : ∀ l, (realEls fuel l).map El.f = sems l
  | [] => rfl
  | s :: r => by rw [sems, ← real_f fuel r]; rfl

theorem outcomes_f : ∀ l, (outcomes l).map El.f = sems l
  | [] => rfl
  | s :: r => by rw [sems, outcomes, ← outcomes_f r]; rfl

theorem real_R (fuel : Nat) : ∀ l, (realEls fuel l).map El.R = (outcomes l).map El.R
  | [] => rfl
  | s :: r => by rw [outcomes, List.map_cons, ← real_R fuel r]; rfl

theorem real_same (fuel : Nat) (l : List Shape) : SameFR (realEls fuel l) (outcomes l) := ⟨by rw [real_f, outcomes_f], real_R fuel l⟩

mutual
theorem shape_contract {n fuel : Nat} (hf : n < fuel) : ∀ sh, Good n sh → Contract n (obj fuel sh) (sem sh) (outcome sh)
  | .leaf m, h => leaf_contract (by simpa [Good] using h)
  | .iter el mn mx g, h => by
    have hc := shape_contract hf el (by simpa [Good] using h)
    rw [obj, sem, outcome]
    exact iter_contract (e := ⟨obj fuel el, sem el, outcome el⟩) hc mn mx g hf
  | .seq els, h => by
    have hc := shapes_contract hf els (by simpa [Good] using h)
    rw [obj, sem, outcome, ← real_o, ← real_f fuel, ← tiles_congr _ _ (real_R fuel els)]
    exact seq_contract hc
  | .branch els, h => by
    have hc := shapes_contract hf els (by simpa [Good] using h)
    rw [obj, sem, outcome, ← real_o, ← real_f fuel]
    have := (branch_contract hc).mono (R' := branchR (outcomes els)) (fun s i j r => branchR_congr (real_same fuel els) r) (fun _ _ _ r => r.1)
    have e : (fun i => ((realEls fuel els).map El.f).findSome? fun f => f i) = fun i => (realEls fuel els).findSome? fun e => e.f i := by
      funext i; rw [List.findSome?_map]; rfl
    rw [e]
    exact this
  | .perm els, h => by
    have hc := shapes_contract hf els (by simpa [Good] using h)
    rw [obj, sem, outcome, ← real_o, ← real_f fuel, ← permR_congr (real_same fuel els)]
    exact perm_contract hc
theorem shapes_contract {n fuel : Nat} (hf : n < fuel) : ∀ l, Goods n l → ∀ e ∈ realEls fuel l, Contract n e.o e.f e.R
  | [], _ => fun e he => nomatch he
  | s :: r, h => by
    have ⟨h1, h2⟩ : Good n s ∧ Goods n r := by simpa [Goods] using h
    have a := shape_contract hf s h1
    have b := shapes_contract hf r h2
    intro e he
    have he : e ∈ ⟨obj fuel s, sem s, outcome s⟩ :: realEls fuel r := he
    rcases List.mem_cons.1 he with rfl | q
    · exact a
    · exact b e q
end

/-! ### Theorems -/

/-- C61. Any tree of parsers, in any state, run from any start in the text, completes; it returns true just when `sem`
gives an end, and leaves the interval from the start to that end, which lies in the text; otherwise it leaves an invalid
interval. -/
theorem tree_match {n fuel : Nat} (hf : n < fuel) {sh : Shape} (h : Good n sh) (s : St) {i : Nat} (hi : i ≤ n) :
    ∃ b s', (obj fuel sh).run s i = some (b, s') ∧
      (match sem sh i with
      | some j => b = true ∧ s'.iv = ⟨i, j⟩ ∧ i ≤ j ∧ j ≤ n
      | none => b = false ∧ s'.iv.valid = false) := by
  have hc := shape_contract hf sh h
  cases hs : sem sh i with
  | none =>
    have ⟨s', a, b⟩ := hc.fails s i hi hs
    exact ⟨false, s', a, rfl, b⟩
  | some j =>
    have ⟨s', a, b⟩ := hc.ok s i j hi hs
    exact ⟨true, s', a, rfl, hc.iv _ _ _ b, hc.bound i j hi hs⟩

/-- C70. After a match the states of all the parsers of the tree are as `outcome` tells: intervals of a sequence's elements
follow one another, and so on. -/
theorem tree_intervals {n fuel : Nat} (hf : n < fuel) {sh : Shape} (h : Good n sh) (s : St) {i : Nat} (hi : i ≤ n) {s' : St}
    (hr : (obj fuel sh).run s i = some (true, s')) : ∃ j, sem sh i = some j ∧ outcome sh s' i j := by
  have hc := shape_contract hf sh h
  cases hs : sem sh i with
  | none =>
    have ⟨x, a, _⟩ := hc.fails s i hi hs
    rw [hr] at a; cases a
  | some j =>
    have ⟨x, a, b⟩ := hc.ok s i j hi hs
    rw [hr] at a; cases a
    exact ⟨j, rfl, b⟩

/-- A sequence matches just when its elements match one after another. -/
theorem sem_seq (els : List Shape) (i : Nat) : sem (.seq els) i = chain (els.map sem) i := by
  rw [sem]
  congr 1
  induction els with
  | nil => rfl
  | cons s r ih => rw [sems, ih]; rfl

theorem sems_map : ∀ els, sems els = els.map sem
  | [] => rfl
  | s :: r => by rw [sems, sems_map r]; rfl

/-- A branch matches what the first of its elements that matches does. -/
theorem sem_branch (els : List Shape) (i j : Nat) : sem (.branch els) i = some j ↔
    ∃ (k : Nat) (e : Shape), els[k]? = some e ∧ sem e i = some j ∧ ∀ (k' : Nat) (e' : Shape), k' < k → els[k']? = some e' → sem e' i = none := by
  rw [sem, sems_map]
  show (els.map sem).findSome? (fun f => f i) = some j ↔ _
  rw [List.findSome?_map]
  induction els with
  | nil => simp
  | cons s r ih =>
    rw [List.findSome?_cons]
    simp only [Function.comp_apply] at ih ⊢
    cases hs : sem s i with
    | some p =>
      constructor
      · intro h
        cases h
        exact ⟨0, s, rfl, hs, fun k' _ hk => absurd hk (Nat.not_lt_zero _)⟩
      · rintro ⟨k, e, h1, h2, h3⟩
        cases k with
        | zero => cases h1; rw [hs] at h2; exact h2
        | succ k => have := h3 0 s (by omega) rfl; rw [hs] at this; cases this
    | none =>
      rw [ih]
      constructor
      · rintro ⟨k, e, h1, h2, h3⟩
        refine ⟨k + 1, e, h1, h2, ?_⟩
        intro k' e' hk he
        cases k' with
        | zero => cases he; exact hs
        | succ k' => exact h3 k' e' (by omega) he
      · rintro ⟨k, e, h1, h2, h3⟩
        cases k with
        | zero => cases h1; rw [hs] at h2; cases h2
        | succ k => exact ⟨k, e, h1, h2, fun k' e' hk he => h3 (k' + 1) e' (by omega) he⟩

/-- Iterations match up to `j` just when some number of matches of the element, none empty, leads there, and the loop has
the largest number it wants, or enough and no further match, or meets an empty match. -/
theorem sem_iter (el : Shape) (mn mx : Nat) (g : Bool) (i j : Nat) : sem (.iter el mn mx g) i = some j ↔
    ∃ k ≤ (if g then mx else min mn mx), Progress (sem el) k i ∧ times (sem el) k i = some j ∧
      (k = (if g then mx else min mn mx) ∨ (sem el j = none ∧ mn ≤ k) ∨ sem el j = some j) := by
  rw [sem]
  exact iterSem_iff _ _ _ _ _

/-- A permutation matches just when its elements match one after another in some order, and ends where they do in the
first such order. -/
theorem sem_perm (els : List Shape) (i : Nat) :
    ((sem (.perm els) i).isSome = true ↔ ∃ o : List Shape, o.Perm els ∧ (chain (o.map sem) i).isSome = true) ∧
    (sem (.perm els) i = (orders els).findSome? fun o => chain (o.map sem) i) := by
  have e : sem (.perm els) i = (orders els).findSome? fun o => chain (o.map sem) i := by
    rw [sem, sems_map, permSem, orders, orders, List.length_map, ordersN_map, List.findSome?_map]
    rfl
  refine ⟨?_, e⟩
  rw [e, List.findSome?_isSome_iff]
  constructor
  · rintro ⟨o, ho, h⟩; exact ⟨o, (mem_orders els o).1 ho, h⟩
  · rintro ⟨o, ho, h⟩; exact ⟨o, (mem_orders els o).2 ho, h⟩

theorem search_from {n fuel : Nat} {o : Obj} {f : Sem} {R : St → Nat → Nat → Prop} (hc : Contract n o f R) {atc : Nat → Option Bool}
    (ha : ∀ i ≤ n, atc i = some (decide (i < n))) : ∀ (fuel : Nat) (s : St) (i : Nat), i ≤ n → n - i < fuel →
    ∃ b s', search atc o fuel s i = some (b, s') ∧
      (b = true → ∃ p j, i ≤ p ∧ p < n ∧ f p = some j ∧ R s' p j ∧ ∀ q, i ≤ q → q < p → f q = none) ∧
      (b = false → (∀ q, i ≤ q → q < n → f q = none) ∧ (i < n → s'.iv.valid = false)) := by
  intro fuel
  induction fuel with
  | zero => intro s i _ h; omega
  | succ fuel ih =>
    intro s i hi hf
    rw [search, ha i hi]
    by_cases c : i < n
    · rw [decide_eq_true c]
      simp only
      cases hs : f i with
      | some j =>
        have ⟨s', a, b⟩ := hc.ok s i j hi hs
        rw [a]
        exact ⟨true, s', rfl, fun _ => ⟨i, j, Nat.le_refl _, c, hs, b, fun q h1 h2 => by omega⟩, (fun q => nomatch q)⟩
      | none =>
        have ⟨s', a, b⟩ := hc.fails s i hi hs
        rw [a]
        have ⟨r, s2, q1, q2, q3⟩ := ih s' (i + 1) (by omega) (by omega)
        refine ⟨r, s2, q1, ?_, ?_⟩
        · intro hr
          have ⟨p, j, h1, h2, h3, h4, h5⟩ := q2 hr
          refine ⟨p, j, by omega, h2, h3, h4, ?_⟩
          intro q g1 g2
          by_cases e : q = i
          · subst e; exact hs
          · exact h5 q (by omega) g2
        · intro hr
          have ⟨h1, h2⟩ := q3 hr
          refine ⟨?_, ?_⟩
          · intro q g1 g2
            by_cases e : q = i
            · subst e; exact hs
            · exact h1 q (by omega) g2
          · intro _
            by_cases e : i + 1 < n
            · exact h2 e
            · subst hr
              cases fuel with
              | zero => omega
              | succ fuel =>
                rw [search, ha (i + 1) (by omega), decide_eq_false e] at q1
                cases q1
                exact b
    · rw [decide_eq_false c]
      exact ⟨false, s, rfl, (fun q => nomatch q), fun _ => ⟨fun q h1 h2 => by omega, fun h => absurd h c⟩⟩

/-- C61. `search` finds the first position, before the end of the text, from which the parser matches, and leaves its
interval; it returns false when there is none. -/
theorem tree_search {n fuel : Nat} (hf : n < fuel) {sh : Shape} (h : Good n sh) {atc : Nat → Option Bool} (ha : ∀ i ≤ n, atc i = some (decide (i < n)))
    (s : St) {i : Nat} (hi : i ≤ n) : ∃ b s', search atc (obj fuel sh) fuel s i = some (b, s') ∧
      (b = true ↔ ∃ p, i ≤ p ∧ p < n ∧ (sem sh p).isSome = true) ∧
      (b = true → ∃ p j, i ≤ p ∧ p < n ∧ sem sh p = some j ∧ s'.iv = ⟨p, j⟩ ∧ ∀ q, i ≤ q → q < p → sem sh q = none) := by
  have hc := shape_contract hf sh h
  have ⟨b, s', a, h1, h2⟩ := search_from (fuel := fuel) hc ha fuel s i hi (by omega)
  refine ⟨b, s', a, ?_, ?_⟩
  · constructor
    · intro hb
      have ⟨p, j, g1, g2, g3, _⟩ := h1 hb
      exact ⟨p, g1, g2, by rw [g3]; rfl⟩
    · rintro ⟨p, g1, g2, g3⟩
      cases b with
      | true => rfl
      | false => rw [(h2 rfl).1 p g1 g2] at g3; cases g3
  · intro hb
    have ⟨p, j, g1, g2, g3, g4, g5⟩ := h1 hb
    exact ⟨p, j, g1, g2, g3, hc.iv _ _ _ g4, g5⟩

/-! ### After a failure -/

theorem seqLoop_fail {n : Nat} : ∀ (es : List El) (ks ks' : List St) (i : Nat), (∀ e ∈ es, Contract n e.o e.f e.R) → i ≤ n →
    seqLoop (pair (es.map El.o) ks) i = some (none, ks') → ks'.length = es.length ∧ ∃ k p e, k < es.length ∧ chain ((es.take k).map El.f) i = some p ∧
      Tiles ((es.take k).map El.R) (ks'.take k) i p ∧ es[k]? = some e ∧ e.f p = none ∧
      ∀ (k' : Nat) (st : St), k ≤ k' → ks'[k']? = some st → st.iv.valid = false := by
  intro es
  induction es with
  | nil => intro ks ks' i _ _ h; cases h
  | cons e es ih =>
    intro ks ks' i h hi hr
    have he := h e List.mem_cons_self
    have hs : ∀ x ∈ es, Contract n x.o x.f x.R := fun x hx => h x (List.mem_cons_of_mem _ hx)
    rw [List.map_cons, pair_cons, seqLoop] at hr
    cases hf : e.f i with
    | none =>
      have ⟨s', r, v⟩ := he.fails (ks.headD fresh) i hi hf
      have ⟨l, iv⟩ := invalAll_pair es ks.tail hs
      rw [r] at hr
      cases hr
      refine ⟨by simp [l], 0, i, e, by simp, rfl, rfl, rfl, hf, ?_⟩
      intro k' st _ hst
      cases k' with
      | zero => cases hst; exact v
      | succ k' => exact iv _ (List.mem_of_getElem? (by simpa using hst))
    | some j =>
      have ⟨s', r, v⟩ := he.ok (ks.headD fresh) i j hi hf
      have ⟨b1, b2⟩ := he.bound i j hi hf
      rw [r] at hr
      simp only [he.iv _ _ _ v] at hr
      cases hq : seqLoop (pair (es.map El.o) ks.tail) j with
      | none => rw [hq] at hr; cases hr
      | some x =>
        rw [hq] at hr
        obtain ⟨x, ks2⟩ := x
        cases hr
        have ⟨l, k, p, e', c0, c1, c2, c3, c4, c5⟩ := ih ks.tail ks2 j hs b2 hq
        refine ⟨by simp [l], k + 1, p, e', by simpa using c0, ?_, ⟨j, v, c2⟩, c3, c4, ?_⟩
        · rw [List.take_succ_cons, List.map_cons, chain_cons, hf]; exact c1
        · intro k' st hk hst
          cases k' with
          | zero => omega
          | succ k' => exact c5 k' st (by omega) hst

/-- **C70** After a sequence failed, the elements before the one that failed keep the intervals of their matches; it and
those behind it have no valid interval. -/
theorem seq_failure {n fuel : Nat} (hf : n < fuel) {els : List Shape} (h : Good n (.seq els)) (s : St) {i : Nat} (hi : i ≤ n) {s' : St}
    (hr : (obj fuel (.seq els)).run s i = some (false, s')) : s'.kids.length = els.length ∧ ∃ (k p : Nat) (e : Shape), chain ((els.take k).map sem) i = some p ∧
      Tiles ((els.take k).map outcome) (s'.kids.take k) i p ∧ els[k]? = some e ∧ sem e p = none ∧
      ∀ (k' : Nat) (st : St), k ≤ k' → s'.kids[k']? = some st → st.iv.valid = false := by
  have hc := shapes_contract hf els (by simpa [Good] using h)
  rw [obj, ← real_o] at hr
  simp only [seq] at hr
  cases hq : seqLoop (pair ((realEls fuel els).map El.o) s.kids) i with
  | none => rw [hq] at hr; cases hr
  | some x =>
    obtain ⟨x, ks⟩ := x
    rw [hq] at hr
    cases x with
    | some e => cases hr
    | none =>
      cases hr
      have ⟨l, k, p, e, c0, c1, c2, c3, c4, c5⟩ := seqLoop_fail (realEls fuel els) s.kids ks i hc hi hq
      refine ⟨by rw [show (St.node Ival.invalid none ks).kids = ks from rfl, l]; simp [realEls], k, p, ?_⟩
      have e1 : ((realEls fuel els).take k).map El.f = (els.take k).map sem := by
        unfold realEls; rw [List.map_take, List.map_map, List.map_take]; rfl
      have e2 : ((realEls fuel els).take k).map El.R = (els.take k).map outcome := by
        unfold realEls; rw [List.map_take, List.map_map, List.map_take]; rfl
      rw [e1] at c1
      rw [e2] at c2
      unfold realEls at c3
      rw [List.getElem?_map] at c3
      cases he : els[k]? with
      | none => rw [he] at c3; cases c3
      | some sh =>
        rw [he] at c3
        have c3 := Option.some.inj c3
        subst c3
        exact ⟨sh, c1, c2, rfl, c4, c5⟩

theorem branchLoop_fail {n : Nat} : ∀ (es : List El) (ks ks' : List St) (i hit : Nat), (∀ e ∈ es, Contract n e.o e.f e.R) → i ≤ n →
    branchLoop (pair (es.map El.o) ks) i hit = some (none, ks') → ∀ st ∈ ks', st.iv.valid = false := by
  intro es
  induction es with
  | nil => intro ks ks' i hit _ _ h; cases h; intro st hst; cases hst
  | cons e es ih =>
    intro ks ks' i hit h hi hr
    have he := h e List.mem_cons_self
    have hs : ∀ x ∈ es, Contract n x.o x.f x.R := fun x hx => h x (List.mem_cons_of_mem _ hx)
    rw [List.map_cons, pair_cons, branchLoop] at hr
    cases hf : e.f i with
    | some j =>
      have ⟨s', r, v⟩ := he.ok (ks.headD fresh) i j hi hf
      rw [r] at hr; cases hr
    | none =>
      have ⟨s', r, v⟩ := he.fails (ks.headD fresh) i hi hf
      rw [r] at hr
      cases hq : branchLoop (pair (es.map El.o) ks.tail) i (hit + 1) with
      | none => rw [hq] at hr; cases hr
      | some x =>
        rw [hq] at hr
        obtain ⟨x, ks2⟩ := x
        cases hr
        intro st hst
        rcases List.mem_cons.1 hst with rfl | q
        · exact v
        · exact ih ks.tail ks2 i (hit + 1) hs hi hq st q

/-- **C70** After a branch failed no element has a valid interval. -/
theorem branch_failure {n fuel : Nat} (hf : n < fuel) {els : List Shape} (h : Good n (.branch els)) (s : St) {i : Nat} (hi : i ≤ n) {s' : St}
    (hr : (obj fuel (.branch els)).run s i = some (false, s')) : s'.hit = none ∧ ∀ st ∈ s'.kids, st.iv.valid = false := by
  have hc := shapes_contract hf els (by simpa [Good] using h)
  rw [obj, ← real_o] at hr
  simp only [branch] at hr
  cases hq : branchLoop (pair ((realEls fuel els).map El.o) s.kids) i 0 with
  | none => rw [hq] at hr; cases hr
  | some x =>
    obtain ⟨x, ks⟩ := x
    rw [hq] at hr
    cases x with
    | some e => cases hr
    | none =>
      cases hr
      exact ⟨rfl, branchLoop_fail (realEls fuel els) s.kids ks i 0 hc hi hq⟩

end Verif.Parser
