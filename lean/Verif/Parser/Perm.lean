import Verif.Parser.Combine
/-
Permutation: the elements in any order, the first order that matches.
-/
namespace Verif.Parser
open Verif.Interval

/-! #### Orders -/

theorem picks_length {α : Type} : ∀ (l : List α) (p : α × List α), p ∈ picks l → p.2.length + 1 = l.length := by
  intro l
  induction l with
  | nil => intro p h; cases h
  | cons x r ih =>
    intro p h
    rcases List.mem_cons.1 h with rfl | h
    · rfl
    · have ⟨q, hq, e⟩ := List.mem_map.1 h
      subst e
      have := ih q hq
      simp only [List.length_cons]; omega

theorem picks_perm {α : Type} : ∀ (l : List α) (p : α × List α), p ∈ picks l → (p.1 :: p.2).Perm l := by
  intro l
  induction l with
  | nil => intro p h; cases h
  | cons x r ih =>
    intro p h
    rcases List.mem_cons.1 h with rfl | h
    · exact List.Perm.refl _
    · have ⟨q, hq, e⟩ := List.mem_map.1 h
      subst e
      exact (List.Perm.swap x q.1 q.2).trans ((ih q hq).cons x)

theorem mem_picks {α : Type} : ∀ (l : List α) (a : α), a ∈ l → ∃ r, (a, r) ∈ picks l := by
  intro l
  induction l with
  | nil => intro a h; cases h
  | cons x r ih =>
    intro a h
    rcases List.mem_cons.1 h with rfl | h
    · exact ⟨r, List.mem_cons_self⟩
    · have ⟨r', h'⟩ := ih a h
      exact ⟨x :: r', List.mem_cons_of_mem _ (List.mem_map.2 ⟨_, h', rfl⟩)⟩

theorem mem_ordersN {α : Type} : ∀ (n : Nat) (l o : List α), l.length = n → (o ∈ ordersN n l ↔ o.Perm l) := by
  intro n
  induction n with
  | zero =>
    intro l o h
    cases List.eq_nil_of_length_eq_zero h
    constructor
    · intro h
      have : o = [] := List.mem_singleton.1 h
      subst this
      exact List.Perm.refl _
    · intro h
      rw [List.Perm.eq_nil h]
      exact List.mem_singleton.2 rfl
  | succ n ih =>
    intro l o h
    rw [ordersN, List.mem_flatMap]
    constructor
    · rintro ⟨p, hp, ho⟩
      have ⟨o', ho', e⟩ := List.mem_map.1 ho
      subst e
      have hl := picks_length l p hp
      exact (((ih p.2 o' (by omega)).1 ho').cons p.1).trans (picks_perm l p hp)
    · intro ho
      cases o with
      | nil => have := ho.length_eq; rw [h] at this; cases this
      | cons a o' =>
        have ⟨r, hr⟩ := mem_picks l a (ho.subset List.mem_cons_self)
        have hl := picks_length l _ hr
        refine ⟨(a, r), hr, List.mem_map.2 ⟨o', ?_, rfl⟩⟩
        exact (ih r o' (by simp only at hl; omega)).2 (List.Perm.cons_inv (ho.trans (picks_perm l _ hr).symm))

/-- `orders` lists just the permutations. -/
theorem mem_orders {α : Type} (l o : List α) : o ∈ orders l ↔ o.Perm l := mem_ordersN _ _ _ rfl

theorem picks_nodup {α : Type} [DecidableEq α] : ∀ (l : List α), l.Nodup → picks l = l.map fun x => (x, l.filter fun y => decide (y ≠ x)) := by
  intro l
  induction l with
  | nil => intro _; rfl
  | cons x r ih =>
    intro h
    have ⟨h1, h2⟩ := List.nodup_cons.1 h
    rw [picks, List.map_cons, ih h2, List.map_map]
    have e1 : (x :: r).filter (fun y => decide (y ≠ x)) = r := by
      rw [List.filter_cons_of_neg (by simp)]
      exact List.filter_eq_self.2 fun a ha => decide_eq_true fun q => h1 (q ▸ ha)
    rw [e1]
    congr 1
    apply List.map_congr_left
    intro a ha
    have : x ≠ a := fun q => h1 (q ▸ ha)
    simp only [Function.comp]
    rw [List.filter_cons_of_pos (by simpa using this)]

/-! #### The first order that matches -/

/-- The first order of the elements `U` in which they match one after another. -/
def firstOrder (F : Nat → Sem) (n : Nat) (U : List Nat) (i : Nat) : Option (List Nat) :=
  (ordersN n U).find? fun o => (chain (o.map F) i).isSome

theorem firstOrder_zero (F : Nat → Sem) (U : List Nat) (i : Nat) : firstOrder F 0 U i = some [] := rfl

theorem firstOrder_succ (F : Nat → Sem) (n : Nat) {U : List Nat} (hu : U.Nodup) (i : Nat) :
    firstOrder F (n + 1) U i = U.findSome? fun x => (F x i).bind fun j => (firstOrder F n (U.filter fun y => decide (y ≠ x)) j).map (x :: ·) := by
  unfold firstOrder
  rw [ordersN, List.find?_flatMap, picks_nodup U hu, List.findSome?_map]
  congr 1
  funext x
  simp only [Function.comp_apply, List.find?_map]
  have e : ((fun o => (chain (List.map F o) i).isSome) ∘ fun o => x :: o) = fun o => ((F x i).bind fun j => chain (List.map F o) j).isSome := rfl
  rw [e]
  cases hF : F x i with
  | none => simp
  | some j => rfl

/-- Element `k` of the collection is not matched. -/
def open' (l : List (Obj × St)) (k : Nat) : Bool :=
  match l[k]? with
  | none => false
  | some p => !p.2.iv.valid

/-- The indices of the elements not matched. -/
def openIdx (l : List (Obj × St)) : List Nat := (List.range l.length).filter (open' l)

/-- The states at the indices `ord` cover the interval in this order. -/
def TilesIdx (R : Nat → St → Nat → Nat → Prop) (ss : List St) : List Nat → Nat → Nat → Prop
  | [], i, j => i = j
  | k :: ord, i, j => ∃ s p, ss[k]? = some s ∧ R k s i p ∧ TilesIdx R ss ord p j

theorem tilesIdx_congr {R : Nat → St → Nat → Nat → Prop} {ss ss' : List St} : ∀ (ord : List Nat) (i j : Nat),
    (∀ k ∈ ord, ss'[k]? = ss[k]?) → TilesIdx R ss ord i j → TilesIdx R ss' ord i j := by
  intro ord
  induction ord with
  | nil => intro i j _ h; exact h
  | cons k ord ih =>
    rintro i j h ⟨s, p, a, b, c⟩
    exact ⟨s, p, by rw [h k List.mem_cons_self]; exact a, b, ih p j (fun x hx => h x (List.mem_cons_of_mem _ hx)) c⟩

/-- What one call of `match_recursively` does. -/
def RecSpec (n : Nat) (es : List El) (F : Nat → Sem) (R : Nat → St → Nat → Nat → Prop) (N : Nat)
    (rec : List (Obj × St) → Nat → Option (Option Nat × List (Obj × St))) : Prop :=
  ∀ (l : List (Obj × St)) (i : Nat), i ≤ n → l.map Prod.fst = es.map El.o → (openIdx l).length = N →
    ∃ r l', rec l i = some (r, l') ∧ l'.map Prod.fst = es.map El.o ∧
      (∀ (k : Nat) (p : Obj × St), l[k]? = some p → p.2.iv.valid = true → l'[k]? = some p) ∧
      match firstOrder F N (openIdx l) i with
      | none => r = none ∧ ∀ k, open' l k = true → open' l' k = true
      | some ord => ∃ e, r = some e ∧ chain (ord.map F) i = some e ∧ ord.Perm (openIdx l) ∧ TilesIdx R (l'.map Prod.snd) ord i e ∧ i ≤ e ∧ e ≤ n

theorem openIdx_nodup (l : List (Obj × St)) : (openIdx l).Nodup := List.nodup_range.sublist List.filter_sublist

theorem open_set {l : List (Obj × St)} {k : Nat} (hk : k < l.length) (p : Obj × St) (j : Nat) :
    open' (l.set k p) j = if j = k then !p.2.iv.valid else open' l j := by
  unfold open'
  rw [List.getElem?_set]
  by_cases c : j = k
  · subst c; rw [if_pos rfl, if_pos rfl, if_pos hk]
  · rw [if_neg c, if_neg (fun q => c q.symm)]

theorem openIdx_congr {l l' : List (Obj × St)} (hl : l'.length = l.length) (h : ∀ k, open' l' k = open' l k) : openIdx l' = openIdx l := by
  unfold openIdx
  rw [hl]
  exact List.filter_congr fun k _ => h k

theorem openIdx_set {l : List (Obj × St)} {k : Nat} (hk : k < l.length) {p : Obj × St} (hp : p.2.iv.valid = true) :
    openIdx (l.set k p) = (openIdx l).filter fun y => decide (y ≠ k) := by
  unfold openIdx
  rw [List.length_set, List.filter_filter]
  apply List.filter_congr
  intro j _
  rw [open_set hk]
  by_cases c : j = k
  · subst c; simp [hp]
  · simp [c]

theorem get_fst {l : List (Obj × St)} {es : List El} (h : l.map Prod.fst = es.map El.o) {k : Nat} {p : Obj × St} (hp : l[k]? = some p) :
    ∃ e, es[k]? = some e ∧ p.1 = e.o := by
  have := congrArg (fun x => x[k]?) h
  simp only [List.getElem?_map, hp, Option.map_some] at this
  cases he : es[k]? with
  | none => rw [he] at this; cases this
  | some e => rw [he] at this; exact ⟨e, rfl, Option.some.inj this⟩

theorem map_fst_set {l : List (Obj × St)} {es : List El} (h : l.map Prod.fst = es.map El.o) {k : Nat} {p : Obj × St} (hp : l[k]? = some p) (s : St) :
    (l.set k (p.1, s)).map Prod.fst = es.map El.o := by
  rw [List.map_set, ← h]
  apply List.ext_getElem?
  intro j
  rw [List.getElem?_set]
  split
  · rename_i c
    subst c
    have hk : k < (l.map Prod.fst).length := by rw [List.length_map]; exact (List.getElem?_eq_some_iff.1 hp).1
    rw [if_pos hk, List.getElem?_map, hp]; rfl
  · rfl

theorem permLoop_spec {n : Nat} {es : List El} {F : Nat → Sem} {R : Nat → St → Nat → Nat → Prop}
    (hes : ∀ k e, es[k]? = some e → Contract n e.o (F k) (R k))
    {N : Nat} {rec : List (Obj × St) → Nat → Option (Option Nat × List (Obj × St))} (hrec : RecSpec n es F R N rec) (i : Nat) (hi : i ≤ n) :
    ∀ (todo k : Nat) (all : Bool) (l : List (Obj × St)), k + todo = l.length → l.map Prod.fst = es.map El.o →
      (openIdx l).length = N + 1 ∨ openIdx l = [] →
      ∃ r l', permLoop rec i todo k all l = some (r, l') ∧ l'.map Prod.fst = es.map El.o ∧
        (∀ (k : Nat) (p : Obj × St), l[k]? = some p → p.2.iv.valid = true → l'[k]? = some p) ∧
        match ((List.range' k todo).filter (open' l)).findSome? (fun x => (F x i).bind fun j => (firstOrder F N ((openIdx l).filter fun y => decide (y ≠ x)) j).map (x :: ·)) with
        | none => r = (if all = true ∧ (List.range' k todo).filter (open' l) = [] then some i else none) ∧ ∀ k, open' l k = true → open' l' k = true
        | some ord => ∃ e, r = some e ∧ chain (ord.map F) i = some e ∧ ord.Perm (openIdx l) ∧ TilesIdx R (l'.map Prod.snd) ord i e ∧ i ≤ e ∧ e ≤ n := by
  intro todo
  induction todo with
  | zero =>
    intro k all l _ hl _
    refine ⟨_, l, rfl, hl, fun _ _ h _ => h, ?_⟩
    simp
  | succ todo ih =>
    intro k all l hk hl ho
    have hkl : k < l.length := by omega
    have hlk : l[k]? = some l[k] := List.getElem?_eq_getElem hkl
    generalize hp : l[k] = p at hlk
    rw [permLoop, hlk]
    simp only
    rw [List.range'_succ]
    by_cases c : p.2.iv.valid = true
    · rw [if_pos c]
      have hop : ¬ open' l k = true := by unfold open'; rw [hlk]; simp [c]
      rw [List.filter_cons_of_neg hop]
      exact ih (k + 1) all l (by omega) hl ho
    · rw [if_neg c]
      have hop : open' l k = true := by unfold open'; rw [hlk]; simp [c]
      have hN : (openIdx l).length = N + 1 := by
        rcases ho with ho | ho
        · exact ho
        · have : k ∈ openIdx l := List.mem_filter.2 ⟨List.mem_range.2 hkl, hop⟩
          rw [ho] at this; cases this
      rw [List.filter_cons_of_pos hop, List.findSome?_cons]
      have ⟨e, hek, hpe⟩ := get_fst hl hlk
      have hc := hes k e hek
      rw [hpe]
      -- the continuation, from a list in which the same elements are open
      have cont : ∀ (l2 : List (Obj × St)), l2.length = l.length → l2.map Prod.fst = es.map El.o →
          (∀ x, open' l2 x = open' l x) → (∀ (j : Nat) (q : Obj × St), l[j]? = some q → q.2.iv.valid = true → l2[j]? = some q) →
          ∃ r l', permLoop rec i todo (k + 1) false l2 = some (r, l') ∧ l'.map Prod.fst = es.map El.o ∧
            (∀ (k : Nat) (p : Obj × St), l[k]? = some p → p.2.iv.valid = true → l'[k]? = some p) ∧
            match ((List.range' (k + 1) todo).filter (open' l)).findSome? (fun x => (F x i).bind fun j => (firstOrder F N ((openIdx l).filter fun y => decide (y ≠ x)) j).map (x :: ·)) with
            | none => r = (if all = true ∧ k :: (List.range' (k + 1) todo).filter (open' l) = [] then some i else none) ∧ ∀ k, open' l k = true → open' l' k = true
            | some ord => ∃ e, r = some e ∧ chain (ord.map F) i = some e ∧ ord.Perm (openIdx l) ∧ TilesIdx R (l'.map Prod.snd) ord i e ∧ i ≤ e ∧ e ≤ n := by
        intro l2 h1 h2 h3 h4
        have e1 : openIdx l2 = openIdx l := openIdx_congr h1 h3
        have e2 : open' l2 = open' l := funext h3
        have ⟨r, l', a1, a2, a3, a4⟩ := ih (k + 1) false l2 (by omega) h2 (by rw [e1]; exact ho)
        rw [e1, e2] at a4
        refine ⟨r, l', a1, a2, fun j q hq hv => a3 j q (h4 j q hq hv) hv, ?_⟩
        generalize ((List.range' (k + 1) todo).filter (open' l)).findSome? (fun x => (F x i).bind fun j => (firstOrder F N ((openIdx l).filter fun y => decide (y ≠ x)) j).map (x :: ·)) = g at a4 ⊢
        cases g with
        | none =>
          obtain ⟨a5, a6⟩ := a4
          refine ⟨?_, fun k hk => a6 k (by rw [← hk])⟩
          rw [a5]; simp
        | some ord => exact a4
      cases hf : F k i with
      | none =>
        have ⟨s', r, v⟩ := hc.fails p.2 i hi hf
        rw [r]
        simp only [Option.bind_none]
        apply cont
        · exact List.length_set ..
        · have := map_fst_set hl hlk s'; rw [hpe] at this; exact this
        · intro x
          rw [open_set hkl]
          split
          · rename_i q; subst q; rw [hop]; simp [v]
          · rfl
        · intro j q hq hv
          rw [List.getElem?_set_ne]
          · exact hq
          · intro q'; subst q'; rw [hlk] at hq; cases hq; exact c hv
      | some j =>
        have ⟨s', r, v⟩ := hc.ok p.2 i j hi hf
        have ⟨b1, b2⟩ := hc.bound i j hi hf
        have hiv := hc.iv _ _ _ v
        have hval : s'.iv.valid = true := by rw [hiv]; exact decide_eq_true b1
        rw [r]
        simp only [Option.bind_some, hiv]
        have m1 : (l.set k (e.o, s')).map Prod.fst = es.map El.o := by
          have := map_fst_set hl hlk s'; rw [hpe] at this; exact this
        have m2 : openIdx (l.set k (e.o, s')) = (openIdx l).filter fun y => decide (y ≠ k) := openIdx_set hkl hval
        have m3 : (openIdx (l.set k (e.o, s'))).length = N := by
          have hmem : k ∈ openIdx l := List.mem_filter.2 ⟨List.mem_range.2 hkl, hop⟩
          rw [m2]
          have := List.length_erase_of_mem hmem
          rw [(openIdx_nodup l).erase_eq_filter] at this
          have e' : (openIdx l).filter (fun y => decide (y ≠ k)) = (openIdx l).filter (fun x => x != k) := by
            apply List.filter_congr; intro x _
            by_cases cc : x = k <;> simp [cc]
          rw [e', this, hN]; rfl
        have ⟨r', l', q1, q2, q3, q4⟩ := hrec (l.set k (e.o, s')) j b2 m1 m3
        rw [q1]
        rw [m2] at q4
        have hset : (l.set k (e.o, s'))[k]? = some (e.o, s') := by rw [List.getElem?_set_self hkl]
        have hl'k := q3 k _ hset hval
        cases hfo : firstOrder F N ((openIdx l).filter fun y => decide (y ≠ k)) j with
        | none =>
          rw [hfo] at q4
          obtain ⟨q5, q6⟩ := q4
          subst q5
          simp only [hl'k, Option.map_none]
          have hlen : l'.length = l.length := by
            have h1 := congrArg List.length q2
            have h2 := congrArg List.length hl
            simp only [List.length_map] at h1 h2
            omega
          have hkl' : k < l'.length := by omega
          apply cont
          · rw [List.length_set]; exact hlen
          · exact map_fst_set q2 hl'k _
          · intro x
            rw [open_set hkl']
            split
            · rename_i q; subst q; rw [hop]; simp [hc.inv s']
            · rename_i q
              by_cases co : open' l x = true
              · rw [co]; apply q6; rw [open_set hkl, if_neg q]; exact co
              · cases hx : l[x]? with
                | none =>
                  have : l'[x]? = none := by
                    rw [List.getElem?_eq_none_iff] at hx ⊢; omega
                  unfold open'; rw [this, hx]
                | some px =>
                  have hpv : px.2.iv.valid = true := by
                    unfold open' at co; rw [hx] at co; simpa using co
                  have := q3 x px (by rw [List.getElem?_set_ne (fun z => q z.symm)]; exact hx) hpv
                  unfold open'; rw [this, hx]
          · intro jx q hq hv
            have hne : k ≠ jx := by intro q'; subst q'; rw [hlk] at hq; cases hq; exact c hv
            rw [List.getElem?_set_ne hne]
            exact q3 jx q (by rw [List.getElem?_set_ne hne]; exact hq) hv
        | some ord =>
          rw [hfo] at q4
          obtain ⟨e', q5, q6, q7, q8, q9, q10⟩ := q4
          subst q5
          simp only [Option.map_some]
          refine ⟨some e', l', rfl, q2, ?_, e', rfl, ?_, ?_, ?_, by omega, q10⟩
          · intro jx q hq hv
            have hne : k ≠ jx := by intro q'; subst q'; rw [hlk] at hq; cases hq; exact c hv
            exact q3 jx q (by rw [List.getElem?_set_ne hne]; exact hq) hv
          · rw [List.map_cons, chain_cons, hf]; exact q6
          · have hmem : k ∈ openIdx l := List.mem_filter.2 ⟨List.mem_range.2 hkl, hop⟩
            have e2 : (openIdx l).filter (fun y => decide (y ≠ k)) = (openIdx l).erase k := by
              rw [(openIdx_nodup l).erase_eq_filter]
              apply List.filter_congr; intro x _
              by_cases cc : x = k <;> simp [cc]
            rw [e2] at q7
            exact (q7.cons k).trans (List.perm_cons_erase hmem).symm
          · refine ⟨s', j, ?_, v, q8⟩
            rw [List.getElem?_map, hl'k]; rfl

theorem permRec_spec {n : Nat} {es : List El} {F : Nat → Sem} {R : Nat → St → Nat → Nat → Prop}
    (hes : ∀ k e, es[k]? = some e → Contract n e.o (F k) (R k)) : ∀ N, RecSpec n es F R N (permRec (N + 1)) := by
  intro N
  induction N with
  | zero =>
    intro l i hi hl hN
    have ho : openIdx l = [] := List.eq_nil_of_length_eq_zero hN
    have hall : (List.range' 0 l.length).filter (open' l) = [] := by rw [← List.range_eq_range']; exact ho
    have trivialRec : RecSpec n es F R 0 (permRec 1) → True := fun _ => trivial
    -- nothing is open: the loop makes no recursive call
    have key : ∀ (rec : List (Obj × St) → Nat → Option (Option Nat × List (Obj × St))) (todo k : Nat), k + todo = l.length → permLoop rec i todo k true l = some (some i, l) := by
      intro rec todo
      induction todo with
      | zero => intro k _; rfl
      | succ todo ih =>
        intro k hk
        have hkl : k < l.length := by omega
        have hlk : l[k]? = some l[k] := List.getElem?_eq_getElem hkl
        rw [permLoop, hlk]
        simp only
        have hv : (l[k]).2.iv.valid = true := by
          by_cases c : open' l k = true
          · have : k ∈ openIdx l := List.mem_filter.2 ⟨List.mem_range.2 hkl, c⟩
            rw [ho] at this; cases this
          · unfold open' at c; rw [hlk] at c; simpa using c
        rw [if_pos hv]
        exact ih (k + 1) (by omega)
    refine ⟨some i, l, key _ _ 0 (by omega), hl, fun _ _ h _ => h, ?_⟩
    rw [firstOrder_zero, ho]
    exact ⟨i, rfl, rfl, List.Perm.refl _, rfl, Nat.le_refl _, hi⟩
  | succ N ih =>
    intro l i hi hl hN
    have ⟨r, l', a1, a2, a3, a4⟩ := permLoop_spec hes ih i hi l.length 0 true l (by omega) hl (.inl hN)
    refine ⟨r, l', a1, a2, a3, ?_⟩
    rw [firstOrder_succ F N (openIdx_nodup l)]
    have e : (List.range' 0 l.length).filter (open' l) = openIdx l := by unfold openIdx; rw [List.range_eq_range']
    rw [e] at a4
    generalize (openIdx l).findSome? (fun x => (F x i).bind fun j => (firstOrder F N ((openIdx l).filter fun y => decide (y ≠ x)) j).map (x :: ·)) = g at a4 ⊢
    cases g with
    | none =>
      obtain ⟨a5, a6⟩ := a4
      refine ⟨?_, a6⟩
      rw [a5, if_neg]
      rintro ⟨_, q⟩
      rw [q] at hN; cases hN
    | some ord => exact a4

/-- What a permutation matches: the elements one after another, in the first order in which they match. -/
def permSem (fs : List Sem) (i : Nat) : Option Nat := (orders fs).findSome? fun o => chain o i

theorem picks_map {α β : Type} (g : α → β) : ∀ l : List α, picks (l.map g) = (picks l).map fun p => (g p.1, p.2.map g) := by
  intro l
  induction l with
  | nil => rfl
  | cons x r ih =>
    rw [List.map_cons, picks, ih, picks, List.map_cons, List.map_map, List.map_map]
    rfl

theorem ordersN_map {α β : Type} (g : α → β) : ∀ (n : Nat) (l : List α), ordersN n (l.map g) = (ordersN n l).map (List.map g) := by
  intro n
  induction n with
  | zero => intro l; rfl
  | succ n ih =>
    intro l
    rw [ordersN, ordersN, picks_map, List.flatMap_map, List.map_flatMap]
    congr 1
    funext p
    rw [ih, List.map_map, List.map_map]
    rfl

/-- The outcome of a permutation: the intervals of the elements cover that of the permutation in the first order in which
the elements match. -/
def permR (es : List El) (s : St) (i j : Nat) : Prop :=
  s.iv = ⟨i, j⟩ ∧ s.kids.length = es.length ∧ ∃ ord,
    (orders (List.range es.length)).find? (fun o => (chain (o.map fun k => (es.map El.f).getD k fun _ => none) i).isSome) = some ord ∧
    TilesIdx (fun k => (es.map El.R).getD k fun _ _ _ => False) s.kids ord i j

theorem pair_map_fst : ∀ (os : List Obj) (ks : List St), ((pair os ks).map fun p => (p.1, p.1.inval p.2)).map Prod.fst = os := by
  intro os
  induction os with
  | nil => intro ks; cases ks <;> rfl
  | cons o os ih => intro ks; rw [pair_cons, List.map_cons, List.map_cons, ih]

theorem range_getD {α : Type} (l : List α) (d : α) : (List.range l.length).map (fun k => l.getD k d) = l := by
  apply List.ext_getElem
  · simp
  · intro i h1 h2
    simp [List.getD, List.getElem?_eq_getElem h2]

theorem perm_run {n : Nat} {es : List El} (h : ∀ e ∈ es, Contract n e.o e.f e.R) (s : St) (i : Nat) (hi : i ≤ n) :
    (∃ j s', (perm (es.map El.o)).run s i = some (true, s') ∧ permSem (es.map El.f) i = some j ∧ permR es s' i j ∧ i ≤ j ∧ j ≤ n) ∨
    (∃ s', (perm (es.map El.o)).run s i = some (false, s') ∧ permSem (es.map El.f) i = none ∧ s'.iv.valid = false ∧ ∀ st ∈ s'.kids, st.iv.valid = false) := by
  have hes : ∀ k e, es[k]? = some e → Contract n e.o ((fun k => (es.map El.f).getD k fun _ => none) k) ((fun k => (es.map El.R).getD k fun _ _ _ => False) k) := by
    intro k e hk
    have := h e (List.mem_of_getElem? hk)
    simpa [List.getD, List.getElem?_map, hk] using this
  generalize hl : (pair (es.map El.o) s.kids).map (fun p => (p.1, p.1.inval p.2)) = l
  have hfst : l.map Prod.fst = es.map El.o := by rw [← hl]; exact pair_map_fst _ _
  have hlen : l.length = es.length := by have := congrArg List.length hfst; simpa using this
  have hopen : ∀ k, k < l.length → open' l k = true := by
    intro k hk
    have hlk : l[k]? = some l[k] := List.getElem?_eq_getElem hk
    unfold open'
    rw [hlk]
    have hm : l[k] ∈ l := List.getElem_mem hk
    have ⟨e, hek, hpe⟩ := get_fst hfst hlk
    generalize l[k] = p at hm hpe ⊢
    rw [← hl] at hm
    have ⟨q, hq, hqe⟩ := List.mem_map.1 hm
    have hc := h e (List.mem_of_getElem? hek)
    have : p.2 = p.1.inval q.2 := by rw [← hqe]
    simp only [this, hpe, hc.inv, Bool.not_false]
  have hidx : openIdx l = List.range es.length := by
    unfold openIdx
    rw [hlen]
    exact List.filter_eq_self.2 fun k hk => hopen k (by rw [hlen]; exact List.mem_range.1 hk)
  have ⟨r, l', a1, a2, a3, a4⟩ := permRec_spec hes es.length l i hi hfst (by rw [hidx, List.length_range])
  rw [hidx] at a4
  have hrun : (perm (es.map El.o)).run s i = (match (generalizing := false) r with | some e => some (true, St.node ⟨i, e⟩ none (l'.map Prod.snd)) | none => some (false, St.node Ival.invalid none (l'.map Prod.snd))) := by
    show (match permRec ((es.map El.o).length + 1) ((pair (es.map El.o) s.kids).map fun p => (p.1, p.1.inval p.2)) i with | none => none | some (some e, l) => some (true, St.node ⟨i, e⟩ none (l.map Prod.snd)) | some (none, l) => some (false, St.node Ival.invalid none (l.map Prod.snd))) = _
    rw [List.length_map, hl, a1]
    cases r <;> rfl
  have hsem : permSem (es.map El.f) i = (ordersN es.length (List.range es.length)).findSome? fun o => chain (o.map fun k => (es.map El.f).getD k fun _ => none) i := by
    unfold permSem orders
    rw [List.length_map]
    conv => lhs; rw [← range_getD (es.map El.f) fun _ => none]
    rw [ordersN_map, List.findSome?_map, List.length_map]
    rfl
  have hlen' : (l'.map Prod.snd).length = es.length := by
    have := congrArg List.length a2; simpa using this
  cases hfo : firstOrder (fun k => (es.map El.f).getD k fun _ => none) es.length (List.range es.length) i with
  | none =>
    rw [hfo] at a4
    obtain ⟨rfl, a5⟩ := a4
    refine .inr ⟨_, hrun, ?_, rfl, ?_⟩
    rotate_left
    · intro st hst
      have ⟨p, hp, e⟩ := List.mem_map.1 hst
      have ⟨k, hk, e'⟩ := List.mem_iff_getElem.1 hp
      have := a5 k (hopen k (by rw [List.length_map] at hlen'; omega))
      unfold open' at this
      rw [List.getElem?_eq_getElem hk, e'] at this
      subst e
      simpa using this
    rw [hsem, List.findSome?_eq_none_iff]
    intro o ho
    have := List.find?_eq_none.1 hfo o ho
    simpa using this
  | some ord =>
    rw [hfo] at a4
    obtain ⟨e, rfl, b1, b2, b3, b4, b5⟩ := a4
    refine .inl ⟨e, _, hrun, ?_, ⟨rfl, hlen', ord, ?_, b3⟩, b4, b5⟩
    · rw [hsem]
      have ⟨_, as, bs, e1, e2⟩ := List.find?_eq_some_iff_append.1 hfo
      rw [e1, List.findSome?_append, List.findSome?_cons, b1]
      have : as.findSome? (fun o => chain (o.map fun k => (es.map El.f).getD k fun _ => none) i) = none := by
        rw [List.findSome?_eq_none_iff]
        intro o ho
        have := e2 o ho
        simpa using this
      rw [this]; rfl
    · have := hfo
      unfold firstOrder at this
      unfold orders
      rw [List.length_range]
      exact this

theorem perm_contract {n : Nat} {es : List El} (h : ∀ e ∈ es, Contract n e.o e.f e.R) :
    Contract n (perm (es.map El.o)) (permSem (es.map El.f)) (permR es) where
  ok s i j hi hf := by
    rcases perm_run h s i hi with ⟨j', s', q1, q2, q3, _⟩ | ⟨_, _, q2, _⟩
    · rw [q2] at hf; cases hf; exact ⟨s', q1, q3⟩
    · rw [q2] at hf; cases hf
  fails s i hi hf := by
    rcases perm_run h s i hi with ⟨_, _, _, q2, _⟩ | ⟨s', q1, _, q3, _⟩
    · rw [q2] at hf; cases hf
    · exact ⟨s', q1, q3⟩
  iv _ _ _ r := r.1
  bound i j hi hf := by
    rcases perm_run h fresh i hi with ⟨j', s', _, q2, _, q4⟩ | ⟨_, _, q2, _⟩
    · rw [q2] at hf; cases hf; exact q4
    · rw [q2] at hf; cases hf
  inv _ := rfl

/-- **C70** After a permutation failed no element has a valid interval. -/
theorem perm_failure {n : Nat} {es : List El} (h : ∀ e ∈ es, Contract n e.o e.f e.R) (s : St) {i : Nat} (hi : i ≤ n) {s' : St}
    (hr : (perm (es.map El.o)).run s i = some (false, s')) : ∀ st ∈ s'.kids, st.iv.valid = false := by
  rcases perm_run h s i hi with ⟨j', x, q1, _⟩ | ⟨x, q1, _, _, q4⟩
  · rw [q1] at hr; cases hr
  · rw [q1] at hr; cases hr; exact q4

/-- A permutation matches just when the elements match one after another in some order. -/
theorem permSem_isSome (fs : List Sem) (i : Nat) : (permSem fs i).isSome = true ↔ ∃ o, o.Perm fs ∧ (chain o i).isSome = true := by
  unfold permSem
  rw [List.findSome?_isSome_iff]
  constructor
  · rintro ⟨o, ho, h⟩; exact ⟨o, (mem_orders fs o).1 ho, h⟩
  · rintro ⟨o, ho, h⟩; exact ⟨o, (mem_orders fs o).2 ho, h⟩

theorem permSem_end {fs : List Sem} {i j : Nat} (h : permSem fs i = some j) : ∃ o, o.Perm fs ∧ chain o i = some j := by
  have ⟨o, ho, e⟩ := List.exists_of_findSome?_eq_some h
  exact ⟨o, (mem_orders fs o).1 ho, e⟩

end Verif.Parser
