import Verif.Html.DocSource
/-
The tree of a document: parents, ends and starts of the sequences that `document::append` of include/stdex/html.hpp (1657-1864) stores.
-/
namespace Verif.Html
open Verif.Str Verif.Sgml Verif.Parser

/-! ### Specification -/

/-- The parent of the sequence `k`. -/
def par (nodes : List Node) (k : Nat) : Option Nat := nodes[k]?.bind fun n => n.parent

/-- The sequence `a` is the parent of `b`, or the parent of its parent, and so on. -/
inductive Anc (nodes : List Node) (a : Nat) : Nat → Prop
  | parent {b} : par nodes b = some a → Anc nodes a b
  | up {b c} : par nodes b = some c → Anc nodes a c → Anc nodes a b

/-- The sequence is an element. -/
def Node.isElement (n : Node) : Prop := n.kind = .element ∨ n.kind = .element_start

/-- The element that starts with the sequence `k`, which is `n`, ends with the sequence `q`: it has no end tag, or `q` is its end tag, or `q` is an element that it may not contain. -/
def EndsWith (nodes : List Node) (k : Nat) (n : Node) (q : Nat) : Prop :=
  (q = k ∧ span n.code = .immediate) ∨
  (k < q ∧ span n.code ≠ .immediate ∧ ∃ m, nodes[q]? = some m ∧ ((m.kind = .element_end ∧ m.beg = some k) ∨ (m.isElement ∧ mayContain n.code m.code = false)))

/-! ### Proofs -/

/-- The stack of open elements: each is a start tag without an end, and the child of the next. -/
def Chain (nodes : List Node) : List Nat → Prop
  | [] => True
  | s :: r => (∃ n, nodes[s]? = some n ∧ n.kind = .element_start ∧ n.fin = none ∧ n.parent = r.head? ∧ span n.code ≠ .immediate) ∧ (∀ x ∈ r, x < s) ∧ Chain nodes r

theorem chain_right {nodes : List Node} : ∀ {pre st : List Nat}, Chain nodes (pre ++ st) → Chain nodes st
  | [], _, h => h
  | _ :: _, _, h => chain_right h.2.2

theorem chain_lt {nodes : List Node} : ∀ {pre st : List Nat}, Chain nodes (pre ++ st) → ∀ x ∈ pre, ∀ y ∈ st, y < x
  | _ :: pre, st, h, x, hx, y, hy => by
    rcases List.mem_cons.1 hx with rfl | q
    · exact h.2.1 y (List.mem_append_right _ hy)
    · exact chain_lt h.2.2 x q y hy

theorem chain_mem {nodes : List Node} : ∀ {st : List Nat}, Chain nodes st → ∀ s ∈ st, ∃ n, nodes[s]? = some n ∧ n.kind = .element_start ∧ n.fin = none ∧ span n.code ≠ .immediate
  | _ :: _, h, s, hs => by
    rcases List.mem_cons.1 hs with rfl | q
    · obtain ⟨n, h1, h2, h3, _, h5⟩ := h.1; exact ⟨n, h1, h2, h3, h5⟩
    · exact chain_mem h.2.2 s q

theorem chain_congr {nodes nodes' : List Node} : ∀ {st : List Nat}, (∀ s ∈ st, nodes'[s]? = nodes[s]?) → Chain nodes st → Chain nodes' st
  | [], _, _ => trivial
  | s :: r, e, h => by
    refine ⟨?_, h.2.1, chain_congr (fun x hx => e x (List.mem_cons_of_mem _ hx)) h.2.2⟩
    rw [e s List.mem_cons_self]
    exact h.1

/-- The tree so far. -/
structure Tree (nodes : List Node) (stack : List Nat) : Prop where
  chain : Chain nodes stack
  parent : ∀ {k : Nat} {n : Node} {p : Nat}, nodes[k]? = some n → n.parent = some p → p < k ∧ ∃ m, nodes[p]? = some m ∧ m.kind = .element_start ∧ span m.code ≠ .immediate
  fin : ∀ {k : Nat} {n : Node} {q : Nat}, nodes[k]? = some n → n.fin = some q → n.kind = .element_start ∧ EndsWith nodes k n q
  beg : ∀ {k : Nat} {n : Node} {s : Nat}, nodes[k]? = some n → n.beg = some s → n.kind = .element_end ∧ s < k ∧ ∃ m, nodes[s]? = some m ∧ m.kind = .element_start ∧ m.fin = some k ∧ m.code = n.code ∧ m.parent = n.parent
  allow : ∀ {k : Nat} {n m : Node} {p : Nat}, nodes[k]? = some n → n.isElement → n.parent = some p → nodes[p]? = some m → mayContain m.code n.code = true
  inside : ∀ {a : Nat} {n : Node} {x : Nat}, nodes[a]? = some n → n.fin = some x → ∀ b, b < nodes.length → ((a < b ∧ b < x) ↔ Anc nodes a b)
  live : ∀ a ∈ stack, ∀ b, b < nodes.length → a < b → Anc nodes a b
  immediate : ∀ {k : Nat} {n : Node}, nodes[k]? = some n → n.kind = .element_start → span n.code = .immediate → n.fin = some k

/-- Every start tag without an end is open, or inside of an element that is ended. -/
def Settled (nodes : List Node) (stack : List Nat) : Prop :=
  ∀ k n, nodes[k]? = some n → n.kind = .element_start → n.fin = none → k ∈ stack ∨ ∃ a m x, Anc nodes a k ∧ nodes[a]? = some m ∧ m.fin = some x

theorem anc_mono {nodes nodes' : List Node} (h : ∀ k p, par nodes k = some p → par nodes' k = some p) {a b : Nat} (q : Anc nodes a b) : Anc nodes' a b := by
  induction q with
  | parent e => exact .parent (h _ _ e)
  | up e _ ih => exact .up (h _ _ e) ih

theorem anc_back {nodes nodes' : List Node} {K : Nat} (h : ∀ k, k < K → par nodes' k = par nodes k) (hlt : ∀ k p, par nodes k = some p → p < k) {a b : Nat} (hb : b < K) (q : Anc nodes' a b) : Anc nodes a b := by
  induction q with
  | parent e => rw [h _ hb] at e; exact .parent e
  | up e _ ih =>
    rw [h _ hb] at e
    have := hlt _ _ e
    exact .up e (ih (by omega))

theorem anc_lt {nodes : List Node} (hlt : ∀ k p, par nodes k = some p → p < k) {a b : Nat} (q : Anc nodes a b) : a < b := by
  induction q with
  | parent e => exact hlt _ _ e
  | up e _ ih => have := hlt _ _ e; omega

/-- The ancestors of what is put into the open element are open. -/
theorem anc_open {nodes : List Node} {a b : Nat} (q : Anc nodes a b) : ∀ {st : List Nat}, Chain nodes st → par nodes b = st.head? → a ∈ st := by
  induction q with
  | parent e =>
    intro st hc hp
    rw [hp] at e
    exact List.mem_of_mem_head? e
  | up e _ ih =>
    intro st hc hp
    rw [hp] at e
    cases st with
    | nil => cases e
    | cons s r =>
      cases e
      obtain ⟨n, h1, _, _, h4, _⟩ := hc.1
      exact List.mem_cons_of_mem _ (ih hc.2.2 (by unfold par; rw [h1]; exact h4))

/-- Elements `F` of the stack end, the stack is cut, and a sequence is added. -/
theorem tree_add {nodes nodes1 : List Node} {stack pop stack' st F : List Nat} {new : Node} (h : Tree nodes stack) (hs : stack = pop ++ stack') (hF : ∀ s ∈ F, s ∈ pop)
    (h1 : ∀ k, nodes1[k]? = (nodes[k]?).map fun n => if k ∈ F then { n with fin := some nodes.length } else n) (hpar : new.parent = stack'.head?)
    (hend : ∀ s ∈ F, ∀ n, nodes[s]? = some n → (new.kind = .element_end ∧ new.beg = some s) ∨ (new.isElement ∧ mayContain n.code new.code = false))
    (hfin : (new.fin = none ∧ (new.kind = .element_start → span new.code ≠ .immediate)) ∨ (new.fin = some nodes.length ∧ new.kind = .element_start ∧ span new.code = .immediate))
    (hbeg : ∀ s, new.beg = some s → new.kind = .element_end ∧ s ∈ F ∧ ∀ n, nodes[s]? = some n → n.code = new.code ∧ n.parent = stack'.head?)
    (hallow : new.isElement → ∀ p m, stack'.head? = some p → nodes[p]? = some m → mayContain m.code new.code = true)
    (hst : st = stack' ∨ (st = nodes.length :: stack' ∧ new.kind = .element_start ∧ new.fin = none ∧ span new.code ≠ .immediate)) : Tree (nodes1 ++ [new]) st := by
  have hlen : nodes1.length = nodes.length := by
    have a1 := h1 nodes1.length
    have a2 := h1 nodes.length
    rw [List.getElem?_eq_none (Nat.le_refl _)] at a1 a2
    have b1 := Option.map_eq_none_iff.1 a1.symm
    rw [List.getElem?_eq_none_iff] at b1
    have b2 : nodes1[nodes.length]? = none := by rw [a2]; rfl
    rw [List.getElem?_eq_none_iff] at b2
    omega
  have old : ∀ k n, nodes[k]? = some n → (nodes1 ++ [new])[k]? = some (if k ∈ F then { n with fin := some nodes.length } else n) := by
    intro k n e
    rw [List.getElem?_append_left (by rw [hlen]; exact (List.getElem?_eq_some_iff.1 e).1), h1, e]
    rfl
  have lst : (nodes1 ++ [new])[nodes.length]? = some new := by rw [← hlen, List.getElem?_append_right (Nat.le_refl _), Nat.sub_self]; rfl
  have look : ∀ k n', (nodes1 ++ [new])[k]? = some n' → (k = nodes.length ∧ n' = new) ∨ ∃ n, nodes[k]? = some n ∧ k < nodes.length ∧ n' = if k ∈ F then { n with fin := some nodes.length } else n := by
    intro k n' e
    by_cases q : k < nodes.length
    · have := old k _ (List.getElem?_eq_getElem q)
      rw [this] at e
      cases e
      exact .inr ⟨_, List.getElem?_eq_getElem q, q, rfl⟩
    · have hk := (List.getElem?_eq_some_iff.1 e).1
      rw [List.length_append, hlen] at hk
      have : k = nodes.length := by simp at hk; omega
      subst this
      rw [lst] at e
      cases e
      exact .inl ⟨rfl, rfl⟩
  have fields : ∀ (k : Nat) (n : Node), (if k ∈ F then { n with fin := some nodes.length } else n).kind = n.kind ∧ (if k ∈ F then { n with fin := some nodes.length } else n).parent = n.parent ∧
      (if k ∈ F then { n with fin := some nodes.length } else n).code = n.code ∧ (if k ∈ F then { n with fin := some nodes.length } else n).beg = n.beg := by
    intro k n
    split <;> exact ⟨rfl, rfl, rfl, rfl⟩
  have parOld : ∀ k, k < nodes.length → par (nodes1 ++ [new]) k = par nodes k := by
    intro k hk
    have e := List.getElem?_eq_getElem hk
    unfold par
    rw [old k _ e, e]
    exact (fields k _).2.1
  have parNew : par (nodes1 ++ [new]) nodes.length = stack'.head? := by
    unfold par
    rw [lst]
    exact hpar
  have parLt : ∀ k p, par nodes k = some p → p < k ∧ k < nodes.length := by
    intro k p e
    unfold par at e
    cases hk : nodes[k]? with
    | none => rw [hk] at e; cases e
    | some n => rw [hk] at e; exact ⟨(h.parent hk e).1, (List.getElem?_eq_some_iff.1 hk).1⟩
  have ancNew : ∀ {a b}, Anc nodes a b → Anc (nodes1 ++ [new]) a b := fun q => anc_mono (fun k p e => by rw [parOld k (parLt k p e).2]; exact e) q
  have ancOld : ∀ {a b}, b < nodes.length → Anc (nodes1 ++ [new]) a b → Anc nodes a b := fun hb q => anc_back parOld (fun k p e => (parLt k p e).1) hb q
  have hch : Chain nodes (pop ++ stack') := hs ▸ h.chain
  have notF : ∀ s ∈ stack', s ∉ F := by
    intro s hs' hf
    have := chain_lt hch s (hF s hf) s hs'
    omega
  have inSt : ∀ s ∈ stack', s ∈ stack := fun s q => hs ▸ List.mem_append_right _ q
  have inF : ∀ s ∈ F, s ∈ stack := fun s q => hs ▸ List.mem_append_left _ (hF s q)
  have hch' : Chain (nodes1 ++ [new]) stack' := by
    refine chain_congr (fun s hs' => ?_) (chain_right hch)
    obtain ⟨n, e, _⟩ := chain_mem (chain_right hch) s hs'
    rw [old s n e, if_neg (notF s hs'), e]
  have hlt' : ∀ s ∈ stack', s < nodes.length := by
    intro s hs'
    obtain ⟨n, e, _⟩ := chain_mem (chain_right hch) s hs'
    exact (List.getElem?_eq_some_iff.1 e).1
  -- the open elements are the ancestors of the new sequence
  have openAnc : ∀ a ∈ stack', Anc (nodes1 ++ [new]) a nodes.length := by
    intro a ha
    cases hst' : stack' with
    | nil => rw [hst'] at ha; cases ha
    | cons s r =>
      rw [hst'] at ha hch' parNew
      rcases List.mem_cons.1 ha with rfl | q
      · exact .parent parNew
      · refine .up parNew (ancNew (h.live a (inSt a (by rw [hst']; exact ha)) s (hlt' s (by rw [hst']; exact List.mem_cons_self)) (hch'.2.1 a q)))
  have ancOpen : ∀ a, Anc (nodes1 ++ [new]) a nodes.length → a ∈ stack' := fun a q => anc_open q hch' parNew
  refine ⟨?_, ?_, ?_, ?_, ?_, ?_, ?_, ?_⟩
  · rcases hst with rfl | ⟨rfl, k1, k2, k3⟩
    · exact hch'
    · exact ⟨⟨new, lst, k1, k2, hpar, k3⟩, hlt', hch'⟩
  · intro k n' p e hp
    rcases look k n' e with ⟨rfl, rfl⟩ | ⟨n, e', hk, rfl⟩
    · rw [hpar] at hp
      have hm := List.mem_of_mem_head? hp
      obtain ⟨m, em, k1, _, k3⟩ := chain_mem hch' p hm
      exact ⟨hlt' p hm, m, em, k1, k3⟩
    · rw [(fields k n).2.1] at hp
      obtain ⟨a1, m, a2, a3, a4⟩ := h.parent e' hp
      exact ⟨a1, _, old p m a2, by rw [(fields p m).1]; exact a3, by rw [(fields p m).2.2.1]; exact a4⟩
  · intro k n' q e hq
    rcases look k n' e with ⟨rfl, rfl⟩ | ⟨n, e', hk, rfl⟩
    · rcases hfin with ⟨q1, _⟩ | ⟨q1, q2, q3⟩
      · rw [q1] at hq; cases hq
      · rw [q1] at hq
        cases hq
        exact ⟨q2, .inl ⟨rfl, q3⟩⟩
    · by_cases hf : k ∈ F
      · rw [if_pos hf] at hq ⊢
        cases hq
        obtain ⟨n0, e0, k1, k2, k3⟩ := chain_mem h.chain k (inF k hf)
        rw [e'] at e0
        cases e0
        exact ⟨k1, .inr ⟨hk, k3, new, lst, hend k hf n e'⟩⟩
      · rw [if_neg hf] at hq ⊢
        obtain ⟨a1, a2⟩ := h.fin e' hq
        refine ⟨a1, ?_⟩
        rcases a2 with a2 | ⟨b1, b2, m, b3, b4⟩
        · exact .inl a2
        · refine .inr ⟨b1, b2, _, old q m b3, ?_⟩
          unfold Node.isElement
          rw [(fields q m).1, (fields q m).2.2.1, (fields q m).2.2.2]
          exact b4
  · intro k n' s e hb
    rcases look k n' e with ⟨rfl, rfl⟩ | ⟨n, e', hk, rfl⟩
    · obtain ⟨a1, a2, a3⟩ := hbeg s hb
      obtain ⟨m, em, k1, k2, k3⟩ := chain_mem h.chain s (inF s a2)
      refine ⟨a1, (List.getElem?_eq_some_iff.1 em).1, _, old s m em, ?_⟩
      rw [if_pos a2]
      exact ⟨k1, rfl, (a3 m em).1, by rw [hpar]; exact (a3 m em).2⟩
    · rw [(fields k n).2.2.2] at hb
      obtain ⟨a1, a2, m, a3, a4, a5, a6, a7⟩ := h.beg e' hb
      rw [(fields k n).1, (fields k n).2.1, (fields k n).2.2.1]
      refine ⟨a1, a2, m, ?_, a4, a5, a6, a7⟩
      rw [old s m a3, if_neg]
      intro hf
      obtain ⟨n0, e0, _, k2, _⟩ := chain_mem h.chain s (inF s hf)
      rw [a3] at e0
      cases e0
      rw [a5] at k2
      cases k2
  · intro k n' m' p e hel hp em
    rcases look k n' e with ⟨rfl, rfl⟩ | ⟨n, e', hk, rfl⟩
    · rw [hpar] at hp
      rcases look p m' em with ⟨rfl, rfl⟩ | ⟨m, e'', _, rfl⟩
      · have := hlt' _ (List.mem_of_mem_head? hp); omega
      · rw [(fields p m).2.2.1]
        exact hallow hel p m hp e''
    · rw [(fields k n).2.1] at hp
      have hpk := (h.parent e' hp).1
      unfold Node.isElement at hel
      rw [(fields k n).1] at hel
      rcases look p m' em with ⟨rfl, rfl⟩ | ⟨m, e'', _, rfl⟩
      · omega
      · rw [(fields p m).2.2.1, (fields k n).2.2.1]
        exact h.allow e' hel hp e''
  · intro a n' x e hx b hb
    have hb : b ≤ nodes.length := by rw [List.length_append, hlen] at hb; simp at hb; omega
    rcases look a n' e with ⟨rfl, rfl⟩ | ⟨n, e', hk, rfl⟩
    · have : x = nodes.length := by
        rcases hfin with ⟨q1, _⟩ | ⟨q1, _⟩
        · rw [q1] at hx; cases hx
        · rw [q1] at hx; cases hx; rfl
      subst this
      constructor
      · omega
      · intro q
        have : ∀ k p, par (nodes1 ++ [n']) k = some p → p < k := by
          intro k p e
          by_cases hk : k < nodes.length
          · rw [parOld k hk] at e; exact (parLt k p e).1
          · by_cases hk' : k = nodes.length
            · subst hk'
              rw [parNew] at e
              exact hlt' p (List.mem_of_mem_head? e)
            · unfold par at e
              rw [List.getElem?_eq_none (by rw [List.length_append, hlen]; simp; omega)] at e
              cases e
        have := anc_lt this q
        omega
    · by_cases hf : a ∈ F
      · rw [if_pos hf] at hx
        cases hx
        constructor
        · rintro ⟨q1, q2⟩
          exact ancNew (h.live a (inF a hf) b q2 q1)
        · intro q
          by_cases hbe : b = nodes.length
          · subst hbe
            exact absurd hf (notF a (ancOpen a q))
          · have q' := ancOld (by omega) q
            exact ⟨anc_lt (fun k p e => (parLt k p e).1) q', by omega⟩
      · rw [if_neg hf] at hx
        have hin := h.inside e' hx
        by_cases hbe : b = nodes.length
        · subst hbe
          constructor
          · rintro ⟨q1, q2⟩
            exfalso
            have := (h.fin e' hx).2
            rcases this with ⟨rfl, _⟩ | ⟨_, _, m, em, _⟩
            · omega
            · have := (List.getElem?_eq_some_iff.1 em).1; omega
          · intro q
            exfalso
            obtain ⟨n0, e0, _, k2, _⟩ := chain_mem (chain_right hch) a (ancOpen a q)
            rw [e'] at e0
            cases e0
            rw [hx] at k2
            cases k2
        · have hb' : b < nodes.length := by omega
          rw [hin b hb']
          exact ⟨ancNew, ancOld hb'⟩
  · intro a ha b hb hab
    have hb : b ≤ nodes.length := by rw [List.length_append, hlen] at hb; simp at hb; omega
    have ha' : a ∈ stack' := by
      rcases hst with rfl | ⟨rfl, _⟩
      · exact ha
      · rcases List.mem_cons.1 ha with rfl | q
        · omega
        · exact q
    by_cases hbe : b = nodes.length
    · subst hbe; exact openAnc a ha'
    · exact ancNew (h.live a (inSt a ha') b (by omega) hab)
  · intro k n' e hk hi
    rcases look k n' e with ⟨rfl, rfl⟩ | ⟨n, e', hk', rfl⟩
    · rcases hfin with ⟨_, q⟩ | ⟨q, _⟩
      · exact absurd hi (q hk)
      · exact q
    · rw [(fields k n).1] at hk
      rw [(fields k n).2.2.1] at hi
      by_cases hf : k ∈ F
      · exfalso
        obtain ⟨n0, e0, _, _, k3⟩ := chain_mem h.chain k (inF k hf)
        rw [e'] at e0
        cases e0
        exact k3 hi
      · rw [if_neg hf]
        exact h.immediate e' hk hi

/-- What is popped is ended, or inside of what is ended. -/
theorem settled_add {nodes nodes1 : List Node} {stack pop stack' st F : List Nat} {new : Node} (h : Tree nodes stack) (hd : Settled nodes stack) (hs : stack = pop ++ stack')
    (h1 : ∀ k, nodes1[k]? = (nodes[k]?).map fun n => if k ∈ F then { n with fin := some nodes.length } else n) (hF : ∀ s ∈ F, s ∈ pop) (hpop : ∀ k ∈ pop, k ∉ F → ∃ s ∈ F, s < k)
    (hst : (st = stack' ∧ (new.kind = .element_start → new.fin ≠ none)) ∨ st = nodes.length :: stack') : Settled (nodes1 ++ [new]) st := by
  have hlen : nodes1.length = nodes.length := by
    have a1 := h1 nodes1.length
    have a2 := h1 nodes.length
    rw [List.getElem?_eq_none (Nat.le_refl _)] at a1 a2
    have b1 := Option.map_eq_none_iff.1 a1.symm
    rw [List.getElem?_eq_none_iff] at b1
    have b2 : nodes1[nodes.length]? = none := by rw [a2]; rfl
    rw [List.getElem?_eq_none_iff] at b2
    omega
  have old : ∀ k n, nodes[k]? = some n → (nodes1 ++ [new])[k]? = some (if k ∈ F then { n with fin := some nodes.length } else n) := by
    intro k n e
    rw [List.getElem?_append_left (by rw [hlen]; exact (List.getElem?_eq_some_iff.1 e).1), h1, e]
    rfl
  have lst : (nodes1 ++ [new])[nodes.length]? = some new := by rw [← hlen, List.getElem?_append_right (Nat.le_refl _), Nat.sub_self]; rfl
  have ancNew : ∀ {a b}, Anc nodes a b → Anc (nodes1 ++ [new]) a b := fun q => anc_mono (fun k p e => by
    unfold par at e ⊢
    cases hk : nodes[k]? with
    | none => rw [hk] at e; cases e
    | some n =>
      rw [hk] at e
      rw [old k n hk]
      dsimp only [Option.bind_some] at e ⊢
      split <;> exact e) q
  intro k n' e hk hf
  by_cases q : k < nodes.length
  · have e' := List.getElem?_eq_getElem q
    rw [old k _ e'] at e
    injection e with e
    generalize nodes[k] = n at e e'
    subst e
    by_cases hkF : k ∈ F
    · rw [if_pos hkF] at hf
      cases hf
    · rw [if_neg hkF] at hk hf
      rcases hd k n e' hk hf with hm | ⟨a, m, x, a1, a2, a3⟩
      · rw [hs] at hm
        rcases List.mem_append.1 hm with hm | hm
        · obtain ⟨s, s1, s2⟩ := hpop k hm hkF
          obtain ⟨m, em, _⟩ := chain_mem h.chain s (hs ▸ List.mem_append_left _ (hF s s1))
          exact .inr ⟨s, _, nodes.length, ancNew (h.live s (hs ▸ List.mem_append_left _ (hF s s1)) k q s2), old s m em, by rw [if_pos s1]⟩
        · refine .inl ?_
          rcases hst with ⟨rfl, _⟩ | rfl
          · exact hm
          · exact List.mem_cons_of_mem _ hm
      · refine .inr ⟨a, _, x, ancNew a1, old a m a2, ?_⟩
        rw [if_neg]
        · exact a3
        · intro hf'
          obtain ⟨m0, e0, _, k2, _⟩ := chain_mem h.chain a (hs ▸ List.mem_append_left _ (hF a hf'))
          rw [a2] at e0
          cases e0
          rw [a3] at k2
          cases k2
  · have hk' := (List.getElem?_eq_some_iff.1 e).1
    rw [List.length_append, hlen] at hk'
    have : k = nodes.length := by simp at hk'; omega
    subst this
    rw [lst] at e
    cases e
    rcases hst with ⟨rfl, hst⟩ | rfl
    · exact absurd hf (hst hk)
    · exact .inl List.mem_cons_self

/-- A sequence that is no element is put into the open element. -/
theorem tree_push {nodes : List Node} {stack : List Nat} {new : Node} (h : Tree nodes stack) (hp : new.parent = stack.head?) (hk : new.kind ≠ .element ∧ new.kind ≠ .element_start) (hf : new.fin = none) (hb : new.beg = none) :
    Tree (nodes ++ [new]) stack ∧ (Settled nodes stack → Settled (nodes ++ [new]) stack) := by
  have e : ∀ k, nodes[k]? = (nodes[k]?).map fun n => if k ∈ ([] : List Nat) then { n with fin := some nodes.length } else n := by
    intro k
    cases nodes[k]? <;> simp
  constructor
  · refine tree_add (pop := []) (F := []) h rfl (fun _ q => nomatch q) e hp (fun _ q => nomatch q) (.inl ⟨hf, fun q => absurd q hk.2⟩) (fun s q => by rw [hb] at q; cases q) (fun q => ?_) (.inl rfl)
    rcases q with q | q
    · exact absurd q hk.1
    · exact absurd q hk.2
  · intro hd
    exact settled_add (pop := []) (F := []) h hd rfl e (fun _ q => nomatch q) (fun _ q => nomatch q) (.inl ⟨rfl, fun q => absurd q hk.2⟩)

theorem endOpen_spec {code : Elem} {K : Nat} : ∀ {stack : List Nat} {nodes : List Node} {p : Option Nat} {nodes' : List Node} {stack' : List Nat} {p' : Option Nat}, Chain nodes stack → (stack = [] → p = none) →
    endOpen code K nodes stack p = some (nodes', stack', p') →
    ∃ pop, stack = pop ++ stack' ∧ (∀ k, nodes'[k]? = (nodes[k]?).map fun n => if k ∈ pop then { n with fin := some K } else n) ∧ p' = stack'.head? ∧
      (∀ s ∈ pop, ∀ n, nodes[s]? = some n → mayContain n.code code = false) ∧ (∀ s n, stack'.head? = some s → nodes[s]? = some n → mayContain n.code code = true)
  | [], nodes, p, nodes', stack', p', _, hp, h => by
    rw [endOpen] at h
    cases h
    refine ⟨[], rfl, fun k => ?_, hp rfl, (fun _ q => nomatch q), (fun _ _ q => nomatch q)⟩
    cases nodes[k]? <;> simp
  | s :: r, nodes, p, nodes', stack', p', hc, _, h => by
    rw [endOpen] at h
    obtain ⟨n, hn, _, _, hpar, _⟩ := hc.1
    rw [hn] at h
    dsimp only at h
    by_cases hm : mayContain n.code code = true
    · rw [if_pos hm] at h
      cases h
      refine ⟨[], rfl, fun k => ?_, rfl, (fun _ q => nomatch q), fun x m e em => ?_⟩
      · cases nodes[k]? <;> simp
      · cases e
        rw [hn] at em
        cases em
        exact hm
    · rw [if_neg hm] at h
      have hset : ∀ k, (nodes.set s { n with fin := some K })[k]? = (nodes[k]?).map fun n => if k = s then { n with fin := some K } else n := by
        intro k
        rw [List.getElem?_set]
        by_cases q : s = k
        · subst q
          rw [if_pos rfl, hn, if_pos (List.getElem?_eq_some_iff.1 hn).1]
          simp
        · rw [if_neg q]
          cases nodes[k]? with
          | none => rfl
          | some m => rw [Option.map_some, if_neg (fun e => q e.symm)]
      have hc' : Chain (nodes.set s { n with fin := some K }) r := by
        refine chain_congr (fun x hx => ?_) hc.2.2
        have := hc.2.1 x hx
        rw [hset x]
        cases nodes[x]? with
        | none => rfl
        | some m => rw [Option.map_some, if_neg (by omega)]
      obtain ⟨pop, h1, h2, h3, h4, h5⟩ := endOpen_spec hc' (by rintro rfl; exact hpar) h
      have hlt : ∀ x, x ∈ pop → x < s := fun x hx => hc.2.1 x (by rw [h1]; exact List.mem_append_left _ hx)
      have hlt' : ∀ x, stack'.head? = some x → x < s := fun x hx => hc.2.1 x (by rw [h1]; exact List.mem_append_right _ (List.mem_of_mem_head? hx))
      refine ⟨s :: pop, by rw [h1]; rfl, fun k => ?_, h3, fun x hx m em => ?_, fun x m e em => ?_⟩
      · rw [h2 k, hset k]
        cases hk : nodes[k]? with
        | none => rfl
        | some m =>
          simp only [Option.map_some, List.mem_cons]
          by_cases q : k = s
          · subst q
            rw [if_pos rfl, if_neg (fun y => by have := hlt k y; omega), if_pos (.inl rfl)]
          · rw [if_neg q]
            by_cases q' : k ∈ pop
            · rw [if_pos q', if_pos (.inr q')]
            · rw [if_neg q', if_neg (fun y => y.elim q q')]
      · rcases List.mem_cons.1 hx with rfl | hx
        · rw [hn] at em
          cases em
          simpa using hm
        · have := h4 x hx
          rw [hset x, em] at this
          have := this _ rfl
          dsimp only at this
          rw [if_neg (by have := hlt x hx; omega)] at this
          exact this
      · have := h5 x
        rw [hset x, em] at this
        have := this _ e rfl
        dsimp only at this
        rw [if_neg (by have := hlt' x e; omega)] at this
        exact this

theorem findStart_spec {L : Lex} {src : List Int} {code : Elem} {name : Nat × Nat} {nodes : List Node} {s : Nat} {n : Node} {stack : List Nat} : ∀ {st : List Nat},
    findStart L src code name nodes st = some (some (s, n, stack)) → nodes[s]? = some n ∧ n.code = code ∧ ∃ pre, st = pre ++ s :: stack
  | [], hf => by rw [findStart] at hf; cases hf
  | x :: st, hf => by
    have next : findStart L src code name nodes st = some (some (s, n, stack)) → nodes[s]? = some n ∧ n.code = code ∧ ∃ pre, x :: st = pre ++ s :: stack := by
      intro q
      obtain ⟨a, b, pre, c⟩ := findStart_spec q
      exact ⟨a, b, x :: pre, by rw [c]; rfl⟩
    rw [findStart] at hf
    cases hx : nodes[x]? with
    | none => rw [hx] at hf; cases hf
    | some m =>
      rw [hx] at hf
      dsimp only at hf
      split at hf
      · cases hf; exact ⟨hx, by assumption, [], rfl⟩
      · split at hf
        · rename_i hu
          split at hf
          · cases hf
          · split at hf
            · cases hf; exact ⟨hx, by rw [hu.1, hu.2], [], rfl⟩
            · exact next hf
        · exact next hf

theorem tree_text {d : Doc} {i : Nat} (h : Tree d.nodes d.stack) : Tree (d.nodes ++ d.textPart i) d.stack ∧ (Settled d.nodes d.stack → Settled (d.nodes ++ d.textPart i) d.stack) := by
  unfold Doc.textPart
  split
  · exact tree_push h rfl ⟨(fun q => nomatch q), (fun q => nomatch q)⟩ rfl rfl
  · rw [List.append_nil]
    exact ⟨h, id⟩

/-- An end tag ends an element of the stack. -/
theorem tree_close {nodes : List Node} {pre stack : List Nat} {s : Nat} {n new : Node} (h : Tree nodes (pre ++ s :: stack)) (hn : nodes[s]? = some n) (hk : new.kind = .element_end) (hb : new.beg = some s) (hc : new.code = n.code)
    (hf : new.fin = none) (hp : new.parent = n.parent) :
    Tree (nodes.set s { n with fin := some nodes.length } ++ [new]) stack ∧ (Settled nodes (pre ++ s :: stack) → Settled (nodes.set s { n with fin := some nodes.length } ++ [new]) stack) := by
  have e : ∀ k, (nodes.set s { n with fin := some nodes.length })[k]? = (nodes[k]?).map fun m => if k ∈ [s] then { m with fin := some nodes.length } else m := by
    intro k
    rw [List.getElem?_set]
    by_cases q : s = k
    · subst q
      rw [if_pos rfl, hn, if_pos (List.getElem?_eq_some_iff.1 hn).1]
      simp
    · rw [if_neg q]
      cases nodes[k]? with
      | none => rfl
      | some m => rw [Option.map_some, if_neg (fun e => q (List.mem_singleton.1 e).symm)]
  have hs : pre ++ s :: stack = (pre ++ [s]) ++ stack := by simp
  have hin : ∀ x ∈ [s], x ∈ pre ++ [s] := fun x q => List.mem_append_right _ q
  have hpar : n.parent = stack.head? := by
    obtain ⟨n0, e0, _, _, k, _⟩ := (chain_right h.chain).1
    rw [hn] at e0
    cases e0
    exact k
  constructor
  · refine tree_add h hs hin e (hp.trans hpar) (fun x q m em => ?_) (.inl ⟨hf, fun q => by rw [hk] at q; cases q⟩) (fun x q => ?_) (fun q => ?_) (.inl rfl)
    · rw [List.mem_singleton.1 q]
      exact .inl ⟨hk, hb⟩
    · rw [hb] at q
      cases q
      refine ⟨hk, List.mem_singleton_self _, fun m em => ?_⟩
      rw [hn] at em
      cases em
      exact ⟨hc.symm, hpar⟩
    · rcases q with q | q <;> rw [hk] at q <;> cases q
  · intro hd
    refine settled_add h hd hs e hin (fun k hk' hk2 => ⟨s, List.mem_singleton_self _, ?_⟩) (.inl ⟨rfl, fun q => by rw [hk] at q; cases q⟩)
    rcases List.mem_append.1 hk' with q | q
    · exact chain_lt h.chain k q s List.mem_cons_self
    · exact absurd q hk2

/-- What a round does to the tree. -/
theorem tree_step {L : Lex} {d d' : Doc} {i i' : Nat} (h : Tree d.nodes d.stack) (hm : Move L d i d' i') : Tree d'.nodes d'.stack ∧ (Settled d.nodes d.stack → Settled d'.nodes d'.stack) := by
  have ht := tree_text (i := i) h
  cases hm with
  | skip => exact ⟨h, id⟩
  | cdata => exact tree_push h rfl (by dsimp only; split <;> exact ⟨(fun q => nomatch q), (fun q => nomatch q)⟩) rfl rfl
  | ignored => exact ⟨h, id⟩
  | valid =>
    dsimp only
    rw [d.pushText_nodes, show (d.pushText i).stack = d.stack by unfold Doc.pushText Doc.push; split <;> rfl]
    exact ht
  | condition => exact ⟨h, id⟩
  | @special s stack n tag hp hsp hst hn hta hty hc =>
    dsimp only [Doc.push]
    rw [d.upTo_nodes, hst]
    rw [hst] at ht h
    have hn' : (d.nodes ++ d.textPart i)[s]? = some n := by rw [List.getElem?_append_left (List.getElem?_eq_some_iff.1 hn).1, hn]
    have := tree_close (pre := []) ht.1 hn' (new := { kind := .element_end, iv := tag.interval, parent := n.parent, code := n.code, name := tag.name, beg := some s }) rfl rfl rfl rfl rfl
    exact ⟨this.1, fun q => this.2 (ht.2 q)⟩
  | @close tag code s n stack hp hsp hta hty hc hf =>
    obtain ⟨h1, h2, pre, h3⟩ := findStart_spec hf
    dsimp only [Doc.push]
    rw [d.upTo_nodes] at h1 hf ⊢
    rw [h3] at ht h
    have := tree_close ht.1 h1 (new := { kind := .element_end, iv := tag.interval, parent := n.parent, code := code, name := tag.name, beg := some s }) rfl rfl h2.symm rfl rfl
    rw [h3]
    exact ⟨this.1, fun q => this.2 (ht.2 q)⟩
  | @stray tag code hp hsp hta hty hc hf =>
    dsimp only [Doc.push]
    rw [d.upTo_nodes, d.upTo_stack]
    have := tree_push ht.1 (new := { kind := .element_end, iv := tag.interval, parent := d.active, code := code, name := tag.name }) rfl ⟨(fun q => nomatch q), (fun q => nomatch q)⟩ rfl rfl
    exact ⟨this.1, fun q => this.2 (ht.2 q)⟩
  | @other tag kind attrs ents hp hsp hta hk =>
    dsimp only [Doc.push]
    rw [d.upTo_nodes, d.upTo_stack]
    have := tree_push ht.1 (new := { kind := kind, iv := tag.interval, parent := d.active, name := tag.name, attrs := attrs }) rfl
      (by rcases hk with ⟨_, q, _⟩ | ⟨_, q, _⟩ | ⟨_, q, _⟩ <;> rw [q] <;> exact ⟨(fun q => nomatch q), (fun q => nomatch q)⟩) rfl rfl
    exact ⟨this.1, fun q => this.2 (ht.2 q)⟩
  | @element tag code nodes stack parent charset hp hsp hta hty hc ho =>
    rw [d.upTo_nodes] at ho
    obtain ⟨pop, h1, h2, h3, h4, h5⟩ := endOpen_spec ht.1.chain (fun _ => rfl) ho
    have hlen : nodes.length = (d.nodes ++ d.textPart i).length := by
      have := congrArg List.length (endOpen_bare ho)
      simpa using this
    have key : ∀ (new : Node) (st : List Nat), new.parent = parent → new.isElement → new.code = code → new.beg = none →
        ((new.fin = none ∧ (new.kind = .element_start → span new.code ≠ .immediate)) ∨ (new.fin = some nodes.length ∧ new.kind = .element_start ∧ span new.code = .immediate)) →
        (st = stack ∧ (new.kind = .element_start → new.fin ≠ none) ∨ (st = nodes.length :: stack ∧ new.kind = .element_start ∧ new.fin = none ∧ span new.code ≠ .immediate)) →
        Tree (nodes ++ [new]) st ∧ (Settled d.nodes d.stack → Settled (nodes ++ [new]) st) := by
      intro new st k1 k2 k3 k4 k5 k6
      rw [hlen] at k5 k6
      constructor
      · refine tree_add ht.1 h1 (fun _ q => q) h2 (k1.trans h3) (fun s q n e => .inr ⟨k2, by rw [k3]; exact h4 s q n e⟩) k5 (fun s q => by rw [k4] at q; cases q) (fun _ p m e em => by rw [k3]; exact h5 p m e em) ?_
        rcases k6 with q | q
        · exact .inl q.1
        · exact .inr q
      · intro hd
        refine settled_add ht.1 (ht.2 hd) h1 h2 (fun _ q => q) (fun k q q' => absurd q q') ?_
        rcases k6 with q | q
        · exact .inl q
        · exact .inr q.1
    unfold Doc.addElement Doc.push
    dsimp only
    rcases hty with hty | hty
    · rw [if_pos hty]
      exact key _ _ rfl (.inl rfl) rfl rfl (.inl ⟨rfl, fun q => by cases q⟩) (.inl ⟨rfl, fun q => by cases q⟩)
    · rw [if_neg (by rw [hty]; decide)]
      by_cases hi : span code = .immediate
      · rw [if_pos hi]
        exact key _ _ rfl (.inr rfl) rfl rfl (.inr ⟨rfl, rfl, hi⟩) (.inl ⟨rfl, fun _ q => by cases q⟩)
      · rw [if_neg hi]
        exact key _ _ rfl (.inr rfl) rfl rfl (.inl ⟨rfl, fun _ => hi⟩) (.inr ⟨rfl, rfl, rfl, hi⟩)

theorem tree_nil : Tree [] [] := by
  refine ⟨trivial, ?_, ?_, ?_, ?_, ?_, (fun _ q => nomatch q), ?_⟩ <;> intros <;> rename_i h <;> simp_all

theorem tree_close_all {nodes : List Node} {stack : List Nat} (h : Tree nodes stack) : Tree nodes [] := ⟨trivial, h.parent, h.fin, h.beg, h.allow, h.inside, (fun _ q => nomatch q), h.immediate⟩

theorem reach_tree {L : Lex} (hL : L.Ok) {d : Doc} (h : Reach L d) : Tree d.nodes d.stack := by
  induction h with
  | new => exact tree_nil
  | clear => exact tree_nil
  | @append d d' more _ hs he ih =>
    obtain ⟨_, h', -⟩ := (docLoop_ind hL (P := fun x _ => Tree x.nodes x.stack) (fun _ _ hp hm => (tree_step hp hm).1) _ { d with source := d.source ++ more } _ hs ih).1 _ he
    exact h'
  | @throws d d' more _ hs he ih =>
    obtain ⟨d0, i0, h', -, -, ht⟩ := (docLoop_ind hL (P := fun x _ => Tree x.nodes x.stack) (fun _ _ hp hm => (tree_step hp hm).1) _ { d with source := d.source ++ more } _ hs ih).2 _ he
    cases ht with
    | same => exact h'
    | @tag tag h1 h2 h3 h4 =>
      rw [d0.upTo_nodes, d0.upTo_stack]
      exact (tree_text h').1
  | @finalize d _ ih =>
    rw [finalize_nodes]
    exact tree_close_all (tree_text ih).1

theorem fed_settled {L : Lex} (hL : L.Ok) {d : Doc} (h : Fed L d) : Settled d.nodes d.stack := by
  induction h with
  | new => intro k n e; cases e
  | @append d d' more hf hs he ih =>
    have ht := reach_tree hL (fed_reach hf)
    obtain ⟨_, h', -⟩ := (docLoop_ind hL (P := fun x _ => Tree x.nodes x.stack ∧ Settled x.nodes x.stack) (fun _ _ hp hm => ⟨(tree_step hp.1 hm).1, (tree_step hp.1 hm).2 hp.2⟩) _ { d with source := d.source ++ more } _ hs
      ⟨ht, ih⟩).1 _ he
    exact h'.2

/-! ### Properties -/

/-- **C106** Whatever was done to the document: the parent of a sequence is before it, and is the start tag of an element that has an end tag. -/
theorem doc_parent {L : Lex} (hL : L.Ok) {d : Doc} (h : Reach L d) {k p : Nat} {n : Node} (hk : d.nodes[k]? = some n) (hp : n.parent = some p) :
    p < k ∧ ∃ m, d.nodes[p]? = some m ∧ m.kind = .element_start ∧ span m.code ≠ .immediate := (reach_tree hL h).parent hk hp

/-- **C106** Whatever was done to the document: only start tags have ends. The end of an element that has no end tag is the element, and the end of any other is later, and is its end tag or an element that it may not contain. -/
theorem doc_end {L : Lex} (hL : L.Ok) {d : Doc} (h : Reach L d) {k q : Nat} {n : Node} (hk : d.nodes[k]? = some n) (hq : n.fin = some q) : n.kind = .element_start ∧ EndsWith d.nodes k n q := (reach_tree hL h).fin hk hq

/-- **C106** Whatever was done to the document: only end tags have starts. The start is an earlier start tag of the same element with the same parent, which ends here. -/
theorem doc_start {L : Lex} (hL : L.Ok) {d : Doc} (h : Reach L d) {k s : Nat} {n : Node} (hk : d.nodes[k]? = some n) (hs : n.beg = some s) :
    n.kind = .element_end ∧ s < k ∧ ∃ m, d.nodes[s]? = some m ∧ m.kind = .element_start ∧ m.fin = some k ∧ m.code = n.code ∧ m.parent = n.parent := (reach_tree hL h).beg hk hs

/-- **C106** Whatever was done to the document: every element is in an element that may contain it. -/
theorem doc_allowed {L : Lex} (hL : L.Ok) {d : Doc} (h : Reach L d) {k p : Nat} {n m : Node} (hk : d.nodes[k]? = some n) (he : n.isElement) (hp : n.parent = some p) (hm : d.nodes[p]? = some m) : mayContain m.code n.code = true :=
  (reach_tree hL h).allow hk he hp hm

/-- **C106** Whatever was done to the document: what stands between the start and the end of an element is what has the element as an ancestor. Elements are therefore nested. -/
theorem doc_nested {L : Lex} (hL : L.Ok) {d : Doc} (h : Reach L d) {a x : Nat} {n : Node} (ha : d.nodes[a]? = some n) (hx : n.fin = some x) (b : Nat) (hb : b < d.nodes.length) : (a < b ∧ b < x) ↔ Anc d.nodes a b :=
  (reach_tree hL h).inside ha hx b hb

/-- **C106** Whatever was done to the document: the start tag of an element that has no end tag is its own end. -/
theorem doc_immediate {L : Lex} (hL : L.Ok) {d : Doc} (h : Reach L d) {k : Nat} {n : Node} (hk : d.nodes[k]? = some n) (hs : n.kind = .element_start) (hi : span n.code = .immediate) : n.fin = some k :=
  (reach_tree hL h).immediate hk hs hi

/-- **C106** A document that was appended to, with or without `finalize`: a start tag without an end is inside of an element that has one, or everything that follows is inside of it. -/
theorem doc_open {L : Lex} (hL : L.Ok) {d d' : Doc} (h : Fed L d) (hd : d' = d ∨ d' = d.finalize) {k : Nat} {n : Node} (hk : d'.nodes[k]? = some n) (hs : n.kind = .element_start) (hf : n.fin = none) :
    (∃ a m x, Anc d'.nodes a k ∧ d'.nodes[a]? = some m ∧ m.fin = some x) ∨ ∀ b, k < b → b < d'.nodes.length → Anc d'.nodes k b := by
  have ht := reach_tree hL (fed_reach h)
  have hse := fed_settled hL h
  have key : Tree d'.nodes d.stack ∧ Settled d'.nodes d.stack := by
    rcases hd with rfl | rfl
    · exact ⟨ht, hse⟩
    · rw [finalize_nodes]
      exact ⟨(tree_text ht).1, (tree_text ht).2 hse⟩
  rcases key.2 k n hk hs hf with q | q
  · exact .inr fun b h1 h2 => key.1.live k q b h2 h1
  · exact .inl q

end Verif.Html
