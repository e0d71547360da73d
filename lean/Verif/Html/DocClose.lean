import Verif.Html.DocTree
/-
Which elements end tags end: `document::append` of include/stdex/html.hpp (1712-1730, 1805-1824).
-/
namespace Verif.Html
open Verif.Str Verif.Sgml Verif.Parser

/-! ### Specification -/

/-- The element that starts with the sequence `s` is over before the sequence `k`: it, or an element around it, has an end, and this is before `k`. -/
def Over (nodes : List Node) (s k : Nat) : Prop := ∃ (a : Nat) (m : Node) (x : Nat), (a = s ∨ Anc nodes a s) ∧ nodes[a]? = some m ∧ m.fin = some x ∧ x < k

/-! ### Proofs -/

/-- Every end tag ends the innermost element that it can end. -/
def Matched (nodes : List Node) : Prop :=
  ∀ (k : Nat) (n : Node) (s : Nat) (m : Node), nodes[k]? = some n → n.kind = .element_end → nodes[s]? = some m → m.kind = .element_start → m.code = n.code → s < k → (∀ b, n.beg = some b → b < s) → Over nodes s k

/-- The store grows, and elements that have no end get ends. -/
def Grows (nodes nodes' : List Node) : Prop :=
  ∀ (k : Nat) (n : Node), nodes[k]? = some n → ∃ n' : Node, nodes'[k]? = some n' ∧ n'.kind = n.kind ∧ n'.parent = n.parent ∧ n'.code = n.code ∧ n'.beg = n.beg ∧ (n.fin ≠ none → n'.fin = n.fin)

theorem Grows.len {nodes nodes' : List Node} (h : Grows nodes nodes') : nodes.length ≤ nodes'.length := by
  rcases Nat.eq_zero_or_pos nodes.length with q | q
  · omega
  · obtain ⟨_, e, _⟩ := h (nodes.length - 1) _ (List.getElem?_eq_getElem (by omega))
    have := (List.getElem?_eq_some_iff.1 e).1
    omega

theorem Grows.trans {a b c : List Node} (h : Grows a b) (h' : Grows b c) : Grows a c := by
  intro k n e
  obtain ⟨n1, e1, p1, p2, p3, p4, p5⟩ := h k n e
  obtain ⟨n2, e2, q1, q2, q3, q4, q5⟩ := h' k n1 e1
  refine ⟨n2, e2, q1.trans p1, q2.trans p2, q3.trans p3, q4.trans p4, fun hf => ?_⟩
  have := p5 hf
  rw [q5 (by rw [this]; exact hf), this]

theorem grows_append (a b : List Node) : Grows a (a ++ b) := by
  intro k n e
  exact ⟨n, by rw [List.getElem?_append_left (List.getElem?_eq_some_iff.1 e).1, e], rfl, rfl, rfl, rfl, fun _ => rfl⟩

theorem grows_set {nodes : List Node} {s : Nat} {n : Node} {x : Option Nat} (hn : nodes[s]? = some n) (hf : n.fin = none) : Grows nodes (nodes.set s { n with fin := x }) := by
  intro k m e
  rw [List.getElem?_set]
  by_cases q : s = k
  · subst q
    rw [if_pos rfl, if_pos (List.getElem?_eq_some_iff.1 hn).1]
    rw [hn] at e
    cases e
    exact ⟨_, rfl, rfl, rfl, rfl, rfl, fun q => absurd hf q⟩
  · rw [if_neg q]
    exact ⟨m, e, rfl, rfl, rfl, rfl, fun _ => rfl⟩

theorem grows_anc {nodes nodes' : List Node} (h : Grows nodes nodes') {a b : Nat} (q : Anc nodes a b) : Anc nodes' a b := by
  refine anc_mono (fun k p e => ?_) q
  unfold par at e ⊢
  cases hk : nodes[k]? with
  | none => rw [hk] at e; cases e
  | some n =>
    rw [hk] at e
    obtain ⟨n', e', _, h2, _⟩ := h k n hk
    rw [e']
    exact h2.trans e

theorem grows_over {nodes nodes' : List Node} (h : Grows nodes nodes') {s k : Nat} (q : Over nodes s k) : Over nodes' s k := by
  obtain ⟨a, m, x, h1, h2, h3, h4⟩ := q
  obtain ⟨m', e, _, _, _, _, hf⟩ := h a m h2
  refine ⟨a, m', x, ?_, e, ?_, h4⟩
  · rcases h1 with h1 | h1
    · exact .inl h1
    · exact .inr (grows_anc h h1)
  · rw [hf (by rw [h3]; exact fun q => nomatch q), h3]

theorem matched_grows {nodes nodes' : List Node} (h : Matched nodes) (hg : Grows nodes nodes')
    (hnew : ∀ (k : Nat) (n : Node), nodes.length ≤ k → nodes'[k]? = some n → n.kind = .element_end → k = nodes'.length - 1 ∧
      ∀ (s : Nat) (m : Node), s < k → nodes'[s]? = some m → m.kind = .element_start → m.code = n.code → (∀ b, n.beg = some b → b < s) → Over nodes' s k) : Matched nodes' := by
  intro k n s m h1 h2 h3 h4 h5 h6 h7
  by_cases q : k < nodes.length
  · obtain ⟨n', e', a1, a2, a3, a4, _⟩ := hg k _ (List.getElem?_eq_getElem q)
    rw [h1] at e'
    cases e'
    obtain ⟨m', f', b1, b2, b3, b4, _⟩ := hg s _ (List.getElem?_eq_getElem (show s < nodes.length by omega))
    rw [h3] at f'
    cases f'
    exact grows_over hg (h k _ s _ (List.getElem?_eq_getElem q) (a1.symm.trans h2) (List.getElem?_eq_getElem (by omega)) (b1.symm.trans h4) (by rw [← b3, ← a3]; exact h5) h6 (fun b e => h7 b (a4.trans e)))
  · exact (hnew k n (by omega) h1 h2).2 s m h6 h3 h4 h5 h7

/-- What was not ended when an end tag came was on the stack. -/
theorem settled_over {nodes : List Node} {stack : List Nat} (ht : Tree nodes stack) (hd : Settled nodes stack) {s : Nat} {m : Node} (h1 : nodes[s]? = some m) (h2 : m.kind = .element_start) (h3 : s ∉ stack) : Over nodes s nodes.length := by
  have lt : ∀ {a : Nat} {m : Node} {x : Nat}, nodes[a]? = some m → m.fin = some x → x < nodes.length := by
    intro a m x e e'
    rcases (ht.fin e e').2 with ⟨rfl, _⟩ | ⟨_, _, m', e'', _⟩
    · exact (List.getElem?_eq_some_iff.1 e).1
    · exact (List.getElem?_eq_some_iff.1 e'').1
  cases hf : m.fin with
  | some x => exact ⟨s, m, x, .inl rfl, h1, hf, lt h1 hf⟩
  | none =>
    rcases hd s m h1 h2 hf with q | ⟨a, m', x, a1, a2, a3⟩
    · exact absurd q h3
    · exact ⟨a, m', x, .inr a1, a2, a3, lt a2 a3⟩

theorem findStart_inner {L : Lex} {src : List Int} {code : Elem} {name : Nat × Nat} {nodes : List Node} : ∀ {st : List Nat},
    (∀ {s n stack}, findStart L src code name nodes st = some (some (s, n, stack)) → ∃ pre, st = pre ++ s :: stack ∧ ∀ x ∈ pre, ∀ m, nodes[x]? = some m → m.code ≠ code) ∧
    (findStart L src code name nodes st = some none → ∀ x ∈ st, ∀ m, nodes[x]? = some m → m.code ≠ code)
  | [] => ⟨fun hf => (by rw [findStart] at hf; cases hf), (fun _ _ q => nomatch q)⟩
  | x :: st => by
    rw [findStart]
    cases hx : nodes[x]? with
    | none => exact ⟨(fun hf => nomatch hf), (fun hf => nomatch hf)⟩
    | some m =>
      dsimp only
      by_cases hc : m.code = code
      · rw [if_pos hc]
        refine ⟨fun hf => ?_, fun hf => by cases hf⟩
        cases hf
        exact ⟨[], rfl, fun _ q => nomatch q⟩
      · rw [if_neg hc, if_neg (fun q => hc (q.1.trans q.2.symm))]
        obtain ⟨h1, h2⟩ := findStart_inner (L := L) (src := src) (code := code) (name := name) (nodes := nodes) (st := st)
        refine ⟨fun hf => ?_, fun hf y hy m' em => ?_⟩
        · obtain ⟨pre, e, hp⟩ := h1 hf
          refine ⟨x :: pre, by rw [e]; rfl, fun y hy m' em => ?_⟩
          rcases List.mem_cons.1 hy with rfl | hy
          · rw [hx] at em; cases em; exact hc
          · exact hp y hy m' em
        · rcases List.mem_cons.1 hy with rfl | hy
          · rw [hx] at em; cases em; exact hc
          · exact h2 hf y hy m' em

/-- An end tag is added, and ends what it ends. -/
theorem matched_end {nodes nodes1 : List Node} {stack : List Nat} {new : Node} (h : Matched nodes) (ht : Tree nodes stack) (hd : Settled nodes stack) (hg : Grows nodes nodes1) (hlen : nodes1.length = nodes.length)
    (hin : ∀ s ∈ stack, ∀ m, nodes[s]? = some m → m.code = new.code → ∃ b, new.beg = some b ∧ s ≤ b) : Matched (nodes1 ++ [new]) := by
  have hg' := hg.trans (grows_append nodes1 [new])
  refine matched_grows h hg' fun k n hk e _ => ?_
  have hk' := (List.getElem?_eq_some_iff.1 e).1
  rw [List.length_append, List.length_singleton, hlen] at hk'
  have : k = nodes.length := by omega
  subst this
  rw [← hlen, List.getElem?_append_right (Nat.le_refl _), Nat.sub_self] at e
  cases e
  refine ⟨by rw [List.length_append, hlen]; simp, fun s m h1 h2 h3 h4 h5 => ?_⟩
  obtain ⟨m', f', b1, b2, b3, b4, _⟩ := hg' s _ (List.getElem?_eq_getElem h1)
  rw [h2] at f'
  cases f'
  refine grows_over hg' (settled_over ht hd (List.getElem?_eq_getElem h1) (b1.symm.trans h3) fun hm => ?_)
  obtain ⟨b, e1, e2⟩ := hin s hm _ (List.getElem?_eq_getElem h1) (b3.symm.trans h4)
  have := h5 b e1
  omega

theorem matched_push {nodes new : List Node} (h : Matched nodes) (hk : ∀ n ∈ new, n.kind ≠ .element_end) : Matched (nodes ++ new) := by
  refine matched_grows h (grows_append _ _) fun k n hle e hn => ?_
  rw [List.getElem?_append_right hle] at e
  exact absurd hn (hk n (List.mem_of_getElem? e))

theorem matched_text {d : Doc} {i : Nat} (h : Matched d.nodes) : Matched (d.nodes ++ d.textPart i) := by
  refine matched_push h fun n hn => ?_
  obtain ⟨_, rfl⟩ := textPart_mem hn
  exact fun q => nomatch q

theorem endOpen_grows {code : Elem} {K : Nat} {stack : List Nat} {nodes : List Node} {nodes' : List Node} {stack' : List Nat} {p' : Option Nat} (hc : Chain nodes stack) (h : endOpen code K nodes stack none = some (nodes', stack', p')) :
    Grows nodes nodes' := by
  obtain ⟨pop, h1, h2, -⟩ := endOpen_spec hc (fun _ => rfl) h
  intro k n e
  refine ⟨_, by rw [h2 k, e]; rfl, ?_⟩
  dsimp only
  by_cases q : k ∈ pop
  · rw [if_pos q]
    refine ⟨rfl, rfl, rfl, rfl, fun hf => ?_⟩
    obtain ⟨n', e', _, hf', _⟩ := chain_mem hc k (by rw [h1]; exact List.mem_append_left _ q)
    rw [e] at e'
    cases e'
    exact absurd hf' hf
  · rw [if_neg q]
    exact ⟨rfl, rfl, rfl, rfl, fun _ => rfl⟩

theorem matched_step {L : Lex} {d d' : Doc} {i i' : Nat} (h : Tree d.nodes d.stack) (hd : Settled d.nodes d.stack) (hma : Matched d.nodes) (hm : Move L d i d' i') : Matched d'.nodes := by
  have ht := tree_text (i := i) h
  have hs := ht.2 hd
  have ht := ht.1
  have hx := matched_text (i := i) hma
  cases hm with
  | skip => exact hma
  | cdata =>
    refine matched_push hma fun n hn => ?_
    rw [List.mem_singleton.1 hn]
    dsimp only
    split <;> exact fun q => nomatch q
  | ignored => exact hma
  | valid => dsimp only; rw [d.pushText_nodes]; exact hx
  | condition => exact hma
  | @special s stack n tag hp hsp hst hn hta hty hc =>
    dsimp only [Doc.push]
    rw [d.upTo_nodes]
    have hn' : (d.nodes ++ d.textPart i)[s]? = some n := by rw [List.getElem?_append_left (List.getElem?_eq_some_iff.1 hn).1, hn]
    rw [hst] at ht
    obtain ⟨n0, e0, _, hf, _⟩ := ht.chain.1
    rw [hn'] at e0
    cases e0
    rw [hst] at hs
    refine matched_end hx ht hs (grows_set hn' hf) List.length_set fun x hx' m em ec => ⟨s, rfl, ?_⟩
    rcases List.mem_cons.1 hx' with rfl | q
    · exact Nat.le_refl _
    · exact Nat.le_of_lt (ht.chain.2.1 x q)
  | @close tag code s n stack hp hsp hta hty hc hf =>
    obtain ⟨h1, h2, -⟩ := findStart_spec hf
    obtain ⟨pre, h3, h4⟩ := findStart_inner.1 hf
    dsimp only [Doc.push]
    rw [d.upTo_nodes] at h1 h4 ⊢
    rw [h3] at ht hs
    obtain ⟨n0, e0, _, hf, _⟩ := (chain_right ht.chain).1
    rw [h1] at e0
    cases e0
    refine matched_end hx ht hs (grows_set h1 hf) List.length_set fun x hx' m em ec => ⟨s, rfl, ?_⟩
    rcases List.mem_append.1 hx' with q | q
    · exact absurd ec (h4 x q m em)
    · rcases List.mem_cons.1 q with rfl | q
      · exact Nat.le_refl _
      · exact Nat.le_of_lt ((chain_right ht.chain).2.1 x q)
  | @stray tag code hp hsp hta hty hc hf =>
    have h4 := findStart_inner.2 hf
    dsimp only [Doc.push]
    rw [d.upTo_nodes] at h4 ⊢
    exact matched_end hx ht hs (fun k n e => ⟨n, e, rfl, rfl, rfl, rfl, fun _ => rfl⟩) rfl fun x hx' m em ec => absurd ec (h4 x hx' m em)
  | @other tag kind attrs ents hp hsp hta hk =>
    dsimp only [Doc.push]
    rw [d.upTo_nodes]
    refine matched_push hx fun n hn => ?_
    rw [List.mem_singleton.1 hn]
    dsimp only
    rcases hk with ⟨_, q, _⟩ | ⟨_, q, _⟩ | ⟨_, q, _⟩ <;> rw [q] <;> exact fun q => nomatch q
  | @element tag code nodes stack parent charset hp hsp hta hty hc ho =>
    rw [d.upTo_nodes] at ho
    have hg := endOpen_grows ht.chain ho
    have hlen : nodes.length = (d.nodes ++ d.textPart i).length := by
      have := congrArg List.length (endOpen_bare ho)
      simpa using this
    have key : ∀ new : Node, new.kind ≠ .element_end → Matched (nodes ++ [new]) := by
      intro new hk
      refine matched_grows hx (hg.trans (grows_append _ _)) fun k n hle e hn => ?_
      rw [List.getElem?_append_right (by omega)] at e
      rw [List.mem_singleton.1 (List.mem_of_getElem? e)] at hn
      exact absurd hn hk
    unfold Doc.addElement Doc.push
    dsimp only
    rcases hty with hty | hty
    · rw [if_pos hty]
      exact key _ (fun q => nomatch q)
    · rw [if_neg (by rw [hty]; decide)]
      by_cases hi : span code = .immediate
      · rw [if_pos hi]
        exact key _ (fun q => nomatch q)
      · rw [if_neg hi]
        exact key _ (fun q => nomatch q)

theorem fed_matched {L : Lex} (hL : L.Ok) {d : Doc} (h : Fed L d) : Matched d.nodes := by
  induction h with
  | new => intro k n s m e; cases e
  | @append d d' more hf hs he ih =>
    have ht := reach_tree hL (fed_reach hf)
    have hd := fed_settled hL hf
    obtain ⟨_, h', -⟩ := (docLoop_ind hL (P := fun x _ => (Tree x.nodes x.stack ∧ Settled x.nodes x.stack) ∧ Matched x.nodes)
      (fun _ _ hp hm => ⟨⟨(tree_step hp.1.1 hm).1, (tree_step hp.1.1 hm).2 hp.1.2⟩, matched_step hp.1.1 hp.1.2 hp.2 hm⟩) _ { d with source := d.source ++ more } _ hs
      ⟨⟨ht, hd⟩, ih⟩).1 _ he
    exact h'.2

/-! ### Properties -/

/-- **C107** A document that was appended to, with or without `finalize`: an end tag ends the last element of its name that was not over yet. Earlier start tags of its name are all over if the end tag has no start, and otherwise those
after its start are. -/
theorem doc_innermost {L : Lex} (hL : L.Ok) {d d' : Doc} (h : Fed L d) (hd : d' = d ∨ d' = d.finalize) {k s : Nat} {n m : Node} (hk : d'.nodes[k]? = some n) (hn : n.kind = .element_end) (hs : d'.nodes[s]? = some m) (hm : m.kind = .element_start)
    (hc : m.code = n.code) (hlt : s < k) (hb : ∀ b, n.beg = some b → b < s) : Over d'.nodes s k := by
  have key : Matched d'.nodes := by
    rcases hd with rfl | rfl
    · exact fed_matched hL h
    · rw [finalize_nodes]
      exact matched_text (fed_matched hL h)
  exact key k n s m hk hn hs hm hc hlt hb

end Verif.Html
