import Verif.Html.DocClose
/-
Special elements and text: `document::append` of include/stdex/html.hpp (1657-1864).
-/
namespace Verif.Html
open Verif.Str Verif.Sgml Verif.Parser

/-! ### Specification -/

/-- The content of these elements is not markup. -/
def Opaque (e : Elem) : Prop := e = .code ∨ e = .comment ∨ e = .script ∨ e = .style

/-- The sequence is text, or a marked section that is. -/
def Node.isText (n : Node) : Prop := n.kind = .text ∨ n.kind = .CDATA ∨ n.kind = .PCDATA

/-- No tag begins inside of the sequence, in the text `t`. -/
def NoTags (L : Lex) (t : List Int) (n : Node) : Prop := n.iv.2 ≤ t.length ∧ ∀ j, n.iv.1 ≤ j → j < n.iv.2 → ∀ T, ¬ TagAt L.v.space t j T

/-! ### Proofs -/

theorem isSpecial_iff (e : Elem) : isSpecialElement e = true ↔ Opaque e := by
  unfold isSpecialElement Opaque
  simp [or_assoc]

/-- The element at `s`. -/
def codeAt (nodes : List Node) (s : Nat) : Option Elem := (nodes[s]?).map fun n => n.code

/-- Special elements hold only text. -/
def Quiet (nodes : List Node) : Prop := ∀ (k : Nat) (n : Node) (p : Nat) (e : Elem), nodes[k]? = some n → n.parent = some p → codeAt nodes p = some e → Opaque e → n.isText

theorem codeAt_bare (nodes : List Node) (s : Nat) : codeAt (nodes.map Node.bare) s = codeAt nodes s := by
  unfold codeAt
  rw [List.getElem?_map]
  cases nodes[s]? <;> rfl

theorem quiet_bare {nodes : List Node} : Quiet (nodes.map Node.bare) ↔ Quiet nodes := by
  constructor
  · intro h k n p e hk hp hc ho
    exact h k n.bare p e (by rw [List.getElem?_map, hk]; rfl) hp (by rw [codeAt_bare]; exact hc) ho
  · intro h k n p e hk hp hc ho
    rw [codeAt_bare] at hc
    rw [List.getElem?_map] at hk
    cases hx : nodes[k]? with
    | none => rw [hx] at hk; cases hk
    | some m =>
      rw [hx] at hk
      cases hk
      exact h k m p e hx hp hc ho

theorem codeAt_left {a b : List Node} {s : Nat} (h : s < a.length) : codeAt (a ++ b) s = codeAt a s := by
  unfold codeAt
  rw [List.getElem?_append_left h]

/-- Parents come first. -/
def Early (nodes : List Node) : Prop := ∀ (k : Nat) (n : Node) (p : Nat), nodes[k]? = some n → n.parent = some p → p < k

theorem quiet_push {nodes : List Node} {new : Node} (hq : Quiet nodes) (he : Early nodes) (hlt : ∀ p, new.parent = some p → p < nodes.length) (h : new.isText ∨ ∀ p e, new.parent = some p → codeAt nodes p = some e → ¬ Opaque e) :
    Quiet (nodes ++ [new]) := by
  intro k n p e hk hp hc ho
  by_cases q : k < nodes.length
  · rw [List.getElem?_append_left q] at hk
    rw [codeAt_left (Nat.lt_trans (he k n p hk hp) q)] at hc
    exact hq k n p e hk hp hc ho
  · have hk' := (List.getElem?_eq_some_iff.1 hk).1
    rw [List.length_append, List.length_singleton] at hk'
    have : k = nodes.length := by omega
    subst this
    rw [List.getElem?_append_right (Nat.le_refl _), Nat.sub_self] at hk
    cases hk
    rw [codeAt_left (hlt p hp)] at hc
    rcases h with h | h
    · exact h
    · exact absurd ho (h p e hp hc)

theorem tree_early {nodes : List Node} {stack : List Nat} (h : Tree nodes stack) : Early nodes := fun _ _ _ hk hp => (h.parent hk hp).1

/-- The special mode and the stack. -/
structure Hush (strict : Prop) (d : Doc) : Prop where
  quiet : Quiet d.nodes
  plain : d.special = false → ∀ s ∈ d.stack, ∀ e, codeAt d.nodes s = some e → ¬ Opaque e
  top : d.special = true → (strict → d.stack ≠ []) ∧ (∀ s, d.stack.head? = some s → ∃ e, codeAt d.nodes s = some e ∧ Opaque e) ∧ ∀ s ∈ d.stack.tail, ∀ e, codeAt d.nodes s = some e → ¬ Opaque e

theorem chain_bound {nodes : List Node} {st : List Nat} (h : Chain nodes st) : ∀ s ∈ st, s < nodes.length := by
  intro s hs
  obtain ⟨n, e, _⟩ := chain_mem h s hs
  exact (List.getElem?_eq_some_iff.1 e).1

/-- Text does not matter. -/
theorem hush_push {strict : Prop} {d d' : Doc} {new : Node} (ht : Tree d.nodes d.stack) (h : Hush strict d) (h1 : d'.nodes = d.nodes ++ [new]) (h2 : d'.stack = d.stack) (h3 : d'.special = d.special) (hp : new.parent = d.active)
    (hn : new.isText ∨ d.special = false) : Hush strict d' where
  quiet := by
    rw [h1]
    refine quiet_push h.quiet (tree_early ht) (fun p q => chain_bound ht.chain p (List.mem_of_mem_head? (hp.symm.trans q))) ?_
    rcases hn with hn | hn
    · exact .inl hn
    · exact .inr fun p e q => h.plain hn p (List.mem_of_mem_head? (hp.symm.trans q)) e
  plain := by
    rw [h1, h2, h3]
    intro q s hs e hc
    rw [codeAt_left (chain_bound ht.chain s hs)] at hc
    exact h.plain q s hs e hc
  top := by
    rw [h1, h2, h3]
    intro q
    obtain ⟨a, b, c⟩ := h.top q
    refine ⟨a, fun s hs => ?_, fun s hs e hc => ?_⟩
    · rw [codeAt_left (chain_bound ht.chain s (List.mem_of_mem_head? hs))]
      exact b s hs
    · rw [codeAt_left (chain_bound ht.chain s (List.mem_of_mem_tail hs))] at hc
      exact c s hs e hc

theorem hush_text {strict : Prop} {d d' : Doc} {i : Nat} (ht : Tree d.nodes d.stack) (h : Hush strict d) (h1 : d'.nodes = d.nodes ++ d.textPart i) (h2 : d'.stack = d.stack) (h3 : d'.special = d.special) : Hush strict d' := by
  by_cases q : d.parsed < i
  · exact hush_push ht h (new := { kind := .text, iv := (d.parsed, i), parent := d.active }) (by rw [h1]; unfold Doc.textPart; rw [if_pos q]) h2 h3 rfl (.inl (.inl rfl))
  · have e : d'.nodes = d.nodes := by rw [h1]; unfold Doc.textPart; rw [if_neg q, List.append_nil]
    exact ⟨by rw [e]; exact h.quiet, by rw [e, h2, h3]; exact h.plain, by rw [e, h2, h3]; exact h.top⟩

theorem Doc.upTo_special (d : Doc) (i : Nat) (tag : Tag) : (d.upTo i tag).special = d.special := by unfold Doc.upTo Doc.pushText Doc.push; split <;> rfl

theorem codeAt_eq {a b : List Node} (h : a.map Node.bare = b.map Node.bare) (s : Nat) : codeAt a s = codeAt b s := by rw [← codeAt_bare, h, codeAt_bare]

theorem quiet_eq {a b : List Node} (h : a.map Node.bare = b.map Node.bare) (q : Quiet b) : Quiet a := quiet_bare.1 (by rw [h]; exact quiet_bare.2 q)

theorem early_eq {a b : List Node} (h : a.map Node.bare = b.map Node.bare) (q : Early b) : Early a := by
  intro k n p hk hp
  have e : (a.map Node.bare)[k]? = some n.bare := by rw [List.getElem?_map, hk]; rfl
  rw [h, List.getElem?_map] at e
  cases hx : b[k]? with
  | none => rw [hx] at e; cases e
  | some m =>
    rw [hx] at e
    injection e with e
    have : m.bare.parent = n.bare.parent := congrArg Node.parent e
    exact q k m p hx (this.trans hp)

theorem len_eq {a b : List Node} (h : a.map Node.bare = b.map Node.bare) : a.length = b.length := by
  have := congrArg List.length h
  simpa using this

theorem hush_step {strict : Prop} {L : Lex} {d d' : Doc} {i i' : Nat} (ht : Tree d.nodes d.stack) (h : Hush strict d) (hm : Move L d i d' i') : Hush strict d' := by
  cases hm with
  | skip => exact h
  | cdata => exact hush_push ht h rfl rfl rfl rfl (.inl (by unfold Node.isText; dsimp only; split <;> simp))
  | ignored => exact ⟨h.quiet, h.plain, h.top⟩
  | valid => exact hush_text ht h (d.pushText_nodes i) (by unfold Doc.pushText Doc.push; dsimp only; split <;> rfl) (by unfold Doc.pushText Doc.push; dsimp only; split <;> rfl)
  | condition => exact ⟨h.quiet, h.plain, h.top⟩
  | @special s stack n tag hp hsp hst hn hta hty hc =>
    have h' : Hush strict (d.upTo i tag) := hush_text ht h (d.upTo_nodes i tag) (d.upTo_stack i tag) (d.upTo_special i tag)
    have ht' : Tree (d.upTo i tag).nodes (s :: stack) := by rw [d.upTo_nodes, ← hst]; exact (tree_text ht).1
    have hn' : (d.upTo i tag).nodes[s]? = some n := by rw [d.upTo_nodes, List.getElem?_append_left (List.getElem?_eq_some_iff.1 hn).1, hn]
    obtain ⟨_, _, h3⟩ := h'.top (by rw [d.upTo_special]; exact hsp)
    rw [d.upTo_stack, hst] at h3
    obtain ⟨n0, e0, _, _, hpar, _⟩ := ht'.chain.1
    rw [hn'] at e0
    cases e0
    have hb := set_bare (x := some (d.upTo i tag).nodes.length) hn'
    have hbd := chain_bound ht'.chain
    refine ⟨?_, fun _ x hx e hc => ?_, fun q => by cases q⟩
    · refine quiet_push (quiet_eq hb h'.quiet) (early_eq hb (tree_early ht')) (fun p q => ?_) (.inr fun p e q hc => ?_)
      · rw [len_eq hb]
        exact hbd p (List.mem_cons_of_mem _ (List.mem_of_mem_head? (hpar.symm.trans q)))
      · rw [codeAt_eq hb] at hc
        exact h3 p (List.mem_of_mem_head? (hpar.symm.trans q)) e hc
    · change codeAt (_ ++ [_]) x = some e at hc
      rw [codeAt_left (by rw [len_eq hb]; exact hbd x (List.mem_cons_of_mem _ hx)), codeAt_eq hb] at hc
      exact h3 x hx e hc
  | @close tag code s n stack hp hsp hta hty hc hf =>
    have h' : Hush strict (d.upTo i tag) := hush_text ht h (d.upTo_nodes i tag) (d.upTo_stack i tag) (d.upTo_special i tag)
    obtain ⟨h1, h2, pre, h3⟩ := findStart_spec hf
    have ht' : Tree (d.upTo i tag).nodes (pre ++ s :: stack) := by rw [d.upTo_nodes, ← h3]; exact (tree_text ht).1
    have hpl := h'.plain (by rw [d.upTo_special]; exact hsp)
    rw [d.upTo_stack, h3] at hpl
    obtain ⟨n0, e0, _, _, hpar, _⟩ := (chain_right ht'.chain).1
    rw [h1] at e0
    cases e0
    have hb := set_bare (x := some (d.upTo i tag).nodes.length) h1
    have hbd := chain_bound ht'.chain
    have hin : ∀ x ∈ stack, x ∈ pre ++ s :: stack := fun x q => List.mem_append_right _ (List.mem_cons_of_mem _ q)
    refine ⟨?_, fun _ x hx e hc => ?_, fun q => ?_⟩
    · refine quiet_push (quiet_eq hb h'.quiet) (early_eq hb (tree_early ht')) (fun p q => ?_) (.inr fun p e q hc => ?_)
      · rw [len_eq hb]
        exact hbd p (hin p (List.mem_of_mem_head? (hpar.symm.trans q)))
      · rw [codeAt_eq hb] at hc
        exact hpl p (hin p (List.mem_of_mem_head? (hpar.symm.trans q))) e hc
    · change codeAt (_ ++ [_]) x = some e at hc
      rw [codeAt_left (by rw [len_eq hb]; exact hbd x (hin x hx)), codeAt_eq hb] at hc
      exact hpl x (hin x hx) e hc
    · have : (d.upTo i tag).special = true := q
      rw [d.upTo_special, hsp] at this
      cases this
  | @stray tag code hp hsp hta hty hc hf =>
    have h' : Hush strict (d.upTo i tag) := hush_text ht h (d.upTo_nodes i tag) (d.upTo_stack i tag) (d.upTo_special i tag)
    have ht' : Tree (d.upTo i tag).nodes (d.upTo i tag).stack := by rw [d.upTo_nodes, d.upTo_stack]; exact (tree_text ht).1
    exact hush_push ht' h' rfl rfl rfl (d.upTo_active i tag).symm (.inr (by rw [d.upTo_special]; exact hsp))
  | @other tag kind attrs ents hp hsp hta hk =>
    have h' : Hush strict (d.upTo i tag) := hush_text ht h (d.upTo_nodes i tag) (d.upTo_stack i tag) (d.upTo_special i tag)
    have ht' : Tree (d.upTo i tag).nodes (d.upTo i tag).stack := by rw [d.upTo_nodes, d.upTo_stack]; exact (tree_text ht).1
    exact hush_push ht' h' rfl rfl rfl (d.upTo_active i tag).symm (.inr (by rw [d.upTo_special]; exact hsp))
  | @element tag code nodes stack parent charset hp hsp hta hty hc ho =>
    have h' : Hush strict (d.upTo i tag) := hush_text ht h (d.upTo_nodes i tag) (d.upTo_stack i tag) (d.upTo_special i tag)
    have ht' : Tree (d.upTo i tag).nodes d.stack := by rw [d.upTo_nodes]; exact (tree_text ht).1
    have hpl := h'.plain (by rw [d.upTo_special]; exact hsp)
    rw [d.upTo_stack] at hpl
    obtain ⟨pop, h1, -, h3, -⟩ := endOpen_spec ht'.chain (fun _ => rfl) ho
    have hb := endOpen_bare ho
    have hbd := chain_bound ht'.chain
    have hin : ∀ x ∈ stack, x ∈ d.stack := fun x q => by rw [h1]; exact List.mem_append_right _ q
    have qu : ∀ new : Node, new.parent = parent → Quiet (nodes ++ [new]) := by
      intro new hnp
      refine quiet_push (quiet_eq hb h'.quiet) (early_eq hb (tree_early ht')) (fun p q => ?_) (.inr fun p e q hc => ?_)
      · rw [len_eq hb]
        exact hbd p (hin p (List.mem_of_mem_head? ((hnp.trans h3).symm.trans q)))
      · rw [codeAt_eq hb] at hc
        exact hpl p (hin p (List.mem_of_mem_head? ((hnp.trans h3).symm.trans q))) e hc
    have st : ∀ (new : Node), ∀ x ∈ stack, ∀ e, codeAt (nodes ++ [new]) x = some e → ¬ Opaque e := by
      intro new x hx e hc
      rw [codeAt_left (by rw [len_eq hb]; exact hbd x (hin x hx)), codeAt_eq hb] at hc
      exact hpl x (hin x hx) e hc
    have hsp' : (d.upTo i tag).special = false := by rw [d.upTo_special]; exact hsp
    unfold Doc.addElement Doc.push
    dsimp only
    by_cases hty' : tag.type = .element
    · rw [if_pos hty']
      exact ⟨qu _ rfl, fun _ => st _, fun q => by rw [show (d.upTo i tag).special = true from q] at hsp'; cases hsp'⟩
    · rw [if_neg hty']
      by_cases hi : span code = .immediate
      · rw [if_pos hi]
        exact ⟨qu _ rfl, fun _ => st _, fun q => by rw [show (d.upTo i tag).special = true from q] at hsp'; cases hsp'⟩
      · rw [if_neg hi]
        have lst : ∀ new : Node, codeAt (nodes ++ [new]) nodes.length = some new.code := by
          intro new
          unfold codeAt
          rw [List.getElem?_append_right (Nat.le_refl _), Nat.sub_self]
          rfl
        refine ⟨qu _ rfl, fun q x hx e hc => ?_, fun q => ⟨fun _ e => (nomatch e), fun x e => ?_, fun x hx => st _ x hx⟩⟩
        · dsimp only at q hx hc
          rw [hsp', Bool.false_or] at q
          rcases List.mem_cons.1 hx with rfl | hx
          · rw [lst] at hc
            cases hc
            intro hop
            rw [(isSpecial_iff code).2 hop] at q
            cases q
          · exact st _ x hx e hc
        · cases e
          dsimp only at q ⊢
          rw [hsp', Bool.false_or] at q
          exact ⟨code, lst _, (isSpecial_iff code).1 q⟩

theorem hush_new (strict : Prop) : Hush strict {} := ⟨(fun _ _ _ _ q => nomatch q), (fun _ _ q => nomatch q), (fun q => nomatch q)⟩

theorem hush_weak {strict : Prop} {d : Doc} (h : Hush strict d) : Hush False d := ⟨h.quiet, h.plain, fun q => ⟨(fun x => nomatch x), (h.top q).2⟩⟩

theorem reach_hush {L : Lex} (hL : L.Ok) {d : Doc} (h : Reach L d) : Hush False d := by
  induction h with
  | new => exact hush_new _
  | clear => exact hush_new _
  | @append d d' more hr hs he ih =>
    have ht := reach_tree hL hr
    obtain ⟨_, h', -⟩ := (docLoop_ind hL (P := fun x _ => Tree x.nodes x.stack ∧ Hush False x) (fun _ _ hp hm => ⟨(tree_step hp.1 hm).1, hush_step hp.1 hp.2 hm⟩) _ { d with source := d.source ++ more } _ hs
      ⟨ht, ⟨ih.quiet, ih.plain, ih.top⟩⟩).1 _ he
    exact h'.2
  | @throws d d' more hr hs he ih =>
    have ht := reach_tree hL hr
    obtain ⟨d0, i0, h', -, -, hth⟩ := (docLoop_ind hL (P := fun x _ => Tree x.nodes x.stack ∧ Hush False x) (fun _ _ hp hm => ⟨(tree_step hp.1 hm).1, hush_step hp.1 hp.2 hm⟩) _ { d with source := d.source ++ more } _ hs
      ⟨ht, ⟨ih.quiet, ih.plain, ih.top⟩⟩).2 _ he
    cases hth with
    | same => exact h'.2
    | @tag tag h1 h2 h3 h4 => exact hush_text h'.1 h'.2 (d0.upTo_nodes i0 tag) (d0.upTo_stack i0 tag) (d0.upTo_special i0 tag)
  | @finalize d hr ih =>
    have hx : Hush False (d.pushText d.source.length) := hush_text (reach_tree hL hr) ih (d.pushText_nodes _) (by unfold Doc.pushText Doc.push; split <;> rfl) (by unfold Doc.pushText Doc.push; split <;> rfl)
    exact ⟨hx.quiet, (fun _ _ q => nomatch q), fun _ => ⟨(fun x => nomatch x), (fun _ q => nomatch q), (fun _ q => nomatch q)⟩⟩

theorem fed_hush {L : Lex} (hL : L.Ok) {d : Doc} (h : Fed L d) : Hush True d := by
  induction h with
  | new => exact hush_new _
  | @append d d' more hf hs he ih =>
    have ht := reach_tree hL (fed_reach hf)
    obtain ⟨_, h', -⟩ := (docLoop_ind hL (P := fun x _ => Tree x.nodes x.stack ∧ Hush True x) (fun _ _ hp hm => ⟨(tree_step hp.1 hm).1, hush_step hp.1 hp.2 hm⟩) _ { d with source := d.source ++ more } _ hs
      ⟨ht, ⟨ih.quiet, ih.plain, ih.top⟩⟩).1 _ he
    exact h'.2

/-- Text was looked at. -/
structure Scan (L : Lex) (d : Doc) (i : Nat) : Prop where
  fits : i ≤ d.source.length
  seen : d.Plain → d.special = false → ∀ j, d.parsed ≤ j → j < i → ∀ T, ¬ TagAt L.v.space d.source j T
  text : ∀ n ∈ d.nodes.map Node.bare, n.kind = .text → (∃ p e, n.parent = some p ∧ codeAt d.nodes p = some e ∧ Opaque e) ∨ ∃ t, t <+: d.source ∧ NoTags L t n

/-- The text up to `i` is in a special element or has no tags. -/
theorem scan_text {L : Lex} {d : Doc} {i : Nat} (hp : d.Plain) (hh : Hush True d) (h : Scan L d i) {n : Node} (hn : n ∈ d.textPart i) :
    (∃ p e, n.parent = some p ∧ codeAt d.nodes p = some e ∧ Opaque e) ∨ ∃ t, t <+: d.source ∧ NoTags L t n := by
  obtain ⟨q, rfl⟩ := textPart_mem hn
  cases hs : d.special with
  | false => exact .inr ⟨d.source, List.prefix_refl _, h.fits, fun j h1 h2 => h.seen hp hs j h1 h2⟩
  | true =>
    obtain ⟨h1, h2, _⟩ := hh.top hs
    cases hst : d.stack with
    | nil => exact absurd hst (h1 trivial)
    | cons s r =>
      obtain ⟨e, he, ho⟩ := h2 s (by rw [hst]; rfl)
      exact .inl ⟨s, e, by show d.stack.head? = some s; rw [hst]; rfl, he, ho⟩

theorem scan_add {L : Lex} {d d' : Doc} {i i' : Nat} {new : List Node} (hp : d.Plain) (ht : Tree d.nodes d.stack) (hh : Hush True d) (h : Scan L d i) (hsrc : d'.source = d.source) (hpa : d'.parsed = i') (hi : i' ≤ d.source.length)
    (hb : d'.nodes.map Node.bare = d.nodes.map Node.bare ++ (d.textPart i ++ new)) (hnew : ∀ n ∈ new, n.kind ≠ .text) : Scan L d' i' where
  fits := by rw [hsrc]; exact hi
  seen := by intro _ _ j h1 h2; omega
  text := by
    have code : ∀ p, p < d.nodes.length → codeAt d'.nodes p = codeAt d.nodes p := by
      intro p q
      rw [← codeAt_bare, hb, codeAt_left (by simpa using q), codeAt_bare]
    have up : ∀ n : Node, (∃ p e, n.parent = some p ∧ codeAt d.nodes p = some e ∧ Opaque e) → ∃ p e, n.parent = some p ∧ codeAt d'.nodes p = some e ∧ Opaque e := by
      rintro n ⟨p, e, h1, h2, h3⟩
      refine ⟨p, e, h1, ?_, h3⟩
      rw [code p, h2]
      unfold codeAt at h2
      cases hx : d.nodes[p]? with
      | none => rw [hx] at h2; cases h2
      | some m => exact (List.getElem?_eq_some_iff.1 hx).1
    rw [hb, hsrc]
    intro n hn hk
    rcases List.mem_append.1 hn with q | q
    · exact (h.text n q hk).imp_left (up n)
    · rcases List.mem_append.1 q with q | q
      · exact (scan_text hp hh h q).imp_left (up n)
      · exact absurd hk (hnew n q)

theorem scan_step {L : Lex} {d d' : Doc} {i i' : Nat} (hi : i < d.source.length) (ht : Tree d.nodes d.stack) (hh : Hush True d) (h : Scan L d i) (hm : Move L d i d' i') : Scan L d' i' := by
  have ha := move_adds hm
  cases hm with
  | skip hs =>
    refine ⟨by omega, fun h1 h2 j h3 h4 => ?_, h.text⟩
    by_cases q : j = i
    · rw [q]; exact hs h1 h2
    · exact h.seen h1 h2 j h3 (by omega)
  | @cdata e hm hc =>
    have hb := condEnd_bounds hc
    refine ⟨hb.2, fun _ _ j h1 h2 => by dsimp only at h1; omega, ?_⟩
    dsimp only [Doc.push]
    intro n hn hk
    rw [List.map_append] at hn
    rcases List.mem_append.1 hn with q | q
    · rcases h.text n q hk with ⟨p, e, h1, h2, h3⟩ | q
      · refine .inl ⟨p, e, h1, ?_, h3⟩
        rw [codeAt_left, h2]
        unfold codeAt at h2
        cases hx : d.nodes[p]? with
        | none => rw [hx] at h2; cases h2
        | some m => exact (List.getElem?_eq_some_iff.1 hx).1
      · exact .inr q
    · rw [List.map_singleton, List.mem_singleton] at q
      rw [q] at hk
      unfold Node.bare at hk
      dsimp only at hk
      split at hk <;> cases hk
  | ignored _ _ _ hc => exact ⟨(condEnd_bounds hc).2, fun _ _ j h1 h2 => by dsimp only at h1; omega, h.text⟩
  | valid hp hv hc => exact scan_add (new := []) hp ht hh h (d.pushText_source i) rfl (condEnd_bounds hc).2 (by dsimp only; rw [d.pushText_nodes, List.map_append, textPart_bare, List.append_nil]) (fun _ q => nomatch q)
  | condition hp hc => exact ⟨(condStart_bounds hc).2.2, fun _ _ j h1 h2 => by dsimp only at h1; omega, h.text⟩
  | @special s stack n tag hp hsp hst hn hta hty hc =>
    have hb := htmlTag_bounds hta
    have hn' : (d.upTo i tag).nodes[s]? = some n := by rw [d.upTo_nodes, List.getElem?_append_left (List.getElem?_eq_some_iff.1 hn).1, hn]
    refine scan_add hp ht hh h (d.upTo_source i tag) rfl hb.2.2.1 (new := [{ kind := .element_end, iv := tag.interval, parent := n.parent, code := n.code, name := tag.name, beg := some s }]) ?_ (fun m q => ?_)
    · simp only [Doc.push, List.map_append]
      rw [set_bare hn', d.upTo_nodes, List.map_append, textPart_bare, List.append_assoc]
      rfl
    · rw [List.mem_singleton.1 q]; exact fun q => nomatch q
  | @element tag code nodes stack parent charset hp hsp hta hty hc ho =>
    have hb := htmlTag_bounds hta
    refine scan_add hp ht hh h (by rw [addElement_source]; exact d.upTo_source i tag) (by rw [addElement_parsed]; rfl) hb.2.2.1
      (new := [{ kind := kindOf tag.type, iv := tag.interval, parent := parent, code := code, name := tag.name, attrs := tag.attrs }]) ?_ (fun m q => ?_)
    · rw [addElement_nodes _ _ _ _ hty]
      dsimp only
      rw [endOpen_bare ho, d.upTo_nodes, List.map_append, textPart_bare, List.append_assoc]
    · rw [List.mem_singleton.1 q]; exact (kindOf_ne _).2.2
  | @stray tag code hp hsp hta hty hc hf =>
    have hb := htmlTag_bounds hta
    refine scan_add hp ht hh h (d.upTo_source i tag) rfl hb.2.2.1 (new := [{ kind := .element_end, iv := tag.interval, parent := d.active, code := code, name := tag.name }]) ?_ (fun m q => ?_)
    · simp only [Doc.push, List.map_append, d.upTo_nodes, textPart_bare, List.append_assoc]
      rfl
    · rw [List.mem_singleton.1 q]; exact fun q => nomatch q
  | @close tag code s n stack hp hsp hta hty hc hf =>
    have hb := htmlTag_bounds hta
    refine scan_add hp ht hh h (d.upTo_source i tag) rfl hb.2.2.1 (new := [{ kind := .element_end, iv := tag.interval, parent := n.parent, code := code, name := tag.name, beg := some s }]) ?_ (fun m q => ?_)
    · simp only [Doc.push, List.map_append]
      rw [set_bare (findStart_get hf), d.upTo_nodes, List.map_append, textPart_bare, List.append_assoc]
      rfl
    · rw [List.mem_singleton.1 q]; exact fun q => nomatch q
  | @other tag kind attrs ents hp hsp hta hk =>
    have hb := htmlTag_bounds hta
    refine scan_add hp ht hh h (d.upTo_source i tag) rfl hb.2.2.1 (new := [{ kind := kind, iv := tag.interval, parent := d.active, name := tag.name, attrs := attrs }]) ?_ (fun m q => ?_)
    · simp only [Doc.push, List.map_append, d.upTo_nodes, textPart_bare, List.append_assoc]
      rfl
    · rw [List.mem_singleton.1 q]
      dsimp only
      rcases hk with ⟨_, q, _⟩ | ⟨_, q, _⟩ | ⟨_, q, _⟩ <;> rw [q] <;> exact fun q => nomatch q

theorem fed_scan {L : Lex} (hL : L.Ok) {d : Doc} (h : Fed L d) : Scan L d d.source.length := by
  induction h with
  | new => exact ⟨Nat.le_refl _, (fun _ _ _ _ q => by simp at q), (fun _ q => nomatch q)⟩
  | @append d d' more hf hs he ih =>
    have ht := reach_tree hL (fed_reach hf)
    have hh := fed_hush hL hf
    obtain ⟨i, hpl⟩ := reach_placed hL (fed_reach hf)
    have hle : d.parsed ≤ d.source.length := Nat.le_trans hpl.le hpl.fits
    have hsrc := append_source hL hs he
    obtain ⟨i', h', -, hge⟩ := (docLoop_ind hL (P := fun x i => (Tree x.nodes x.stack ∧ Hush True x) ∧ Scan L x i)
      (fun _ hi hp hm => ⟨⟨(tree_step hp.1.1 hm).1, hush_step hp.1.1 hp.1.2 hm⟩, scan_step hi hp.1.1 hp.1.2 hp.2 hm⟩) _ { d with source := d.source ++ more } _ hs
      ⟨⟨ht, ⟨hh.quiet, hh.plain, hh.top⟩⟩, ⟨by simp; omega, fun _ _ j h1 h2 => by dsimp only at h1; omega, fun n hn hk => (ih.text n hn hk).imp_right fun ⟨t, h1, h2⟩ => ⟨t, h1.trans (List.prefix_append _ _), h2⟩⟩⟩).1 _ he
    have hge : (d.source ++ more).length ≤ i' := hge
    have := h'.2.fits
    rw [hsrc] at this
    rw [hsrc, show (d.source ++ more).length = i' by omega]
    exact h'.2

/-! ### Properties -/

/-- **C108** Whatever was done to the document: inside of `code`, `comment`, `script` and `style` there is only text and marked sections. -/
theorem doc_opaque {L : Lex} (hL : L.Ok) {d : Doc} (h : Reach L d) {k p : Nat} {n m : Node} (hk : d.nodes[k]? = some n) (hp : n.parent = some p) (hm : d.nodes[p]? = some m) (ho : Opaque m.code) : n.isText :=
  (reach_hush hL h).quiet k n p m.code hk hp (by unfold codeAt; rw [hm]; rfl) ho

/-- **C108** A document that was appended to: in text outside of these elements no tag begins, as the source was when the text was read. -/
theorem doc_text {L : Lex} (hL : L.Ok) {d : Doc} (h : Fed L d) {n : Node} (hn : n ∈ d.nodes) (hk : n.kind = .text) :
    (∃ p m, n.parent = some p ∧ d.nodes[p]? = some m ∧ Opaque m.code) ∨ ∃ t, t <+: d.source ∧ NoTags L t n := by
  refine ((fed_scan hL h).text n.bare (List.mem_map.2 ⟨n, hn, rfl⟩) hk).imp_left ?_
  rintro ⟨p, e, h1, h2, h3⟩
  unfold codeAt at h2
  cases hx : d.nodes[p]? with
  | none => rw [hx] at h2; cases h2
  | some m =>
    rw [hx] at h2
    cases h2
    exact ⟨p, m, h1, hx, h3⟩

/-- **C108** The same after `finalize`, without marked sections. -/
theorem doc_text_final {L : Lex} (hL : L.Ok) {d : Doc} (h : Fed L d) (hs : NoSections d.source) {n : Node} (hn : n ∈ d.finalize.nodes) (hk : n.kind = .text) :
    (∃ p m, n.parent = some p ∧ d.finalize.nodes[p]? = some m ∧ Opaque m.code) ∨ ∃ t, t <+: d.source ∧ NoTags L t n := by
  have lift : (∃ p m, n.parent = some p ∧ d.nodes[p]? = some m ∧ Opaque m.code) → ∃ p m, n.parent = some p ∧ d.finalize.nodes[p]? = some m ∧ Opaque m.code := by
    rintro ⟨p, m, h1, h2, h3⟩
    refine ⟨p, m, h1, ?_, h3⟩
    rw [finalize_nodes, List.getElem?_append_left (List.getElem?_eq_some_iff.1 h2).1, h2]
  have hn' := hn
  rw [finalize_nodes] at hn'
  rcases List.mem_append.1 hn' with q | q
  · exact (doc_text hL h q hk).imp_left lift
  · refine (scan_text (fed_whole hL h hs).plain (fed_hush hL h) (fed_scan hL h) q).imp_left fun x => lift ?_
    obtain ⟨p, e, h1, h2, h3⟩ := x
    unfold codeAt at h2
    cases hx : d.nodes[p]? with
    | none => rw [hx] at h2; cases h2
    | some m =>
      rw [hx] at h2
      cases h2
      exact ⟨p, m, h1, hx, h3⟩

end Verif.Html
