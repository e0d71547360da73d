import Verif.Html.DocMove
/-
The sequences of a document and its source: `document::append`, `finalize`, `assign`, `clear` of include/stdex/html.hpp (1636-1886).
-/
namespace Verif.Html
open Verif.Str Verif.Sgml Verif.Parser

/-! ### Specification -/

/-- Any history of a document: calls of `clear`, `append` and `finalize` in any order, where `append` may throw and the caller goes on. -/
inductive Reach (L : Lex) : Doc → Prop
  | new : Reach L {}
  | clear {d} : Reach L d → Reach L d.clear
  | append {d d' more} : Reach L d → SrcOk (d.source ++ more) → d.append L more = .done d' → Reach L d'
  | throws {d d' more} : Reach L d → SrcOk (d.source ++ more) → d.append L more = .throws d' → Reach L d'
  | finalize {d} : Reach L d → Reach L d.finalize

/-- A new document that is appended to, in any number of pieces. -/
inductive Fed (L : Lex) : Doc → Prop
  | new : Fed L {}
  | append {d d' more} : Fed L d → SrcOk (d.source ++ more) → d.append L more = .done d' → Fed L d'

/-- The characters of the source that a sequence stands for. -/
def Node.chars (n : Node) (src : List Int) : List Int := (src.drop n.iv.1).take (n.iv.2 - n.iv.1)

/-- The kind of sequence that a tag is. -/
def kindOf : Sequence → Kind
  | .element => .element
  | .element_start => .element_start
  | .element_end => .element_end
  | .declaration => .declaration
  | .comment => .comment
  | .instruction => .instruction

/-- The sequence is the tag that stands at its place in the text `t`. -/
def IsTag (L : Lex) (t : List Int) (n : Node) : Prop :=
  ∃ tag, TagAt L.v.space t n.iv.1 tag ∧ n.iv = tag.interval ∧ n.kind = kindOf tag.type ∧ n.name = tag.name ∧
    (n.kind = .element ∨ n.kind = .element_start ∨ n.kind = .declaration → n.attrs = tag.attrs) ∧
    (n.kind = .element ∨ n.kind = .element_start ∨ n.kind = .element_end → L.code t tag.name = some n.code)

/-- The source has no marked sections. -/
def NoSections (t : List Int) : Prop := ∀ i, ¬ SaysAt ['<', '!', '['] t i

/-! ### Proofs -/

/-- The sequence without the pointer to its end, which is the only part that changes. -/
def Node.bare (n : Node) : Node := { n with fin := none }

theorem set_bare {nodes : List Node} {s : Nat} {n : Node} {x : Option Nat} (h : nodes[s]? = some n) : (nodes.set s { n with fin := x }).map Node.bare = nodes.map Node.bare := by
  rw [List.map_set]
  apply List.ext_getElem?
  intro k
  rw [List.getElem?_set]
  by_cases q : s = k
  · subst q
    rw [if_pos rfl, List.getElem?_map, h]
    have := (List.getElem?_eq_some_iff.1 h).1
    rw [if_pos (by simpa using this)]
    rfl
  · rw [if_neg q]

theorem endOpen_bare {code : Elem} {k : Nat} : ∀ {stack : List Nat} {nodes : List Node} {p : Option Nat} {nodes' : List Node} {stack' : List Nat} {p' : Option Nat},
    endOpen code k nodes stack p = some (nodes', stack', p') → nodes'.map Node.bare = nodes.map Node.bare
  | [], nodes, p, nodes', stack', p', h => by
    rw [endOpen] at h
    cases h
    rfl
  | s :: stack, nodes, p, nodes', stack', p', h => by
    rw [endOpen] at h
    cases hn : nodes[s]? with
    | none => rw [hn] at h; cases h
    | some n =>
      rw [hn] at h
      dsimp only at h
      split at h
      · cases h; rfl
      · rw [endOpen_bare h, set_bare hn]

/-- The text up to `i`, if there is any. -/
def Doc.textPart (d : Doc) (i : Nat) : List Node := if d.parsed < i then [{ kind := .text, iv := (d.parsed, i), parent := d.active }] else []

theorem Doc.pushText_nodes (d : Doc) (i : Nat) : (d.pushText i).nodes = d.nodes ++ d.textPart i := by
  unfold Doc.pushText Doc.textPart Doc.push
  split
  · rfl
  · simp

theorem Doc.upTo_nodes (d : Doc) (i : Nat) (tag : Tag) : (d.upTo i tag).nodes = d.nodes ++ d.textPart i := d.pushText_nodes i

theorem Doc.pushText_source (d : Doc) (i : Nat) : (d.pushText i).source = d.source := by unfold Doc.pushText Doc.push; split <;> rfl

theorem addElement_source (d : Doc) (tag : Tag) (code : Elem) (parent : Option Nat) : (d.addElement tag code parent).source = d.source := by
  unfold Doc.addElement Doc.push
  dsimp only
  split
  · rfl
  · split <;> rfl

theorem addElement_parsed (d : Doc) (tag : Tag) (code : Elem) (parent : Option Nat) : (d.addElement tag code parent).parsed = d.parsed := by
  unfold Doc.addElement Doc.push
  dsimp only
  split
  · rfl
  · split <;> rfl

theorem addElement_plain (d : Doc) (tag : Tag) (code : Elem) (parent : Option Nat) : ((d.addElement tag code parent).Plain ↔ d.Plain) ∧ (d.addElement tag code parent).valid = d.valid := by
  unfold Doc.addElement Doc.push Doc.Plain
  dsimp only
  split
  · exact ⟨Iff.rfl, rfl⟩
  · split <;> exact ⟨Iff.rfl, rfl⟩

theorem upTo_plain (d : Doc) (i : Nat) (tag : Tag) : ((d.upTo i tag).Plain ↔ d.Plain) ∧ (d.upTo i tag).valid = d.valid := by
  unfold Doc.upTo Doc.pushText Doc.push Doc.Plain
  split <;> exact ⟨Iff.rfl, rfl⟩

theorem addElement_nodes (d : Doc) (tag : Tag) (code : Elem) (parent : Option Nat) (hty : tag.type = .element ∨ tag.type = .element_start) :
    (d.addElement tag code parent).nodes.map Node.bare = d.nodes.map Node.bare ++ [{ kind := kindOf tag.type, iv := tag.interval, parent := parent, code := code, name := tag.name, attrs := tag.attrs }] := by
  unfold Doc.addElement Doc.push
  dsimp only
  rcases hty with h | h
  · rw [if_pos h, h]
    simp [Node.bare, kindOf]
  · rw [if_neg (by rw [h]; decide), h]
    split <;> simp [Node.bare, kindOf]

/-- What a round adds to the store. -/
inductive Adds (L : Lex) (d : Doc) (i : Nat) : Doc → Nat → Prop
  | skip : (d.Plain → d.special = false → ∀ T, ¬ TagAt L.v.space d.source i T) → Adds L d i d (i + 1)
  | mark {d' e new} : d'.source = d.source → d'.parsed = e → d'.nodes.map Node.bare = d.nodes.map Node.bare ++ new → (new = [] ∨ new = d.textPart i ∨ ∃ n, new = [n] ∧ n.iv = (d.parsed, i) ∧ (n.kind = .CDATA ∨ n.kind = .PCDATA)) →
      (SaysAt ['<', '!', '['] d.source i ∨ ¬ d.Plain ∨ d.valid ≠ 0) → i < e → e ≤ d.source.length → Adds L d i d' e
  | tag {d' n} : d'.source = d.source → d'.parsed = n.iv.2 → d'.nodes.map Node.bare = d.nodes.map Node.bare ++ (d.textPart i ++ [n]) → n.iv.1 = i → IsTag L d.source n → d.Plain →
      d'.Plain → d'.valid = d.valid → Adds L d i d' n.iv.2

theorem condEnd_bounds {t : List Int} {i e : Nat} (h : ConditionEnd t i e) : i < e ∧ e ≤ t.length := by
  obtain ⟨h1, rfl⟩ := h
  have := litAt_len (by decide) (condEnd_says.2 h1)
  simp at this
  omega

theorem condStart_bounds {space : Int → Bool} {t : List Int} {i : Nat} {p : Part} (h : ConditionStart space t i p) : SaysAt ['<', '!', '['] t i ∧ i < p.2.2 ∧ p.2.2 ≤ t.length := by
  obtain ⟨a, d, y, h1, h2, h3, h4, h5, rfl⟩ := h
  refine ⟨h1, ?_⟩
  have := get_lt h4
  have := h2.1
  have := h3.1
  dsimp only
  omega

theorem textPart_bare (d : Doc) (i : Nat) : (d.textPart i).map Node.bare = d.textPart i := by
  unfold Doc.textPart
  split <;> rfl

theorem findStart_get {L : Lex} {src : List Int} {code : Elem} {name : Nat × Nat} {nodes : List Node} {s : Nat} {n : Node} {stack : List Nat} : ∀ {st : List Nat},
    findStart L src code name nodes st = some (some (s, n, stack)) → nodes[s]? = some n
  | [], hf => by rw [findStart] at hf; cases hf
  | x :: st, hf => by
    rw [findStart] at hf
    cases hx : nodes[x]? with
    | none => rw [hx] at hf; cases hf
    | some m =>
      rw [hx] at hf
      dsimp only at hf
      split at hf
      · cases hf; exact hx
      · split at hf
        · split at hf
          · cases hf
          · split at hf
            · cases hf; exact hx
            · exact findStart_get hf
        · exact findStart_get hf

theorem move_adds {L : Lex} {d d' : Doc} {i i' : Nat} (h : Move L d i d' i') : Adds L d i d' i' := by
  cases h with
  | skip h => exact .skip h
  | cdata hm hc =>
    have hb := condEnd_bounds hc
    refine .mark (new := [{ kind := if d.cdata then .CDATA else .PCDATA, iv := (d.parsed, i), parent := d.active }]) rfl rfl ?_ (.inr (.inr ⟨_, rfl, ?_, ?_⟩)) (.inr (.inl ?_)) hb.1 hb.2
    · simp [Doc.push, Node.bare]
    · rfl
    · dsimp only
      split <;> simp
    · rcases hm with h | h <;> simp [Doc.Plain, h]
  | ignored _ _ hv hc =>
    have hb := condEnd_bounds hc
    exact .mark rfl rfl (List.append_nil _).symm (.inl rfl) (.inr (.inl fun q => hv q.2.2)) hb.1 hb.2
  | valid hp hv hc =>
    have hb := condEnd_bounds hc
    refine .mark (d.pushText_source i) rfl ?_ (.inr (.inl rfl)) (.inr (.inr hv)) hb.1 hb.2
    dsimp only
    rw [d.pushText_nodes, List.map_append, textPart_bare]
  | condition hp hc =>
    have hb := condStart_bounds hc
    exact .mark rfl rfl (List.append_nil _).symm (.inl rfl) (.inl hb.1) hb.2.1 hb.2.2
  | @special s stack n tag hp hsp hst hn ht hty hc =>
    have hb := htmlTag_bounds ht
    have hn' : (d.upTo i tag).nodes[s]? = some n := by rw [d.upTo_nodes, List.getElem?_append_left (List.getElem?_eq_some_iff.1 hn).1, hn]
    have e : tag.interval.2 = ({ kind := .element_end, iv := tag.interval, parent := n.parent, code := n.code, name := tag.name, beg := some s } : Node).iv.2 := rfl
    rw [e]
    refine .tag (d.upTo_source i tag) rfl ?_ hb.1 ⟨tag, ?_, rfl, by rw [hty]; rfl, rfl, by simp, fun _ => hc⟩ hp ?_ ?_
    · simp only [Doc.push, List.map_append]
      rw [set_bare hn', d.upTo_nodes, List.map_append, textPart_bare, List.append_assoc]
      rfl
    · dsimp only; rw [hb.1]; exact ht
    · exact (upTo_plain d i tag).1.2 hp
    · exact (upTo_plain d i tag).2
  | @element tag code nodes stack parent charset hp hsp ht hty hc ho =>
    have hb := htmlTag_bounds ht
    have e : tag.interval.2 = ({ kind := kindOf tag.type, iv := tag.interval, parent := parent, code := code, name := tag.name, attrs := tag.attrs } : Node).iv.2 := rfl
    rw [e]
    refine .tag (by rw [addElement_source]; exact d.upTo_source i tag) (by rw [addElement_parsed]; rfl) ?_ hb.1 ⟨tag, ?_, rfl, rfl, rfl, fun _ => rfl, fun _ => hc⟩ hp ?_ ?_
    · rw [addElement_nodes _ _ _ _ hty]
      dsimp only
      rw [endOpen_bare ho, d.upTo_nodes, List.map_append, textPart_bare, List.append_assoc]
    · dsimp only; rw [hb.1]; exact ht
    · exact (addElement_plain _ _ _ _).1.2 ((upTo_plain d i tag).1.2 hp)
    · rw [(addElement_plain _ _ _ _).2]; exact (upTo_plain d i tag).2
  | @stray tag code hp hsp ht hty hc hf =>
    have hb := htmlTag_bounds ht
    have e : tag.interval.2 = ({ kind := .element_end, iv := tag.interval, parent := d.active, code := code, name := tag.name } : Node).iv.2 := rfl
    rw [e]
    refine .tag (d.upTo_source i tag) rfl ?_ hb.1 ⟨tag, ?_, rfl, by rw [hty]; rfl, rfl, by simp, fun _ => hc⟩ hp ?_ ?_
    · simp only [Doc.push, List.map_append, d.upTo_nodes, textPart_bare, List.append_assoc]
      rfl
    · dsimp only; rw [hb.1]; exact ht
    · exact (upTo_plain d i tag).1.2 hp
    · exact (upTo_plain d i tag).2
  | @close tag code s n stack hp hsp ht hty hc hf =>
    have hb := htmlTag_bounds ht
    have hn' : (d.upTo i tag).nodes[s]? = some n := findStart_get hf
    have e : tag.interval.2 = ({ kind := .element_end, iv := tag.interval, parent := n.parent, code := code, name := tag.name, beg := some s } : Node).iv.2 := rfl
    rw [e]
    refine .tag (d.upTo_source i tag) rfl ?_ hb.1 ⟨tag, ?_, rfl, by rw [hty]; rfl, rfl, by simp, fun _ => hc⟩ hp ?_ ?_
    · simp only [Doc.push, List.map_append]
      rw [set_bare hn', d.upTo_nodes, List.map_append, textPart_bare, List.append_assoc]
      rfl
    · dsimp only; rw [hb.1]; exact ht
    · exact (upTo_plain d i tag).1.2 hp
    · exact (upTo_plain d i tag).2
  | @other tag kind attrs ents hp hsp ht hk =>
    have hb := htmlTag_bounds ht
    have e : tag.interval.2 = ({ kind := kind, iv := tag.interval, parent := d.active, name := tag.name, attrs := attrs } : Node).iv.2 := rfl
    rw [e]
    refine .tag (d.upTo_source i tag) rfl ?_ hb.1 ⟨tag, ?_, rfl, ?_, rfl, ?_, ?_⟩ hp ?_ ?_
    · simp only [Doc.push, List.map_append, d.upTo_nodes, textPart_bare, List.append_assoc]
      rfl
    · dsimp only; rw [hb.1]; exact ht
    · rcases hk with ⟨h1, h2, _⟩ | ⟨h1, h2, _⟩ | ⟨h1, h2, _⟩ <;> rw [h1] <;> exact h2
    · rcases hk with ⟨_, h2, h3⟩ | ⟨_, h2, h3⟩ | ⟨_, h2, h3⟩ <;> subst h2 <;> simp [h3]
    · rcases hk with ⟨_, h2, h3⟩ | ⟨_, h2, h3⟩ | ⟨_, h2, h3⟩ <;> subst h2 <;> simp
    · exact (upTo_plain d i tag).1.2 hp
    · exact (upTo_plain d i tag).2

theorem adds_source {L : Lex} {d d' : Doc} {i i' : Nat} (h : Adds L d i d' i') (hi : i < d.source.length) : d'.source = d.source ∧ i < i' ∧ i' ≤ d.source.length := by
  cases h with
  | skip => exact ⟨rfl, by omega, by omega⟩
  | mark h1 h2 h3 h4 h5 h6 h7 => exact ⟨h1, h6, h7⟩
  | @tag _ n h1 h2 h3 h4 h5 =>
    refine ⟨h1, ?_⟩
    obtain ⟨tag, ht, e, _⟩ := h5
    have := htmlTag_bounds ht
    have e2 : n.iv.2 = tag.interval.2 := by rw [e]
    omega

theorem throws_source {L : Lex} {d d' : Doc} {i : Nat} (h : Throws L d i d') : d'.source = d.source := by
  cases h with
  | same => rfl
  | tag => exact Doc.upTo_source ..

/-- What every round keeps, the loop keeps. -/
theorem docLoop_ind {L : Lex} (hL : L.Ok) {P : Doc → Nat → Prop} (step : ∀ {d d' : Doc} {i i' : Nat}, SrcOk d.source → i < d.source.length → P d i → Move L d i d' i' → P d' i') : ∀ (fuel : Nat) (d : Doc) (i : Nat), SrcOk d.source → P d i →
    (∀ d', docLoop L fuel d i = .done d' → ∃ i', P d' i' ∧ d'.source = d.source ∧ d.source.length ≤ i') ∧
    (∀ d', docLoop L fuel d i = .throws d' → ∃ d0 i0, P d0 i0 ∧ i0 < d.source.length ∧ d0.source = d.source ∧ Throws L d0 i0 d')
  | 0, d, i, _, _ => by rw [docLoop]; exact ⟨(fun _ q => nomatch q), (fun _ q => nomatch q)⟩
  | fuel + 1, d, i, hs, hp => by
    rw [docLoop]
    by_cases hi : i < d.source.length
    · rw [if_pos hi]
      obtain ⟨h1, h2, h3⟩ := docStep_move hL hs hi
      cases hd : docStep L d i with
      | fault => exact ⟨(fun _ q => nomatch q), (fun _ q => nomatch q)⟩
      | throws d' => exact ⟨(fun _ q => nomatch q), fun x q => by cases q; exact ⟨d, i, hp, hi, rfl, h2 _ hd⟩⟩
      | stop d' => exact absurd hd (h3 _)
      | go d' i' =>
        dsimp only
        have hm := h1 _ _ hd
        have ha := adds_source (move_adds hm) hi
        have := docLoop_ind hL step fuel d' i' (by rw [ha.1]; exact hs) (step hs hi hp hm)
        rw [ha.1] at this
        exact this
    · rw [if_neg hi]
      exact ⟨fun x q => by cases q; exact ⟨i, hp, rfl, by omega⟩, (fun _ q => nomatch q)⟩

/-- The sequence `a` ends before `b` begins. -/
def Before (a b : Node) : Prop := a.iv.2 ≤ b.iv.1

/-- The sequence is no longer than it says, and not empty unless it is a marked section. -/
def Sized (n : Node) : Prop := n.iv.1 ≤ n.iv.2 ∧ (n.iv.1 = n.iv.2 → n.kind = .CDATA ∨ n.kind = .PCDATA)

/-- The sequence is a tag of what was then the source. -/
def Tagged (L : Lex) (src : List Int) (n : Node) : Prop := n.kind = .text ∨ n.kind = .CDATA ∨ n.kind = .PCDATA ∨ ∃ t, t <+: src ∧ IsTag L t n

/-- Where sequences are. -/
structure Placed (L : Lex) (d : Doc) (i : Nat) : Prop where
  src : SrcOk d.source
  le : d.parsed ≤ i
  fits : i ≤ d.source.length
  order : (d.nodes.map Node.bare).Pairwise Before
  each : ∀ n ∈ d.nodes.map Node.bare, Sized n ∧ n.iv.2 ≤ d.parsed ∧ Tagged L d.source n

theorem textPart_mem {d : Doc} {i : Nat} {n : Node} (h : n ∈ d.textPart i) : d.parsed < i ∧ n = { kind := .text, iv := (d.parsed, i), parent := d.active } := by
  unfold Doc.textPart at h
  split at h
  · exact ⟨by assumption, by simpa using h⟩
  · cases h

theorem textPart_pairwise (d : Doc) (i : Nat) : (d.textPart i).Pairwise Before := by
  unfold Doc.textPart
  split
  · exact List.pairwise_singleton _ _
  · exact .nil

theorem tagged_mono {L : Lex} {src src' : List Int} (h : src <+: src') {n : Node} (hn : Tagged L src n) : Tagged L src' n := by
  rcases hn with h1 | h1 | h1 | ⟨t, h1, h2⟩
  · exact .inl h1
  · exact .inr (.inl h1)
  · exact .inr (.inr (.inl h1))
  · exact .inr (.inr (.inr ⟨t, h1.trans h, h2⟩))

theorem placed_add {L : Lex} {d d' : Doc} {i i' : Nat} {new : List Node} (hp : Placed L d i) (h1 : d'.source = d.source) (h2 : d'.parsed = i') (h3 : d'.nodes.map Node.bare = d.nodes.map Node.bare ++ new)
    (h4 : new.Pairwise Before) (h5 : ∀ n ∈ new, Sized n ∧ d.parsed ≤ n.iv.1 ∧ n.iv.2 ≤ i' ∧ Tagged L d.source n) (h6 : i < i') (h7 : i' ≤ d.source.length) : Placed L d' i' where
  src := by rw [h1]; exact hp.src
  le := by omega
  fits := by rw [h1]; exact h7
  order := by
    rw [h3]
    refine List.pairwise_append.2 ⟨hp.order, h4, fun a ha b hb => ?_⟩
    have := (hp.each a ha).2.1
    have := (h5 b hb).2.1
    show a.iv.2 ≤ b.iv.1
    omega
  each := by
    rw [h3, h1, h2]
    intro n hn
    rcases List.mem_append.1 hn with q | q
    · have := hp.each n q
      exact ⟨this.1, by have := hp.le; omega, this.2.2⟩
    · have := h5 n q
      exact ⟨this.1, this.2.2⟩

theorem textPart_ok {L : Lex} {d : Doc} {i : Nat} {n : Node} (h : n ∈ d.textPart i) (src : List Int) : Sized n ∧ d.parsed ≤ n.iv.1 ∧ n.iv.2 = i ∧ Tagged L src n := by
  obtain ⟨q, rfl⟩ := textPart_mem h
  exact ⟨⟨Nat.le_of_lt q, fun e => by dsimp only at e; omega⟩, Nat.le_refl _, rfl, .inl rfl⟩

theorem kindOf_ne (ty : Sequence) : kindOf ty ≠ .CDATA ∧ kindOf ty ≠ .PCDATA ∧ kindOf ty ≠ .text := by cases ty <;> decide

theorem placed_step {L : Lex} {d d' : Doc} {i i' : Nat} (hi : i < d.source.length) (hp : Placed L d i) (h : Adds L d i d' i') : Placed L d' i' := by
  cases h with
  | skip => exact ⟨hp.src, by have := hp.le; omega, by omega, hp.order, hp.each⟩
  | mark h1 h2 h3 h4 h5 h6 h7 =>
    rcases h4 with rfl | rfl | ⟨n, rfl, e, hk⟩
    · exact placed_add hp h1 h2 h3 .nil (fun _ q => nomatch q) h6 h7
    · refine placed_add hp h1 h2 h3 (textPart_pairwise d i) (fun n q => ?_) h6 h7
      obtain ⟨a, b, c, e⟩ := textPart_ok q d.source
      exact ⟨a, b, by omega, e⟩
    · refine placed_add hp h1 h2 h3 (List.pairwise_singleton _ _) (fun m q => ?_) h6 h7
      rw [List.mem_singleton.1 q]
      refine ⟨⟨by rw [e]; exact hp.le, fun _ => hk⟩, by rw [e]; exact Nat.le_refl _, by rw [e]; dsimp only; omega, ?_⟩
      rcases hk with hk | hk
      · exact .inr (.inl hk)
      · exact .inr (.inr (.inl hk))
  | @tag _ n h1 h2 h3 h4 h5 h6 =>
    have ht := h5
    obtain ⟨tag, h8, h9, -⟩ := h5
    have hb := htmlTag_bounds h8
    have hlt : n.iv.1 < n.iv.2 := by
      have e2 : n.iv.2 = tag.interval.2 := by rw [h9]
      omega
    refine placed_add hp h1 h2 h3 (List.pairwise_append.2 ⟨textPart_pairwise d i, List.pairwise_singleton _ _, fun a ha b hb' => ?_⟩) (fun m q => ?_) (by omega) (by rw [h9]; exact hb.2.2.1)
    · rw [List.mem_singleton.1 hb']
      have := (textPart_ok (L := L) ha d.source).2.2.1
      show a.iv.2 ≤ n.iv.1
      omega
    · rcases List.mem_append.1 q with q | q
      · obtain ⟨a, b, c, e⟩ := textPart_ok (L := L) q d.source
        exact ⟨a, b, by omega, e⟩
      · rw [List.mem_singleton.1 q]
        exact ⟨⟨by omega, fun e => by omega⟩, by rw [h4]; exact hp.le, Nat.le_refl _, .inr (.inr (.inr ⟨_, List.prefix_refl _, ht⟩))⟩

theorem placed_more {L : Lex} {d : Doc} {i : Nat} (hp : Placed L d i) {more : List Int} (hs : SrcOk (d.source ++ more)) : Placed L { d with source := d.source ++ more } d.parsed where
  src := hs
  le := Nat.le_refl _
  fits := by have := hp.le; have := hp.fits; simp; omega
  order := hp.order
  each n hn := ⟨(hp.each n hn).1, (hp.each n hn).2.1, tagged_mono (List.prefix_append _ _) (hp.each n hn).2.2⟩

theorem placed_throws {L : Lex} {d d' : Doc} {i : Nat} (hp : Placed L d i) (h : Throws L d i d') : ∃ i', Placed L d' i' := by
  cases h with
  | same => exact ⟨i, hp⟩
  | @tag tag h1 h2 h3 =>
    have hb := htmlTag_bounds h3
    refine ⟨_, placed_add hp (d.upTo_source i tag) rfl (by rw [d.upTo_nodes, List.map_append, textPart_bare]) (textPart_pairwise d i) (fun n q => ?_) ?_ hb.2.2.1⟩
    · obtain ⟨a, b, c, e⟩ := textPart_ok (L := L) q d.source
      exact ⟨a, b, by show n.iv.2 ≤ tag.interval.2; omega, e⟩
    · show i < tag.interval.2
      omega

theorem finalize_nodes (d : Doc) : d.finalize.nodes = d.nodes ++ d.textPart d.source.length := d.pushText_nodes _
theorem finalize_source (d : Doc) : d.finalize.source = d.source := d.pushText_source _

theorem placed_finalize {L : Lex} {d : Doc} {i : Nat} (hp : Placed L d i) : Placed L d.finalize d.source.length where
  src := by rw [finalize_source]; exact hp.src
  le := Nat.le_refl _
  fits := by rw [finalize_source]; exact Nat.le_refl _
  order := by
    rw [finalize_nodes, List.map_append, textPart_bare]
    refine List.pairwise_append.2 ⟨hp.order, textPart_pairwise _ _, fun a ha b hb => ?_⟩
    have := (hp.each a ha).2.1
    have := (textPart_ok (L := L) hb d.source).2.1
    show a.iv.2 ≤ b.iv.1
    omega
  each := by
    rw [finalize_nodes, List.map_append, textPart_bare, finalize_source]
    intro n hn
    show Sized n ∧ n.iv.2 ≤ d.source.length ∧ _
    rcases List.mem_append.1 hn with q | q
    · have := hp.each n q
      exact ⟨this.1, by have := hp.le; have := hp.fits; omega, this.2.2⟩
    · obtain ⟨a, b, c, e⟩ := textPart_ok (L := L) q d.source
      exact ⟨a, by omega, e⟩

theorem placed_new (L : Lex) : Placed L {} 0 := ⟨⟨(fun _ q => nomatch q), by decide⟩, Nat.le_refl _, Nat.le_refl _, .nil, (fun _ q => nomatch q)⟩

theorem reach_placed {L : Lex} (hL : L.Ok) {d : Doc} (h : Reach L d) : ∃ i, Placed L d i := by
  induction h with
  | new => exact ⟨0, placed_new L⟩
  | clear => exact ⟨0, placed_new L⟩
  | @append d d' more _ hs he ih =>
    obtain ⟨i, hp⟩ := ih
    obtain ⟨i', h', -⟩ := (docLoop_ind hL (P := Placed L) (fun _ hi hp hm => placed_step hi hp (move_adds hm)) _ { d with source := d.source ++ more } _ hs (placed_more hp hs)).1 _ he
    exact ⟨i', h'⟩
  | @throws d d' more _ hs he ih =>
    obtain ⟨i, hp⟩ := ih
    obtain ⟨d0, i0, h', -, -, ht⟩ := (docLoop_ind hL (P := Placed L) (fun _ hi hp hm => placed_step hi hp (move_adds hm)) _ { d with source := d.source ++ more } _ hs (placed_more hp hs)).2 _ he
    exact placed_throws h' ht
  | finalize _ ih =>
    obtain ⟨i, hp⟩ := ih
    exact ⟨_, placed_finalize hp⟩

theorem fed_reach {L : Lex} {d : Doc} (h : Fed L d) : Reach L d := by
  induction h with
  | new => exact .new
  | append _ hs he ih => exact .append ih hs he

/-- The sequences are adjacent, from `a` to `b`. -/
def Tiles : Nat → List Node → Nat → Prop
  | a, [], b => a = b
  | a, n :: l, b => n.iv.1 = a ∧ a ≤ n.iv.2 ∧ Tiles n.iv.2 l b

theorem tiles_append : ∀ {l : List Node} {a b c : Nat} {m : List Node}, Tiles a l b → Tiles b m c → Tiles a (l ++ m) c
  | [], _, _, _, _, h, h' => by cases h; exact h'
  | _ :: _, _, _, _, _, h, h' => ⟨h.1, h.2.1, tiles_append h.2.2 h'⟩

theorem tiles_bare : ∀ {l : List Node} {a b : Nat}, Tiles a (l.map Node.bare) b ↔ Tiles a l b
  | [], _, _ => Iff.rfl
  | n :: l, a, b => by
    rw [List.map_cons, Tiles, Tiles, tiles_bare]
    rfl

theorem tiles_text (d : Doc) (i : Nat) (h : d.parsed ≤ i) : Tiles d.parsed (d.textPart i) i := by
  unfold Doc.textPart
  split
  · exact ⟨rfl, h, rfl⟩
  · show d.parsed = i; omega

/-- What tiles the source spells it. -/
theorem tiles_chars (src : List Int) : ∀ {l : List Node} {a b : Nat}, Tiles a l b → a ≤ b ∧ (l.map fun n => n.chars src).flatten = (src.drop a).take (b - a)
  | [], a, b, h => by cases h; simp
  | n :: l, a, b, h => by
    obtain ⟨h1, h2, h3⟩ := h
    obtain ⟨h4, h5⟩ := tiles_chars src h3
    refine ⟨by omega, ?_⟩
    rw [List.map_cons, List.flatten_cons, h5, Node.chars, h1]
    have e : b - a = (n.iv.2 - a) + (b - n.iv.2) := by omega
    rw [e, List.take_add, List.drop_drop]
    congr 3
    omega

/-- No marked sections, and sequences without gaps. -/
structure Whole (d : Doc) (i : Nat) : Prop where
  le : d.parsed ≤ i
  plain : d.Plain
  valid : d.valid = 0
  tiles : Tiles 0 (d.nodes.map Node.bare) d.parsed

theorem whole_step {L : Lex} {d d' : Doc} {i i' : Nat} (hn : NoSections d.source) (hp : Whole d i) (h : Adds L d i d' i') : Whole d' i' := by
  cases h with
  | skip => exact ⟨by have := hp.le; omega, hp.plain, hp.valid, hp.tiles⟩
  | mark _ _ _ _ h5 =>
    rcases h5 with q | q | q
    · exact absurd q (hn i)
    · exact absurd hp.plain q
    · exact absurd hp.valid q
  | @tag _ n h1 h2 h3 h4 h5 h6 h7 h8 =>
    obtain ⟨tag, h9, h10, -⟩ := h5
    have hb := htmlTag_bounds h9
    have e2 : n.iv.2 = tag.interval.2 := by rw [h10]
    refine ⟨by omega, h7, by rw [h8]; exact hp.valid, ?_⟩
    rw [h3, h2]
    exact tiles_append hp.tiles (tiles_append (tiles_text d i hp.le) ⟨h4, by omega, rfl⟩)

theorem noSections_left {a b : List Int} (h : NoSections (a ++ b)) : NoSections a := by
  intro i q
  refine h i ?_
  rw [← cond_says] at q ⊢
  intro k x y e
  have hl := litAt_len (by decide) q
  have hk := (List.getElem?_eq_some_iff.1 e).1
  rw [List.getElem?_append_left (by omega)]
  exact q k x y e

theorem append_source {L : Lex} (hL : L.Ok) {d d' : Doc} {more : List Int} (hs : SrcOk (d.source ++ more)) (h : d.append L more = .done d') : d'.source = d.source ++ more := by
  obtain ⟨_, _, e, _⟩ := (docLoop_ind hL (P := fun _ _ => True) (fun _ _ _ _ => trivial) _ { d with source := d.source ++ more } _ hs trivial).1 _ h
  exact e

theorem fed_whole {L : Lex} (hL : L.Ok) {d : Doc} (h : Fed L d) : NoSections d.source → Whole d d.parsed := by
  induction h with
  | new => exact fun _ => ⟨Nat.le_refl _, ⟨rfl, rfl, rfl⟩, rfl, rfl⟩
  | @append d d' more hf hs he ih =>
    intro hn
    rw [append_source hL hs he] at hn
    have hw := ih (noSections_left hn)
    obtain ⟨i', h', -⟩ := (docLoop_ind hL (P := fun x i => Whole x i ∧ x.source = d.source ++ more)
      (fun _ hi hp hm => ⟨whole_step (by rw [hp.2]; exact hn) hp.1 (move_adds hm), by rw [(adds_source (move_adds hm) hi).1]; exact hp.2⟩) _ { d with source := d.source ++ more } _ hs
      ⟨⟨Nat.le_refl _, hw.plain, hw.valid, hw.tiles⟩, rfl⟩).1 _ he
    exact ⟨Nat.le_refl _, h'.1.plain, h'.1.valid, h'.1.tiles⟩

/-! ### Properties -/

/-- **C105** Whatever was done to the document: the sequences are in the order of the source and do not overlap, none is empty (marked sections aside), all are inside of the source. -/
theorem doc_order {L : Lex} (hL : L.Ok) {d : Doc} (h : Reach L d) :
    d.nodes.Pairwise (fun a b => a.iv.2 ≤ b.iv.1) ∧ ∀ n ∈ d.nodes, n.iv.1 ≤ n.iv.2 ∧ n.iv.2 ≤ d.source.length ∧ (n.iv.1 = n.iv.2 → n.kind = .CDATA ∨ n.kind = .PCDATA) := by
  obtain ⟨i, hp⟩ := reach_placed hL h
  refine ⟨List.pairwise_map.1 hp.order, fun n hn => ?_⟩
  obtain ⟨h1, h2, _⟩ := hp.each n.bare (List.mem_map.2 ⟨n, hn, rfl⟩)
  have := hp.le
  have := hp.fits
  exact ⟨h1.1, by change n.iv.2 ≤ d.parsed at h2; omega, h1.2⟩

/-- **C105** Whatever was done to the document: every sequence that is not text is a tag of the source, as the source was when it was read; its kind, name, attributes and element are those of the tag. -/
theorem doc_tags {L : Lex} (hL : L.Ok) {d : Doc} (h : Reach L d) {n : Node} (hn : n ∈ d.nodes) (h1 : n.kind ≠ .text) (h2 : n.kind ≠ .CDATA) (h3 : n.kind ≠ .PCDATA) : ∃ t, t <+: d.source ∧ IsTag L t n := by
  obtain ⟨i, hp⟩ := reach_placed hL h
  rcases (hp.each n.bare (List.mem_map.2 ⟨n, hn, rfl⟩)).2.2 with q | q | q | q
  · exact absurd q h1
  · exact absurd q h2
  · exact absurd q h3
  · exact q

/-- **C105** Without marked sections, nothing of the source is lost: when the document is finished, its sequences spell the source. Missing: marked sections, before which text is lost, see `doc_loses_text`. -/
theorem doc_whole_partial {L : Lex} (hL : L.Ok) {d : Doc} (h : Fed L d) (hn : NoSections d.source) :
    (d.finalize.nodes.map fun n => n.chars d.source).flatten = d.source ∧ (∀ k a b, d.finalize.nodes[k]? = some a → d.finalize.nodes[k + 1]? = some b → a.iv.2 = b.iv.1) ∧ ∀ a, d.finalize.nodes[0]? = some a → a.iv.1 = 0 := by
  have hw := fed_whole hL h hn
  obtain ⟨i, hp⟩ := reach_placed hL (fed_reach h)
  have ht : Tiles 0 d.finalize.nodes d.source.length := by
    rw [finalize_nodes]
    exact tiles_append (tiles_bare.1 hw.tiles) (tiles_text d _ (by have := hp.le; have := hp.fits; omega))
  refine ⟨?_, ?_, ?_⟩
  · rw [(tiles_chars d.source ht).2]
    simp
  · generalize d.finalize.nodes = l at ht
    generalize 0 = a at ht
    intro k
    induction l generalizing a k with
    | nil => intro x y e; cases e
    | cons n l ih =>
      intro x y e e'
      cases k with
      | succ k => exact ih _ ht.2.2 k x y e e'
      | zero =>
        cases e
        cases l with
        | nil => cases e'
        | cons m l => cases e'; exact ht.2.2.1.symm
  · intro a e
    cases hx : d.finalize.nodes with
    | nil => rw [hx] at e; cases e
    | cons n l =>
      rw [hx] at e ht
      cases e
      exact ht.1

end Verif.Html
