import Verif.Html.Document
/-
What a round of `document::append` does.
-/
namespace Verif.Html
open Verif.Str Verif.Sgml Verif.Parser

/-- The types have at least the width of `char`, and the locale maps only 0 to 0. -/
structure Lex.Ok (L : Lex) : Prop where
  T : 8 ≤ L.T.bits
  C : 8 ≤ L.C.bits
  lower : ∀ c, L.v.lower c = 0 ↔ c = 0

/-- The source holds no terminator, and is no longer than memory. -/
structure SrcOk (src : List Int) : Prop where
  nz : ∀ c ∈ src, c ≠ 0
  small : src.length < 2 ^ 64

theorem env_ok {L : Lex} (hL : L.Ok) {src : List Int} (hs : SrcOk src) : (L.env src src.length).Ok src where
  valid := .inl (by simp [Lex.env])
  text := (text_eq_of hs.nz (List.prefix_append _ _) (.inr rfl) (by intro n e; cases e; exact Nat.le_refl _)).symm
  small := by intro n e; cases e; exact hs.small
  lower := hL.lower

/-- No mode of a condition is on. -/
def Doc.Plain (d : Doc) : Prop := d.cdata = false ∧ d.rcdata = false ∧ d.invalid = 0

/-- Text up to the tag, and the tag counts as parsed. -/
def Doc.upTo (d : Doc) (i : Nat) (tag : Tag) : Doc := { d.pushText i with parsed := tag.interval.2 }

/-- What a round does. -/
inductive Move (L : Lex) (d : Doc) (i : Nat) : Doc → Nat → Prop
  | skip : (d.Plain → d.special = false → ∀ T, ¬ TagAt L.v.space d.source i T) → Move L d i d (i + 1)
  | cdata {e} : (d.cdata = true ∨ d.rcdata = true) → ConditionEnd d.source i e →
      Move L d i { d.push { kind := if d.cdata then .CDATA else .PCDATA, iv := (d.parsed, i), parent := d.active } with cdata := false, rcdata := false, parsed := e } e
  | ignored {e} : d.cdata = false → d.rcdata = false → d.invalid ≠ 0 → ConditionEnd d.source i e → Move L d i { d with invalid := d.invalid - 1, parsed := e } e
  | valid {e} : d.Plain → d.valid ≠ 0 → ConditionEnd d.source i e → Move L d i { d.pushText i with valid := d.valid - 1, parsed := e } e
  | condition {p : Part} {c r : Bool} {x y : Nat} : d.Plain → ConditionStart L.v.space d.source i p → Move L d i { d with cdata := c, rcdata := r, valid := x, invalid := y, parsed := p.2.2 } p.2.2
  | special {s stack n tag} : d.Plain → d.special = true → d.stack = s :: stack → d.nodes[s]? = some n → TagAt L.v.space d.source i tag → tag.type = .element_end → L.code d.source tag.name = some n.code →
      Move L d i ({ d.upTo i tag with nodes := (d.upTo i tag).nodes.set s { n with fin := some (d.upTo i tag).nodes.length }, stack := stack, special := false }.push
        { kind := .element_end, iv := tag.interval, parent := n.parent, code := n.code, name := tag.name, beg := some s }) tag.interval.2
  | element {tag code nodes stack parent charset} : d.Plain → d.special = false → TagAt L.v.space d.source i tag → (tag.type = .element ∨ tag.type = .element_start) → L.code d.source tag.name = some code →
      endOpen code (d.upTo i tag).nodes.length (d.upTo i tag).nodes d.stack none = some (nodes, stack, parent) → metaCharset L (d.upTo i tag) code tag.attrs = some charset →
      Move L d i ({ d.upTo i tag with nodes := nodes, stack := stack, charset := charset }.addElement tag code parent) tag.interval.2
  | stray {tag code} : d.Plain → d.special = false → TagAt L.v.space d.source i tag → tag.type = .element_end → L.code d.source tag.name = some code →
      findStart L d.source code tag.name (d.upTo i tag).nodes d.stack = some none →
      Move L d i ((d.upTo i tag).push { kind := .element_end, iv := tag.interval, parent := d.active, code := code, name := tag.name }) tag.interval.2
  | close {tag code s n stack} : d.Plain → d.special = false → TagAt L.v.space d.source i tag → tag.type = .element_end → L.code d.source tag.name = some code →
      findStart L d.source code tag.name (d.upTo i tag).nodes d.stack = some (some (s, n, stack)) →
      Move L d i ({ d.upTo i tag with nodes := (d.upTo i tag).nodes.set s { n with fin := some (d.upTo i tag).nodes.length }, stack := stack }.push
        { kind := .element_end, iv := tag.interval, parent := n.parent, code := code, name := tag.name, beg := some s }) tag.interval.2
  | other {tag kind attrs ents} : d.Plain → d.special = false → TagAt L.v.space d.source i tag →
      ((tag.type = .declaration ∧ kind = .declaration ∧ attrs = tag.attrs) ∨ (tag.type = .comment ∧ kind = .comment ∧ attrs = []) ∨ (tag.type = .instruction ∧ kind = .instruction ∧ attrs = [])) →
      tagStep L d i tag = .go { (d.upTo i tag).push { kind := kind, iv := tag.interval, parent := d.active, name := tag.name, attrs := attrs } with entities := ents } tag.interval.2 →
      Move L d i { (d.upTo i tag).push { kind := kind, iv := tag.interval, parent := d.active, name := tag.name, attrs := attrs } with entities := ents } tag.interval.2

/-- What a round that throws leaves. -/
inductive Throws (L : Lex) (d : Doc) (i : Nat) : Doc → Prop
  | same : Throws L d i d
  | tag {tag} : d.Plain → d.special = false → TagAt L.v.space d.source i tag → tag.type = .declaration → Throws L d i (d.upTo i tag)

theorem Doc.upTo_source (d : Doc) (i : Nat) (tag : Tag) : (d.upTo i tag).source = d.source := by unfold Doc.upTo Doc.pushText Doc.push; split <;> rfl
theorem Doc.upTo_stack (d : Doc) (i : Nat) (tag : Tag) : (d.upTo i tag).stack = d.stack := by unfold Doc.upTo Doc.pushText Doc.push; split <;> rfl
theorem Doc.upTo_active (d : Doc) (i : Nat) (tag : Tag) : (d.upTo i tag).active = d.active := by unfold Doc.active; rw [Doc.upTo_stack]

theorem htmlTag_some {L : Lex} (hL : L.Ok) {src : List Int} (hs : SrcOk src) {i : Nat} (hi : i ≤ src.length) {tag : Tag} (h : htmlTag (L.env src src.length) i = some (some tag)) : TagAt L.v.space src i tag := by
  by_cases q : StuckTag L.v.space src i
  · rw [(htmlTag_stuck (env_ok hL hs) q).1] at h; cases h
  · obtain ⟨r, h1, h2⟩ := htmlTag_spec_partial (env_ok hL hs) hi q
    rw [h1] at h
    cases h
    exact (h2 tag).1 rfl

theorem htmlTag_none {L : Lex} (hL : L.Ok) {src : List Int} (hs : SrcOk src) {i : Nat} (hi : i ≤ src.length) (h : htmlTag (L.env src src.length) i = some none) (T : Tag) : ¬ TagAt L.v.space src i T := by
  by_cases q : StuckTag L.v.space src i
  · rw [(htmlTag_stuck (env_ok hL hs) q).1] at h; cases h
  · obtain ⟨r, h1, h2⟩ := htmlTag_spec_partial (env_ok hL hs) hi q
    rw [h1] at h
    cases h
    intro x
    have := (h2 T).2 x
    cases this

theorem nextChar_eq {L : Lex} (hL : L.Ok) {d : Doc} (hs : SrcOk d.source) {i : Nat} (hi : i < d.source.length) : nextChar L d i = .go d (i + 1) := by
  unfold nextChar
  rw [anyCu_spec (env_ok hL hs) i (by omega), List.getElem?_eq_getElem hi]
  rfl

/-- What the model says about a round. -/
def Says (L : Lex) (d : Doc) (i : Nat) (r : Step) : Prop :=
  (∀ d' i', r = .go d' i' → Move L d i d' i') ∧ (∀ d', r = .throws d' → Throws L d i d') ∧ (∀ d', r ≠ .stop d')

theorem says_fault (L : Lex) (d : Doc) (i : Nat) : Says L d i .fault := by
  refine ⟨?_, ?_, ?_⟩
  · intros; contradiction
  · intros; contradiction
  · intros; intro; contradiction

theorem says_go {L : Lex} {d d' : Doc} {i i' : Nat} (h : Move L d i d' i') : Says L d i (.go d' i') := by
  refine ⟨?_, ?_, ?_⟩
  · intro x y e
    injection e with e1 e2
    subst e1; subst e2
    exact h
  · intros; contradiction
  · intros; intro; contradiction

theorem tagElement_move {L : Lex} {d : Doc} {i : Nat} {tag : Tag} (hp : d.Plain) (hsp : d.special = false) (ht : TagAt L.v.space d.source i tag) (hty : tag.type = .element ∨ tag.type = .element_start) :
    Says L d i (tagElement L (d.upTo i tag) tag) := by
  unfold tagElement
  cases h1 : L.code (d.upTo i tag).source tag.name with
  | none => exact says_fault ..
  | some code =>
    dsimp only
    cases h2 : endOpen code (d.upTo i tag).nodes.length (d.upTo i tag).nodes (d.upTo i tag).stack none with
    | none => exact says_fault ..
    | some x =>
      obtain ⟨nodes, stack, parent⟩ := x
      dsimp only
      cases h3 : metaCharset L (d.upTo i tag) code tag.attrs with
      | none => exact says_fault ..
      | some charset =>
        rw [Doc.upTo_source] at h1
        rw [Doc.upTo_stack] at h2
        exact says_go (.element hp hsp ht hty h1 h2 h3)

theorem tagEnd_move {L : Lex} {d : Doc} {i : Nat} {tag : Tag} (hp : d.Plain) (hsp : d.special = false) (ht : TagAt L.v.space d.source i tag) (hty : tag.type = .element_end) :
    Says L d i (tagEnd L (d.upTo i tag) tag) := by
  unfold tagEnd
  cases h1 : L.code (d.upTo i tag).source tag.name with
  | none => exact says_fault ..
  | some code =>
    dsimp only
    cases h2 : findStart L (d.upTo i tag).source code tag.name (d.upTo i tag).nodes (d.upTo i tag).stack with
    | none => exact says_fault ..
    | some x =>
      rw [Doc.upTo_source] at h1
      rw [Doc.upTo_source, Doc.upTo_stack] at h2
      cases x with
      | none => rw [Doc.upTo_active]; exact says_go (.stray hp hsp ht hty h1 h2)
      | some x =>
        obtain ⟨s, n, stack⟩ := x
        exact says_go (.close hp hsp ht hty h1 h2)

theorem tagStep_eq (L : Lex) (d : Doc) (i : Nat) (tag : Tag) : tagStep L d i tag = (match tag.type with
    | .element => tagElement L (d.upTo i tag) tag
    | .element_start => tagElement L (d.upTo i tag) tag
    | .element_end => tagEnd L (d.upTo i tag) tag
    | .declaration => tagDeclaration L (d.upTo i tag) tag
    | .comment => .go ((d.upTo i tag).push { kind := .comment, iv := tag.interval, parent := (d.upTo i tag).active, name := tag.name }) tag.interval.2
    | .instruction => .go ((d.upTo i tag).push { kind := .instruction, iv := tag.interval, parent := (d.upTo i tag).active, name := tag.name }) tag.interval.2) := rfl

theorem tagDeclaration_move {L : Lex} {d : Doc} {i : Nat} {tag : Tag} (hp : d.Plain) (hsp : d.special = false) (ht : TagAt L.v.space d.source i tag) (hty : tag.type = .declaration) :
    Says L d i (tagDeclaration L (d.upTo i tag) tag) := by
  have e0 : tagStep L d i tag = tagDeclaration L (d.upTo i tag) tag := by rw [tagStep_eq, hty]
  have mk : ∀ ents, tagDeclaration L (d.upTo i tag) tag = .go { (d.upTo i tag).push { kind := .declaration, iv := tag.interval, parent := d.active, name := tag.name, attrs := tag.attrs } with entities := ents } tag.interval.2 →
      Says L d i (tagDeclaration L (d.upTo i tag) tag) := by
    intro ents e
    rw [e]
    exact says_go (.other hp hsp ht (.inl ⟨hty, rfl, rfl⟩) (e0.trans e))
  have th : tagDeclaration L (d.upTo i tag) tag = .throws (d.upTo i tag) → Says L d i (tagDeclaration L (d.upTo i tag) tag) := by
    intro e
    rw [e]
    refine ⟨?_, ?_, ?_⟩
    · intros; contradiction
    · intro d' e
      injection e with e
      subst e
      exact .tag hp hsp ht hty
    · intros; intro; contradiction
  have fa : tagDeclaration L (d.upTo i tag) tag = .fault → Says L d i (tagDeclaration L (d.upTo i tag) tag) := by
    intro e
    rw [e]
    exact says_fault ..
  have all : (∃ ents, tagDeclaration L (d.upTo i tag) tag = .go { (d.upTo i tag).push { kind := .declaration, iv := tag.interval, parent := d.active, name := tag.name, attrs := tag.attrs } with entities := ents } tag.interval.2) ∨
      tagDeclaration L (d.upTo i tag) tag = .throws (d.upTo i tag) ∨ tagDeclaration L (d.upTo i tag) tag = .fault := by
    unfold tagDeclaration
    rw [Doc.upTo_active]
    dsimp only
    split
    · split
      · split
        · split
          · exact .inr (.inr rfl)
          · exact .inr (.inl rfl)
          · exact .inl ⟨_, rfl⟩
        · exact .inl ⟨_, rfl⟩
      · exact .inr (.inr rfl)
    · exact .inl ⟨_, rfl⟩
  rcases all with ⟨ents, e⟩ | e | e
  · exact mk ents e
  · exact th e
  · exact fa e

theorem tagStep_move {L : Lex} {d : Doc} {i : Nat} {tag : Tag} (hp : d.Plain) (hsp : d.special = false) (ht : TagAt L.v.space d.source i tag) : Says L d i (tagStep L d i tag) := by
  have e0 := tagStep_eq L d i tag
  rw [e0]
  cases hty : tag.type with
  | element => exact tagElement_move hp hsp ht (.inl hty)
  | element_start => exact tagElement_move hp hsp ht (.inr hty)
  | element_end => exact tagEnd_move hp hsp ht hty
  | comment =>
    rw [hty] at e0
    dsimp only at e0 ⊢
    rw [Doc.upTo_active] at e0 ⊢
    exact says_go (.other (ents := (d.upTo i tag).entities) hp hsp ht (.inr (.inl ⟨hty, rfl, rfl⟩)) e0)
  | instruction =>
    rw [hty] at e0
    dsimp only at e0 ⊢
    rw [Doc.upTo_active] at e0 ⊢
    exact says_go (.other (ents := (d.upTo i tag).entities) hp hsp ht (.inr (.inr ⟨hty, rfl, rfl⟩)) e0)
  | declaration => exact tagDeclaration_move hp hsp ht hty

theorem specialStep_move {L : Lex} (hL : L.Ok) {d : Doc} (hs : SrcOk d.source) {i : Nat} (hi : i < d.source.length) (hp : d.Plain) (hsp : d.special = true) : Says L d i (specialStep L d i) := by
  have sk : Says L d i (nextChar L d i) := by
    rw [nextChar_eq hL hs hi]
    exact says_go (.skip fun _ q => by rw [hsp] at q; cases q)
  unfold specialStep
  split
  · exact says_fault ..
  · rename_i s stack hst
    split
    · rename_i n tag hn ht
      have ht := htmlTag_some hL hs (Nat.le_of_lt hi) ht
      split
      · rename_i hty
        split
        · exact says_fault ..
        · rename_i code hc
          split
          · rename_i e
            subst e
            exact says_go (.special hp hsp hst hn ht hty hc)
          · exact sk
      · exact sk
    · exact sk
    · exact says_fault ..

theorem markupStep_move {L : Lex} (hL : L.Ok) {d : Doc} (hs : SrcOk d.source) {i : Nat} (hi : i < d.source.length) (hp : d.Plain) : Says L d i (markupStep L d i) := by
  unfold markupStep
  split
  · rename_i h; exact specialStep_move hL hs hi hp h
  · rename_i h
    have h : d.special = false := by simpa using h
    split
    · exact says_fault ..
    · rename_i tag ht
      exact tagStep_move hp h (htmlTag_some hL hs (Nat.le_of_lt hi) ht)
    · rename_i ht
      rw [nextChar_eq hL hs hi]
      exact says_go (.skip fun _ _ => htmlTag_none hL hs (Nat.le_of_lt hi) ht)

theorem openStep_move {L : Lex} (hL : L.Ok) {d : Doc} (hs : SrcOk d.source) {i : Nat} (hi : i < d.source.length) (hp : d.Plain) : Says L d i (openStep L d i) := by
  unfold openStep
  obtain ⟨r, h1, h2⟩ := conditionStart_spec (env_ok hL hs) (Nat.le_of_lt hi)
  rw [h1]
  cases r with
  | none => exact markupStep_move hL hs hi hp
  | some p =>
    have hc := (h2 p).1 rfl
    dsimp only
    unfold beginCondition
    split
    · exact says_fault ..
    · refine ⟨?_, ?_, ?_⟩
      · intros; contradiction
      · intro d' e
        injection e with e
        subst e
        exact .same
      · intros; intro; contradiction
    · split
      · rename_i isC isR isI _ _ _
        dsimp only
        cases isC <;> cases isR <;> cases isI <;> (simp only [↓reduceIte, Bool.false_eq_true, hp.2.2, ne_eq, not_true_eq_false]; exact says_go (.condition hp hc))
      · exact says_fault ..

/-- A round of the loop is a move, throws, or has no end; it does not `break`. -/
theorem docStep_move {L : Lex} (hL : L.Ok) {d : Doc} (hs : SrcOk d.source) {i : Nat} (hi : i < d.source.length) : Says L d i (docStep L d i) := by
  unfold docStep
  obtain ⟨r, h1, h2⟩ := conditionEnd_spec (env_ok hL hs) (Nat.le_of_lt hi)
  rw [h1]
  dsimp only
  split
  · rename_i hm
    have hm : d.cdata = true ∨ d.rcdata = true := by simpa using hm
    cases r with
    | none =>
      dsimp only
      rw [nextChar_eq hL hs hi]
      exact says_go (.skip fun q => by rcases hm with h | h <;> simp [Doc.Plain, h] at q)
    | some e => exact says_go (.cdata hm ((h2 e).1 rfl))
  · rename_i hm
    have hm : d.cdata = false ∧ d.rcdata = false := by simpa using hm
    split
    · rename_i hv
      cases r with
      | none =>
        dsimp only
        rw [nextChar_eq hL hs hi]
        exact says_go (.skip fun q => absurd q.2.2 hv)
      | some e => exact says_go (.ignored hm.1 hm.2 hv ((h2 e).1 rfl))
    · rename_i hv
      have hp : d.Plain := ⟨hm.1, hm.2, Classical.not_not.1 hv⟩
      cases r with
      | none => exact openStep_move hL hs hi hp
      | some e =>
        dsimp only
        split
        · rename_i hx
          exact says_go (.valid hp hx ((h2 e).1 rfl))
        · exact openStep_move hL hs hi hp

end Verif.Html
