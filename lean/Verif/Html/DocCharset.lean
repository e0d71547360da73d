import Verif.Html.DocAgain
/-
The character set of a document: `document::append` of include/stdex/html.hpp (1777-1800).
-/
namespace Verif.Html
open Verif.Str Verif.Sgml Verif.Parser

/-! ### Specification -/

/-- The characters of the interval -/
def slice (t : List Int) (iv : Nat × Nat) : List Int := (t.drop iv.1).take (iv.2 - iv.1)

/-- The interval holds the word, in upper or lower case. -/
def Spells (t : List Int) (iv : Nat × Nat) (w : String) : Prop := (slice t iv).map lowerSpec = asc w

/-- The attributes say `http-equiv="content-type"`, and the last `content="type/subtype; charset=..."` names the character set `c`. -/
def MetaCharset (L : Lex) (t : List Int) (attrs : List Attr) (c : Nat) : Prop :=
  (∃ a ∈ attrs, ∃ v, a.value = some v ∧ Spells t a.name "http-equiv" ∧ Spells t v "content-type") ∧
  ∃ l a l' x y m iv, attrs = l ++ a :: l' ∧ Spells t a.name "content" ∧ (∀ b ∈ l', ¬ Spells t b.name "content") ∧ a.value = some (x, y) ∧ MimeAt L.v.space (t.take y) x m ∧ m.charset = some iv ∧
    c = L.charsetOf ((slice (t.take y) iv).map L.C.wrap)

/-- The sequence is a meta element. -/
def Node.isMeta (n : Node) : Prop := n.isElement ∧ n.code = .«meta»

/-! ### Proofs -/

theorem charsetAt_bound {space : Int → Bool} {t : List Int} {b e : Nat} {x : Iv} (h : CharsetAt space t b x e) : ∀ iv, x = some iv → iv.2 ≤ t.length ∨ iv.2 ≤ iv.1 := by
  have run : ∀ {p : Int → Prop} {i e}, RunAt p t i e → e ≤ t.length ∨ e ≤ i := by
    intro p i e hr
    by_cases q : e ≤ i
    · exact .inr q
    · obtain ⟨c, hc, _⟩ := hr.2.1 (e - 1) (by omega) (by omega)
      have := get_lt hc
      exact .inl (by omega)
  intro iv e
  cases h with
  | none => cases e
  | other => cases e
  | plain _ _ _ _ _ h => cases e; exact run h
  | quoted _ _ _ _ _ h => cases e; exact run h
  | unclosed => cases e

theorem slice_take {t : List Int} {y : Nat} {iv : Nat × Nat} (h : iv.2 ≤ (t.take y).length ∨ iv.2 ≤ iv.1) : slice (t.take y) iv = slice t iv := by
  unfold slice
  rcases h with h | h
  · rw [List.length_take] at h
    rw [List.drop_take, List.take_take]
    congr 1
    omega
  · rw [show iv.2 - iv.1 = 0 by omega]
    simp

theorem slice_mono {t t' : List Int} (h : t <+: t') {iv : Nat × Nat} (hb : iv.2 ≤ t.length) : slice t' iv = slice t iv := by
  obtain ⟨s, rfl⟩ := h
  unfold slice
  by_cases q : iv.1 ≤ t.length
  · rw [List.drop_append_of_le_length q, List.take_append_of_le_length (by rw [List.length_drop]; omega)]
  · rw [show iv.2 - iv.1 = 0 by omega]
    simp

theorem take_mono {t t' : List Int} (h : t <+: t') {y : Nat} (hb : y ≤ t.length) : t'.take y = t.take y := by
  obtain ⟨s, rfl⟩ := h
  exact List.take_append_of_le_length hb

/-- The attributes are inside of the text. -/
def AttrsIn (t : List Int) (attrs : List Attr) : Prop := ∀ a ∈ attrs, a.name.2 ≤ t.length ∧ ∀ c, a.value = some c → c.1 ≤ c.2 ∧ c.2 ≤ t.length

theorem metaCharset_mono {L : Lex} {t t' : List Int} (h : t <+: t') {attrs : List Attr} (hb : AttrsIn t attrs) {c : Nat} : MetaCharset L t' attrs c ↔ MetaCharset L t attrs c := by
  have sp : ∀ {iv w}, iv.2 ≤ t.length → (Spells t' iv w ↔ Spells t iv w) := by
    intro iv w q
    unfold Spells
    rw [slice_mono h q]
  unfold MetaCharset
  constructor
  · rintro ⟨⟨a, ha, v, hv, h1, h2⟩, l, b, l', x, y, m, iv, rfl, h4, h5, h6, h7, h8, h9⟩
    have hy := ((hb b (by simp)).2 _ h6).2
    rw [take_mono h hy] at h7 h9
    exact ⟨⟨a, ha, v, hv, (sp (hb a ha).1).1 h1, (sp ((hb a ha).2 v hv).2).1 h2⟩, l, b, l', x, y, m, iv, rfl, (sp (hb b (by simp)).1).1 h4, fun z hz q => h5 z hz ((sp (hb z (by simp [hz])).1).2 q), h6, h7, h8, h9⟩
  · rintro ⟨⟨a, ha, v, hv, h1, h2⟩, l, b, l', x, y, m, iv, rfl, h4, h5, h6, h7, h8, h9⟩
    have hy := ((hb b (by simp)).2 _ h6).2
    rw [← take_mono h hy] at h7 h9
    exact ⟨⟨a, ha, v, hv, (sp (hb a ha).1).2 h1, (sp ((hb a ha).2 v hv).2).2 h2⟩, l, b, l', x, y, m, iv, rfl, (sp (hb b (by simp)).1).2 h4, fun z hz q => h5 z hz ((sp (hb z (by simp [hz])).1).1 q), h6, h7, h8, h9⟩

theorem saysIv_eq {L : Lex} (hL : L.Ok) {src : List Int} (hs : SrcOk src) {iv : Nat × Nat} (hb : iv.2 ≤ src.length) {w : List Int} (hw : w.all (fun c => decide (c ≠ 0 ∧ lowerSpec c = c)) = true) (hl : w.length < 100) :
    L.saysIv src (some iv) w = some (decide ((slice src iv).map lowerSpec = w)) := by
  unfold Lex.saysIv
  dsimp only
  rw [saysI_eq hL.T hL.C (valid_zero _ _) (fun c hc => by have := List.all_eq_true.1 hw c hc; simpa using this) (by omega)]
  have : text (src.drop iv.1 ++ [0]) (some (iv.2 - iv.1)) = slice src iv := by
    unfold slice
    exact text_eq_of (fun c hc => hs.nz c (List.mem_of_mem_drop (List.mem_of_mem_take hc))) ((List.take_prefix _ _).trans (List.prefix_append _ _)) (.inr (by rw [List.length_take, List.length_drop]; congr 1; omega))
      (by intro n e; cases e; rw [List.length_take]; omega)
  rw [this]

/-- An attribute without a value does not say `content-type`. -/
theorem saysIv_none {L : Lex} (hL : L.Ok) {src : List Int} (hs : SrcOk src) {k : Nat} (hk : src[k + 1]? = some 62) : L.saysIv src none (asc "content-type") = some false := by
  unfold Lex.saysIv
  dsimp only
  rw [saysI_eq hL.T hL.C (valid_zero _ _) (by decide) (by decide)]
  have : text (src.drop 1 ++ [0]) (some (2 ^ 64 - 1)) = src.drop 1 :=
    text_eq_of (fun c hc => hs.nz c (List.mem_of_mem_drop hc)) (List.prefix_append _ _) (.inl (by rw [List.getElem?_append_right (Nat.le_refl _), Nat.sub_self]; rfl))
      (by intro n e; cases e; have := hs.small; rw [List.length_drop]; omega)
  rw [this]
  congr 1
  apply decide_eq_false
  intro q
  have hm : (62 : Int) ∈ (src.drop 1).map lowerSpec := by
    refine List.mem_map.2 ⟨62, ?_, by decide⟩
    refine List.mem_of_getElem? (i := k) ?_
    rw [List.getElem?_drop, Nat.add_comm]
    exact hk
  rw [q] at hm
  revert hm
  decide

/-- The attribute says `http-equiv="content-type"`. -/
def IsType (t : List Int) (a : Attr) : Prop := ∃ v, a.value = some v ∧ Spells t a.name "http-equiv" ∧ Spells t v "content-type"

theorem metaAttrs_spec {L : Lex} (hL : L.Ok) {src : List Int} (hs : SrcOk src) {k : Nat} (hk : src[k + 1]? = some 62) : ∀ (l : List Attr) (b : Bool) (c : Option Attr), AttrsIn src l → ∃ b' c', metaAttrs L src l b c = some (b', c') ∧
    (b' = true ↔ b = true ∨ ∃ a ∈ l, IsType src a) ∧ ((∃ l1 a l2, l = l1 ++ a :: l2 ∧ Spells src a.name "content" ∧ (∀ z ∈ l2, ¬ Spells src z.name "content") ∧ c' = some a) ∨ ((∀ a ∈ l, ¬ Spells src a.name "content") ∧ c' = c))
  | [], b, c, _ => ⟨b, c, rfl, by simp, .inr ⟨(fun _ q => nomatch q), rfl⟩⟩
  | a :: l, b, c, hb => by
    have hba := hb a List.mem_cons_self
    have hbl : AttrsIn src l := fun x hx => hb x (List.mem_cons_of_mem _ hx)
    have h1 := saysIv_eq hL hs hba.1 (w := asc "http-equiv") (by decide) (by decide)
    have h3 := saysIv_eq hL hs hba.1 (w := asc "content") (by decide) (by decide)
    have h2 : ∃ x, L.saysIv src a.value (asc "content-type") = some x ∧ (x = true ↔ ∃ v, a.value = some v ∧ Spells src v "content-type") := by
      cases hv : a.value with
      | none => exact ⟨false, saysIv_none hL hs hk, by simp⟩
      | some v => exact ⟨_, saysIv_eq hL hs (hba.2 v hv).2 (w := asc "content-type") (by decide) (by decide), by simp [Spells]⟩
    obtain ⟨x, h2, h2'⟩ := h2
    rw [metaAttrs, h1, h2, h3]
    dsimp only
    have he : (slice src a.name).map lowerSpec = asc "http-equiv" ↔ Spells src a.name "http-equiv" := Iff.rfl
    have hc : (slice src a.name).map lowerSpec = asc "content" ↔ Spells src a.name "content" := Iff.rfl
    have key : (decide ((slice src a.name).map lowerSpec = asc "http-equiv") && x) = true ↔ IsType src a := by
      rw [Bool.and_eq_true, decide_eq_true_eq, h2', he]
      unfold IsType
      constructor
      · rintro ⟨p, v, q, r⟩; exact ⟨v, q, p, r⟩
      · rintro ⟨v, q, p, r⟩; exact ⟨p, v, q, r⟩
    by_cases q : IsType src a
    · rw [if_pos (key.2 q)]
      obtain ⟨b', c', e1, e2, e3⟩ := metaAttrs_spec hL hs hk l true c hbl
      refine ⟨b', c', e1, ?_, ?_⟩
      · rw [e2]
        simp [q]
      · rcases e3 with ⟨l1, z, l2, rfl, e4, e5, e6⟩ | ⟨e4, e5⟩
        · exact .inl ⟨a :: l1, z, l2, rfl, e4, e5, e6⟩
        · refine .inr ⟨fun z hz => ?_, e5⟩
          rcases List.mem_cons.1 hz with rfl | hz
          · obtain ⟨_, _, p, _⟩ := q
            intro w
            unfold Spells at p w
            rw [p] at w
            revert w
            decide
          · exact e4 z hz
    · rw [if_neg (fun w => q (key.1 w))]
      have tail : ∀ {b' : Bool}, (b' = true ↔ b = true ∨ ∃ a ∈ l, IsType src a) → (b' = true ↔ b = true ∨ ∃ x ∈ a :: l, IsType src x) := by
        intro b' h
        rw [h]
        simp [q]
      by_cases q' : Spells src a.name "content"
      · rw [if_pos (decide_eq_true (show (slice src a.name).map lowerSpec = asc "content" from q'))]
        obtain ⟨b', c', e1, e2, e3⟩ := metaAttrs_spec hL hs hk l b (some a) hbl
        refine ⟨b', c', e1, tail e2, .inl ?_⟩
        rcases e3 with ⟨l1, z, l2, rfl, e4, e5, e6⟩ | ⟨e4, e5⟩
        · exact ⟨a :: l1, z, l2, rfl, e4, e5, e6⟩
        · exact ⟨[], a, l, rfl, q', e4, e5⟩
      · rw [if_neg (by rw [decide_eq_true_eq]; exact q')]
        obtain ⟨b', c', e1, e2, e3⟩ := metaAttrs_spec hL hs hk l b c hbl
        refine ⟨b', c', e1, tail e2, ?_⟩
        rcases e3 with ⟨l1, z, l2, rfl, e4, e5, e6⟩ | ⟨e4, e5⟩
        · exact .inl ⟨a :: l1, z, l2, rfl, e4, e5, e6⟩
        · refine .inr ⟨fun z hz => ?_, e5⟩
          rcases List.mem_cons.1 hz with rfl | hz
          · exact q'
          · exact e4 z hz

/-- The last of its kind is one. -/
theorem last_one {P : Attr → Prop} {l1 l2 m1 m2 : List Attr} {a b : Attr} (h : l1 ++ a :: l2 = m1 ++ b :: m2) (ha : P a) (hb : P b) (h1 : ∀ z ∈ l2, ¬ P z) (h2 : ∀ z ∈ m2, ¬ P z) : a = b := by
  rcases List.append_eq_append_iff.1 h with ⟨t, e1, e2⟩ | ⟨t, e1, e2⟩
  · cases t with
    | nil => cases e2; rfl
    | cons y t =>
      injection e2 with _ e2
      exact absurd hb (h1 b (by rw [e2]; simp))
  · cases t with
    | nil => cases e2; rfl
    | cons y t =>
      injection e2 with _ e2
      exact absurd ha (h2 a (by rw [e2]; simp))

/-- The attributes name at most one character set. -/
theorem metaCharset_one {L : Lex} (hL : L.Ok) {t : List Int} (hs : SrcOk t) {attrs : List Attr} (hb : AttrsIn t attrs) {c c' : Nat} (h : MetaCharset L t attrs c) (h' : MetaCharset L t attrs c') : c = c' := by
  obtain ⟨_, l, a, l', x, y, m, iv, rfl, e1, e2, e3, e4, e5, rfl⟩ := h
  obtain ⟨_, k, b, k', x', y', m', iv', e, f1, f2, f3, f4, f5, rfl⟩ := h'
  have := last_one (P := fun z => Spells t z.name "content") e e1 f1 e2 f2
  subst this
  rw [e3] at f3
  cases f3
  have hxy := (hb a (by simp)).2 _ e3
  obtain ⟨r, g1, g2⟩ := mime_spec (envTo_ok hL hs hxy.2) (i := x) (by rw [List.length_take]; omega)
  have g2 : ∀ m, r = some m ↔ MimeAt L.v.space (t.take y) x m := g2
  have p := (g2 m).2 e4
  rw [(g2 m').2 f4] at p
  cases p
  rw [e5] at f5
  cases f5
  rfl

theorem metaCharset_spec {L : Lex} (hL : L.Ok) {d : Doc} (hs : SrcOk d.source) {k : Nat} (hk : d.source[k + 1]? = some 62) (code : Elem) {attrs : List Attr} (hb : AttrsIn d.source attrs) : ∃ r, metaCharset L d code attrs = some r ∧
    (code = .«meta» ∧ d.charset = 0 → MetaCharset L d.source attrs r ∨ (r = 0 ∧ ∀ c, ¬ MetaCharset L d.source attrs c)) ∧ (¬ (code = .«meta» ∧ d.charset = 0) → r = d.charset) := by
  unfold metaCharset
  by_cases hc : code = .«meta» ∧ d.charset = 0
  · rw [if_pos hc]
    obtain ⟨b, c, h1, h2, h3⟩ := metaAttrs_spec hL hs hk attrs false none hb
    rw [h1]
    have no : ∀ {r : Nat}, (∀ c, ¬ MetaCharset L d.source attrs c) → r = d.charset →
        (code = .«meta» ∧ d.charset = 0 → MetaCharset L d.source attrs r ∨ (r = 0 ∧ ∀ c, ¬ MetaCharset L d.source attrs c)) ∧ (¬ (code = .«meta» ∧ d.charset = 0) → r = d.charset) := by
      intro r q e
      exact ⟨fun _ => .inr ⟨by rw [e, hc.2], q⟩, fun q => absurd hc q⟩
    rcases b with _ | _
    · refine ⟨_, rfl, no (fun c q => ?_) rfl⟩
      have := h2.2 (.inr q.1)
      cases this
    · have hty : ∃ a ∈ attrs, IsType d.source a := (h2.1 rfl).resolve_left (fun q => nomatch q)
      rcases h3 with ⟨l1, a, l2, rfl, e4, e5, rfl⟩ | ⟨e4, rfl⟩
      · dsimp only
        have same : ∀ {c}, MetaCharset L d.source (l1 ++ a :: l2) c → ∃ x y m iv, a.value = some (x, y) ∧ MimeAt L.v.space (d.source.take y) x m ∧ m.charset = some iv := by
          rintro c ⟨_, m1, z, m2, x, y, m, iv, e, f1, f2, f3, f4, f5, f6⟩
          have := last_one (P := fun z => Spells d.source z.name "content") e e4 f1 e5 f2
          subst this
          exact ⟨x, y, m, iv, f3, f4, f5⟩
        cases hv : a.value with
        | none =>
          refine ⟨_, rfl, no (fun c q => ?_) rfl⟩
          obtain ⟨_, _, _, _, e, _⟩ := same q
          rw [hv] at e
          cases e
        | some p =>
          obtain ⟨x, y⟩ := p
          have hxy := (hb a (by simp)).2 _ hv
          dsimp only at hxy ⊢
          obtain ⟨r, g1, g2⟩ := mime_spec (envTo_ok hL hs hxy.2) (i := x) (by rw [List.length_take]; omega)
          have g2 : ∀ m, r = some m ↔ MimeAt L.v.space (d.source.take y) x m := g2
          rw [g1]
          have same' : ∀ {c}, MetaCharset L d.source (l1 ++ a :: l2) c → ∃ m iv, r = some m ∧ m.charset = some iv := by
            intro c q
            obtain ⟨x', y', m, iv, e, f1, f2⟩ := same q
            rw [hv] at e
            cases e
            exact ⟨m, iv, (g2 m).2 f1, f2⟩
          cases r with
          | none =>
            refine ⟨_, rfl, no (fun c q => ?_) rfl⟩
            obtain ⟨_, _, e, _⟩ := same' q
            cases e
          | some m =>
            dsimp only
            cases hm : m.charset with
            | none =>
              refine ⟨_, rfl, no (fun c q => ?_) rfl⟩
              obtain ⟨_, _, e, f⟩ := same' q
              cases e
              rw [hm] at f
              cases f
            | some iv =>
              obtain ⟨p, q⟩ := iv
              refine ⟨_, rfl, fun _ => .inl ⟨hty, l1, a, l2, x, y, m, (p, q), rfl, e4, e5, hv, (g2 m).1 rfl, hm, ?_⟩, fun w => absurd hc w⟩
              obtain ⟨_, _, _, _, _, _, _, _, hca, _⟩ := (g2 m).1 rfl
              rw [slice_take (charsetAt_bound hca _ hm)]
              rfl
      · refine ⟨_, rfl, no (fun c q => ?_) rfl⟩
        obtain ⟨_, m1, z, m2, x, y, m, iv, rfl, f1, _⟩ := q
        exact e4 z (by simp) f1
  · rw [if_neg hc]
    exact ⟨_, rfl, fun q => absurd q hc, fun _ => rfl⟩

/-- The character set so far is the first that is named. -/
structure Named (L : Lex) (d : Doc) : Prop where
  within : ∀ n ∈ d.nodes.map Node.bare, n.isMeta → AttrsIn d.source n.attrs
  named : (d.charset = 0 ∧ ∀ n ∈ d.nodes.map Node.bare, n.isMeta → ∀ c, MetaCharset L d.source n.attrs c → c = 0) ∨
    ∃ l n l', d.nodes.map Node.bare = l ++ n :: l' ∧ n.isMeta ∧ MetaCharset L d.source n.attrs d.charset ∧ d.charset ≠ 0 ∧ ∀ m ∈ l, m.isMeta → ∀ c, MetaCharset L d.source m.attrs c → c = 0

theorem named_add {L : Lex} {d d' : Doc} {new : List Node} (h : Named L d) (h1 : d'.source = d.source) (h2 : d'.charset = d.charset) (h3 : d'.nodes.map Node.bare = d.nodes.map Node.bare ++ new) (h4 : ∀ n ∈ new, ¬ n.isMeta) : Named L d' where
  within := by
    rw [h1, h3]
    intro n hn hm
    rcases List.mem_append.1 hn with q | q
    · exact h.within n q hm
    · exact absurd hm (h4 n q)
  named := by
    rw [h1, h2, h3]
    rcases h.named with ⟨e, q⟩ | ⟨l, n, l', e, q⟩
    · refine .inl ⟨e, fun n hn hm => ?_⟩
      rcases List.mem_append.1 hn with x | x
      · exact q n x hm
      · exact absurd hm (h4 n x)
    · exact .inr ⟨l, n, l' ++ new, by rw [e]; simp, q⟩

theorem metaText (d : Doc) (i : Nat) : ∀ n ∈ d.textPart i, ¬ n.isMeta := by
  intro n hn hm
  obtain ⟨_, rfl⟩ := textPart_mem hn
  rcases hm.1 with q | q <;> cases q

theorem Doc.pushText_charset (d : Doc) (i : Nat) : (d.pushText i).charset = d.charset := by unfold Doc.pushText Doc.push; split <;> rfl

theorem addElement_charset (d : Doc) (tag : Tag) (code : Elem) (parent : Option Nat) : (d.addElement tag code parent).charset = d.charset := by
  unfold Doc.addElement Doc.push
  dsimp only
  split
  · rfl
  · split <;> rfl

theorem named_step {L : Lex} (hL : L.Ok) {d d' : Doc} {i i' : Nat} (hs : SrcOk d.source) (h : Named L d) (hm : Move L d i d' i') : Named L d' := by
  have one : ∀ n : Node, n.kind ≠ .element → n.kind ≠ .element_start → ∀ m ∈ d.textPart i ++ [n], ¬ m.isMeta := by
    intro n h1 h2 m hm q
    rcases List.mem_append.1 hm with x | x
    · exact metaText d i m x q
    · rw [List.mem_singleton.1 x] at q
      rcases q.1 with q | q
      · exact h1 q
      · exact h2 q
  cases hm with
  | skip => exact h
  | cdata =>
    refine named_add h rfl rfl (List.map_append) (fun n hn q => ?_)
    rw [List.map_singleton, List.mem_singleton] at hn
    rw [hn] at q
    rcases q.1 with q | q <;> (unfold Node.bare at q; dsimp only at q; split at q <;> cases q)
  | ignored => exact ⟨h.within, h.named⟩
  | valid => exact named_add (new := d.textPart i) h (d.pushText_source i) (d.pushText_charset i) (by dsimp only; rw [d.pushText_nodes, List.map_append, textPart_bare]) (metaText d i)
  | condition => exact ⟨h.within, h.named⟩
  | @special s stack n tag hp hsp hst hn hta hty hc =>
    have hn' : (d.upTo i tag).nodes[s]? = some n := by rw [d.upTo_nodes, List.getElem?_append_left (List.getElem?_eq_some_iff.1 hn).1, hn]
    refine named_add h (d.upTo_source i tag) (d.pushText_charset i) (new := d.textPart i ++ [{ kind := .element_end, iv := tag.interval, parent := n.parent, code := n.code, name := tag.name, beg := some s }]) ?_
      (one _ (fun q => nomatch q) (fun q => nomatch q))
    simp only [Doc.push, List.map_append]
    rw [set_bare hn', d.upTo_nodes, List.map_append, textPart_bare, List.append_assoc]
    rfl
  | @stray tag code hp hsp hta hty hc hf =>
    refine named_add h (d.upTo_source i tag) (d.pushText_charset i) (new := d.textPart i ++ [{ kind := .element_end, iv := tag.interval, parent := d.active, code := code, name := tag.name }]) ?_
      (one _ (fun q => nomatch q) (fun q => nomatch q))
    simp only [Doc.push, List.map_append, d.upTo_nodes, textPart_bare, List.append_assoc]
    rfl
  | @close tag code s n stack hp hsp hta hty hc hf =>
    refine named_add h (d.upTo_source i tag) (d.pushText_charset i) (new := d.textPart i ++ [{ kind := .element_end, iv := tag.interval, parent := n.parent, code := code, name := tag.name, beg := some s }]) ?_
      (one _ (fun q => nomatch q) (fun q => nomatch q))
    simp only [Doc.push, List.map_append]
    rw [set_bare (findStart_get hf), d.upTo_nodes, List.map_append, textPart_bare, List.append_assoc]
    rfl
  | @other tag kind attrs ents hp hsp hta hk =>
    refine named_add h (d.upTo_source i tag) (d.pushText_charset i) (new := d.textPart i ++ [{ kind := kind, iv := tag.interval, parent := d.active, name := tag.name, attrs := attrs }]) ?_ (one _ ?_ ?_)
    · simp only [Doc.push, List.map_append, d.upTo_nodes, textPart_bare, List.append_assoc]
      rfl
    · rcases hk with ⟨_, q, _⟩ | ⟨_, q, _⟩ | ⟨_, q, _⟩ <;> rw [q] <;> exact fun q => nomatch q
    · rcases hk with ⟨_, q, _⟩ | ⟨_, q, _⟩ | ⟨_, q, _⟩ <;> rw [q] <;> exact fun q => nomatch q
  | @element tag code nodes stack parent charset hp hsp hta hty hc ho hme =>
    have hb := htmlTag_bounds hta
    have hk : (d.upTo i tag).source[tag.interval.2 - 2 + 1]? = some 62 := by
      rw [d.upTo_source, show tag.interval.2 - 2 + 1 = tag.interval.2 - 1 by omega]
      exact hb.2.2.2.1
    have hin : AttrsIn d.source tag.attrs := fun a ha => attr_bounds hta ha
    obtain ⟨r, m1, m2, m3⟩ := metaCharset_spec hL (d := d.upTo i tag) (by rw [d.upTo_source]; exact hs) hk code (attrs := tag.attrs) (by rw [d.upTo_source]; exact hin)
    rw [m1] at hme
    cases hme
    rw [d.upTo_source] at m2
    rw [show (d.upTo i tag).charset = d.charset from d.pushText_charset i] at m2 m3
    have hsrc : ({ d.upTo i tag with nodes := nodes, stack := stack, charset := charset }.addElement tag code parent).source = d.source := by rw [addElement_source]; exact d.upTo_source i tag
    have hch := addElement_charset { d.upTo i tag with nodes := nodes, stack := stack, charset := charset } tag code parent
    dsimp only at hch
    have hno : ({ d.upTo i tag with nodes := nodes, stack := stack, charset := charset }.addElement tag code parent).nodes.map Node.bare =
        d.nodes.map Node.bare ++ (d.textPart i ++ [{ kind := kindOf tag.type, iv := tag.interval, parent := parent, code := code, name := tag.name, attrs := tag.attrs }]) := by
      rw [addElement_nodes _ _ _ _ hty]
      dsimp only
      rw [endOpen_bare ho, d.upTo_nodes, List.map_append, textPart_bare, List.append_assoc]
    have hel : ∀ n : Node, n.kind = kindOf tag.type → n.isElement := by
      intro n e
      unfold Node.isElement
      rw [e]
      rcases hty with q | q <;> rw [q]
      · exact .inl rfl
      · exact .inr rfl
    refine ⟨?_, ?_⟩
    · rw [hsrc, hno]
      intro n hn q
      rcases List.mem_append.1 hn with x | x
      · exact h.within n x q
      · rcases List.mem_append.1 x with x | x
        · exact absurd q (metaText d i n x)
        · rw [List.mem_singleton.1 x]; exact hin
    · rw [hsrc, hno, hch]
      rcases h.named with ⟨e, q⟩ | ⟨l, n, l', e, q⟩
      · have old : ∀ m ∈ d.nodes.map Node.bare ++ d.textPart i, m.isMeta → ∀ c, MetaCharset L d.source m.attrs c → c = 0 := by
          intro m hm hmm
          rcases List.mem_append.1 hm with x | x
          · exact q m x hmm
          · exact absurd hmm (metaText d i m x)
        rw [← List.append_assoc]
        by_cases hcode : code = .«meta»
        · rcases m2 ⟨hcode, e⟩ with y | ⟨y1, y2⟩
          · by_cases hz : charset = 0
            · refine .inl ⟨hz, fun m hm hmm c hc => ?_⟩
              rcases List.mem_append.1 hm with x | x
              · exact old m x hmm c hc
              · rw [List.mem_singleton.1 x] at hc
                dsimp only at hc
                exact (metaCharset_one hL hs hin hc y).trans hz
            · exact .inr ⟨_, _, [], rfl, ⟨hel _ rfl, hcode⟩, y, hz, old⟩
          · refine .inl ⟨y1, fun m hm hmm c hc => ?_⟩
            rcases List.mem_append.1 hm with x | x
            · exact old m x hmm c hc
            · rw [List.mem_singleton.1 x] at hc
              exact absurd hc (y2 c)
        · refine .inl ⟨by rw [m3 fun q => hcode q.1]; exact e, fun m hm hmm c hc => ?_⟩
          rcases List.mem_append.1 hm with x | x
          · exact old m x hmm c hc
          · rw [List.mem_singleton.1 x] at hmm
            exact absurd hmm.2 hcode
      · have : charset = d.charset := m3 fun x => q.2.2.1 x.2
        rw [this]
        exact .inr ⟨l, n, l' ++ _, by rw [e, List.append_assoc, List.cons_append], q⟩

theorem named_more {L : Lex} {d : Doc} (h : Named L d) (more : List Int) : Named L { d with source := d.source ++ more } := by
  have hp : d.source <+: d.source ++ more := List.prefix_append _ _
  have hl : d.source.length ≤ (d.source ++ more).length := by simp
  have grow : ∀ n ∈ d.nodes.map Node.bare, n.isMeta → ∀ c, MetaCharset L (d.source ++ more) n.attrs c ↔ MetaCharset L d.source n.attrs c := fun n hn hm c => metaCharset_mono hp (h.within n hn hm)
  refine ⟨fun n hn hm a ha => ?_, ?_⟩
  · obtain ⟨h1, h2⟩ := h.within n hn hm a ha
    exact ⟨Nat.le_trans h1 hl, fun c hc => ⟨(h2 c hc).1, Nat.le_trans (h2 c hc).2 hl⟩⟩
  · rcases h.named with ⟨e, q⟩ | ⟨l, n, l', e, q1, q2, q3, q4⟩
    · exact .inl ⟨e, fun n hn hm c hc => q n hn hm c ((grow n hn hm c).1 hc)⟩
    · exact .inr ⟨l, n, l', e, q1, (grow n (by rw [e]; simp) q1 _).2 q2, q3, fun m hm hmm c hc => q4 m hm hmm c ((grow m (by rw [e]; simp [hm]) hmm c).1 hc)⟩

theorem fed_named {L : Lex} (hL : L.Ok) {d : Doc} (h : Fed L d) : Named L d := by
  induction h with
  | new => exact ⟨(fun _ q => nomatch q), .inl ⟨rfl, (fun _ q => nomatch q)⟩⟩
  | @append d d' more hf hs he ih =>
    obtain ⟨_, h', -⟩ := (docLoop_ind hL (P := fun x _ => Named L x) (fun hs _ hp hm => named_step hL hs hp hm) _ { d with source := d.source ++ more } _ hs (named_more ih more)).1 _ he
    exact ⟨h'.within, h'.named⟩

theorem bare_meta (n : Node) : n.bare.isMeta ↔ n.isMeta := Iff.rfl

theorem bare_attrs (n : Node) : n.bare.attrs = n.attrs := rfl

/-! ### Properties -/

/-- **C112** The character set of a document is the one its first meta element to name one names, and none if no meta element names one. -/
theorem doc_charset {L : Lex} (hL : L.Ok) {d : Doc} (h : Fed L d) :
    (d.charset = 0 ∧ ∀ n ∈ d.nodes, n.isMeta → ∀ c, MetaCharset L d.source n.attrs c → c = 0) ∨
    ∃ l n l', d.nodes = l ++ n :: l' ∧ n.isMeta ∧ MetaCharset L d.source n.attrs d.charset ∧ d.charset ≠ 0 ∧ ∀ m ∈ l, m.isMeta → ∀ c, MetaCharset L d.source m.attrs c → c = 0 := by
  rcases (fed_named hL h).named with ⟨e, q⟩ | ⟨l, n, l', e, q1, q2, q3, q4⟩
  · exact .inl ⟨e, fun n hn hm c hc => q n.bare (List.mem_map_of_mem hn) ((bare_meta n).2 hm) c (by rw [bare_attrs]; exact hc)⟩
  · obtain ⟨k, r, e0, e1, e2⟩ := List.map_eq_append_iff.1 e
    obtain ⟨m, k', rfl, rfl, e4⟩ := List.map_eq_cons_iff.1 e2
    refine .inr ⟨k, m, k', e0, (bare_meta m).1 q1, by rw [← bare_attrs]; exact q2, q3, fun z hz hm c hc => q4 z.bare (by rw [← e1]; exact List.mem_map_of_mem hz) ((bare_meta z).2 hm) c (by rw [bare_attrs]; exact hc)⟩

/-- The attributes of an element name at most one character set. -/
theorem doc_charset_one {L : Lex} (hL : L.Ok) {d : Doc} (h : Fed L d) (hs : SrcOk d.source) {n : Node} (hn : n ∈ d.nodes) (hm : n.isMeta) {c c' : Nat} (h1 : MetaCharset L d.source n.attrs c) (h2 : MetaCharset L d.source n.attrs c') : c = c' := by
  have := (fed_named hL h).within n.bare (List.mem_map_of_mem hn) ((bare_meta n).2 hm)
  rw [bare_attrs] at this
  exact metaCharset_one hL hs this h1 h2

/-- The character set of the result -/
def charsetOf : Result → Option Nat
  | .done d => some d.charset
  | _ => none

/-- The demonstration names character sets by the length of their name. -/
example : charsetOf (({} : Doc).assign demoLex (asc "<meta name=x content='a/b; charset=abc'><meta content='text/html; charset=utf-8' HTTP-equiv=Content-Type><meta http-equiv=content-type content='a/b;charset=latin1'>")) = some 5 := by decide +kernel
example : charsetOf (({} : Doc).assign demoLex (asc "<meta http-equiv=content-type content='text/html'><p>")) = some 0 := by decide +kernel

end Verif.Html
