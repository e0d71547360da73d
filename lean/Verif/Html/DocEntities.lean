import Verif.Html.DocCharset
/-
The entities of a document: `document::append` (1825-1842) and `replace_entities` (1907-1933) of include/stdex/html.hpp.
-/
namespace Verif.Html
open Verif.Str Verif.Sgml Verif.Parser

/-! ### Specification -/

/-- Entities: names and values, in order of their declaration -/
abbrev Entities := List (List Int × List Int)

/-- Each `%name;` of the text is replaced with the value of the first entity that is spelled there. -/
inductive Expands (ents : Entities) : List Int → List Int → Prop
  | nil : Expands ents [] []
  | char {c t out} : c ≠ 37 → Expands ents t out → Expands ents (c :: t) (c :: out)
  | entity {l name value l' t out} : ents = l ++ (name, value) :: l' → (∀ x ∈ l, ¬ x.1 ++ [59] <+: name ++ 59 :: t) → Expands ents t out → Expands ents (37 :: (name ++ 59 :: t)) (value ++ out)

/-- The sequence is `<!ENTITY % name raw>`: quotes belong to `raw`, which ends at white space. -/
def DeclaresEntity (t : List Int) (n : Node) (name raw : List Int) : Prop :=
  n.kind = .declaration ∧ ∃ a0 a1 a2 a3 l, n.attrs = a0 :: a1 :: a2 :: a3 :: l ∧ Spells t a0.name "entity" ∧ slice t a1.name = asc "%" ∧ slice t a3.name ≠ asc "SYSTEM" ∧ slice t a3.name ≠ asc "PUBLIC" ∧
    name = slice t a2.name ∧ raw = slice t a3.name

/-- The entities that the sequences declare: the value of each is expanded with those before it. -/
inductive Declare (t : List Int) : List Node → Entities → Prop
  | nil : Declare t [] []
  | other {l es n} : Declare t l es → (∀ name raw, ¬ DeclaresEntity t n name raw) → Declare t (l ++ [n]) es
  | entity {l es n name raw value} : Declare t l es → DeclaresEntity t n name raw → Expands es raw value → Declare t (l ++ [n]) (es ++ [(name, value)])

/-- The entities of the document -/
def Doc.named (d : Doc) : Entities := d.entities.map fun e => (slice d.source e.1, e.2)

/-! ### Proofs -/

theorem text_take {a : List Int} {n : Nat} (hz : ∀ c ∈ a, c ≠ 0) (hn : n ≤ a.length) : text (a ++ [0]) (some n) = a.take n :=
  text_eq_of (fun c hc => hz c (List.mem_of_mem_take hc)) ((List.take_prefix _ _).trans (List.prefix_append _ _)) (.inr (by rw [List.length_take]; congr 1; omega)) (by intro k e; cases e; rw [List.length_take]; omega)

theorem findEntity_spec {src a : List Int} {num i : Nat} (hn : num ≤ a.length) (hz : ∀ c ∈ a, c ≠ 0) (hzs : ∀ c ∈ src, c ≠ 0) : ∀ l : List ((Nat × Nat) × List Int), (∀ x ∈ l, x.1.2 ≤ src.length) → ∃ r, findEntity src (a ++ [0]) num i l = some r ∧
    ((r = none ∧ ∀ x ∈ l, ¬ slice src x.1 ++ [59] <+: (a.take num).drop (i + 1)) ∨
      ∃ l1 x l2, l = l1 ++ x :: l2 ∧ (∀ y ∈ l1, ¬ slice src y.1 ++ [59] <+: (a.take num).drop (i + 1)) ∧ slice src x.1 ++ [59] <+: (a.take num).drop (i + 1) ∧ r = some (x.2, (slice src x.1).length))
  | [], _ => ⟨none, rfl, .inl ⟨rfl, (fun _ q => nomatch q)⟩⟩
  | (name, value) :: l, hb => by
    obtain ⟨r, h1, h2⟩ := findEntity_spec (i := i) hn hz hzs l (fun x hx => hb x (List.mem_cons_of_mem _ hx))
    have hbn : name.2 ≤ src.length := hb _ List.mem_cons_self
    have hlen : (slice src name).length = name.2 - name.1 := by
      unfold slice
      rw [List.length_take, List.length_drop]
      omega
    have next : (¬ slice src name ++ [59] <+: (a.take num).drop (i + 1)) → ∃ r', (some r : Option (Option (List Int × Nat))) = some r' ∧
        ((r' = none ∧ ∀ x ∈ (name, value) :: l, ¬ slice src x.1 ++ [59] <+: (a.take num).drop (i + 1)) ∨
        ∃ l1 x l2, (name, value) :: l = l1 ++ x :: l2 ∧ (∀ y ∈ l1, ¬ slice src y.1 ++ [59] <+: (a.take num).drop (i + 1)) ∧ slice src x.1 ++ [59] <+: (a.take num).drop (i + 1) ∧ r' = some (x.2, (slice src x.1).length)) := by
      intro hno
      refine ⟨r, rfl, ?_⟩
      rcases h2 with ⟨e, h3⟩ | ⟨l1, x, l2, rfl, h3, h4⟩
      · refine .inl ⟨e, fun x hx => ?_⟩
        rcases List.mem_cons.1 hx with rfl | hx
        · exact hno
        · exact h3 x hx
      · refine .inr ⟨(name, value) :: l1, x, l2, rfl, fun y hy => ?_, h4⟩
        rcases List.mem_cons.1 hy with rfl | hy
        · exact hno
        · exact h3 y hy
    rw [findEntity]
    by_cases hi : i + (name.2 - name.1) + 1 < num
    · rw [if_pos hi]
      have e1 : text ((a ++ [0]).drop (i + 1)) (some (name.2 - name.1)) = (a.drop (i + 1)).take (name.2 - name.1) := by
        rw [List.drop_append_of_le_length (by omega)]
        exact text_take (fun c hc => hz c (List.mem_of_mem_drop hc)) (by rw [List.length_drop]; omega)
      have e2 : text (src.drop name.1 ++ [0]) (some (name.2 - name.1)) = slice src name := text_take (fun c hc => hzs c (List.mem_of_mem_drop hc)) (by rw [List.length_drop]; omega)
      obtain ⟨z, g1, g2, -⟩ := strncmp_equal id id (s1 := (a ++ [0]).drop (i + 1)) (s2 := src.drop name.1 ++ [0]) (c1 := some (name.2 - name.1)) (c2 := some (name.2 - name.1))
        (by rw [List.drop_append_of_le_length (by omega)]; exact valid_zero _ _) (valid_zero _ _) (fun _ => Iff.rfl) (fun _ => Iff.rfl)
      rw [e1, e2, List.map_id, List.map_id] at g2
      rw [strncmp1_eq, g1, h1]
      dsimp only
      have hget : (a ++ [0])[i + (name.2 - name.1) + 1]? = a[i + (name.2 - name.1) + 1]? := by rw [List.getElem?_append_left (by omega)]
      rw [hget, List.getElem?_eq_getElem (by omega)]
      dsimp only
      have hpre : slice src name ++ [59] <+: (a.take num).drop (i + 1) ↔ (a.drop (i + 1)).take (name.2 - name.1) = slice src name ∧ a[i + (name.2 - name.1) + 1]'(by omega) = 59 := by
        rw [List.prefix_iff_eq_take, List.length_append, hlen, List.drop_take, List.take_take, List.length_singleton, show min (name.2 - name.1 + 1) (num - (i + 1)) = name.2 - name.1 + 1 by omega,
          List.take_add_one, List.getElem?_drop, show i + 1 + (name.2 - name.1) = i + (name.2 - name.1) + 1 by omega, List.getElem?_eq_getElem (by omega)]
        constructor
        · intro h
          have := List.append_inj h (by rw [hlen, List.length_take, List.length_drop]; omega)
          refine ⟨this.1.symm, ?_⟩
          have := this.2
          simp at this
          exact this.symm
        · rintro ⟨h, h'⟩
          rw [h, h']
          rfl
      by_cases hq : z = 0
      · rw [if_pos hq]
        by_cases hc : a[i + (name.2 - name.1) + 1]'(by omega) = 59
        · rw [if_pos hc]
          exact ⟨_, rfl, .inr ⟨[], (name, value), l, rfl, (fun _ q => nomatch q), hpre.2 ⟨g2.1 hq, hc⟩, by rw [hlen]⟩⟩
        · rw [if_neg hc]
          exact next fun q => hc (hpre.1 q).2
      · rw [if_neg hq]
        exact next fun q => hq (g2.2 (hpre.1 q).1)
    · rw [if_neg hi, h1]
      refine next fun q => ?_
      have := q.length_le
      rw [List.length_append, hlen, List.length_drop, List.length_take, List.length_singleton] at this
      omega

/-- The first of the entities that are spelled is one. -/
theorem first_one {P : List Int × List Int → Prop} {l1 l2 m1 m2 : Entities} {a b : List Int × List Int} (h : l1 ++ a :: l2 = m1 ++ b :: m2) (ha : P a) (hb : P b) (h1 : ∀ z ∈ l1, ¬ P z) (h2 : ∀ z ∈ m1, ¬ P z) : a = b := by
  rcases List.append_eq_append_iff.1 h with ⟨t, e1, e2⟩ | ⟨t, e1, e2⟩
  · cases t with
    | nil => cases e2; rfl
    | cons y t =>
      injection e2 with e2 _
      exact absurd ha (h2 a (by rw [e1, e2]; simp))
  · cases t with
    | nil => cases e2; rfl
    | cons y t =>
      injection e2 with e2 _
      exact absurd hb (h1 b (by rw [e1, e2]; simp))

theorem prefix_semi {name t : List Int} : name ++ [59] <+: name ++ 59 :: t := ⟨t, by simp⟩

theorem replaceEntities_spec {d : Doc} {a : List Int} {num : Nat} (hn : num ≤ a.length) (hz : ∀ c ∈ a, c ≠ 0) (hzs : ∀ c ∈ d.source, c ≠ 0) (hb : ∀ x ∈ d.entities, x.1.2 ≤ d.source.length) :
    ∀ (fuel i : Nat) (out : List Int), num + 1 ≤ fuel + i → fuel ≠ 0 → ∃ r, replaceEntities d (a ++ [0]) num fuel i out = some r ∧
    ∀ o, (r = some o ↔ ∃ o', o = out ++ o' ∧ Expands d.named ((a.take num).drop i) o') := by
  have ht := text_take (n := num) hz hn
  have hlen : (a.take num).length = num := by rw [List.length_take]; omega
  intro fuel
  have done : ∀ i, num ≤ i → Str.cond (a ++ [0]) (some num) i = some none := by
    intro i hi
    unfold Str.cond below
    rw [if_neg (by simp; omega)]
  induction fuel with
  | zero =>
    intro i out hf h0
    exact absurd rfl h0
  | succ fuel ih =>
    intro i out hf _
    rw [replaceEntities]
    by_cases hi : i < num
    · rw [cond_eq (valid_zero _ _) (by rw [ht]; omega), ht, List.getElem?_eq_getElem (by omega)]
      have hdrop : (a.take num).drop i = (a.take num)[i] :: (a.take num).drop (i + 1) := List.drop_eq_getElem_cons _
      rw [hdrop]
      generalize (a.take num)[i] = c
      dsimp only
      by_cases hc : c = 37
      · rw [if_pos hc, hc]
        obtain ⟨r, hr, h2⟩ := findEntity_spec (src := d.source) (num := num) (i := i) hn hz hzs d.entities hb
        rw [hr]
        rcases h2 with ⟨rfl, h3⟩ | ⟨l1, x, l2, hl, h3, ⟨t, ht4⟩, rfl⟩
        · refine ⟨_, rfl, fun o => ⟨(fun q => nomatch q), ?_⟩⟩
          rintro ⟨o', _, h⟩
          exfalso
          generalize htl : (a.take num).drop (i + 1) = tl at h h3
          cases h with
          | char q => exact q rfl
          | @entity l name value l' t out e1 e2 e3 =>
            have : (name, value) ∈ d.named := by rw [e1]; simp
            obtain ⟨x, hx, e⟩ := List.mem_map.1 this
            injection e with e _
            exact h3 x hx (by rw [e]; exact prefix_semi)
        · dsimp only
          obtain ⟨r, h1, h2⟩ := ih (i + (slice d.source x.1).length + 2) (out ++ x.2) (by omega) (by omega)
          rw [h1]
          refine ⟨r, rfl, fun o => (h2 o).trans ?_⟩
          have hdt : (a.take num).drop (i + (slice d.source x.1).length + 2) = t := by
            rw [show i + (slice d.source x.1).length + 2 = i + 1 + ((slice d.source x.1).length + 1) by omega, ← List.drop_drop, ← ht4]
            rw [List.drop_append, List.drop_eq_nil_of_le (by simp)]
            simp
          rw [hdt, ← ht4]
          have hname : d.named = l1.map (fun e => (slice d.source e.1, e.2)) ++ (slice d.source x.1, x.2) :: l2.map (fun e => (slice d.source e.1, e.2)) := by
            unfold Doc.named
            rw [hl, List.map_append]
            rfl
          rw [← ht4] at h3
          rw [List.append_assoc, List.singleton_append] at h3 ⊢
          have hpre : ∀ y ∈ l1.map (fun e => (slice d.source e.1, e.2)), ¬ y.1 ++ [59] <+: slice d.source x.1 ++ 59 :: t := by
            intro y hy
            obtain ⟨z, hz, rfl⟩ := List.mem_map.1 hy
            exact h3 z hz
          constructor
          · rintro ⟨o', rfl, h⟩
            exact ⟨x.2 ++ o', by simp, .entity hname hpre h⟩
          · rintro ⟨o', rfl, h⟩
            generalize htl : slice d.source x.1 ++ 59 :: t = tl at h
            cases h with
            | char q => exact absurd rfl q
            | @entity l name value l' t' out' e1 e2 e3 =>
              have := first_one (P := fun y => y.1 ++ [59] <+: slice d.source x.1 ++ 59 :: t) (hname.symm.trans e1) prefix_semi (by rw [htl]; exact prefix_semi) hpre (by rw [htl]; exact e2)
              injection this with f1 f2
              subst f1
              subst f2
              have := List.append_cancel_left htl
              injection this with _ this
              subst this
              exact ⟨out', by simp, e3⟩
      · rw [if_neg hc]
        obtain ⟨r, h1, h2⟩ := ih (i + 1) (out ++ [c]) (by omega) (by omega)
        rw [h1]
        refine ⟨r, rfl, fun o => (h2 o).trans ?_⟩
        generalize (a.take num).drop (i + 1) = tl
        constructor
        · rintro ⟨o', rfl, h⟩
          exact ⟨c :: o', by simp, .char hc h⟩
        · rintro ⟨o', rfl, h⟩
          cases h with
          | char _ h => exact ⟨_, by simp, h⟩
          | entity => exact absurd rfl hc
    · rw [done i (by omega), List.drop_eq_nil_of_le (by omega)]
      refine ⟨_, rfl, fun o => ?_⟩
      constructor
      · intro q
        cases q
        exact ⟨[], by simp, .nil⟩
      · rintro ⟨o', rfl, h⟩
        cases h
        rw [List.append_nil]

theorem replace_spec {d : Doc} (hs : SrcOk d.source) (hb : ∀ x ∈ d.entities, x.1.2 ≤ d.source.length) {iv : Nat × Nat} (h : iv.2 ≤ d.source.length) : ∃ r, d.replace iv = some r ∧ ∀ o, (r = some o ↔ Expands d.named (slice d.source iv) o) := by
  obtain ⟨r, h1, h2⟩ := replaceEntities_spec (d := d) (a := d.source.drop iv.1) (num := iv.2 - iv.1) (by rw [List.length_drop]; omega) (fun c hc => hs.nz c (List.mem_of_mem_drop hc)) hs.nz hb (iv.2 - iv.1 + 1) 0 [] (by omega) (by omega)
  refine ⟨r, h1, fun o => (h2 o).trans ?_⟩
  rw [List.drop_zero]
  constructor
  · rintro ⟨o', rfl, h⟩; exact h
  · intro h; exact ⟨o, rfl, h⟩

theorem declares_mono {t t' : List Int} (h : t <+: t') {n : Node} (hb : n.kind = .declaration → AttrsIn t n.attrs) {name raw : List Int} : DeclaresEntity t' n name raw ↔ DeclaresEntity t n name raw := by
  unfold DeclaresEntity Spells
  by_cases hk : n.kind = .declaration
  · have hb := hb hk
    constructor
    · rintro ⟨_, a0, a1, a2, a3, l, e, g⟩
      rw [slice_mono h (hb a0 (by rw [e]; simp)).1, slice_mono h (hb a1 (by rw [e]; simp)).1, slice_mono h (hb a2 (by rw [e]; simp)).1, slice_mono h (hb a3 (by rw [e]; simp)).1] at g
      exact ⟨hk, a0, a1, a2, a3, l, e, g⟩
    · rintro ⟨_, a0, a1, a2, a3, l, e, g⟩
      refine ⟨hk, a0, a1, a2, a3, l, e, ?_⟩
      rw [slice_mono h (hb a0 (by rw [e]; simp)).1, slice_mono h (hb a1 (by rw [e]; simp)).1, slice_mono h (hb a2 (by rw [e]; simp)).1, slice_mono h (hb a3 (by rw [e]; simp)).1]
      exact g
  · exact ⟨fun q => absurd q.1 hk, fun q => absurd q.1 hk⟩

theorem declare_mono {t t' : List Int} (h : t <+: t') {l : List Node} {es : Entities} (hd : Declare t l es) (hb : ∀ n ∈ l, n.kind = .declaration → AttrsIn t n.attrs) : Declare t' l es := by
  induction hd with
  | nil => exact .nil
  | other _ h2 ih => exact .other (ih fun n hn => hb n (by simp [hn])) fun name raw q => h2 name raw ((declares_mono h (hb _ (by simp))).1 q)
  | entity _ h2 h3 ih => exact .entity (ih fun n hn => hb n (by simp [hn])) ((declares_mono h (hb _ (by simp))).2 h2) h3

theorem declare_others {t : List Int} {es : Entities} : ∀ (new l : List Node), Declare t l es → (∀ n ∈ new, n.kind ≠ .declaration) → Declare t (l ++ new) es
  | [], l, h, _ => by rw [List.append_nil]; exact h
  | n :: new, l, h, hn => by
    rw [show l ++ n :: new = (l ++ [n]) ++ new by simp]
    exact declare_others new _ (.other h fun _ _ q => hn n List.mem_cons_self q.1) fun m hm => hn m (List.mem_cons_of_mem _ hm)

/-- The entities so far are those that are declared. -/
structure Declared (d : Doc) : Prop where
  within : ∀ x ∈ d.entities, x.1.2 ≤ d.source.length
  attrs : ∀ n ∈ d.nodes.map Node.bare, n.kind = .declaration → AttrsIn d.source n.attrs
  declared : Declare d.source (d.nodes.map Node.bare) d.named

theorem named_same {d d' : Doc} (h1 : d'.source = d.source) (h2 : d'.entities = d.entities) : d'.named = d.named := by
  unfold Doc.named
  rw [h1, h2]

theorem declared_add {d d' : Doc} {new : List Node} (h : Declared d) (h1 : d'.source = d.source) (h2 : d'.entities = d.entities) (h3 : d'.nodes.map Node.bare = d.nodes.map Node.bare ++ new) (h4 : ∀ n ∈ new, n.kind ≠ .declaration) : Declared d' where
  within := by rw [h1, h2]; exact h.within
  attrs := by
    rw [h1, h3]
    intro n hn hk
    rcases List.mem_append.1 hn with q | q
    · exact h.attrs n q hk
    · exact absurd hk (h4 n q)
  declared := by
    rw [h1, h3, named_same h1 h2]
    exact declare_others new _ h.declared h4

theorem slice_length {t : List Int} {iv : Nat × Nat} (h : iv.2 ≤ t.length) : (slice t iv).length = iv.2 - iv.1 := by
  unfold slice
  rw [List.length_take, List.length_drop]
  omega

theorem saysSlice_eq {src : List Int} (hz : ∀ c ∈ src, c ≠ 0) {iv : Nat × Nat} (hb : iv.2 ≤ src.length) {w : List Int} (hw : w.all (fun c => decide (c ≠ 0)) = true) (hl : w.length < 100) : says (src.drop iv.1 ++ [0]) (iv.2 - iv.1) w = some (decide (slice src iv = w)) := by
  unfold says
  obtain ⟨r, g1, g2, -⟩ := strncmp_equal id id (s1 := src.drop iv.1 ++ [0]) (s2 := w ++ [0]) (c1 := some (iv.2 - iv.1)) (c2 := some (2 ^ 64 - 1)) (valid_zero _ _) (valid_zero _ _) (fun _ => Iff.rfl) (fun _ => Iff.rfl)
  have hw' : ∀ c ∈ w, c ≠ 0 := fun c hc => by have := List.all_eq_true.1 hw c hc; simpa using this
  have e2 : text (w ++ [0]) (some (2 ^ 64 - 1)) = w := text_eq_of hw' (List.prefix_append _ _) (.inl (by rw [List.getElem?_append_right (Nat.le_refl _), Nat.sub_self]; rfl)) (by intro n e; cases e; omega)
  rw [List.map_id, List.map_id, e2, text_take (fun c hc => hz c (List.mem_of_mem_drop hc)) (by rw [List.length_drop]; omega)] at g2
  rw [g1]
  show some (decide (r = 0)) = _
  congr 1
  exact decide_eq_decide.2 g2

theorem tagDeclaration_spec {L : Lex} (hL : L.Ok) {d : Doc} (hs : SrcOk d.source) (hb : ∀ x ∈ d.entities, x.1.2 ≤ d.source.length) {tag : Tag} (hin : AttrsIn d.source tag.attrs) {D : Doc} {x : Nat} (h : tagDeclaration L d tag = .go D x) (n : Node) (hk : n.kind = .declaration) (ha : n.attrs = tag.attrs) :
    (D.entities = d.entities ∧ ∀ name raw, ¬ DeclaresEntity d.source n name raw) ∨
    ∃ iv name raw value, iv.2 ≤ d.source.length ∧ D.entities = d.entities ++ [(iv, value)] ∧ name = slice d.source iv ∧ DeclaresEntity d.source n name raw ∧ Expands d.named raw value := by
  unfold tagDeclaration at h
  dsimp only at h
  split at h
  · rename_i a0 a1 a2 a3 l hat
    have m0 := (hin a0 (by rw [hat]; simp)).1
    have m1 := (hin a1 (by rw [hat]; simp)).1
    have m2 := (hin a2 (by rw [hat]; simp)).1
    have m3 := (hin a3 (by rw [hat]; simp)).1
    rw [saysIv_eq hL hs m0 (by decide) (by decide), saysSlice_eq hs.nz m1 (by decide) (by decide), saysSlice_eq hs.nz m3 (by decide) (by decide), saysSlice_eq hs.nz m3 (by decide) (by decide)] at h
    dsimp only at h
    have key : (decide ((slice d.source a0.name).map lowerSpec = asc "entity") && decide (slice d.source a1.name = asc "%") && !decide (slice d.source a3.name = asc "SYSTEM") && !decide (slice d.source a3.name = asc "PUBLIC")) = true ↔
        (Spells d.source a0.name "entity" ∧ slice d.source a1.name = asc "%") ∧ slice d.source a3.name ≠ asc "SYSTEM" ∧ slice d.source a3.name ≠ asc "PUBLIC" := by
      unfold Spells
      simp [and_assoc]
    split at h
    · rename_i hq
      obtain ⟨⟨k0, k1⟩, k2, k3⟩ := key.1 hq
      obtain ⟨r, g1, g2⟩ := replace_spec hs hb m3
      rw [g1] at h
      cases r with
      | none => cases h
      | some value =>
        injection h with h _
        refine .inr ⟨a2.name, _, _, value, m2, by rw [← h]; rfl, rfl, ⟨hk, a0, a1, a2, a3, l, by rw [ha, hat], k0, k1, k2, k3, rfl, rfl⟩, (g2 value).1 rfl⟩
    · rename_i hq
      injection h with h _
      refine .inl ⟨by rw [← h]; rfl, ?_⟩
      rintro name raw ⟨_, b0, b1, b2, b3, l', e, k0, k1, k2, k3, _⟩
      rw [ha, hat] at e
      cases e
      exact hq (key.2 ⟨⟨k0, k1⟩, k2, k3⟩)
  · rename_i hno
    injection h with h _
    refine .inl ⟨by rw [← h]; rfl, ?_⟩
    rintro name raw ⟨_, b0, b1, b2, b3, l', e, _⟩
    exact hno b0 b1 b2 b3 l' (by rw [← ha, e])

theorem Doc.pushText_entities (d : Doc) (i : Nat) : (d.pushText i).entities = d.entities := by unfold Doc.pushText Doc.push; split <;> rfl

theorem addElement_entities (d : Doc) (tag : Tag) (code : Elem) (parent : Option Nat) : (d.addElement tag code parent).entities = d.entities := by
  unfold Doc.addElement Doc.push
  dsimp only
  split
  · rfl
  · split <;> rfl

theorem declText (d : Doc) (i : Nat) : ∀ n ∈ d.textPart i, n.kind ≠ .declaration := by
  intro n hn hm
  obtain ⟨_, rfl⟩ := textPart_mem hn
  cases hm

theorem declared_step {L : Lex} (hL : L.Ok) {d d' : Doc} {i i' : Nat} (hs : SrcOk d.source) (h : Declared d) (hm : Move L d i d' i') : Declared d' := by
  have one : ∀ n : Node, n.kind ≠ .declaration → ∀ m ∈ d.textPart i ++ [n], m.kind ≠ .declaration := by
    intro n h1 m hm
    rcases List.mem_append.1 hm with x | x
    · exact declText d i m x
    · rw [List.mem_singleton.1 x]; exact h1
  cases hm with
  | skip => exact h
  | cdata =>
    refine declared_add h rfl rfl (List.map_append) (fun n hn q => ?_)
    rw [List.map_singleton, List.mem_singleton] at hn
    rw [hn] at q
    unfold Node.bare at q
    dsimp only at q
    split at q <;> cases q
  | ignored => exact ⟨h.within, h.attrs, h.declared⟩
  | valid => exact declared_add (new := d.textPart i) h (d.pushText_source i) (d.pushText_entities i) (by dsimp only; rw [d.pushText_nodes, List.map_append, textPart_bare]) (declText d i)
  | condition => exact ⟨h.within, h.attrs, h.declared⟩
  | @special s stack n tag hp hsp hst hn hta hty hc =>
    have hn' : (d.upTo i tag).nodes[s]? = some n := by rw [d.upTo_nodes, List.getElem?_append_left (List.getElem?_eq_some_iff.1 hn).1, hn]
    refine declared_add h (d.upTo_source i tag) (d.pushText_entities i) (new := d.textPart i ++ [{ kind := .element_end, iv := tag.interval, parent := n.parent, code := n.code, name := tag.name, beg := some s }]) ?_
      (one _ (fun q => nomatch q))
    simp only [Doc.push, List.map_append]
    rw [set_bare hn', d.upTo_nodes, List.map_append, textPart_bare, List.append_assoc]
    rfl
  | @stray tag code hp hsp hta hty hc hf =>
    refine declared_add h (d.upTo_source i tag) (d.pushText_entities i) (new := d.textPart i ++ [{ kind := .element_end, iv := tag.interval, parent := d.active, code := code, name := tag.name }]) ?_
      (one _ (fun q => nomatch q))
    simp only [Doc.push, List.map_append, d.upTo_nodes, textPart_bare, List.append_assoc]
    rfl
  | @close tag code s n stack hp hsp hta hty hc hf =>
    refine declared_add h (d.upTo_source i tag) (d.pushText_entities i) (new := d.textPart i ++ [{ kind := .element_end, iv := tag.interval, parent := n.parent, code := code, name := tag.name, beg := some s }]) ?_
      (one _ (fun q => nomatch q))
    simp only [Doc.push, List.map_append]
    rw [set_bare (findStart_get hf), d.upTo_nodes, List.map_append, textPart_bare, List.append_assoc]
    rfl
  | @element tag code nodes stack parent charset hp hsp hta hty hc ho hme =>
    refine declared_add h (new := d.textPart i ++ [{ kind := kindOf tag.type, iv := tag.interval, parent := parent, code := code, name := tag.name, attrs := tag.attrs }]) ?_ ?_ ?_ (one _ ?_)
    · rw [addElement_source]; exact d.upTo_source i tag
    · rw [addElement_entities]; exact d.pushText_entities i
    · rw [addElement_nodes _ _ _ _ hty]
      dsimp only
      rw [endOpen_bare ho, d.upTo_nodes, List.map_append, textPart_bare, List.append_assoc]
    · rcases hty with q | q <;> rw [q] <;> exact fun q => nomatch q
  | @other tag kind attrs ents hp hsp hta hk he =>
    have hin : AttrsIn d.source tag.attrs := fun a ha => attr_bounds hta ha
    have hu : (d.upTo i tag).entities = d.entities := d.pushText_entities i
    have hsame : (d.upTo i tag).named = d.named := named_same (d.upTo_source i tag) hu
    have hno : ({ (d.upTo i tag).push { kind := kind, iv := tag.interval, parent := d.active, name := tag.name, attrs := attrs } with entities := ents } : Doc).nodes.map Node.bare =
        d.nodes.map Node.bare ++ (d.textPart i ++ [{ kind := kind, iv := tag.interval, parent := d.active, name := tag.name, attrs := attrs }]) := by
      simp only [Doc.push, List.map_append, d.upTo_nodes, textPart_bare, List.append_assoc]
      rfl
    rcases hk with ⟨q1, rfl, rfl⟩ | ⟨q1, rfl, rfl⟩ | ⟨q1, rfl, rfl⟩
    · rw [tagStep_eq, q1] at he
      dsimp only at he
      have hd := tagDeclaration_spec hL (d := d.upTo i tag) (by rw [d.upTo_source]; exact hs) (by rw [hu, d.upTo_source]; exact h.within) (by rw [d.upTo_source]; exact hin) he
        { kind := .declaration, iv := tag.interval, parent := d.active, name := tag.name, attrs := tag.attrs } rfl rfl
      rw [d.upTo_source, hu, hsame] at hd
      dsimp only at hd
      have base := declare_others (d.textPart i) _ h.declared (declText d i)
      have hat : ∀ n ∈ d.nodes.map Node.bare ++ (d.textPart i ++ [{ kind := .declaration, iv := tag.interval, parent := d.active, name := tag.name, attrs := tag.attrs }]), n.kind = .declaration → AttrsIn d.source n.attrs := by
        intro n hn q
        rcases List.mem_append.1 hn with x | x
        · exact h.attrs n x q
        · rcases List.mem_append.1 x with x | x
          · exact absurd q (declText d i n x)
          · rw [List.mem_singleton.1 x]; exact hin
      rw [← List.append_assoc] at hno hat
      rcases hd with ⟨e, hd⟩ | ⟨iv, name, raw, value, hiv, e, en, hd, hx⟩
      · refine ⟨?_, ?_, ?_⟩
        · show ∀ x ∈ ents, x.1.2 ≤ (d.upTo i tag).source.length
          rw [e, d.upTo_source]
          exact h.within
        · rw [hno]
          intro n hn hk
          show AttrsIn (d.upTo i tag).source n.attrs
          rw [d.upTo_source]
          exact hat n hn hk
        · rw [hno, named_same (d' := { (d.upTo i tag).push { kind := .declaration, iv := tag.interval, parent := d.active, name := tag.name, attrs := tag.attrs } with entities := ents }) (d := d) (d.upTo_source i tag) e]
          show Declare (d.upTo i tag).source _ _
          rw [d.upTo_source]
          exact .other base hd
      · refine ⟨?_, ?_, ?_⟩
        · show ∀ x ∈ ents, x.1.2 ≤ (d.upTo i tag).source.length
          rw [e, d.upTo_source]
          intro x hx
          rcases List.mem_append.1 hx with q | q
          · exact h.within x q
          · rw [List.mem_singleton.1 q]; exact hiv
        · rw [hno]
          intro n hn hk
          show AttrsIn (d.upTo i tag).source n.attrs
          rw [d.upTo_source]
          exact hat n hn hk
        · rw [hno]
          have : ({ (d.upTo i tag).push { kind := .declaration, iv := tag.interval, parent := d.active, name := tag.name, attrs := tag.attrs } with entities := ents } : Doc).named = d.named ++ [(name, value)] := by
            unfold Doc.named
            show List.map (fun e => (slice (d.upTo i tag).source e.1, e.2)) ents = _
            rw [e, d.upTo_source, List.map_append, en]
            rfl
          rw [this]
          show Declare (d.upTo i tag).source _ _
          rw [d.upTo_source]
          exact .entity base hd hx
    · rw [tagStep_eq, q1] at he
      injection he with he _
      have := congrArg Doc.entities he
      exact declared_add h (d.upTo_source i tag) (show ents = d.entities from this.symm.trans hu) hno (one _ (fun q => nomatch q))
    · rw [tagStep_eq, q1] at he
      injection he with he _
      have := congrArg Doc.entities he
      exact declared_add h (d.upTo_source i tag) (show ents = d.entities from this.symm.trans hu) hno (one _ (fun q => nomatch q))

theorem declared_more {d : Doc} (h : Declared d) (more : List Int) : Declared { d with source := d.source ++ more } := by
  have hp : d.source <+: d.source ++ more := List.prefix_append _ _
  have hl : d.source.length ≤ (d.source ++ more).length := by simp
  refine ⟨fun x hx => Nat.le_trans (h.within x hx) hl, fun n hn hk a ha => ?_, ?_⟩
  · obtain ⟨h1, h2⟩ := h.attrs n hn hk a ha
    exact ⟨Nat.le_trans h1 hl, fun c hc => ⟨(h2 c hc).1, Nat.le_trans (h2 c hc).2 hl⟩⟩
  · have : ({ d with source := d.source ++ more } : Doc).named = d.named := by
      unfold Doc.named
      refine List.map_congr_left fun e he => ?_
      show (slice (d.source ++ more) e.1, e.2) = _
      rw [slice_mono hp (h.within e he)]
    rw [this]
    exact declare_mono hp h.declared h.attrs

theorem fed_declared {L : Lex} (hL : L.Ok) {d : Doc} (h : Fed L d) : Declared d := by
  induction h with
  | new => exact ⟨(fun _ q => nomatch q), (fun _ q => nomatch q), .nil⟩
  | @append d d' more hf hs he ih =>
    obtain ⟨_, h', -⟩ := (docLoop_ind hL (P := fun x _ => Declared x) (fun hs _ hp hm => declared_step hL hs hp hm) _ { d with source := d.source ++ more } _ hs (declared_more ih more)).1 _ he
    exact ⟨h'.within, h'.attrs, h'.declared⟩

theorem declare_unbare {t : List Int} {l : List Node} {es : Entities} (h : Declare t l es) : ∀ {m : List Node}, l = m.map Node.bare → Declare t m es := by
  induction h with
  | nil => intro m e; rw [List.map_eq_nil_iff.1 e.symm]; exact .nil
  | other _ h2 ih =>
    intro m e
    obtain ⟨k, r, rfl, e1, e2⟩ := List.map_eq_append_iff.1 e.symm
    obtain ⟨n, r', rfl, rfl, e3⟩ := List.map_eq_cons_iff.1 e2
    rw [List.map_eq_nil_iff.1 e3]
    exact .other (ih e1.symm) h2
  | entity _ h2 h3 ih =>
    intro m e
    obtain ⟨k, r, rfl, e1, e2⟩ := List.map_eq_append_iff.1 e.symm
    obtain ⟨n, r', rfl, rfl, e3⟩ := List.map_eq_cons_iff.1 e2
    rw [List.map_eq_nil_iff.1 e3]
    exact .entity (ih e1.symm) h2 h3

/-! ### Properties -/

/-- **C113** The entities of the document are those that its `<!ENTITY % name value>` declare, in order, with the entities declared before in the value expanded. -/
theorem doc_entities {L : Lex} (hL : L.Ok) {d : Doc} (h : Fed L d) : Declare d.source d.nodes d.named := declare_unbare (fed_declared hL h).declared rfl

/-- **C113** Expanding an interval of the source never fails to end or reads outside: it gives the one expansion, and throws if there is none. -/
theorem doc_replace {L : Lex} (hL : L.Ok) {d : Doc} (h : Fed L d) (hs : SrcOk d.source) {iv : Nat × Nat} (hi : iv.2 ≤ d.source.length) : ∃ r, d.replace iv = some r ∧ ∀ out, (r = some out ↔ Expands d.named (slice d.source iv) out) :=
  replace_spec hs (fed_declared hL h).within hi

/-- Names and values of the entities of the result -/
def entitiesOf : Result → Option Entities
  | .done d => some d.named
  | _ => none

example : entitiesOf (({} : Doc).assign demoLex (asc "<!ENTITY % a x><p><!entity % b %a;y%a;><!ENTITY % c SYSTEM z>")) = some [(asc "a", asc "x"), (asc "b", asc "xyx")] := by decide +kernel
example : entitiesOf (({} : Doc).assign demoLex (asc "<!ENTITY % a %b;>")) = none := by decide +kernel
example : outline (({} : Doc).assign demoLex (asc "<!ENTITY % a IGNORE><![%a;[b]]>c")) = some [(.declaration, (0, 20), none, none), (.text, (31, 32), none, none)] := by decide +kernel

/-- **C113** (defect) The quotes of an entity are taken for a part of its value: a section `<![%a;[...]]>` is not left out although `%a;` is `"IGNORE"`, and of a value of two words only the first is kept. -/
theorem doc_entity_quotes : outline (({} : Doc).assign demoLex (asc "<!ENTITY % a \"IGNORE\"><![%a;[b]]>c")) = some [(.declaration, (0, 22), none, none), (.text, (29, 30), none, none), (.text, (33, 34), none, none)] ∧
    entitiesOf (({} : Doc).assign demoLex (asc "<!ENTITY % a \"x y\">")) = some [(asc "a", asc "\"x")] := ⟨by decide +kernel, by decide +kernel⟩

end Verif.Html
