import Verif.Html.LinkDemo
/-
What tokens tell of the sequences of a document, and where the maps of tokens point. Lines 2187-2202 and 2440-2664 of include/stdex/html.hpp.
-/
namespace Verif.Html
open Verif.Str Verif.Sgml Verif.Parser

/-! ### Specification -/

/-- The elements that hold titles. -/
def titleElements : List String := ["h1", "h2", "h3", "h4", "h5", "h6", "dt", "title"]

/-- The elements that hold bullets. -/
def bulletElements : List String := ["ul", "ol", "dir", "menu"]

/-- The sequence is not in an element whose content is left alone. -/
def Told (d : Doc) (k : Nat) : Prop := ∀ (i : Nat) (n : Node) (q : Nat), d.nodes[i]? = some n → (∃ s ∈ "style" :: leftAlone, n.code.spelled = some s) → n.fin = some q → ¬ (i < k ∧ k < q)

/-- What the token of the sequence tells: which one it is, and whether it starts or ends an element; a starting token tells the element's name and where it ends. -/
def TokenOf (d : Doc) (k : Nat) (n : Node) (t : Tok) : Prop :=
  t.seq = some k ∧
  (if n.kind = .element_end then t.kind = .ending
   else if n.kind = .element_start ∧ span n.code ≠ .immediate then t.kind = .starting ∧ t.name = slice d.source n.name ∧ t.endSeq = n.fin
   else t.kind = .complete)

/-- The content of a group is a token, which tells if it is a title, or bullets, and where it begins. -/
def GroupOf (k : Nat) (n : Node) (t : Tok) : Prop :=
  t.kind = .complete ∧ (t.isTitle = true ↔ ∃ s ∈ titleElements, n.code.spelled = some s) ∧ (t.isBullet = true ↔ ∃ s ∈ bulletElements, n.code.spelled = some s) ∧ (t.seq = some (k + 1) ∨ t.seq = none)

/-- The element is a group, and its content is not left alone. -/
def GroupAt (n : Node) : Prop := n.kind = .element_start ∧ ∃ s, n.code.spelled = some s ∧ (s ∈ blockElements ∨ s ∈ groupElements) ∧ s ∉ "style" :: leftAlone

/-- A token `u`, one of `toks` or `last`, has the sequence `k` in its text, and its map points from where the sequence begins to where its text, or its token's tag, begins there. The tag of a group is followed by that of the group's content. -/
def Covered (C : Ctx) (d : Doc) (toks : List Tok) (last : Tok) (k : Nat) : Prop :=
  ∀ n, d.nodes[k]? = some n → ∃ u ∈ toks ++ [last], ∃ p, (n.iv.1, p) ∈ u.map ∧
    if n.kind = .text then decodeSpec 0 (slice d.source n.iv) <+: u.text.drop p ∧ ((slice d.source n.iv).all isspace = false → u.hasText = true)
    else u.hasTokens = true ∧ ∃ j t, toks[j]? = some t ∧ TokenOf d k n t ∧ tokenTag (C.addr j) <+: u.text.drop p ∧
      (GroupAt n → ∃ i g, toks[i]? = some g ∧ GroupOf k n g ∧ tokenTag (C.addr j) ++ tokenTag (C.addr i) <+: u.text.drop p)

/-! ### Proofs -/

theorem Out.bind_inv {α β : Type} {x : Out α} {f : α → Out β} {b : β} (h : (x >>= f) = .done b) : ∃ a, x = .done a ∧ f a = .done b := by
  cases x with
  | fault => cases h
  | throws => cases h
  | done a => exact ⟨a, rfl, h⟩

/-- The token that is filled only grows, and so do the tokens. -/
structure Swells (c c' : Cur) : Prop where
  toks : c.toks <+: c'.toks
  text : c.tok.text <+: c'.tok.text
  map : c.tok.map <+: c'.tok.map
  hasText : c.tok.hasText = true → c'.tok.hasText = true
  hasTokens : c.tok.hasTokens = true → c'.tok.hasTokens = true
  kind : c'.tok.kind = c.tok.kind
  title : c'.tok.isTitle = c.tok.isTitle
  bullet : c'.tok.isBullet = c.tok.isBullet
  seq : c'.tok.seq = c.tok.seq

theorem Swells.refl (c : Cur) : Swells c c := ⟨List.prefix_refl _, List.prefix_refl _, List.prefix_refl _, id, id, rfl, rfl, rfl, rfl⟩

theorem Swells.trans {a b c : Cur} (h : Swells a b) (h' : Swells b c) : Swells a c :=
  ⟨h.toks.trans h'.toks, h.text.trans h'.text, h.map.trans h'.map, fun q => h'.hasText (h.hasText q), fun q => h'.hasTokens (h.hasTokens q), h'.kind.trans h.kind, h'.title.trans h.title, h'.bullet.trans h.bullet, h'.seq.trans h.seq⟩

theorem prefix_get {α : Type} {a b : List α} (h : a <+: b) {j : Nat} {t : α} (e : a[j]? = some t) : b[j]? = some t := by
  obtain ⟨r, rfl⟩ := h
  rw [List.getElem?_append_left (List.getElem?_eq_some_iff.1 e).1, e]

theorem prefix_drop {α : Type} {a b : List α} (h : a <+: b) (p : Nat) : a.drop p <+: b.drop p := by
  obtain ⟨r, rfl⟩ := h
  rw [List.drop_append]
  exact List.prefix_append _ _

/-- A token and what it grew to. -/
theorem covered_mono {C : Ctx} {d : Doc} {toks toks' : List Tok} {last last' : Tok} {k : Nat} (h : Covered C d toks last k) (ht : toks <+: toks')
    (hl : last ∈ toks' ∨ (last.text <+: last'.text ∧ last.map <+: last'.map ∧ (last.hasText = true → last'.hasText = true) ∧ (last.hasTokens = true → last'.hasTokens = true))) : Covered C d toks' last' k := by
  intro n hn
  obtain ⟨u, hu, p, h1, h2⟩ := h n hn
  have key : ∃ u' ∈ toks' ++ [last'], u.text <+: u'.text ∧ u.map <+: u'.map ∧ (u.hasText = true → u'.hasText = true) ∧ (u.hasTokens = true → u'.hasTokens = true) := by
    have same : u ∈ toks' → ∃ u' ∈ toks' ++ [last'], u.text <+: u'.text ∧ u.map <+: u'.map ∧ (u.hasText = true → u'.hasText = true) ∧ (u.hasTokens = true → u'.hasTokens = true) :=
      fun q => ⟨u, List.mem_append_left _ q, List.prefix_refl _, List.prefix_refl _, id, id⟩
    rcases List.mem_append.1 hu with q | q
    · exact same (ht.subset q)
    · have q := List.mem_singleton.1 q
      subst q
      rcases hl with hl | hl
      · exact same hl
      · exact ⟨last', by simp, hl⟩
  obtain ⟨u', hu', g1, g2, g3, g4⟩ := key
  refine ⟨u', hu', p, g2.subset h1, ?_⟩
  by_cases hk : n.kind = .text
  · rw [if_pos hk] at h2 ⊢
    exact ⟨h2.1.trans (prefix_drop g1 p), fun q => g3 (h2.2 q)⟩
  · rw [if_neg hk] at h2 ⊢
    obtain ⟨q1, j, t, q2, q3, q4, q5⟩ := h2
    refine ⟨g4 q1, j, t, prefix_get ht q2, q3, q4.trans (prefix_drop g1 p), fun hg => ?_⟩
    obtain ⟨i, g, r1, r2, r3⟩ := q5 hg
    exact ⟨i, g, prefix_get ht r1, r2, r3.trans (prefix_drop g1 p)⟩

theorem covered_grows {C : Ctx} {d : Doc} {c c' : Cur} {k : Nat} (h : Covered C d c.toks c.tok k) (hg : Swells c c') : Covered C d c'.toks c'.tok k :=
  covered_mono h hg.toks (.inr ⟨hg.text, hg.map, hg.hasText, hg.hasTokens⟩)

/-- The attributes change the text of the token of a tag only. -/
theorem attrLoop_keeps {C : Ctx} {d : Doc} {k : Nat} {n : Node} : ∀ (l : List Attr) (off : Nat) (t : Tok) (toks : List Tok) {t' : Tok} {toks' : List Tok}, attrLoop C d k n l off t toks = .done (t', toks') →
    toks <+: toks' ∧ t'.kind = t.kind ∧ t'.seq = t.seq ∧ t'.name = t.name ∧ t'.endSeq = t.endSeq
  | [], off, t, toks, t', toks', h => by
    unfold attrLoop at h
    split at h
    · cases h
    · cases h; exact ⟨List.prefix_refl _, rfl, rfl, rfl, rfl⟩
  | a :: l, off, t, toks, t', toks', h => by
    unfold attrLoop at h
    have app : ∀ x, toks <+: toks ++ [x] := fun x => List.prefix_append _ _
    split at h
    · exact attrLoop_keeps l off t toks h
    · obtain ⟨b, -, h⟩ := Out.bind_inv h
      split at h
      · exact attrLoop_keeps l off t toks h
      · obtain ⟨b2, -, h⟩ := Out.bind_inv h
        split at h
        · split at h
          · cases h
          · obtain ⟨r, -, h⟩ := Out.bind_inv h
            obtain ⟨q1, q2, q3, q4, q5⟩ := attrLoop_keeps l _ _ _ h
            exact ⟨(app _).trans q1, q2, q3, q4, q5⟩
        · obtain ⟨b3, -, h⟩ := Out.bind_inv h
          split at h
          · split at h
            · cases h
            · obtain ⟨r, -, h⟩ := Out.bind_inv h
              obtain ⟨q1, q2, q3, q4, q5⟩ := attrLoop_keeps l _ _ _ h
              exact ⟨(app _).trans q1, q2, q3, q4, q5⟩
          · exact attrLoop_keeps l off t toks h

theorem cssLoop_keeps {C : Ctx} {d : Doc} {fin seq : Nat} : ∀ (fuel i : Nat) (t : Tok) (toks : List Tok) {t' : Tok} {toks' : List Tok}, cssLoop C d fin seq fuel i t toks = .done (t', toks') → toks <+: toks'
  | 0, _, _, _, _, _, h => by unfold cssLoop at h; cases h
  | fuel + 1, i, t, toks, t', toks', h => by
    unfold cssLoop at h
    dsimp only at h
    obtain ⟨r1, -, h⟩ := Out.bind_inv h
    split at h
    · exact cssLoop_keeps fuel _ _ _ h
    · obtain ⟨r2, -, h⟩ := Out.bind_inv h
      split at h
      · exact cssLoop_keeps fuel _ _ _ h
      · obtain ⟨r3, -, h⟩ := Out.bind_inv h
        split at h
        · exact cssLoop_keeps fuel _ _ _ h
        · obtain ⟨r4, -, h⟩ := Out.bind_inv h
          split at h
          · split at h
            · split at h
              · cases h
              · exact (List.prefix_append _ _).trans (cssLoop_keeps fuel _ _ _ h)
            · cases h
          · obtain ⟨r5, -, h⟩ := Out.bind_inv h
            split at h
            · exact cssLoop_keeps fuel _ _ _ h
            · cases h; exact List.prefix_refl _

/-- The place in the text is where it ends. -/
def Even (c : Cur) : Prop := c.rel = c.tok.text.length

theorem mark_grows (C : Ctx) (c : Cur) (start k : Nat) : Swells c (c.mark C start k) :=
  ⟨List.prefix_refl _, List.prefix_append _ _, List.prefix_append _ _, id, fun _ => rfl, rfl, rfl, rfl, rfl⟩

theorem mark_even {C : Ctx} {c : Cur} (h : Even c) (start k : Nat) : Even (c.mark C start k) := by
  unfold Even Cur.mark at *
  dsimp only
  rw [h, List.length_append]

theorem put_grows (C : Ctx) (c : Cur) (start : Nat) (t : Tok) : Swells c (c.put C start t) := by
  have := mark_grows C { c with toks := c.toks ++ [t] } start c.toks.length
  exact ⟨List.prefix_append _ _, this.text, this.map, this.hasText, this.hasTokens, this.kind, this.title, this.bullet, this.seq⟩

theorem put_even {C : Ctx} {c : Cur} (h : Even c) (start : Nat) (t : Tok) : Even (c.put C start t) := mark_even (c := { c with toks := c.toks ++ [t] }) h start c.toks.length

theorem toks_grows {c : Cur} {toks : List Tok} (h : c.toks <+: toks) : Swells c { c with toks := toks } := ⟨h, List.prefix_refl _, List.prefix_refl _, id, id, rfl, rfl, rfl, rfl⟩

theorem Swells.off {c c' : Cur} (h : Swells c c') (k : Nat) : Swells c { c' with off := k } := ⟨h.toks, h.text, h.map, h.hasText, h.hasTokens, h.kind, h.title, h.bullet, h.seq⟩

theorem textStep_told {C : Ctx} {d : Doc} (hs : SrcOk d.source) {n : Node} {c c' : Cur} (hn : d.nodes[c.off]? = some n) (hb : n.iv.2 ≤ d.source.length) (hk : n.kind = .text) (hv : Even c) (h : textStep d n c = .done c') :
    c'.off = c.off + 1 ∧ Even c' ∧ Swells c c' ∧ Covered C d c'.toks c'.tok c.off := by
  unfold textStep at h
  obtain ⟨m, hd⟩ := at_decode hs (a := n.iv.1) hb c.tok.text
  rw [hd] at h
  simp only [Out.of_some, Out.done_bind] at h
  obtain ⟨b, hbl, h⟩ := Out.bind_inv h
  cases h
  refine ⟨rfl, rfl, ⟨List.prefix_refl _, List.prefix_append _ _, List.prefix_append _ _, fun q => by simp [q], id, rfl, rfl, rfl, rfl⟩, ?_⟩
  intro n' hn'
  rw [hn] at hn'
  cases hn'
  refine ⟨_, List.mem_append_right _ List.mem_cons_self, c.rel, by simp, ?_⟩
  rw [if_pos hk]
  refine ⟨?_, fun q => ?_⟩
  · dsimp only
    rw [hv, List.drop_left]
    exact List.prefix_refl _
  · dsimp only
    unfold textBlank at hbl
    cases ht : c.tok.hasText with
    | true => rfl
    | false =>
      rw [ht, if_neg (by decide)] at hbl
      unfold Doc.blank at hbl
      rw [at_blank hs hb] at hbl
      rw [show slice d.source (n.iv.1, n.iv.2) = slice d.source n.iv from rfl, q] at hbl
      cases hbl
      rfl

theorem contentToken_told {C : Ctx} {d : Doc} {n : Node} {e : Nat} {c c' : Cur} (hv : Even c) (h : contentToken C d n e c = .done c') : c'.off = c.off ∧ Even c' ∧ Swells c c' := by
  unfold contentToken at h
  split at h
  · split at h
    · cases h
    · split at h
      · cases h
        exact ⟨rfl, put_even hv _ _, put_grows _ _ _ _⟩
      · obtain ⟨r, hr, h⟩ := Out.bind_inv h
        cases h
        have := cssLoop_keeps _ _ _ _ (t' := r.1) (toks' := r.2) hr
        exact ⟨rfl, put_even (c := { c with toks := r.2 }) hv _ _, (toks_grows this).trans (put_grows C { c with toks := r.2 } _ _)⟩
  · cases h
    exact ⟨rfl, hv, Swells.refl _⟩

/-- A token that is put for a sequence covers it, unless it is a text or a group. -/
theorem put_covers {C : Ctx} {d : Doc} {k : Nat} {n : Node} {c : Cur} {t : Tok} (hn : d.nodes[k]? = some n) (hk : n.kind ≠ .text) (hg : ¬ GroupAt n) (hv : Even c) (ht : TokenOf d k n t) :
    Covered C d (c.put C n.iv.1 t).toks (c.put C n.iv.1 t).tok k := by
  intro n' hn'
  rw [hn] at hn'
  cases hn'
  refine ⟨_, List.mem_append_right _ List.mem_cons_self, c.rel, by simp [Cur.put, Cur.mark], ?_⟩
  rw [if_neg hk]
  refine ⟨rfl, c.toks.length, t, by simp [Cur.put, Cur.mark], ht, ?_, fun q => absurd q hg⟩
  simp only [Cur.put, Cur.mark]
  rw [hv, List.drop_left]
  exact List.prefix_refl _

theorem titled_iff (e : Elem) : isTitled e = true ↔ ∃ s ∈ titleElements, e.spelled = some s := by
  have := elem_forall (p := fun e => isTitled e == (titleElements.any fun s => decide (e.spelled = some s))) (by decide +kernel) e
  rw [eq_of_beq this, List.any_eq_true]
  simp only [decide_eq_true_eq]

theorem list_iff (e : Elem) : isList e = true ↔ ∃ s ∈ bulletElements, e.spelled = some s := by
  have := elem_forall (p := fun e => isList e == (bulletElements.any fun s => decide (e.spelled = some s))) (by decide +kernel) e
  rw [eq_of_beq this, List.any_eq_true]
  simp only [decide_eq_true_eq]

theorem style_iff (e : Elem) : e = .style ↔ e.spelled = some "style" := by
  have := elem_forall (p := fun e => decide (e = .style) == decide (e.spelled = some "style")) (by decide +kernel) e
  have := eq_of_beq this
  exact decide_eq_decide.1 this

theorem verbatim_iff' (e : Elem) : isVerbatim e = true ↔ ∃ s ∈ "style" :: leftAlone, e.spelled = some s := by
  rw [verbatim_iff, style_iff]
  constructor
  · rintro (h | ⟨s, h1, h2⟩)
    · exact ⟨_, List.mem_cons_self, h⟩
    · exact ⟨s, List.mem_cons_of_mem _ h1, h2⟩
  · rintro ⟨s, h1, h2⟩
    rcases List.mem_cons.1 h1 with h | h
    · exact .inl (h ▸ h2)
    · exact .inr ⟨s, h, h2⟩

theorem group_at {n : Node} (h : GroupAt n) : n.kind = .element_start ∧ isGroup n.code = true ∧ isVerbatim n.code = false := by
  obtain ⟨h1, s, h2, h3, h4⟩ := h
  refine ⟨h1, (kinds_spec n.code s h2).2.2.2.2 h3, ?_⟩
  cases hv : isVerbatim n.code with
  | false => rfl
  | true =>
    obtain ⟨s', q1, q2⟩ := (verbatim_iff' n.code).1 hv
    rw [h2] at q2
    cases q2
    exact absurd q1 h4

theorem parseLoop_told {C : Ctx} {d : Doc} (hd : Fine d) : ∀ (fuel fin : Nat) (c c' : Cur), c.off ≤ fin → parseLoop C d fuel fin c = .done c' → Even c →
    c'.off = fin ∧ Even c' ∧ Swells c c' ∧ ∀ k, c.off ≤ k → k < fin → Told d k → Covered C d c'.toks c'.tok k
  | 0, _, _, _, _, h, _ => by unfold parseLoop at h; cases h
  | fuel + 1, fin, c, c', hle, h, hv => by
    unfold parseLoop at h
    by_cases hoff : c.off = fin
    · rw [if_pos hoff] at h
      cases h
      exact ⟨hoff, hv, Swells.refl _, fun k q1 q2 => absurd q1 (by omega)⟩
    rw [if_neg hoff] at h
    have hlt : c.off < fin := by omega
    cases hn : d.nodes[c.off]? with
    | none => rw [hn] at h; cases h
    | some n =>
      rw [hn] at h
      dsimp only at h
      have hmem : n ∈ d.nodes := List.mem_of_getElem? hn
      have hiv2 := (hd.iv n hmem).2
      -- one sequence is done, and those to `c1.off` need not be told
      have next : ∀ c1 : Cur, c.off < c1.off → c1.off ≤ fin → Even c1 → Swells c c1 → Covered C d c1.toks c1.tok c.off → (∀ k, c.off < k → k < c1.off → Told d k → Covered C d c1.toks c1.tok k) → parseLoop C d fuel fin c1 = .done c' →
          c'.off = fin ∧ Even c' ∧ Swells c c' ∧ ∀ k, c.off ≤ k → k < fin → Told d k → Covered C d c'.toks c'.tok k := by
        intro c1 q1 q2 q3 q4 q5 q6 q7
        obtain ⟨r1, r2, r3, r4⟩ := parseLoop_told hd fuel fin c1 c' q2 q7 q3
        refine ⟨r1, r2, q4.trans r3, fun k k1 k2 k3 => ?_⟩
        by_cases e : k = c.off
        · rw [e]; exact covered_grows q5 r3
        · by_cases e2 : k < c1.off
          · exact covered_grows (q6 k (by omega) e2 k3) r3
          · exact r4 k (by omega) k2 k3
      -- a sequence that is put as it is
      have raw : ∀ t : Tok, n.kind ≠ .text → n.kind ≠ .element_start → TokenOf d c.off n t → parseLoop C d fuel fin { c.put C n.iv.1 t with off := c.off + 1 } = .done c' →
          c'.off = fin ∧ Even c' ∧ Swells c c' ∧ ∀ k, c.off ≤ k → k < fin → Told d k → Covered C d c'.toks c'.tok k :=
        fun t k1 k2 k3 k4 => next { c.put C n.iv.1 t with off := c.off + 1 } (Nat.lt_succ_self _) hlt (put_even hv _ _) ((put_grows _ _ _ _).off _) (put_covers hn k1 (fun q => k2 q.1) hv k3)
          (fun k e1 e2 => absurd e1 (by dsimp only at e2; omega)) k4
      -- a tag
      have tags : n.kind = .element ∨ n.kind = .element_start → ∀ r : Tok × List Tok, attrLoop C d c.off n n.attrs n.iv.1 (tagToken d c.off n) c.toks = .done r →
          TokenOf d c.off n r.1 ∧ c.toks <+: r.2 := by
        intro hk r hr
        obtain ⟨q1, q2, q3, q4, q5⟩ := attrLoop_keeps _ _ _ _ (t' := r.1) (toks' := r.2) hr
        refine ⟨?_, q1⟩
        unfold TokenOf
        rw [q2, q3, q4, q5]
        unfold tagToken
        rcases hk with hk | hk
        · rw [hk]; exact ⟨rfl, rfl⟩
        · rw [hk]
          by_cases hs : span n.code = .immediate
          · rw [if_pos (.inr hs), if_neg (by decide), if_neg (by simp [hs])]; exact ⟨rfl, rfl⟩
          · rw [if_neg (by simp [hs]), if_neg (by decide), if_pos ⟨rfl, hs⟩]; exact ⟨rfl, rfl, rfl, rfl⟩
      cases hk : n.kind with
      | text =>
        rw [hk] at h
        obtain ⟨c1, e1, h⟩ := Out.bind_inv h
        obtain ⟨q1, q2, q3, q4⟩ := textStep_told (C := C) hd.src hn hiv2 hk hv e1
        exact next c1 (by omega) (by omega) q2 q3 q4 (fun k e1 e2 => absurd e1 (by omega)) h
      | element =>
        rw [hk] at h
        dsimp only at h
        split at h
        · cases h
        · obtain ⟨r, hr, h⟩ := Out.bind_inv h
          obtain ⟨t1, t2⟩ := tags (.inl hk) r hr
          rw [if_pos rfl] at h
          have e3 := put_even (C := C) (c := { c with toks := r.2 }) hv n.iv.1 r.1
          exact next ({ (({ c with toks := r.2 } : Cur).put C n.iv.1 r.1) with off := c.off + 1 } : Cur) (Nat.lt_succ_self _) hlt e3 (((toks_grows t2).trans (put_grows C { c with toks := r.2 } n.iv.1 r.1)).off _)
            (put_covers (c := { c with toks := r.2 }) hn (by rw [hk]; decide) (fun q => by have := q.1; rw [hk] at this; cases this) hv t1) (fun k e1 e2 => absurd e1 (by dsimp only at e2; omega)) h
      | element_start =>
        rw [hk] at h
        dsimp only at h
        split at h
        · cases h
        · obtain ⟨r, hr, h⟩ := Out.bind_inv h
          obtain ⟨t1, t2⟩ := tags (.inr hk) r hr
          rw [if_neg (by decide)] at h
          have e3 := put_even (C := C) (c := { c with toks := r.2 }) hv n.iv.1 r.1
          have e4 := ((toks_grows t2).trans (put_grows C { c with toks := r.2 } n.iv.1 r.1))
          by_cases hver : isVerbatim n.code = true
          · rw [if_pos hver] at h
            obtain ⟨c2, hc2, h⟩ := Out.bind_inv h
            unfold verbatimStep at hc2
            obtain ⟨q, hq, hc2⟩ := Out.bind_inv hc2
            obtain ⟨m, hm, hc2⟩ := Out.bind_inv hc2
            obtain ⟨c3, hc3, hc2⟩ := Out.bind_inv hc2
            cases hc2
            have hq' : n.fin = some q := by cases hf : n.fin with | none => rw [hf] at hq; cases hq | some y => rw [hf] at hq; cases hq; rfl
            obtain ⟨f1, f2, f3⟩ := contentToken_told (c := { { c with toks := r.2 }.put C n.iv.1 r.1 with off := c.off + 1 }) e3 hc3
            have f1' : c3.off = c.off + 1 := f1
            obtain ⟨s1, s2, s3, s4⟩ := seek_spec fin (some q) _ c3.off (Nat.le_refl _) (by omega)
            have hcov : Covered C d c3.toks c3.tok c.off := covered_grows (c := { { c with toks := r.2 }.put C n.iv.1 r.1 with off := c.off + 1 })
              (put_covers (c := { c with toks := r.2 }) hn (by rw [hk]; decide) (fun g => by have := (group_at g).2.2; rw [hver] at this; cases this) hv t1) f3
            refine next { c3 with off := seek fin (some q) c3.off } (by dsimp only; omega) s2 f2 (((e4.off _).trans f3).off _) hcov ?_ h
            intro k k1 k2 k3
            dsimp only at k2
            obtain ⟨stack, hT⟩ := hd.tree
            have hqk : c.off < q := by
              rcases (hT.fin hn hq').2 with ⟨-, hsp⟩ | ⟨hkq, -⟩
              · exact absurd hsp (verbatim_span _ hver)
              · exact hkq
            refine absurd ⟨k1, ?_⟩ (k3 c.off n q hn ((verbatim_iff' _).1 hver) hq')
            rcases s4 with e | e
            · by_cases hqf : q ≤ fin
              · have := s3 q rfl (by omega) hqf; omega
              · omega
            · have := Option.some.inj e; omega
          · rw [if_neg hver] at h
            by_cases hg : isGroup n.code = true
            · rw [if_pos hg] at h
              obtain ⟨g, hgr, h⟩ := Out.bind_inv h
              obtain ⟨s1, s2, -, -⟩ := seek_spec fin n.fin _ (c.off + 1) (Nat.le_refl _) (by omega)
              obtain ⟨g1, g2, g3, g4⟩ := parseLoop_told hd fuel (seek fin n.fin (c.off + 1)) _ g s1 hgr rfl
              dsimp only at g4
              have g3t : r.2 ++ [r.1] <+: g.toks := g3.toks
              have goff : c.off + 1 ≤ g.off := by omega
              have hput : { c with toks := r.2 }.toks.length = r.2.length := rfl
              -- the cursor before the second tag
              have big : Swells c ({ { { c with toks := r.2 }.put C n.iv.1 r.1 with off := c.off + 1 } with toks := g.toks ++ [g.tok], off := g.off }.mark C n.iv.1 g.toks.length) := by
                refine Swells.trans ?_ (mark_grows C _ n.iv.1 g.toks.length)
                exact ⟨(t2.trans (List.prefix_append _ _)).trans (g3t.trans (List.prefix_append _ _)), e4.text, e4.map, e4.hasText, e4.hasTokens, e4.kind, e4.title, e4.bullet, e4.seq⟩
              refine next _ (by show c.off < g.off; omega) (by show g.off ≤ fin; omega) (mark_even (by exact e3) _ _) big ?_ ?_ h
              · intro n' hn'
                rw [hn] at hn'
                cases hn'
                refine ⟨_, List.mem_append_right _ List.mem_cons_self, c.rel, by simp [Cur.put, Cur.mark], ?_⟩
                rw [if_neg (by rw [hk]; decide)]
                have hpre : tokenTag (C.addr r.2.length) ++ tokenTag (C.addr g.toks.length) <+: ((({ { { c with toks := r.2 }.put C n.iv.1 r.1 with off := c.off + 1 } with toks := g.toks ++ [g.tok], off := g.off } : Cur).mark C n.iv.1 g.toks.length).tok.text).drop c.rel := by
                  simp only [Cur.put, Cur.mark]
                  rw [hv, List.append_assoc, List.drop_left]
                  exact List.prefix_refl _
                refine ⟨rfl, r.2.length, r.1, prefix_get (a := r.2 ++ [r.1]) (g3t.trans (List.prefix_append _ _)) (by simp), t1, (List.prefix_append _ _).trans hpre, fun _ => ⟨g.toks.length, g.tok, by simp [Cur.mark], ?_, hpre⟩⟩
                refine ⟨g3.kind, ?_, ?_, ?_⟩
                · rw [g3.title]; exact titled_iff _
                · rw [g3.bullet]; exact list_iff _
                · rw [g3.seq]
                  dsimp only
                  split
                  · exact .inl rfl
                  · exact .inr rfl
              · intro k k1 k2 k3
                have k2' : k < g.off := k2
                refine covered_mono (g4 k (by omega) (by omega) k3) (List.prefix_append _ _) (.inl ?_)
                simp [Cur.mark]
            · rw [if_neg hg] at h
              exact next ({ (({ c with toks := r.2 } : Cur).put C n.iv.1 r.1) with off := c.off + 1 } : Cur) (Nat.lt_succ_self _) hlt e3 (e4.off _)
                (put_covers (c := { c with toks := r.2 }) hn (by rw [hk]; decide) (fun q => hg (group_at q).2.1) hv t1) (fun k e1 e2 => absurd e1 (by dsimp only at e2; omega)) h
      | element_end => rw [hk] at h; exact raw _ (by rw [hk]; decide) (by rw [hk]; decide) (by unfold TokenOf; rw [hk]; exact ⟨rfl, rfl⟩) h
      | declaration | comment | instruction | PCDATA | CDATA => rw [hk] at h; exact raw _ (by rw [hk]; decide) (by rw [hk]; decide) (by unfold TokenOf; rw [hk]; exact ⟨rfl, rfl⟩) h

/-! ### Properties -/

/-- **C119** Every sequence of the document, except in elements whose content is left alone, is in the text of a token, where that token's map says it is; tags have tokens of their own, which tell which sequence it is, if it starts or ends an element, the element's name and its end; the
content of a group follows its tag, as a token that tells if it is a title or bullets. -/
theorem parse_told {C : Ctx} (hL : C.L.Ok) {d : Doc} (hr : Reach C.L d) {toks : List Tok} (h : parse C d = .done toks) :
    ∃ l root, toks = l ++ [root] ∧ root.kind = .complete ∧ ∀ k, k < d.nodes.length → Told d k → Covered C d l root k := by
  unfold parse at h
  obtain ⟨c, hc, h⟩ := Out.bind_inv h
  cases h
  obtain ⟨-, -, h3, h4⟩ := parseLoop_told (reach_fine hL hr) _ _ _ c (Nat.zero_le _) hc rfl
  exact ⟨c.toks, c.tok, rfl, h3.kind, fun k hk ht => h4 k (Nat.zero_le _) hk ht⟩

/-! ### Examples -/

/-- The document has tokens. -/
example : (match parse demoCtx (demoDoc "<ul><li>a</ul>") with | .done l => some (l.map fun t => (t.kind, t.seq, t.endSeq, t.isBullet)) | _ => none) =
    some [(.starting, some 0, some 3, false), (.starting, some 1, none, false), (.complete, some 1, none, true), (.ending, some 3, none, false), (.complete, some 0, none, false)] := by decide +kernel

/-- Its sequences are not in elements that are left alone. -/
example : ∀ k, k < 4 → Told (demoDoc "<ul><li>a</ul>") k := by
  intro k _ i n q h1 h2
  have : ∀ n ∈ (demoDoc "<ul><li>a</ul>").nodes, ¬ ∃ s ∈ "style" :: leftAlone, n.code.spelled = some s := by decide +kernel
  exact absurd h2 (this n (List.mem_of_getElem? h1))

end Verif.Html
