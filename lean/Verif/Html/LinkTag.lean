import Verif.Html.LinkBack
/-
Tokens of tags and style sheets: `parser::parse` (2481-2526) and `parser::parse_css` (2609-2664) of include/stdex/html.hpp.
-/
namespace Verif.Html
open Verif.Str Verif.Sgml Verif.Parser

/-! ### Texts -/

theorem pairs_nonzero : pairs.all (fun p => p.2.all fun c => decide (0 < c)) = true := by decide +kernel

theorem meaning_nonzero {name u : List Int} (h : meaning name = some u) : ∀ c ∈ u, c ≠ 0 := by
  have h32 : ∀ n, ∀ c ∈ char32 n, n < 2 ^ 32 → c ≠ 0 := by
    intro n c hc hn
    unfold char32 at hc
    split at hc
    · cases hc
    · split at hc
      · rw [List.mem_singleton.1 hc]; omega
      · rw [List.mem_singleton.1 hc]; omega
  have hnum : ∀ r l, num32 r l < 2 ^ 32 := by
    intro r l
    unfold num32
    split <;> omega
  unfold meaning at h
  split at h
  · cases h; exact fun c hc => h32 _ c hc (hnum _ _)
  · cases h; exact fun c hc => h32 _ c hc (hnum _ _)
  · cases h; exact fun c hc => h32 _ c hc (hnum _ _)
  · unfold uniOf at h
    obtain ⟨p, hp, rfl⟩ := Option.map_eq_some_iff.1 h
    intro c hc
    have := List.all_eq_true.1 pairs_nonzero p (List.mem_of_find?_eq_some hp)
    unfold castL at hc
    obtain ⟨x, hx, rfl⟩ := List.mem_map.1 hc
    have := List.all_eq_true.1 this x hx
    have : 0 < x := by simpa using this
    omega

theorem decode_nonzero {t : List Int} (h : ∀ c ∈ t, c ≠ 0) : ∀ c ∈ decodeSpec 0 t, c ≠ 0 := by
  intro c hc
  unfold decodeSpec at hc
  obtain ⟨p, hp, hc⟩ := List.mem_flatMap.1 hc
  cases p with
  | chr x =>
    rw [List.mem_singleton.1 hc]
    refine h x ?_
    rw [← pieces_src 0 t]
    exact List.mem_flatMap.2 ⟨_, hp, by simp [Piece.src]⟩
  | ent name u => exact meaning_nonzero (pieces_ent 0 t name u hp).1 c hc

theorem space_not {c : Int} (h : isspace c = true) : escapeMinChar c = [c] ∧ escapeChar c = [c] ∧ c ≠ 38 := by
  unfold isspace at h
  have : c = 0x20 ∨ c = 0x09 ∨ c = 0x0a ∨ c = 0x0d ∨ c = 0x0b ∨ c = 0x0c := by simpa using h
  rcases this with rfl | rfl | rfl | rfl | rfl | rfl <;> decide

theorem decode_plain {t : List Int} (h : 38 ∉ t) : decodeSpec 0 t = t := by
  unfold decodeSpec
  rw [pieces_plain 0 h]
  induction t with
  | nil => rfl
  | cons c t ih => rw [List.map_cons, List.flatMap_cons, ih (fun q => h (List.mem_cons_of_mem _ q))]; rfl

theorem flatMap_same {f : Int → List Int} : ∀ {t : List Int}, (∀ c ∈ t, f c = [c]) → t.flatMap f = t
  | [], _ => rfl
  | c :: t, h => by rw [List.flatMap_cons, h c List.mem_cons_self, flatMap_same fun x hx => h x (List.mem_cons_of_mem _ hx)]; rfl

theorem blank_amp {t : List Int} (h : t.all isspace = true) : 38 ∉ t := fun q => (space_not (List.all_eq_true.1 h _ q)).2.2 rfl

theorem retext_blank {t : List Int} (h : t.all isspace = true) : retext t = t := by
  unfold retext
  rw [decode_plain (blank_amp h)]
  exact flatMap_same fun c hc => (space_not (List.all_eq_true.1 h c hc)).1

theorem reurl_blank {t : List Int} (h : t.all isspace = true) : reurl t = t := by
  unfold reurl
  rw [decode_plain (blank_amp h)]
  exact flatMap_same fun c hc => (space_not (List.all_eq_true.1 h c hc)).2.1

theorem slice_add {t : List Int} {a b c : Nat} (h1 : a ≤ b) (h2 : b ≤ c) : slice t (a, b) ++ slice t (b, c) = slice t (a, c) := by
  unfold slice
  dsimp only
  rw [show c - a = (b - a) + (c - b) by omega, List.take_add, List.drop_drop, show a + (b - a) = b by omega]

theorem slice_nil (t : List Int) {a b : Nat} (h : b ≤ a) : slice t (a, b) = [] := by unfold slice; dsimp only; rw [show b - a = 0 by omega]; rfl

theorem slice_mem {t : List Int} {iv : Nat × Nat} {c : Int} (h : c ∈ slice t iv) : c ∈ t := List.mem_of_mem_drop (List.mem_of_mem_take h)

theorem at_text {d : Doc} (hs : SrcOk d.source) {a b : Nat} (h : b ≤ d.source.length) : text (d.at a) (some (b - a)) = slice d.source (a, b) :=
  text_take (fun c hc => hs.nz c (List.mem_of_mem_drop hc)) (by rw [List.length_drop]; omega)

theorem at_decode {d : Doc} (hs : SrcOk d.source) {a b : Nat} (h : b ≤ d.source.length) (dst : List Int) :
    ∃ m, sgml2strcat (d.at a) (b - a) 0 dst = some (dst ++ decodeSpec 0 (slice d.source (a, b)), m) := by
  have := sgml2strcat_pieces (s := d.at a) (count := b - a) (skip := 0) (valid_zero _ _) (by have := hs.small; omega) dst
  rw [at_text hs h] at this
  exact ⟨_, this⟩

theorem at_blank {d : Doc} (hs : SrcOk d.source) {a b : Nat} (h : b ≤ d.source.length) : isall isspace (d.at a) (some (b - a)) = some ((slice d.source (a, b)).all isspace) := by
  rw [isall_spec isspace (s := d.at a) (valid_zero _ _), at_text hs h]

theorem bool_of_iff {a b : Bool} (h : a = true ↔ b = true) : a = b := by cases a <;> cases b <;> simp_all

theorem at_uri {C : Ctx} (hL : C.L.Ok) {d : Doc} (hs : SrcOk d.source) (e : Elem) {a b : Nat} (h : b ≤ d.source.length) :
    isUri C.L.T C.L.C e (d.at a) (b - a) = some (urlAttr e (slice d.source (a, b))) := by
  obtain ⟨r, h1, h2⟩ := is_uri_spec hL.T hL.C e (s := d.at a) (count := b - a) (valid_zero _ _)
  rw [h1, at_text hs h] at *
  congr 1
  refine bool_of_iff (h2.trans ?_)
  unfold urlAttr
  rw [List.any_eq_true]
  constructor
  · rintro ⟨n, k, e1, e2, e3⟩
    exact ⟨(n, k), e2, by simp [e1, e3]⟩
  · rintro ⟨⟨n, k⟩, e2, e3⟩
    simp only [Bool.and_eq_true, decide_eq_true_eq] at e3
    exact ⟨n, k, e3.1, e2, e3.2⟩

theorem at_local {C : Ctx} (hL : C.L.Ok) {d : Doc} (hs : SrcOk d.source) (e : Elem) {a b : Nat} (h : b ≤ d.source.length) :
    isLocalizable C.L.T C.L.C e (d.at a) (b - a) = some (textAttr e (slice d.source (a, b))) := by
  obtain ⟨r, h1, h2⟩ := is_localizable_spec hL.T hL.C e (s := d.at a) (count := b - a) (valid_zero _ _)
  rw [h1, at_text hs h] at *
  congr 1
  refine bool_of_iff (h2.trans ?_)
  unfold textAttr
  rw [Bool.or_eq_true, decide_eq_true_eq, List.any_eq_true]
  refine or_congr Iff.rfl ?_
  constructor
  · rintro ⟨n, k, e1, e2, e3⟩
    exact ⟨(n, k), e2, by simp [e1, e3]⟩
  · rintro ⟨⟨n, k⟩, e2, e3⟩
    simp only [Bool.and_eq_true, decide_eq_true_eq] at e3
    exact ⟨n, k, e3.1, e2, e3.2⟩

/-! ### A token of raw text and tags -/

structure Builds (C : Ctx) (outs : List (List Int)) (t : Tok) (o : List Int) : Prop where
  kind : t.kind ≠ .url
  raw : t.hasText = false
  bits : ∃ ps, t.text = ps.flatMap (Bit.spell C.addr) ∧ o = ps.flatMap (Bit.shown outs false) ∧ Bits ps outs.length ∧ ∀ k, Bit.ref k ∈ ps → t.hasTokens = true

theorem Builds.mono {C : Ctx} {outs outs' : List (List Int)} {t : Tok} {o : List Int} (h : Builds C outs t o) (hp : outs <+: outs') : Builds C outs' t o := by
  obtain ⟨ps, h1, h2, h3, h4⟩ := h.bits
  exact ⟨h.kind, h.raw, ps, h1, by rw [shown_mono hp _ h3, h2], h3.mono hp.length_le, h4⟩

theorem Builds.chars {C : Ctx} {outs : List (List Int)} {t : Tok} {o : List Int} (h : Builds C outs t o) {l : List Int} (hl : ∀ c ∈ l, c ≠ 0 ∧ c ≠ 18 ∧ c ≠ 19) :
    Builds C outs { t with text := t.text ++ l } (o ++ l) := by
  obtain ⟨ps, h1, h2, h3, h4⟩ := h.bits
  refine ⟨h.kind, h.raw, ps ++ l.map .chr, ?_, ?_, h3.append (Bits.chars hl _), ?_⟩
  · rw [List.flatMap_append, spell_chars, ← h1]
  · rw [List.flatMap_append, shown_raw, ← h2]
  · intro k hk
    rcases List.mem_append.1 hk with q | q
    · exact h4 k q
    · obtain ⟨x, _, e⟩ := List.mem_map.1 q; cases e

theorem Builds.tag {C : Ctx} {outs : List (List Int)} {t : Tok} {o : List Int} (h : Builds C outs t o) (x : List Int) :
    Builds C (outs ++ [x]) { t with text := t.text ++ tokenTag (C.addr outs.length), hasTokens := true } (o ++ x) := by
  obtain ⟨ps, h1, h2, h3, h4⟩ := (h.mono (List.prefix_append outs [x])).bits
  refine ⟨h.kind, h.raw, ps ++ [.ref outs.length], ?_, ?_, h3.append (Bits.one (by simp)), fun _ _ => rfl⟩
  · rw [List.flatMap_append, ← h1]; simp [Bit.spell]
  · rw [List.flatMap_append, ← h2]; simp [Bit.shown]

theorem Builds.fits {C : Ctx} {outs : List (List Int)} {t : Tok} {o : List Int} (h : Builds C outs t o) : Fits C outs outs.length t o := by
  obtain ⟨ps, h1, h2, h3, h4⟩ := h.bits
  cases ht : t.hasTokens with
  | true =>
    have := Fits.tags (outs := outs) (n := outs.length) h.kind ht h1 h3
    rw [h.raw] at this
    rw [h2]; exact this
  | false =>
    have hc : ∀ (qs : List Bit), (∀ k, Bit.ref k ∉ qs) → Bits qs outs.length → qs.flatMap (Bit.spell C.addr) = qs.flatMap (Bit.shown outs false) ∧ ∀ c ∈ qs.flatMap (Bit.spell C.addr), c ≠ 0 := by
      intro qs
      induction qs with
      | nil => intro _ _; exact ⟨rfl, fun c q => nomatch q⟩
      | cons p qs ih =>
        intro hr hb
        cases p with
        | ref k => exact absurd List.mem_cons_self (hr k)
        | chr c =>
          obtain ⟨i1, i2⟩ := ih (fun k q => hr k (List.mem_cons_of_mem _ q)) ⟨fun c q => hb.chr c (List.mem_cons_of_mem _ q), fun c q => hb.ref c (List.mem_cons_of_mem _ q)⟩
          refine ⟨by rw [List.flatMap_cons, List.flatMap_cons, i1]; rfl, ?_⟩
          intro x hx
          rw [List.flatMap_cons] at hx
          rcases List.mem_append.1 hx with q | q
          · rw [List.mem_singleton.1 q]; exact (hb.chr c List.mem_cons_self).1
          · exact i2 x q
    obtain ⟨e1, e2⟩ := hc ps (fun k q => by have := h4 k q; rw [ht] at this; cases this) h3
    have := Fits.plain (C := C) (outs := outs) (n := outs.length) h.kind ht (by rw [h1]; exact e2)
    rw [h.raw, if_neg (by decide), h1, e1, ← h2] at this
    exact this

theorem Builds.new (C : Ctx) (outs : List (List Int)) {t : Tok} (h1 : t.kind ≠ .url) (h2 : t.hasText = false) (h3 : t.text = []) : Builds C outs t [] :=
  ⟨h1, h2, [], by rw [h3]; rfl, rfl, Bits.nil _, fun _ q => nomatch q⟩

/-! ### Tags -/

/-- The values are one after the other, from `o` to `e`. -/
def Ordered (e : Nat) : Nat → List Attr → Prop
  | o, [] => o ≤ e
  | o, a :: l =>
    match a.value with
    | none => Ordered e o l
    | some v => o ≤ v.1 ∧ v.1 ≤ v.2 ∧ Ordered e v.2 l

theorem ordered_back {e : Nat} : ∀ {l : List Attr} {o x : Nat}, o ≤ x → Ordered e x l → Ordered e o l
  | [], _, _, h, q => Nat.le_trans h q
  | a :: l, o, x, h, q => by
    unfold Ordered at q ⊢
    cases hv : a.value with
    | none => rw [hv] at q; exact ordered_back h q
    | some v => rw [hv] at q; exact ⟨Nat.le_trans h q.1, q.2⟩

theorem ordered_of {e : Nat} : ∀ {l : List Attr} {o : Nat}, o ≤ e → (∀ a ∈ l, AttrIn o e a) → l.Pairwise AttrBefore → Ordered e o l
  | [], _, h, _, _ => h
  | a :: l, o, h, hi, hp => by
    have ha := hi a List.mem_cons_self
    rw [List.pairwise_cons] at hp
    unfold Ordered
    cases hv : a.value with
    | none =>
      exact ordered_of h (fun b hb => hi b (List.mem_cons_of_mem _ hb)) hp.2
    | some v =>
      obtain ⟨v1, v2, v3⟩ := ha.2.2.2 v hv
      refine ⟨by have := ha.1; have := ha.2.1; omega, v2, ordered_of v3 (fun b hb => ?_) hp.2⟩
      have hb' := hi b (List.mem_cons_of_mem _ hb)
      exact ⟨(hp.1 b hb).2 v hv, hb'.2⟩

theorem retag_from {src : List Int} {code : Elem} {e : Nat} : ∀ {l : List Attr} {o x : Nat}, o ≤ x → Ordered e x l → slice src (o, x) ++ retag src code e x l = retag src code e o l
  | [], o, x, h, q => slice_add h q
  | a :: l, o, x, h, q => by
    unfold Ordered at q
    unfold retag
    cases hv : a.value with
    | none => rw [hv] at q; exact retag_from h q
    | some v =>
      rw [hv] at q
      dsimp only
      rw [← List.append_assoc, ← List.append_assoc, slice_add h q.1]

theorem attrLoop_spec {C : Ctx} (hL : C.L.Ok) {d : Doc} (hs : SrcOk d.source) (hm : ∀ c ∈ d.source, c ≠ 18 ∧ c ≠ 19) {k : Nat} {n : Node} (hn : n.iv.2 ≤ d.source.length) :
    ∀ (l : List Attr) (off : Nat), Ordered n.iv.2 off l → (∀ a ∈ l, a.name.2 ≤ d.source.length ∧ ∀ v, a.value = some v → v.2 ≤ d.source.length) →
      ∀ (t : Tok) (toks : List Tok) (outs : List (List Int)) (o : List Int), Sound C toks outs → Builds C outs t o →
        ∃ t' toks' outs', attrLoop C d k n l off t toks = .done (t', toks') ∧ outs <+: outs' ∧ Sound C toks' outs' ∧ Builds C outs' t' (o ++ retag d.source n.code n.iv.2 off l)
  | [], off, ho, _, t, toks, outs, o, hS, hB => by
    unfold attrLoop
    rw [if_neg (by unfold Ordered at ho; omega)]
    exact ⟨_, _, outs, rfl, List.prefix_refl _, hS, hB.chars fun c hc => ⟨hs.nz c (slice_mem hc), hm c (slice_mem hc)⟩⟩
  | a :: l, off, ho, hb, t, toks, outs, o, hS, hB => by
    have hl := fun b (q : b ∈ l) => hb b (List.mem_cons_of_mem _ q)
    obtain ⟨hname, hval⟩ := hb a List.mem_cons_self
    unfold Ordered at ho
    unfold attrLoop retag
    cases hv : a.value with
    | none =>
      rw [hv] at ho
      dsimp only
      exact attrLoop_spec hL hs hm hn l off ho hl t toks outs o hS hB
    | some v =>
      rw [hv] at ho
      dsimp only at ho ⊢
      have hv2 := hval v hv
      have hclean : ∀ iv, ∀ c ∈ slice d.source iv, c ≠ 0 ∧ c ≠ 18 ∧ c ≠ 19 := fun iv c hc => ⟨hs.nz c (slice_mem hc), hm c (slice_mem hc)⟩
      have hblank : valueBlank d v = .done ((slice d.source v).all isspace) := by
        unfold valueBlank Doc.blank
        split
        · next q => rw [show slice d.source v = [] from slice_nil _ q]; rfl
        · rw [at_blank hs hv2]; rfl
      rw [hblank]
      simp only [Out.done_bind]
      -- values that are copied
      have hraw : ∃ t' toks' outs', attrLoop C d k n l off t toks = .done (t', toks') ∧ outs <+: outs' ∧ Sound C toks' outs' ∧ Builds C outs' t' (o ++ (slice d.source (off, v.1) ++ slice d.source v ++ retag d.source n.code n.iv.2 v.2 l)) := by
        rw [show slice d.source v = slice d.source (v.1, v.2) from rfl, slice_add ho.1 ho.2.1, retag_from (Nat.le_trans ho.1 ho.2.1) ho.2.2]
        exact attrLoop_spec hL hs hm hn l off (ordered_back (Nat.le_trans ho.1 ho.2.1) ho.2.2) hl t toks outs o hS hB
      by_cases hbl : (slice d.source v).all isspace = true
      · rw [if_pos hbl]
        have : (if urlAttr n.code (slice d.source a.name) = true then reurl (slice d.source v) else if textAttr n.code (slice d.source a.name) = true then retext (slice d.source v) else slice d.source v) = slice d.source v := by
          rw [reurl_blank hbl, retext_blank hbl]; simp
        rw [this]
        exact hraw
      · rw [if_neg hbl, at_uri hL hs n.code hname, at_local hL hs n.code hname]
        simp only [Out.of_some, Out.done_bind]
        obtain ⟨mp, hdec⟩ := at_decode hs (a := v.1) hv2 []
        have hz := decode_nonzero (fun c hc => hs.nz c (slice_mem (iv := (v.1, v.2)) hc))
        rw [hdec]
        simp only [Out.of_some, Out.done_bind, List.nil_append]
        have hlen := hS.len
        by_cases hu : urlAttr n.code (slice d.source (a.name.1, a.name.2)) = true
        · rw [if_pos hu, if_neg (by omega), if_pos hu]
          have hS' := hS.push (Fits.sgml (C := C) (outs := outs) (n := outs.length) (t := { kind := .url, text := decodeSpec 0 (slice d.source (v.1, v.2)), enc := .sgml, seq := some k }) rfl rfl hz)
          have hB' := (hB.chars (hclean (off, v.1))).tag (reurl (slice d.source v))
          obtain ⟨t', toks', outs', e1, e2, e3, e4⟩ := attrLoop_spec hL hs hm hn l v.2 ho.2.2 hl _ _ _ _ hS' hB'
          rw [← hlen] at e1
          refine ⟨t', toks', outs', e1, (List.prefix_append _ _).trans e2, e3, ?_⟩
          simp only [List.append_assoc] at e4 ⊢
          exact e4
        · rw [if_neg hu, if_neg hu]
          by_cases ht : textAttr n.code (slice d.source (a.name.1, a.name.2)) = true
          · rw [if_pos ht, if_neg (by omega), if_pos ht]
            have hS' := hS.push (Fits.plain (C := C) (outs := outs) (n := outs.length) (t := { text := decodeSpec 0 (slice d.source (v.1, v.2)), hasText := true, isTitle := true, seq := some k, map := (v.1, 0) :: mp.map (fun p => (v.1 + p.1, 0 + p.2)) })
              (show TokKind.complete ≠ TokKind.url by decide) rfl hz)
            have hB' := (hB.chars (hclean (off, v.1))).tag (retext (slice d.source v))
            obtain ⟨t', toks', outs', e1, e2, e3, e4⟩ := attrLoop_spec hL hs hm hn l v.2 ho.2.2 hl _ _ _ _ hS' hB'
            rw [← hlen] at e1
            refine ⟨t', toks', outs', e1, (List.prefix_append _ _).trans e2, e3, ?_⟩
            simp only [List.append_assoc] at e4 ⊢
            exact e4
          · rw [if_neg ht, if_neg ht]
            exact hraw

end Verif.Html
