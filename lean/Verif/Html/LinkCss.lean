import Verif.Html.LinkTag
/-
Tokens of style sheets: `parser::parse_css`, lines 2609-2664 of include/stdex/html.hpp.
-/
namespace Verif.Html
open Verif.Str Verif.Sgml Verif.Parser

theorem lit_get {ps : List (Int × Int)} {t : List Int} {i : Nat} (h : LitAt ps t i) {k : Nat} {a : Int} (hk : ps[k]? = some (a, a)) : t[i + k]? = some a := (h k a a hk).elim id id

theorem cssComment_bounds {t : List Int} {i : Nat} {p : Part} (h : CssComment t i p) : t[i]? = some 47 ∧ i < p.2.2 ∧ p.2.2 ≤ t.length := by
  obtain ⟨e, h1, h2, rfl⟩ := h
  have a := lit_get h1 (k := 0) rfl
  have b := lit_get h2.2.1 (k := 1) rfl
  have := (List.getElem?_eq_some_iff.1 b).1
  have := h2.1
  exact ⟨a, by dsimp only; omega, by dsimp only; omega⟩

theorem quotedAt_bounds {t : List Int} {i e : Nat} (h : QuotedAt t i e) : i < e ∧ e < t.length := by
  obtain ⟨q, _, _, h⟩ := h
  exact ⟨h.1, (List.getElem?_eq_some_iff.1 h.2.1).1⟩

/-- Where the parts of a URL are. -/
structure UrlIn (t : List Int) (i : Nat) (p : Part) : Prop where
  first : i ≤ p.1.1
  content : p.1.1 ≤ p.1.2
  last : p.1.2 ≤ p.2.2
  ahead : i < p.2.2
  fits : p.2.2 ≤ t.length
  starts : t[i]? = some 64 ∨ t[i]? = some 117 ∨ t[i]? = some 85

theorem cssImport_in {space : Int → Bool} {t : List Int} {i : Nat} {p : Part} (h : CssImport space t i p) : UrlIn t i p := by
  obtain ⟨a, e, h1, h2, h3, rfl⟩ := h
  obtain ⟨q1, q2⟩ := quotedAt_bounds h3
  have := h2.1
  have h0 := import_says.2 h1 0 _ _ rfl
  exact ⟨by dsimp only; omega, by dsimp only; omega, by dsimp only; omega, by dsimp only; omega, by dsimp only; omega, .inl (h0.elim id id)⟩

theorem cssUri_in {space : Int → Bool} {t : List Int} {i : Nat} {p : Part} (h : CssUri space t i p) : UrlIn t i p := by
  cases h with
  | @quoted a e d h1 h2 h3 h4 h5 =>
    obtain ⟨q1, q2⟩ := quotedAt_bounds h3
    have := h2.1
    have := h4.1
    have := (List.getElem?_eq_some_iff.1 h5).1
    have h0 := url_says.2 h1 0 _ _ rfl
    exact ⟨by dsimp only; omega, by dsimp only; omega, by dsimp only; omega, by dsimp only; omega, by dsimp only; omega, .inr h0⟩
  | @plain a d y h1 h2 h3 h4 h5 h6 h7 =>
    have := h2.1
    have := h5.1
    have := h7.1
    have := h7.2.1
    have := (List.getElem?_eq_some_iff.1 h6).1
    have h0 := url_says.2 h1 0 _ _ rfl
    exact ⟨by dsimp only; omega, by dsimp only; omega, by dsimp only; omega, by dsimp only; omega, by dsimp only; omega, .inr h0⟩

theorem url_in {space : Int → Bool} {t : List Int} {i : Nat} {p : Part} (h : CssImport space t i p ∨ CssUri space t i p) : UrlIn t i p := h.elim cssImport_in cssUri_in

/-- Nothing begins with another character. -/
theorem nothing_at {space : Int → Bool} {t : List Int} {i : Nat} {c : Int} (h : t[i]? = some c) (hc : c ≠ 47 ∧ c ≠ 64 ∧ c ≠ 117 ∧ c ≠ 85) (p : Part) : ¬ CssComment t i p ∧ ¬ CssImport space t i p ∧ ¬ CssUri space t i p := by
  refine ⟨fun q => ?_, fun q => ?_, fun q => ?_⟩
  · have := (cssComment_bounds q).1; rw [h] at this; exact hc.1 (Option.some.inj this)
  · rcases (cssImport_in q).starts with e | e | e <;> (rw [h] at e; have := Option.some.inj e; omega)
  · rcases (cssUri_in q).starts with e | e | e <;> (rw [h] at e; have := Option.some.inj e; omega)

theorem css_run {space : Int → Bool} {W T : CT} {t : List Int} : ∀ (l : List Int) (i : Nat), (∀ k c, l[k]? = some c → t[i + k]? = some c) → (∀ c ∈ l, c ≠ 47 ∧ c ≠ 64 ∧ c ≠ 117 ∧ c ≠ 85) → ∀ {o : List Int}, CssOut space W T t (i + l.length) o →
    CssOut space W T t i (l ++ o)
  | [], _, _, _, _, h => h
  | c :: l, i, hg, hc, o, h => by
    refine .other (hg 0 c rfl) (fun p => nothing_at (hg 0 c rfl) (hc c List.mem_cons_self) p) ?_
    refine css_run l (i + 1) (fun k x hx => ?_) (fun x hx => hc x (List.mem_cons_of_mem _ hx)) ?_
    · rw [show i + 1 + k = i + (k + 1) by omega]; exact hg (k + 1) x hx
    · rw [show i + 1 + l.length = i + (c :: l).length by simp; omega]; exact h

theorem cssUnescape_at {C : Ctx} {d : Doc} (hs : SrcOk d.source) {a b : Nat} (hb : b ≤ d.source.length) {u : List Int} (h : CssReads C.W C.L.T (slice d.source (a, b)) u) :
    cssUnescape C.W C.L.T (d.at a) (b - a) (b - a + 1) 0 [] = .done u := by
  have ht := at_text hs (a := a) hb
  have := cssUnescape_from (s := d.at a) (count := b - a) (valid_zero _ _) _ h (Nat.le_refl _) 0 (Nat.zero_le _) (by rw [ht]; rfl) (b - a + 1) [] (by rw [slice_length hb]; dsimp only; omega)
  simpa using this

theorem cssLoop_spec {C : Ctx} (hL : C.L.Ok) {d : Doc} (hs : SrcOk d.source) (hm : ∀ c ∈ d.source, c ≠ 18 ∧ c ≠ 19) {fin seq i0 : Nat} (hf : fin ≤ d.source.length)
    (hu : ∀ i p, i0 ≤ i → CssImport C.L.v.space (d.source.take fin) i p ∨ CssUri C.L.v.space (d.source.take fin) i p → ∃ u, CssReads C.W C.L.T (slice (d.source.take fin) p.1) u ∧ ∀ c ∈ u, c ≠ 0) :
    ∀ (fuel i : Nat), i0 ≤ i → i ≤ fin → fin - i < fuel → ∀ (t : Tok) (toks : List Tok) (outs : List (List Int)) (o : List Int), Sound C toks outs → Builds C outs t o →
      ∃ t' toks' outs' css, cssLoop C d fin seq fuel i t toks = .done (t', toks') ∧ outs <+: outs' ∧ Sound C toks' outs' ∧ CssOut C.L.v.space C.W C.L.T (d.source.take fin) i css ∧ Builds C outs' t' (o ++ css)
  | 0, _, _, _, h, _, _, _, _, _, _ => absurd h (by omega)
  | fuel + 1, i, hi0, hi, hfu, t, toks, outs, o, hS, hB => by
    have hOk := envTo_ok hL hs hf
    have hlen : (d.source.take fin).length = fin := by rw [List.length_take]; omega
    have hi' : i ≤ (d.source.take fin).length := by rw [hlen]; exact hi
    have hclean : ∀ iv, ∀ c ∈ slice d.source iv, c ≠ 0 ∧ c ≠ 18 ∧ c ≠ 19 := fun iv c hc => ⟨hs.nz c (slice_mem hc), hm c (slice_mem hc)⟩
    have hsl : ∀ {a b : Nat}, b ≤ fin → slice d.source (a, b) = slice (d.source.take fin) (a, b) := fun q => slice_mono (List.take_prefix _ _) (by rw [hlen]; exact q)
    -- what is copied
    have raw : ∀ e, i < e → e ≤ fin → (∀ {css}, CssOut C.L.v.space C.W C.L.T (d.source.take fin) e css → CssOut C.L.v.space C.W C.L.T (d.source.take fin) i (slice (d.source.take fin) (i, e) ++ css)) →
        ∃ t' toks' outs' css, cssLoop C d fin seq fuel e { t with text := t.text ++ slice d.source (i, e) } toks = .done (t', toks') ∧ outs <+: outs' ∧ Sound C toks' outs' ∧
          CssOut C.L.v.space C.W C.L.T (d.source.take fin) i css ∧ Builds C outs' t' (o ++ css) := by
      intro e h1 h2 h3
      obtain ⟨t', toks', outs', css, e1, e2, e3, e4, e5⟩ := cssLoop_spec hL hs hm hf hu fuel e (by omega) h2 (by omega) _ toks outs _ hS (hB.chars (hclean (i, e)))
      refine ⟨t', toks', outs', _, e1, e2, e3, h3 e4, ?_⟩
      rw [← hsl h2, ← List.append_assoc]; exact e5
    have hcdo : ∀ l : List Int, (∀ c ∈ l, c ≠ 47 ∧ c ≠ 64 ∧ c ≠ 117 ∧ c ≠ 85) → ((d.source.take fin).drop i).take l.length = l → i + l.length ≤ fin ∧ ∀ {css}, CssOut C.L.v.space C.W C.L.T (d.source.take fin) (i + l.length) css → CssOut C.L.v.space C.W C.L.T (d.source.take fin) i (slice (d.source.take fin) (i, i + l.length) ++ css) := by
      intro l hl ht
      have hfit : i + l.length ≤ fin := by
        have := congrArg List.length ht
        rw [List.length_take, List.length_drop, hlen] at this
        omega
      refine ⟨hfit, fun {css} hcss => ?_⟩
      have hsl' : slice (d.source.take fin) (i, i + l.length) = l := by unfold slice; dsimp only; rw [show i + l.length - i = l.length by omega]; exact ht
      rw [hsl']
      refine css_run l i (fun k c hk => ?_) hl hcss
      have : (((d.source.take fin).drop i).take l.length)[k]? = some c := by rw [ht]; exact hk
      rw [List.getElem?_take_of_lt ((List.getElem?_eq_some_iff.1 hk).1), List.getElem?_drop] at this
      exact this
    have hsp : (C.L.env d.source fin).space = C.L.v.space := rfl
    unfold cssLoop
    dsimp only
    obtain ⟨r1, c1, c2⟩ := cssComment_spec hOk hi'
    rw [c1]
    simp only [Out.of_some, Out.done_bind]
    cases r1 with
    | some p =>
      have hp := (c2 p).1 rfl
      obtain ⟨-, b1, b2⟩ := cssComment_bounds hp
      exact raw _ b1 (by rw [hlen] at b2; exact b2) (fun q => .comment hp q)
    | none =>
      dsimp only
      obtain ⟨r2, d1, d2⟩ := cssCdo_spec hOk hi'
      rw [d1]
      simp only [Out.of_some, Out.done_bind]
      cases r2 with
      | some e =>
        obtain ⟨q1, rfl⟩ := (d2 e).1 rfl
        obtain ⟨a1, a2⟩ := hcdo [60, 33, 45, 45] (by decide) q1
        exact raw _ (by omega) a1 a2
      | none =>
        dsimp only
        obtain ⟨r3, f1, f2⟩ := cssCdc_spec hOk hi'
        rw [f1]
        simp only [Out.of_some, Out.done_bind]
        cases r3 with
        | some e =>
          obtain ⟨q1, rfl⟩ := (f2 e).1 rfl
          obtain ⟨a1, a2⟩ := hcdo [45, 45, 62] (by decide) q1
          exact raw _ (by omega) a1 a2
        | none =>
          dsimp only
          have hurl : ∃ r, cssUrl (C.L.env d.source fin) i = some r ∧ ((∃ p, r = some p ∧ (CssImport C.L.v.space (d.source.take fin) i p ∨ CssUri C.L.v.space (d.source.take fin) i p)) ∨
              r = none ∧ ∀ p, ¬ CssImport C.L.v.space (d.source.take fin) i p ∧ ¬ CssUri C.L.v.space (d.source.take fin) i p) := by
            obtain ⟨r4, g1, g2⟩ := cssImport_spec hOk hi'
            obtain ⟨r5, k1, k2⟩ := cssUri_spec hOk hi'
            rw [hsp] at g2 k2
            unfold cssUrl
            rw [g1, k1]
            cases r4 with
            | some p => exact ⟨_, rfl, .inl ⟨p, rfl, .inl ((g2 p).1 rfl)⟩⟩
            | none =>
              cases r5 with
              | some p => exact ⟨_, rfl, .inl ⟨p, rfl, .inr ((k2 p).1 rfl)⟩⟩
              | none => exact ⟨_, rfl, .inr ⟨rfl, fun p => ⟨(fun q => nomatch (g2 p).2 q), (fun q => nomatch (k2 p).2 q)⟩⟩⟩
          obtain ⟨r, hr, hcase⟩ := hurl
          rw [hr]
          simp only [Out.of_some, Out.done_bind]
          rcases hcase with ⟨p, rfl, hp⟩ | ⟨rfl, hp⟩
          · dsimp only
            have hin := url_in hp
            have hfit : p.2.2 ≤ fin := by have := hin.fits; rw [hlen] at this; exact this
            obtain ⟨u, hu1, hu2⟩ := hu i p hi0 hp
            have hread : CssReads C.W C.L.T (slice d.source (p.1.1, p.1.2)) u := by rw [hsl (by have := hin.last; omega)]; exact hu1
            rw [cssUnescape_at hs (by have := hin.last; omega) hread]
            dsimp only
            rw [if_neg (by have := hin.first; have := hin.last; omega)]
            have hS' := hS.push (Fits.css (C := C) (outs := outs) (n := outs.length) (t := { kind := .url, text := u, enc := .css, seq := some seq }) rfl rfl hu2)
            have hB' := ((hB.chars (hclean (i, p.1.1))).tag (u.flatMap cssEscapeChar)).chars (hclean (p.1.2, p.2.2))
            obtain ⟨t', toks', outs', css, e1, e2, e3, e4, e5⟩ := cssLoop_spec hL hs hm hf hu fuel p.2.2 (by have := hin.ahead; omega) hfit (by have := hin.ahead; omega) _ _ _ _ hS' hB'
            rw [← hS.len] at e1
            refine ⟨t', toks', outs', _, e1, (List.prefix_append _ _).trans e2, e3, .url hp hu1 e4, ?_⟩
            rw [← hsl (by have := hin.last; have := hin.content; omega), ← hsl hfit]
            simp only [List.append_assoc] at e5 ⊢
            exact e5
          · dsimp only
            rw [anyCu_spec hOk i hi']
            simp only [Out.of_some, Out.done_bind]
            cases hc : (d.source.take fin)[i]? with
            | none =>
              have : i = fin := by have := List.getElem?_eq_none_iff.1 hc; omega
              refine ⟨t, toks, outs, [], rfl, List.prefix_refl _, hS, ?_, by rw [List.append_nil]; exact hB⟩
              rw [this]
              have := CssOut.nil (space := C.L.v.space) (W := C.W) (T := C.L.T) (t := d.source.take fin)
              rw [hlen] at this
              exact this
            | some x =>
              dsimp only
              simp only [if_true]
              have hx := (List.getElem?_eq_some_iff.1 hc).1
              rw [hlen] at hx
              refine raw (i + 1) (by omega) hx fun {css} q => ?_
              have : slice (d.source.take fin) (i, i + 1) = [x] := by
                unfold slice
                dsimp only
                rw [show i + 1 - i = 1 by omega, drop_get, hc]; rfl
              rw [this]
              exact .other hc (fun p => ⟨(fun q => nomatch (c2 p).2 q), hp p⟩) q

end Verif.Html
