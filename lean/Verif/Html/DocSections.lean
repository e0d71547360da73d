import Verif.Html.DocTotal
/-
Marked sections: `document::append` of include/stdex/html.hpp (1665-1710).
-/
namespace Verif.Html
open Verif.Str Verif.Sgml Verif.Parser

/-! ### Specification -/

/-- The marked section `<![keyword[content]]>` -/
def marked (keyword content : List Int) : List Int := asc "<![" ++ keyword ++ asc "[" ++ content ++ asc "]]>"

/-- The content does not end before its end. -/
def EndsOnce (content : List Int) : Prop := ∀ j, j < content.length → ¬ asc "]]>" <+: (content ++ asc "]]>").drop j

/-! ### Proofs -/

theorem says_eq {a w : List Int} (ha : ∀ c ∈ a, c ≠ 0) (hw : ∀ c ∈ w, c ≠ 0) (hl : w.length < 2 ^ 64) : says (a ++ [0]) a.length w = some (decide (a = w)) := by
  obtain ⟨r, h, h', _⟩ := strncmp_equal id id (valid_zero a (some a.length)) (valid_zero w (some (2 ^ 64 - 1))) (fun _ => Iff.rfl) (fun _ => Iff.rfl)
  have e1 : text (a ++ [0]) (some a.length) = a := text_eq_of ha (List.prefix_append _ _) (.inr rfl) (by intro n e; cases e; exact Nat.le_refl _)
  have e2 : text (w ++ [0]) (some (2 ^ 64 - 1)) = w := text_eq_of hw (List.prefix_append _ _) (.inl (by rw [List.getElem?_append_right (Nat.le_refl _), Nat.sub_self]; rfl)) (by intro n e; cases e; omega)
  rw [e1, e2, List.map_id, List.map_id] at h'
  unfold says
  rw [h]
  simp only [Option.map_some, Option.some.injEq]
  by_cases q : a = w
  · rw [decide_eq_true q, h'.2 q]; rfl
  · rw [decide_eq_false q]
    simpa using fun e => q (h'.1 e)

theorem asc_nz (c : Int) : (c ∈ asc "CDATA" → c ≠ 0) ∧ (c ∈ asc "RCDATA" → c ≠ 0) ∧ (c ∈ asc "IGNORE" → c ≠ 0) := by
  refine ⟨?_, ?_, ?_⟩ <;> intro h e <;> subst e <;> revert h <;> decide

/-- Where a condition begins. -/
theorem start_at {L : Lex} (hL : L.Ok) {src kw rest : List Int} {i : Nat} (hs : SrcOk src) (hsrc : src.drop i = asc "<![" ++ kw ++ asc "[" ++ rest) (hk : ∀ c ∈ kw, c ≠ 91 ∧ L.v.space c = false) (hne : kw ≠ []) :
    conditionStart (L.env src src.length) i = some (some ((i + 3, i + 3 + kw.length), (i, i + 3 + kw.length + 1))) ∧ conditionEnd (L.env src src.length) i = some none ∧ (src.drop (i + 3)).take kw.length = kw ∧
      src.drop (i + 3 + kw.length + 1) = rest := by
  have get : ∀ k, src[i + k]? = (asc "<![" ++ kw ++ asc "[" ++ rest)[k]? := by
    intro k
    rw [← hsrc, List.getElem?_drop]
  have e3 : src.drop (i + 3) = kw ++ (asc "[" ++ rest) := by
    rw [← List.drop_drop, hsrc]
    simp [asc]
  have hi : i ≤ src.length := by
    apply Nat.le_of_lt
    apply Classical.byContradiction
    intro q
    rw [List.drop_eq_nil_of_le (by omega)] at hsrc
    have := congrArg List.length hsrc
    simp [asc] at this
  have hg : ∀ k, k < kw.length → ∃ c, src[i + 3 + k]? = some c ∧ c ∈ kw := by
    intro k hk
    refine ⟨kw[k], ?_, List.getElem_mem _⟩
    rw [← List.getElem?_drop, e3, List.getElem?_append_left hk, List.getElem?_eq_getElem hk]
  have hend : src[i + 3 + kw.length]? = some 91 := by
    rw [← List.getElem?_drop, e3, List.getElem?_append_right (Nat.le_refl _), Nat.sub_self]
    rfl
  have hpos : 0 < kw.length := List.length_pos_iff.2 hne
  refine ⟨?_, ?_, ?_, ?_⟩
  · obtain ⟨r, h1, h2⟩ := conditionStart_spec (env_ok hL hs) hi
    rw [h1, (h2 _).2]
    refine ⟨i + 3, i + 3 + kw.length, i + 3 + kw.length, ?_, ?_, ?_, hend, ⟨by omega, Nat.le_refl _, fun j _ _ => by omega, .inr ?_⟩, rfl⟩
    · unfold SaysAt
      rw [hsrc]
      simp [asc]
      decide
    · refine ⟨Nat.le_refl _, fun j _ _ => by omega, fun c hc => ?_⟩
      obtain ⟨c', h', hm⟩ := hg 0 hpos
      rw [Nat.add_zero, hc] at h'
      cases h'
      simp [Lex.env, (hk c hm).2]
    · refine ⟨by omega, fun j h1 h2 => ?_, fun c hc => ?_⟩
      · obtain ⟨c, h', hm⟩ := hg (j - (i + 3)) (by omega)
        rw [show i + 3 + (j - (i + 3)) = j by omega] at h'
        exact ⟨c, h', (hk c hm).1⟩
      · rw [hend] at hc
        cases hc
        simp
    · obtain ⟨c, h', hm⟩ := hg (kw.length - 1) (by omega)
      exact ⟨c, by rw [show i + 3 + kw.length - 1 = i + 3 + (kw.length - 1) by omega]; exact h', by simp [Lex.env, (hk c hm).2]⟩
  · obtain ⟨r, h1, h2⟩ := conditionEnd_spec (env_ok hL hs) hi
    cases r with
    | none => exact h1
    | some e =>
      have := ((h2 e).1 rfl).1
      rw [← condEnd_says] at this
      have := this 0 93 93 rfl
      rw [get 0] at this
      simp [asc] at this
  · rw [e3, List.take_left]
  · rw [show i + 3 + kw.length + 1 = i + 3 + (kw.length + 1) by omega, ← List.drop_drop, e3]
    simp [asc]

/-- Content up to the end of the condition is skipped. -/
theorem skip_content {L : Lex} (hL : L.Ok) {d : Doc} (hs : SrcOk d.source) (hm : (d.cdata || d.rcdata) = true ∨ d.invalid ≠ 0) : ∀ (n : Nat) (fuel i : Nat), i + n ≤ d.source.length → (∀ j, i ≤ j → j < i + n → ¬ SaysAt [']', ']', '>'] d.source j) →
    docLoop L (fuel + n) d i = docLoop L fuel d (i + n)
  | 0, fuel, i, _, _ => rfl
  | n + 1, fuel, i, hle, hno => by
    rw [show fuel + (n + 1) = (fuel + n) + 1 by omega, docLoop, if_pos (by omega)]
    have hstep : docStep L d i = .go d (i + 1) := by
      unfold docStep
      obtain ⟨r, h1, h2⟩ := conditionEnd_spec (env_ok hL hs) (i := i) (by omega)
      have hr : r = none := by
        cases r with
        | none => rfl
        | some e => exact absurd ((h2 e).1 rfl).1 (hno i (Nat.le_refl _) (by omega))
      rw [h1, hr]
      dsimp only
      rw [nextChar_eq hL hs (by omega)]
      by_cases q : (d.cdata || d.rcdata) = true
      · rw [if_pos q]
      · rw [if_neg q, if_pos (hm.resolve_left q)]
    rw [hstep]
    dsimp only
    rw [skip_content hL hs hm n fuel (i + 1) (by omega) (fun j h1 h2 => hno j (by omega) (by omega)), show i + 1 + n = i + (n + 1) by omega]

theorem says_prefix {t : List Int} {j : Nat} : SaysAt [']', ']', '>'] t j ↔ asc "]]>" <+: t.drop j := by
  rw [← condEnd_says]
  constructor
  · intro h
    have hl := litAt_len (by decide) h
    rw [List.prefix_iff_getElem?]
    intro k hk
    have hk3 : k < 3 := hk
    rw [List.getElem?_drop]
    match k, hk3 with
    | 0, _ => exact (h 0 93 93 rfl).elim id id
    | 1, _ => exact (h 1 93 93 rfl).elim id id
    | 2, _ => exact (h 2 62 62 rfl).elim id id
  · intro h k a b e
    rw [List.prefix_iff_getElem?] at h
    match k, e with
    | 0, e => cases e; have := h 0 (by decide); rw [List.getElem?_drop] at this; exact .inl this
    | 1, e => cases e; have := h 1 (by decide); rw [List.getElem?_drop] at this; exact .inl this
    | 2, e => cases e; have := h 2 (by decide); rw [List.getElem?_drop] at this; exact .inl this
    | k + 3, e => simp at e

/-- The marked section is read: the condition begins, the content is skipped, and the condition ends. -/
theorem marked_loop {L : Lex} (hL : L.Ok) {d d1 : Doc} {kw x : List Int} (hs : SrcOk (d.source ++ marked kw x)) (hk : ∀ c ∈ kw, c ≠ 91 ∧ c ≠ 37 ∧ L.v.space c = false) (hne : kw ≠ []) (hx : EndsOnce x) (hp : d.Plain) (hpar : d.parsed = d.source.length)
    (hb : beginCondition { d with source := d.source ++ marked kw x } ((d.source.length + 3, d.source.length + 3 + kw.length), (d.source.length, d.source.length + 3 + kw.length + 1)) = .go d1 (d.source.length + 3 + kw.length + 1))
    (h1 : d1.source = d.source ++ marked kw x) (hm : (d1.cdata || d1.rcdata) = true ∨ d1.invalid ≠ 0) :
    ∃ fuel, 1 < fuel ∧ d.append L (marked kw x) = docLoop L fuel d1 (d.source.length + 3 + kw.length + 1 + x.length) ∧
      conditionEnd (L.env d1.source d1.source.length) (d.source.length + 3 + kw.length + 1 + x.length) = some (some d1.source.length) ∧ d.source.length + 3 + kw.length + 1 + x.length < d1.source.length := by
  have hlen : (d.source ++ marked kw x).length = d.source.length + 3 + kw.length + 1 + x.length + 3 := by
    unfold marked
    simp [asc]
    omega
  have hdrop : (d.source ++ marked kw x).drop d.source.length = asc "<![" ++ kw ++ asc "[" ++ (x ++ asc "]]>") := by
    rw [List.drop_left]
    unfold marked
    simp
  obtain ⟨s1, s2, s3, s4⟩ := start_at hL hs hdrop (fun c q => ⟨(hk c q).1, (hk c q).2.2⟩) hne
  have hrest : ∀ j, (d.source ++ marked kw x).drop (d.source.length + 3 + kw.length + 1 + j) = (x ++ asc "]]>").drop j := by
    intro j
    rw [← List.drop_drop, s4]
  have hfuel : (d.source ++ marked kw x).length + 1 = ((d.source.length + 3 + kw.length + 4) + x.length) + 1 := by omega
  refine ⟨d.source.length + 3 + kw.length + 4, by omega, ?_, ?_, by rw [h1]; omega⟩
  · unfold Doc.append
    rw [hfuel, docLoop, if_pos (by rw [hpar]; show _ < (d.source ++ marked kw x).length; omega)]
    have hstep : docStep L { d with source := d.source ++ marked kw x } d.parsed = .go d1 (d.source.length + 3 + kw.length + 1) := by
      unfold docStep
      rw [hpar]
      dsimp only
      rw [s2]
      dsimp only
      rw [hp.1, hp.2.1, hp.2.2]
      rw [if_neg (by decide), if_neg (by decide)]
      unfold openStep
      dsimp only
      rw [s1]
      have := hb
      rw [hp.1, hp.2.1, hp.2.2, hpar] at this
      exact this
    rw [hstep]
    dsimp only
    rw [skip_content hL (by rw [h1]; exact hs) hm x.length _ _ (by rw [h1]; omega) (fun j h2 h3 q => ?_)]
    rw [h1, says_prefix] at q
    have := hrest (j - (d.source.length + 3 + kw.length + 1))
    rw [show d.source.length + 3 + kw.length + 1 + (j - (d.source.length + 3 + kw.length + 1)) = j by omega] at this
    rw [this] at q
    exact hx _ (by omega) q
  · rw [h1]
    obtain ⟨r, e1, e2⟩ := conditionEnd_spec (env_ok hL hs) (i := d.source.length + 3 + kw.length + 1 + x.length) (by omega)
    rw [e1]
    congr 1
    rw [e2]
    refine ⟨says_prefix.2 ?_, by omega⟩
    rw [hrest, List.drop_left]
    exact List.prefix_refl _

theorem begin_eq {d : Doc} (hs : SrcOk d.source) {kw : List Int} {a b c : Nat} (hb : b ≤ d.source.length) (hkw : (d.source.drop a).take (b - a) = kw) (hk : ∀ c ∈ kw, c ≠ 37) :
    beginCondition d ((a, b), (c, b + 1)) = (
      let d := if kw = asc "CDATA" then { d with cdata := true } else if kw = asc "RCDATA" then { d with rcdata := true } else d
      let d := if d.invalid ≠ 0 then { d with invalid := d.invalid + 1 } else if kw = asc "IGNORE" then { d with invalid := d.invalid + 1 } else { d with valid := d.valid + 1 }
      .go { d with parsed := b + 1 } (b + 1)) := by
  unfold beginCondition
  obtain ⟨r, h1, h2⟩ := replace_total (iv := (a, b)) hs hb
  rw [h1, h2 (by rw [hkw]; exact fun q => hk 37 q rfl), hkw]
  have nz : ∀ c ∈ kw, c ≠ 0 := by
    intro c hc
    rw [← hkw] at hc
    exact hs.nz c (List.mem_of_mem_drop (List.mem_of_mem_take hc))
  dsimp only
  rw [says_eq nz (fun c => (asc_nz c).1) (by decide), says_eq nz (fun c => (asc_nz c).2.1) (by decide), says_eq nz (fun c => (asc_nz c).2.2) (by decide)]
  simp only [decide_eq_true_eq]

theorem marked_begin {d : Doc} {kw x : List Int} (hs : SrcOk (d.source ++ marked kw x)) (hk : ∀ c ∈ kw, c ≠ 37) (hp : d.Plain) :
    beginCondition { d with source := d.source ++ marked kw x } ((d.source.length + 3, d.source.length + 3 + kw.length), (d.source.length, d.source.length + 3 + kw.length + 1)) =
      if kw = asc "CDATA" then .go { d with source := d.source ++ marked kw x, cdata := true, valid := d.valid + 1, parsed := d.source.length + 3 + kw.length + 1 } (d.source.length + 3 + kw.length + 1)
      else if kw = asc "RCDATA" then .go { d with source := d.source ++ marked kw x, rcdata := true, valid := d.valid + 1, parsed := d.source.length + 3 + kw.length + 1 } (d.source.length + 3 + kw.length + 1)
      else if kw = asc "IGNORE" then .go { d with source := d.source ++ marked kw x, invalid := d.invalid + 1, parsed := d.source.length + 3 + kw.length + 1 } (d.source.length + 3 + kw.length + 1)
      else .go { d with source := d.source ++ marked kw x, valid := d.valid + 1, parsed := d.source.length + 3 + kw.length + 1 } (d.source.length + 3 + kw.length + 1) := by
  rw [begin_eq (kw := kw) hs]
  · by_cases h1 : kw = asc "CDATA"
    · rw [if_pos h1, if_pos h1, h1]
      simp only [hp.2.2, ne_eq, not_true_eq_false, ↓reduceIte]
      rw [if_neg (by decide)]
    · rw [if_neg h1, if_neg h1]
      by_cases h2 : kw = asc "RCDATA"
      · rw [if_pos h2, if_pos h2, h2]
        simp only [hp.2.2, ne_eq, not_true_eq_false, ↓reduceIte]
        rw [if_neg (by decide)]
      · rw [if_neg h2, if_neg h2]
        simp only [hp.2.2, ne_eq, not_true_eq_false, ↓reduceIte]
        split <;> rfl
  · unfold marked
    simp [asc]
    omega
  · dsimp only
    unfold marked
    rw [List.drop_append, List.drop_eq_nil_of_le (by omega), List.nil_append, show d.source.length + 3 - d.source.length = 3 by omega, show d.source.length + 3 + kw.length - (d.source.length + 3) = kw.length by omega]
    simp [asc]
  · exact hk

theorem loop_end {L : Lex} {d d' : Doc} {fuel i : Nat} (h0 : 1 < fuel) (hi : i < d.source.length) (hs : d'.source = d.source) (h : docStep L d i = .go d' d.source.length) : docLoop L fuel d i = .done d' := by
  obtain ⟨f, rfl⟩ : ∃ f, fuel = f + 1 + 1 := ⟨fuel - 2, by omega⟩
  rw [docLoop, if_pos hi, h]
  dsimp only
  rw [docLoop, if_neg (by rw [hs]; omega)]

/-! ### Properties -/

/-- **C110** What stands in a CDATA section is one sequence, whatever markup it holds: exactly its content, in the element that is open. -/
theorem doc_cdata {L : Lex} (hL : L.Ok) {d : Doc} {x : List Int} (hs : SrcOk (d.source ++ marked (asc "CDATA") x)) (hsp : ∀ c ∈ asc "CDATA", L.v.space c = false) (hx : EndsOnce x) (hp : d.Plain) (hpar : d.parsed = d.source.length) :
    ∃ d', d.append L (marked (asc "CDATA") x) = .done d' ∧ d'.source = d.source ++ marked (asc "CDATA") x ∧ d'.nodes = d.nodes ++ [{ kind := .CDATA, iv := (d.source.length + 9, d.source.length + 9 + x.length), parent := d.active }] ∧
      d'.stack = d.stack ∧ d'.special = d.special ∧ d'.Plain ∧ d'.parsed = d'.source.length := by
  have hb := marked_begin hs (kw := asc "CDATA") (fun c q e => by subst e; revert q; decide) hp
  rw [if_pos rfl] at hb
  obtain ⟨fuel, h0, h1, h2, h3⟩ := marked_loop hL hs (fun c q => ⟨fun e => by subst e; revert q; decide, fun e => by subst e; revert q; decide, hsp c q⟩) (by decide) hx hp hpar hb rfl (.inl rfl)
  rw [h1]
  refine ⟨_, loop_end h0 h3 (d' := { d with source := d.source ++ marked (asc "CDATA") x, valid := d.valid + 1, nodes := d.nodes ++ [{ kind := .CDATA, iv := (d.source.length + 9, d.source.length + 9 + x.length), parent := d.active }], parsed := (d.source ++ marked (asc "CDATA") x).length }) rfl ?_, rfl, rfl, rfl, rfl, hp, rfl⟩
  unfold docStep
  rw [h2]
  simp only [Bool.true_or, ↓reduceIte, Doc.push, hp.1, hp.2.1]
  rfl

/-- **C110** The same for RCDATA. -/
theorem doc_rcdata {L : Lex} (hL : L.Ok) {d : Doc} {x : List Int} (hs : SrcOk (d.source ++ marked (asc "RCDATA") x)) (hsp : ∀ c ∈ asc "RCDATA", L.v.space c = false) (hx : EndsOnce x) (hp : d.Plain) (hpar : d.parsed = d.source.length) :
    ∃ d', d.append L (marked (asc "RCDATA") x) = .done d' ∧ d'.source = d.source ++ marked (asc "RCDATA") x ∧ d'.nodes = d.nodes ++ [{ kind := .PCDATA, iv := (d.source.length + 10, d.source.length + 10 + x.length), parent := d.active }] ∧
      d'.stack = d.stack ∧ d'.special = d.special ∧ d'.Plain ∧ d'.parsed = d'.source.length := by
  have hb := marked_begin hs (kw := asc "RCDATA") (fun c q e => by subst e; revert q; decide) hp
  rw [if_neg (by decide), if_pos rfl] at hb
  obtain ⟨fuel, h0, h1, h2, h3⟩ := marked_loop hL hs (fun c q => ⟨fun e => by subst e; revert q; decide, fun e => by subst e; revert q; decide, hsp c q⟩) (by decide) hx hp hpar hb rfl (.inl (by simp))
  rw [h1]
  refine ⟨_, loop_end h0 h3 (d' := { d with source := d.source ++ marked (asc "RCDATA") x, valid := d.valid + 1, nodes := d.nodes ++ [{ kind := .PCDATA, iv := (d.source.length + 10, d.source.length + 10 + x.length), parent := d.active }], parsed := (d.source ++ marked (asc "RCDATA") x).length }) rfl ?_, rfl, rfl, rfl, rfl, hp, rfl⟩
  unfold docStep
  rw [h2]
  simp only [Bool.or_true, ↓reduceIte, Doc.push, hp.1, hp.2.1, Bool.false_eq_true]
  rfl

/-- **C110** What stands in an IGNORE section is ignored: the document stays as it was. -/
theorem doc_ignore {L : Lex} (hL : L.Ok) {d : Doc} {x : List Int} (hs : SrcOk (d.source ++ marked (asc "IGNORE") x)) (hsp : ∀ c ∈ asc "IGNORE", L.v.space c = false) (hx : EndsOnce x) (hp : d.Plain) (hpar : d.parsed = d.source.length) :
    d.append L (marked (asc "IGNORE") x) = .done { d with source := d.source ++ marked (asc "IGNORE") x, parsed := (d.source ++ marked (asc "IGNORE") x).length } := by
  have hb := marked_begin hs (kw := asc "IGNORE") (fun c q e => by subst e; revert q; decide) hp
  rw [if_neg (by decide), if_neg (by decide), if_pos rfl] at hb
  obtain ⟨fuel, h0, h1, h2, h3⟩ := marked_loop hL hs (fun c q => ⟨fun e => by subst e; revert q; decide, fun e => by subst e; revert q; decide, hsp c q⟩) (by decide) hx hp hpar hb rfl (.inr (by simp))
  rw [h1]
  refine loop_end h0 h3 rfl ?_
  unfold docStep
  rw [h2]
  simp only [hp.1, hp.2.1, hp.2.2, Bool.or_false, Bool.false_eq_true, ↓reduceIte]
  rfl

end Verif.Html
