import Verif.Html.LinkCss
import Verif.Html.DocClose
/-
`parser::parse` and `parser::link` together, lines 2187-2268 and 2440-2664 of include/stdex/html.hpp.
-/
namespace Verif.Html
open Verif.Str Verif.Sgml Verif.Parser

/-! ### The loop -/

/-- The state of the parser: what the tokens give, and what the token that is being filled would give. -/
structure Holds (C : Ctx) (c : Cur) (outs : List (List Int)) (o : List Int) : Prop where
  sound : Sound C c.toks outs
  kind : c.tok.kind = .complete
  bits : ∃ ps, c.tok.text = ps.flatMap (Bit.spell C.addr) ∧ o = ps.flatMap (Bit.shown outs true) ∧ Bits ps outs.length ∧ (∀ k, Bit.ref k ∈ ps → c.tok.hasTokens = true) ∧ (c.tok.hasText = false → ∀ x, Bit.chr x ∈ ps → isspace x = true)

theorem Holds.mark {C : Ctx} {c : Cur} {outs outs' : List (List Int)} {o : List Int} (h : Holds C c outs o) {toks : List Tok} (hS : Sound C toks outs') (hp : outs <+: outs') {k : Nat} {x : List Int} (hk : outs'[k]? = some x) (start off : Nat) :
    Holds C ({ c with toks := toks, off := off }.mark C start k) outs' (o ++ x) := by
  obtain ⟨ps, h1, h2, h3, h4, h5⟩ := h.bits
  refine ⟨hS, h.kind, ps ++ [.ref k], ?_, ?_, (h3.mono hp.length_le).append (Bits.one (List.getElem?_eq_some_iff.1 hk).1), fun _ _ => rfl, fun q y hy => ?_⟩
  · rw [List.flatMap_append, ← h1]; simp [Bit.spell, Cur.mark]
  · rw [List.flatMap_append, shown_mono hp _ h3, ← h2]; simp [Bit.shown, hk]
  · rcases List.mem_append.1 hy with hy | hy
    · exact h5 q y hy
    · have := List.mem_singleton.1 hy; cases this

theorem Holds.off {C : Ctx} {c : Cur} {outs : List (List Int)} {o : List Int} (h : Holds C c outs o) (off : Nat) : Holds C { c with off := off } outs o := ⟨h.sound, h.kind, h.bits⟩

theorem Holds.put {C : Ctx} {c : Cur} {outs outs' : List (List Int)} {o : List Int} (h : Holds C c outs o) {toks : List Tok} (hS : Sound C toks outs') (hp : outs <+: outs') {t : Tok} {x : List Int} (ht : Fits C outs' outs'.length t x) (start : Nat) :
    Holds C ({ c with toks := toks }.put C start t) (outs' ++ [x]) (o ++ x) := by
  have := h.mark (hS.push ht) (hp.trans (List.prefix_append _ _)) (k := toks.length) (x := x) (by rw [hS.len]; simp) start c.off
  exact this

theorem fits_raw {C : Ctx} {outs : List (List Int)} {n : Nat} {t : Tok} (h1 : t.kind ≠ .url) (h2 : t.hasTokens = false) (h3 : t.hasText = false) (h0 : ∀ c ∈ t.text, c ≠ 0) : Fits C outs n t t.text := by
  have := Fits.plain (C := C) (outs := outs) (n := n) h1 h2 h0
  rw [h3] at this
  exact this

/-- The token that was filled. -/
theorem Holds.fits {C : Ctx} {c : Cur} {outs : List (List Int)} {o : List Int} (h : Holds C c outs o) : Fits C outs outs.length c.tok o := by
  have hk : c.tok.kind ≠ .url := by rw [h.kind]; decide
  obtain ⟨ps, h1, h2, h3, h4, h5⟩ := h.bits
  cases ht : c.tok.hasText with
  | false =>
    have same : ∀ qs : List Bit, (∀ x, Bit.chr x ∈ qs → isspace x = true) → qs.flatMap (Bit.shown outs true) = qs.flatMap (Bit.shown outs false) := by
      intro qs
      induction qs with
      | nil => intro _; rfl
      | cons p qs ih =>
        intro hq
        rw [List.flatMap_cons, List.flatMap_cons, ih fun x hx => hq x (List.mem_cons_of_mem _ hx)]
        congr 1
        cases p with
        | ref k => rfl
        | chr x => exact (space_not (hq x List.mem_cons_self)).1
    exact Builds.fits ⟨hk, ht, ps, h1, by rw [h2, same ps (h5 ht)], h3, h4⟩
  | true =>
    cases hh : c.tok.hasTokens with
    | true =>
      have := Fits.tags (outs := outs) (n := outs.length) hk hh h1 h3
      rw [ht] at this
      rw [h2]; exact this
    | false =>
      have hc : ∀ (qs : List Bit), (∀ k, Bit.ref k ∉ qs) → Bits qs outs.length → (qs.flatMap (Bit.spell C.addr)).flatMap escapeMinChar = qs.flatMap (Bit.shown outs true) ∧ ∀ c ∈ qs.flatMap (Bit.spell C.addr), c ≠ 0 := by
        intro qs
        induction qs with
        | nil => intro _ _; exact ⟨rfl, fun c q => nomatch q⟩
        | cons p qs ih =>
          intro hr hb
          cases p with
          | ref k => exact absurd List.mem_cons_self (hr k)
          | chr c =>
            obtain ⟨i1, i2⟩ := ih (fun k q => hr k (List.mem_cons_of_mem _ q)) ⟨fun c q => hb.chr c (List.mem_cons_of_mem _ q), fun c q => hb.ref c (List.mem_cons_of_mem _ q)⟩
            refine ⟨by rw [List.flatMap_cons, List.flatMap_cons, List.flatMap_append, i1]; simp [Bit.spell, Bit.shown], ?_⟩
            intro x hx
            rw [List.flatMap_cons] at hx
            rcases List.mem_append.1 hx with q | q
            · rw [List.mem_singleton.1 q]; exact (hb.chr c List.mem_cons_self).1
            · exact i2 x q
      obtain ⟨e1, e2⟩ := hc ps (fun k q => by have := h4 k q; rw [hh] at this; cases this) h3
      have := Fits.plain (C := C) (outs := outs) (n := outs.length) hk hh (by rw [h1]; exact e2)
      rw [ht, if_pos rfl, h1, e1, ← h2] at this
      exact this

theorem textStep_spec {C : Ctx} {d : Doc} (hs : SrcOk d.source) {n : Node} (hn : n.iv.2 ≤ d.source.length) (hc : ∀ c ∈ decodeSpec 0 (slice d.source n.iv), c ≠ 18 ∧ c ≠ 19) {c : Cur} {outs : List (List Int)} {o : List Int} (h : Holds C c outs o) :
    ∃ c', textStep d n c = .done c' ∧ c'.off = c.off + 1 ∧ Holds C c' outs (o ++ retext (slice d.source n.iv)) := by
  obtain ⟨m, hd⟩ := at_decode hs (a := n.iv.1) hn c.tok.text
  have hb : textBlank d n c.tok = .done (c.tok.hasText || (slice d.source n.iv).all isspace) := by
    unfold textBlank Doc.blank
    cases c.tok.hasText with
    | true => rfl
    | false => rw [if_neg (by decide), at_blank hs hn]; rfl
  obtain ⟨ps, h1, h2, h3, h4, h5⟩ := h.bits
  have hz := decode_nonzero (fun c hc => hs.nz c (slice_mem (iv := n.iv) hc))
  unfold textStep
  rw [hd, hb]
  simp only [Out.of_some, Out.done_bind, Out.pure_done]
  refine ⟨_, rfl, rfl, h.sound, h.kind, ps ++ (decodeSpec 0 (slice d.source n.iv)).map .chr, ?_, ?_, h3.append (Bits.chars (fun c q => ⟨hz c q, hc c q⟩) _), fun k hk => ?_, fun q x hx => ?_⟩
  · dsimp only; rw [List.flatMap_append, spell_chars, ← h1]
  · rw [List.flatMap_append, shown_esc, ← h2]; rfl
  · rcases List.mem_append.1 hk with q | q
    · exact h4 k q
    · obtain ⟨y, _, e⟩ := List.mem_map.1 q; cases e
  · dsimp only at q
    have q1 : c.tok.hasText = false := by cases e : c.tok.hasText <;> rw [e] at q <;> simp at q ⊢
    rcases List.mem_append.1 hx with hx | hx
    · exact h5 q1 x hx
    · have q2 : (slice d.source n.iv).all isspace = true := by rw [q1] at q; simpa using q
      rw [decode_plain (blank_amp q2)] at hx
      obtain ⟨y, hy, e⟩ := List.mem_map.1 hx
      cases e
      exact List.all_eq_true.1 q2 _ hy

theorem seek_spec (fin : Nat) (target : Option Nat) : ∀ (k i : Nat), fin - i ≤ k → i ≤ fin → i ≤ seek fin target i ∧ seek fin target i ≤ fin ∧ (∀ q, target = some q → i ≤ q → q ≤ fin → seek fin target i = q) ∧ (seek fin target i = fin ∨ target = some (seek fin target i))
  | k, i, hk, hi => by
    unfold seek
    split
    · next h1 =>
      split
      · next h2 =>
        refine ⟨Nat.le_refl _, hi, fun q hq _ _ => ?_, .inr h2⟩
        rw [h2] at hq; exact Option.some.inj hq
      · next h2 =>
        match k with
        | 0 => omega
        | k + 1 =>
          obtain ⟨a, b, c, e⟩ := seek_spec fin target k (i + 1) (by omega) (by omega)
          refine ⟨by omega, b, fun q hq h3 h4 => c q hq ?_ h4, e⟩
          by_cases r : q = i
          · exact absurd (by rw [hq, r]) h2
          · omega
    · next h1 =>
      refine ⟨Nat.le_refl _, hi, fun q hq h3 h4 => by omega, .inl (by omega)⟩

/-- What is ended from `i` to `j` is ended there. -/
def EndsIn (nodes : List Node) (j i : Nat) : Prop := ∀ (k : Nat) (n : Node) (q : Nat), i ≤ k → k < j → nodes[k]? = some n → n.fin = some q → q ≤ j

theorem anc_trans {nodes : List Node} {a b c : Nat} (h : Anc nodes a b) (h' : Anc nodes b c) : Anc nodes a c := by
  induction h' with
  | parent q => exact .up q h
  | up q _ ih => exact .up q ih

/-- What the document is known to be. -/
structure Fine (d : Doc) : Prop where
  src : SrcOk d.source
  iv : ∀ n ∈ d.nodes, n.iv.1 ≤ n.iv.2 ∧ n.iv.2 ≤ d.source.length
  order : ∀ (i j : Nat) (a b : Node), i < j → d.nodes[i]? = some a → d.nodes[j]? = some b → a.iv.2 ≤ b.iv.1
  attrs : ∀ n ∈ d.nodes, n.isElement → Ordered n.iv.2 n.iv.1 n.attrs ∧ ∀ a ∈ n.attrs, a.name.2 ≤ d.source.length ∧ ∀ v, a.value = some v → v.2 ≤ d.source.length
  tree : ∃ stack, Tree d.nodes stack

theorem reach_fine {L : Lex} (hL : L.Ok) {d : Doc} (h : Reach L d) : Fine d where
  src := by obtain ⟨i, hp⟩ := reach_placed hL h; exact hp.src
  iv := fun n hn => ⟨((doc_order hL h).2 n hn).1, ((doc_order hL h).2 n hn).2.1⟩
  order := by
    intro i j a b hij ha hb
    obtain ⟨h1, rfl⟩ := List.getElem?_eq_some_iff.1 ha
    obtain ⟨h2, rfl⟩ := List.getElem?_eq_some_iff.1 hb
    exact List.pairwise_iff_getElem.1 (doc_order hL h).1 i j h1 h2 hij
  attrs := by
    intro n hn he
    have hk : n.kind ≠ .text ∧ n.kind ≠ .CDATA ∧ n.kind ≠ .PCDATA := by rcases he with e | e <;> rw [e] <;> decide
    obtain ⟨t, ht, tag, g1, g2, g3, g4, g5, g6⟩ := doc_tags hL h hn hk.1 hk.2.1 hk.2.2
    have ha : n.attrs = tag.attrs := g5 (by rcases he with e | e; exact .inl e; exact .inr (.inl e))
    have hb := htmlTag_bounds g1
    have hlt := ht.length_le
    refine ⟨?_, fun a q => ?_⟩
    · rw [ha, g2]
      refine ordered_back ?_ (ordered_of (Nat.le_of_lt hb.2.2.2.2.2.2.1) hb.2.2.2.2.2.2.2.1 hb.2.2.2.2.2.2.2.2)
      have := hb.1; have := hb.2.2.2.2.1; have := hb.2.2.2.2.2.1; omega
    · rw [ha] at q
      obtain ⟨b1, b2⟩ := attr_bounds g1 q
      exact ⟨Nat.le_trans b1 hlt, fun v hv => Nat.le_trans (b2 v hv).2 hlt⟩
  tree := ⟨_, reach_tree hL h⟩

theorem verbatim_iff (e : Elem) : isVerbatim e = true ↔ e = .style ∨ ∃ s ∈ leftAlone, e.spelled = some s := by
  have := elem_forall (p := fun e => isVerbatim e == (decide (e = .style) || leftAlone.any fun s => decide (e.spelled = some s))) (by decide +kernel) e
  rw [eq_of_beq this, Bool.or_eq_true, decide_eq_true_eq, List.any_eq_true]
  simp only [decide_eq_true_eq]

theorem verbatim_span (e : Elem) (h : isVerbatim e = true) : span e ≠ .immediate := by
  have := elem_forall (p := fun e => !isVerbatim e || decide (span e ≠ .immediate)) (by decide +kernel) e
  rw [h] at this
  simpa using this

theorem spelled_style {e : Elem} (h : e.spelled = some "style") : e = .style := by
  have := elem_forall (p := fun e => !decide (e.spelled = some "style") || decide (e = .style)) (by decide +kernel) e
  simpa [h] using this

theorem endsIn_group {d : Doc} {stack : List Nat} (hT : Tree d.nodes stack) {k fin : Nat} {n : Node} (hk : d.nodes[k]? = some n) (hkf : k < fin) (hE : EndsIn d.nodes fin (k + 1)) : EndsIn d.nodes (seek fin n.fin (k + 1)) (k + 1) := by
  obtain ⟨s1, s2, s3, s4⟩ := seek_spec fin n.fin _ (k + 1) (Nat.le_refl _) hkf
  generalize seek fin n.fin (k + 1) = l at *
  intro k' n' q h1 h2 h3 h4
  rcases s4 with rfl | s4
  · exact hE k' n' q h1 h2 h3 h4
  · by_cases hq : q ≤ l
    · exact hq
    · exfalso
      have hl : l < d.nodes.length := by
        rcases (hT.fin hk s4).2 with ⟨e, _⟩ | ⟨_, _, m, hm, _⟩
        · omega
        · exact (List.getElem?_eq_some_iff.1 hm).1
      have a1 := (hT.inside hk s4 k' (List.getElem?_eq_some_iff.1 h3).1).1 ⟨by omega, h2⟩
      have a2 := (hT.inside h3 h4 l hl).1 ⟨h2, by omega⟩
      have := (hT.inside hk s4 l hl).2 (anc_trans a1 a2)
      omega

theorem EndsIn.mono {nodes : List Node} {j i i' : Nat} (h : EndsIn nodes j i) (hi : i ≤ i') : EndsIn nodes j i' := fun k n q h1 => h k n q (by omega)

theorem renders_le {C : Ctx} {d : Doc} {j i : Nat} {o : List Int} (h : Renders C d j i o) : i ≤ j := by
  induction h with
  | nil => exact Nat.le_refl _
  | text h | other h | tag h | content h | style h => omega

/-- One part after the other. -/
theorem Renders.append {C : Ctx} {d : Doc} {m i : Nat} {a : List Int} (h : Renders C d m i a) {j : Nat} (hm : m ≤ j) {b : List Int} (h' : Renders C d j m b) : Renders C d j i (a ++ b) := by
  induction h with
  | nil => exact h'
  | text h1 h2 h3 _ ih => rw [List.append_assoc]; exact .text (by omega) h2 h3 ih
  | other h1 h2 h3 h4 h5 _ ih => rw [List.append_assoc]; exact .other (by omega) h2 h3 h4 h5 ih
  | tag h1 h2 h3 _ ih => rw [List.append_assoc]; exact .tag (by omega) h2 h3 ih
  | content h1 h2 h3 h4 h5 h6 _ ih => rw [List.append_assoc]; exact .content (by omega) h2 h3 h4 h5 h6 ih
  | style h1 h2 h3 h4 h5 h6 h7 _ ih => rw [List.append_assoc]; exact .style (by omega) h2 h3 h4 h5 h6 h7 ih

theorem contentToken_spec {C : Ctx} (hL : C.L.Ok) {d : Doc} (hd : Fine d) (hK : Linkable C d) {n m : Node} {q : Nat} (hn : n ∈ d.nodes) (hs : n.kind = .element_start) (hq : n.fin = some q) (hm : d.nodes[q]? = some m) (hle : n.iv.2 ≤ m.iv.1)
    {c : Cur} (hc : c.off < d.nodes.length) {outs : List (List Int)} {o : List Int} (h : Holds C c outs o) :
    ∃ c' outs' x, contentToken C d n m.iv.1 c = .done c' ∧ c'.off = c.off ∧ outs <+: outs' ∧ Holds C c' outs' (o ++ x) ∧
      (n.code ≠ .style → x = slice d.source (n.iv.2, m.iv.1)) ∧ (n.code = .style → CssOut C.L.v.space C.W C.L.T (d.source.take m.iv.1) n.iv.2 x) := by
  have hm' := (hd.iv m (List.mem_of_getElem? hm))
  have hmf : m.iv.1 ≤ d.source.length := by omega
  unfold contentToken
  by_cases hlt : n.iv.2 < m.iv.1
  · rw [if_pos hlt, List.getElem?_eq_getElem hc]
    dsimp only
    by_cases hst : n.code = .style
    · rw [if_neg (by simpa using hst)]
      obtain ⟨t', toks', outs', css, e1, e2, e3, e4, e5⟩ := cssLoop_spec hL hd.src hK.marks (seq := c.off) hmf (fun i p hi hp => hK.css n hn hs hst q m hq hm i p hi hp) (m.iv.1 - n.iv.2 + 1) n.iv.2 (Nat.le_refl _) hle (by omega) { seq := some c.off } c.toks outs [] h.sound (Builds.new C outs (show TokKind.complete ≠ TokKind.url by decide) rfl rfl)
      rw [e1]
      simp only [Out.done_bind, Out.pure_done]
      exact ⟨_, _, css, rfl, rfl, e2.trans (List.prefix_append _ _), h.put e3 e2 e5.fits n.iv.1, fun q => absurd hst q, fun _ => e4⟩
    · rw [if_pos hst]
      refine ⟨_, outs ++ [_], _, rfl, rfl, List.prefix_append _ _, h.put h.sound (List.prefix_refl _) (fits_raw (show TokKind.complete ≠ TokKind.url by decide) rfl rfl ?_) n.iv.1, fun _ => rfl, fun q => absurd q hst⟩
      exact fun x hx => hd.src.nz x (slice_mem hx)
  · rw [if_neg hlt]
    refine ⟨c, outs, [], rfl, rfl, List.prefix_refl _, by rw [List.append_nil]; exact h, fun _ => (slice_nil _ (by omega)).symm, fun _ => ?_⟩
    have : n.iv.2 = (d.source.take m.iv.1).length := by rw [List.length_take]; omega
    rw [this]
    exact .nil

theorem parseLoop_spec {C : Ctx} (hL : C.L.Ok) {d : Doc} (hd : Fine d) (hK : Linkable C d) : ∀ (fuel fin : Nat) (c : Cur) (outs : List (List Int)) (o : List Int), c.off ≤ fin → fin ≤ d.nodes.length → fin - c.off < fuel → EndsIn d.nodes fin c.off → Holds C c outs o →
    ∃ c' outs' x, parseLoop C d fuel fin c = .done c' ∧ c'.off = fin ∧ outs <+: outs' ∧ Renders C d fin c.off x ∧ Holds C c' outs' (o ++ x)
  | 0, _, _, _, _, _, _, h, _, _ => absurd h (by omega)
  | fuel + 1, fin, c, outs, o, h1, h2, h3, hE, hH => by
    unfold parseLoop
    by_cases hoff : c.off = fin
    · rw [if_pos hoff]
      refine ⟨c, outs, [], rfl, hoff, List.prefix_refl _, by rw [hoff]; exact .nil, by rw [List.append_nil]; exact hH⟩
    · rw [if_neg hoff]
      have hlt : c.off < fin := by omega
      have hn : d.nodes[c.off]? = some d.nodes[c.off] := List.getElem?_eq_getElem (by omega)
      rw [hn]
      dsimp only
      generalize d.nodes[c.off] = n at hn
      have hmem := List.mem_of_getElem? hn
      obtain ⟨hiv1, hiv2⟩ := hd.iv n hmem
      obtain ⟨stack, hT⟩ := hd.tree
      have hnz : ∀ iv, ∀ x ∈ slice d.source iv, x ≠ 0 := fun iv x hx => hd.src.nz x (slice_mem hx)
      -- what goes on after a step
      have next : ∀ (c1 : Cur) (outs1 : List (List Int)) (x1 : List Int), c1.off ≤ fin → c.off < c1.off → outs <+: outs1 → Holds C c1 outs1 (o ++ x1) → (∀ {x2}, Renders C d fin c1.off x2 → Renders C d fin c.off (x1 ++ x2)) →
          ∃ c' outs' x, parseLoop C d fuel fin c1 = .done c' ∧ c'.off = fin ∧ outs <+: outs' ∧ Renders C d fin c.off x ∧ Holds C c' outs' (o ++ x) := by
        intro c1 outs1 x1 g1 g2 g3 g4 g5
        obtain ⟨c', outs', x, e1, e2, e3, e4, e5⟩ := parseLoop_spec hL hd hK fuel fin c1 outs1 _ g1 h2 (by omega) (hE.mono (by omega)) g4
        exact ⟨c', outs', x1 ++ x, e1, e2, g3.trans e3, g5 e4, by rw [← List.append_assoc]; exact e5⟩
      have raw : ∀ t : Tok, t.kind ≠ .url → t.hasTokens = false → t.hasText = false → t.text = slice d.source n.iv → n.kind ≠ .text → n.kind ≠ .element → n.kind ≠ .element_start →
          ∃ c' outs' x, parseLoop C d fuel fin { c.put C n.iv.1 t with off := c.off + 1 } = .done c' ∧ c'.off = fin ∧ outs <+: outs' ∧ Renders C d fin c.off x ∧ Holds C c' outs' (o ++ x) := by
        intro t k1 k2 k3 k4 k5 k6 k7
        refine next _ (outs ++ [t.text]) t.text (by dsimp only; omega) (by dsimp only; omega) (List.prefix_append _ _) ?_ ?_
        · exact (hH.put hH.sound (List.prefix_refl _) (fits_raw k1 k2 k3 (by rw [k4]; exact hnz _)) n.iv.1).off _
        · intro x2 hx2; rw [k4]; exact .other hlt hn k5 k6 k7 hx2
      -- a tag
      have tags : n.isElement → ∃ t' toks' outs', attrLoop C d c.off n n.attrs n.iv.1 (tagToken d c.off n) c.toks = .done (t', toks') ∧ outs <+: outs' ∧
          Holds C { { c with toks := toks' }.put C n.iv.1 t' with off := c.off + 1 } outs' (o ++ retag d.source n.code n.iv.2 n.iv.1 n.attrs) := by
        intro hel
        obtain ⟨a1, a2⟩ := hd.attrs n hmem hel
        have htt : (tagToken d c.off n).kind ≠ .url ∧ (tagToken d c.off n).hasText = false ∧ (tagToken d c.off n).text = [] := by
          unfold tagToken; split <;> exact ⟨by simp, rfl, rfl⟩
        obtain ⟨t', toks', outs', e1, e2, e3, e4⟩ := attrLoop_spec hL hd.src hK.marks (k := c.off) hiv2 n.attrs n.iv.1 a1 a2 _ c.toks outs [] hH.sound (Builds.new C outs htt.1 htt.2.1 htt.2.2)
        exact ⟨t', toks', outs' ++ [_], e1, e2.trans (List.prefix_append _ _), (hH.put e3 e2 e4.fits n.iv.1).off _⟩
      have hfr : n.isElement → ¬ (n.code = .frameset ∧ C.frames = false) := by
        rintro - ⟨q1, q2⟩
        rcases hK.frames with e | e
        · rw [q2] at e; cases e
        · exact e n hmem q1
      cases hk : n.kind with
      | text =>
        dsimp only
        obtain ⟨c1, e1, e2, e3⟩ := textStep_spec hd.src hiv2 (hK.text n hmem hk) hH
        rw [e1]
        simp only [Out.done_bind]
        exact next c1 outs _ (by omega) (by omega) (List.prefix_refl _) e3 (fun {x2} q => by rw [e2] at q; exact .text hlt hn hk q)
      | element =>
        dsimp only
        rw [if_neg (hfr (.inl hk))]
        obtain ⟨t', toks', outs', e1, e2, e3⟩ := tags (.inl hk)
        rw [e1]
        simp only [Out.done_bind]
        rw [if_pos trivial]
        exact next _ outs' _ (by dsimp only; omega) (by dsimp only; omega) e2 e3 (fun {x2} q => .tag hlt hn (.inl hk) q)
      | element_start =>
        dsimp only
        rw [if_neg (hfr (.inr hk))]
        obtain ⟨t', toks', outs', e1, e2, e3⟩ := tags (.inr hk)
        rw [e1]
        simp only [Out.done_bind]
        rw [if_neg (by decide)]
        by_cases hv : isVerbatim n.code = true
        · rw [if_pos hv]
          have hfin : n.fin ≠ none := hK.ended n hmem hk (by
            rcases (verbatim_iff n.code).1 hv with e | ⟨s, hs, e⟩
            · exact ⟨"style", List.mem_cons_self, by rw [e]; rfl⟩
            · exact ⟨s, List.mem_cons_of_mem _ hs, e⟩)
          obtain ⟨q, hq⟩ := Option.ne_none_iff_exists'.1 hfin
          obtain ⟨-, hew⟩ := hT.fin hn hq
          rcases hew with ⟨-, hsp⟩ | ⟨hkq, -, m, hm, -⟩
          · exact absurd hsp (verbatim_span _ hv)
          · have hqf := hE c.off n q (Nat.le_refl _) hlt hn hq
            obtain ⟨c2, outs2, x, f1, f2, f3, f4, f5, f6⟩ := contentToken_spec hL hd hK hmem hk hq hm (hd.order _ _ _ _ hkq hn hm) (c := { { c with toks := toks' }.put C n.iv.1 t' with off := c.off + 1 })
              (by dsimp only; have := (List.getElem?_eq_some_iff.1 hm).1; omega) e3
            unfold verbatimStep
            rw [hq]
            simp only [Out.of_some, Out.done_bind]
            rw [hm]
            simp only [Out.of_some, Out.done_bind]
            rw [f1]
            simp only [Out.done_bind, Out.pure_done]
            have hseek : seek fin (some q) c2.off = q := by
              have : c2.off = c.off + 1 := f2
              exact (seek_spec fin (some q) _ c2.off (Nat.le_refl _) (by omega)).2.2.1 q rfl (by omega) hqf
            rw [hseek]
            refine next { c2 with off := q } outs2 (retag d.source n.code n.iv.2 n.iv.1 n.attrs ++ x) hqf hkq (e2.trans f3) (by rw [← List.append_assoc]; exact f4.off q) ?_
            intro x2 hx2
            by_cases hst : n.code = .style
            · exact .style hlt hn hk hst hq hm (f6 hst) hx2
            · rw [f5 hst]
              exact .content hlt hn hk (((verbatim_iff n.code).1 hv).resolve_left hst) hq hm hx2
        · rw [if_neg hv]
          have hspec : (∀ s ∈ leftAlone, n.code.spelled ≠ some s) ∧ n.code ≠ .style :=
            ⟨fun s hs e => hv ((verbatim_iff _).2 (.inr ⟨s, hs, e⟩)), fun e => hv ((verbatim_iff _).2 (.inl e))⟩
          by_cases hg : isGroup n.code = true
          · rw [if_pos hg]
            obtain ⟨s1, s2, -, -⟩ := seek_spec fin n.fin _ (c.off + 1) (Nat.le_refl _) (by omega)
            have hE' := endsIn_group hT hn hlt (hE.mono (by omega))
            have hnew : Holds C { off := c.off + 1, tok := { isTitle := isTitled n.code, isBullet := isList n.code, seq := if c.off + 1 ≠ seek fin n.fin (c.off + 1) then some (c.off + 1) else none }, rel := 0, toks := toks' ++ [t'] } outs' [] :=
              ⟨e3.sound, rfl, [], rfl, rfl, Bits.nil _, (fun _ q => nomatch q), (fun _ _ q => nomatch q)⟩
            obtain ⟨g, outs2, x, g1, g2, g3, g4, g5⟩ := parseLoop_spec hL hd hK fuel (seek fin n.fin (c.off + 1)) _ outs' [] s1 (by omega) (by dsimp only; omega) hE' hnew
            have g1' := g1
            dsimp only [Cur.put, Cur.mark] at g1' ⊢
            rw [g1']
            simp only [Out.done_bind]
            have hmk := e3.mark (g5.sound.push g5.fits) (g3.trans (List.prefix_append _ _)) (k := g.toks.length) (x := [] ++ x) (by rw [g5.sound.len]; simp) n.iv.1 g.off
            refine next _ (outs2 ++ [[] ++ x]) (retag d.source n.code n.iv.2 n.iv.1 n.attrs ++ x) (by show g.off ≤ fin; omega) (by show c.off < g.off; omega) (e2.trans (g3.trans (List.prefix_append _ _))) (by rw [← List.append_assoc]; exact hmk) ?_
            intro x2 hx2
            rw [List.append_assoc]
            refine .tag hlt hn (.inr ⟨hk, hspec⟩) ?_
            have : Renders C d fin (seek fin n.fin (c.off + 1)) x2 := by rw [← g2]; exact hx2
            exact g4.append s2 this
          · rw [if_neg hg]
            exact next _ outs' _ (by dsimp only; omega) (by dsimp only; omega) e2 e3 (fun {x2} q => .tag hlt hn (.inr ⟨hk, hspec⟩) q)
      | element_end => dsimp only; exact raw _ (by simp) rfl rfl rfl (by rw [hk]; decide) (by rw [hk]; decide) (by rw [hk]; decide)
      | declaration | comment | instruction | PCDATA | CDATA => dsimp only; exact raw _ (by simp) rfl rfl rfl (by rw [hk]; decide) (by rw [hk]; decide) (by rw [hk]; decide)

/-! ### Properties -/

/-- **C115** (partial) A document is parsed into tokens, without undefined behaviour, an exception, or a loop without an end; and wherever in memory the tokens are, linking them writes the document again: texts and addresses are decoded and escaped anew, and nothing else is
changed. Missing: documents that are not `Linkable`, see `relink_forged`, `relink_unended`, and `css_unescape_hangs`. -/
theorem relink_partial {C : Ctx} (hL : C.L.Ok) {d : Doc} (hr : Reach C.L d) (hK : Linkable C d) :
    ∃ toks out, parse C d = .done toks ∧ Renders C d d.nodes.length 0 out ∧
      (C.Places toks.length → relink C d = .done out ∧ ∀ fuel src, toks.length ≤ fuel → link C toks fuel (toks.length - 1) src = .done (src ++ out)) := by
  have hd := reach_fine hL hr
  have hE : EndsIn d.nodes d.nodes.length 0 := by
    intro k n q _ _ h1 h2
    obtain ⟨stack, hT⟩ := hd.tree
    rcases (hT.fin h1 h2).2 with ⟨e, _⟩ | ⟨_, _, m, hm, _⟩
    · have := (List.getElem?_eq_some_iff.1 h1).1; omega
    · have := (List.getElem?_eq_some_iff.1 hm).1; omega
  obtain ⟨c, outs, x, e1, e2, e3, e4, e5⟩ := parseLoop_spec hL hd hK (d.nodes.length + 1) d.nodes.length { off := 0, tok := { seq := if d.nodes.length ≠ 0 then some 0 else none }, rel := 0, toks := [] } [] [] (Nat.zero_le _) (Nat.le_refl _) (by dsimp only; omega) hE
    ⟨Sound.nil C, rfl, [], rfl, rfl, Bits.nil _, (fun _ q => nomatch q), (fun _ _ q => nomatch q)⟩
  have hp : parse C d = .done (c.toks ++ [c.tok]) := by unfold parse; rw [e1]; rfl
  refine ⟨_, x, hp, e4, fun hC => ?_⟩
  have hS := e5.sound.push e5.fits
  have hl : (c.toks ++ [c.tok]).length - 1 = c.toks.length := by simp
  have hlink : ∀ fuel src, (c.toks ++ [c.tok]).length ≤ fuel → link C (c.toks ++ [c.tok]) fuel ((c.toks ++ [c.tok]).length - 1) src = .done (src ++ x) := by
    intro fuel src hf
    rw [hl]
    exact link_sound hS hC fuel c.toks.length c.tok x (by simp at hf; omega) (by simp) (by rw [e5.sound.len]; simp) (by rw [e5.kind]; decide) src
  refine ⟨?_, hlink⟩
  unfold relink
  rw [hp]
  simp only [Out.done_bind]
  rw [hlink _ [] (Nat.le_refl _)]
  rfl

end Verif.Html
