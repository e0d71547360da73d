import Verif.Html.DocSpecial
/-
`document::append` of include/stdex/html.hpp (1657-1864) comes to an end.
-/
namespace Verif.Html
open Verif.Str Verif.Sgml Verif.Parser

/-! ### Specification -/

/-- No tag of the text makes the parser of tags loop for ever, as `</a/>` does. -/
def NoStuck (L : Lex) (t : List Int) : Prop := ∀ i, ¬ StuckTag L.v.space t i

/-! ### Proofs -/

theorem valid_zero (a : List Int) (c : Option Nat) : Valid (a ++ [0]) c := .inl (by simp)

theorem cmpName_total {T C : CT} {s : List Int} {count : Nat} (hv : Valid s (some count)) : ∀ (n : List Int) (i : Nat), i ≤ (text s (some count)).length → cmpName T C s count n i ≠ none
  | [], i, hi => by rw [cmpName, cond_eq hv hi]; exact fun q => nomatch q
  | x :: n, i, hi => by
    rw [cmpName, cond_eq hv hi]
    cases he : (text s (some count))[i]? with
    | none => exact fun q => nomatch q
    | some c =>
      dsimp only
      split
      · exact fun q => nomatch q
      · split
        · exact fun q => nomatch q
        · exact cmpName_total hv n (i + 1) (List.getElem?_eq_some_iff.1 he).1

theorem codeSearch_total {T C : CT} {s : List Int} {count : Nat} (hv : Valid s (some count)) : ∀ (k i j : Nat), j - i ≤ k → j ≤ mapping.length → codeSearch T C s count i j ≠ none := by
  intro k
  induction k with
  | zero =>
    intro i j h1 _
    rw [codeSearch, dif_neg (by omega)]
    exact fun q => nomatch q
  | succ k ih =>
    intro i j h1 h2
    rw [codeSearch]
    by_cases q : i < j
    · rw [dif_pos q, List.getElem?_eq_getElem (by omega)]
      obtain ⟨n, e⟩ := mapping[(i + j) / 2]
      dsimp only
      cases hc : cmpName T C s count n 0 with
      | none => exact absurd hc (cmpName_total hv n 0 (Nat.zero_le _))
      | some r =>
        dsimp only
        split
        · exact ih _ _ (by omega) h2
        · split
          · exact ih _ _ (by omega) (by omega)
          · exact fun q => nomatch q
    · rw [dif_neg q]
      exact fun q => nomatch q

theorem code_total (L : Lex) (src : List Int) (name : Nat × Nat) : ∃ e, L.code src name = some e := by
  cases h : L.code src name with
  | some e => exact ⟨e, rfl⟩
  | none => exact absurd h (codeSearch_total (valid_zero _ _) _ _ _ (Nat.le_refl _) (Nat.le_refl _))

theorem tolower_zero {T : CT} (hT : 8 ≤ T.bits) (c : Int) : Str.tolower T c = 0 ↔ c = 0 := by
  rw [tolower_spec T hT]
  unfold lowerSpec
  split <;> omega

theorem says_total (a : List Int) (n : Nat) (w : List Int) : ∃ b, says (a ++ [0]) n w = some b := by
  obtain ⟨r, h, _⟩ := strncmp_equal id id (valid_zero a (some n)) (valid_zero w (some (2 ^ 64 - 1))) (fun _ => Iff.rfl) (fun _ => Iff.rfl)
  exact ⟨_, by unfold says; rw [h]; rfl⟩

theorem saysIv_total {L : Lex} (hL : L.Ok) (src : List Int) (iv : Iv) (w : List Int) : ∃ b, L.saysIv src iv w = some b := by
  have key : ∀ a n, ∃ b, saysI L.T L.C (a ++ [0]) n w = some b := by
    intro a n
    obtain ⟨r, h, _⟩ := strncmp_equal (Str.tolower L.T) (Str.tolower L.C) (valid_zero a (some n)) (valid_zero w (some (2 ^ 64 - 1))) (tolower_zero hL.T) (tolower_zero hL.C)
    exact ⟨_, by unfold saysI; rw [h]; rfl⟩
  unfold Lex.saysIv
  split
  · exact key _ _
  · exact key _ _

theorem endOpen_total {code : Elem} {K : Nat} : ∀ {stack : List Nat} {nodes : List Node} {p : Option Nat}, (∀ s ∈ stack, s < nodes.length) → ∃ r, endOpen code K nodes stack p = some r
  | [], nodes, p, _ => ⟨_, by rw [endOpen]⟩
  | s :: r, nodes, p, h => by
    rw [endOpen, List.getElem?_eq_getElem (h s List.mem_cons_self)]
    dsimp only
    split
    · exact ⟨_, rfl⟩
    · exact endOpen_total fun x hx => by rw [List.length_set]; exact h x (List.mem_cons_of_mem _ hx)

theorem findStart_total {L : Lex} (hL : L.Ok) {src : List Int} {code : Elem} {name : Nat × Nat} {nodes : List Node} : ∀ {st : List Nat}, (∀ s ∈ st, s < nodes.length) → ∃ r, findStart L src code name nodes st = some r
  | [], _ => ⟨_, by rw [findStart]⟩
  | s :: r, h => by
    obtain ⟨x, hx⟩ := findStart_total hL (src := src) (code := code) (name := name) (nodes := nodes) (st := r) (fun x q => h x (List.mem_cons_of_mem _ q))
    rw [findStart, List.getElem?_eq_getElem (h s List.mem_cons_self)]
    generalize nodes[s]'(h s List.mem_cons_self) = n
    dsimp only
    split
    · exact ⟨_, rfl⟩
    · split
      · obtain ⟨y, hy, _⟩ := strncmp_equal (Str.tolower L.T) (Str.tolower L.T) (valid_zero (src.drop n.name.1) (some (n.name.2 - n.name.1))) (valid_zero (src.drop name.1) (some (name.2 - name.1)))
          (tolower_zero hL.T) (tolower_zero hL.T)
        rw [hy]
        dsimp only
        split
        · exact ⟨_, rfl⟩
        · exact ⟨x, hx⟩
      · exact ⟨x, hx⟩

theorem findEntity_total {src a : List Int} {num i : Nat} (hn : num ≤ a.length) : ∀ (l : List ((Nat × Nat) × List Int)), ∃ r, findEntity src (a ++ [0]) num i l = some r
  | [] => ⟨_, by rw [findEntity]⟩
  | (name, value) :: l => by
    obtain ⟨x, hx⟩ := findEntity_total (src := src) (i := i) hn l
    rw [findEntity]
    split
    · rename_i hlt
      have hv : Valid ((a ++ [0]).drop (i + 1)) (some (name.2 - name.1)) := by
        rw [List.drop_append_of_le_length (by omega)]
        exact valid_zero _ _
      obtain ⟨r, hr, _⟩ := strncmp_equal id id hv (valid_zero (src.drop name.1) (some (name.2 - name.1))) (fun _ => Iff.rfl) (fun _ => Iff.rfl)
      rw [strncmp1_eq, hr]
      dsimp only
      split
      · rw [List.getElem?_eq_getElem (by simp; omega)]
        dsimp only
        split
        · exact ⟨_, rfl⟩
        · exact ⟨x, hx⟩
      · exact ⟨x, hx⟩
    · exact ⟨x, hx⟩

theorem replaceEntities_total {d : Doc} {a : List Int} {num : Nat} (hn : num ≤ a.length) (hz : ∀ c ∈ a, c ≠ 0) : ∀ (fuel i : Nat) (out : List Int), num + 1 ≤ fuel + i → fuel ≠ 0 → ∃ r, replaceEntities d (a ++ [0]) num fuel i out = some r ∧
    (37 ∉ a.take num → r = some (out ++ (a.take num).drop i)) := by
  have ht : text (a ++ [0]) (some num) = a.take num :=
    text_eq_of (fun c hc => hz c (List.mem_of_mem_take hc)) ((List.take_prefix _ _).trans (List.prefix_append _ _)) (.inr (by rw [List.length_take]; congr 1; omega)) (by intro n e; cases e; rw [List.length_take]; omega)
  have hlen : (a.take num).length = num := by rw [List.length_take]; omega
  intro fuel
  have done : ∀ i, num ≤ i → Str.cond (a ++ [0]) (some num) i = some none := by
    intro i hi
    unfold Str.cond below
    rw [if_neg (by simp; omega)]
  induction fuel with
  | zero =>
    intro i out hf h0
    exact absurd rfl h0
  | succ fuel ih =>
    intro i out hf _
    rw [replaceEntities]
    by_cases hi : i < num
    · rw [cond_eq (valid_zero _ _) (by rw [ht]; omega), ht, List.getElem?_eq_getElem (by omega)]
      have hm : (a.take num)[i] ∈ a.take num := List.getElem_mem _
      have hdrop : (a.take num).drop i = (a.take num)[i] :: (a.take num).drop (i + 1) := List.drop_eq_getElem_cons _
      rw [hdrop]
      generalize (a.take num)[i] = c at hm
      dsimp only
      by_cases hc : c = 37
      · rw [if_pos hc]
        obtain ⟨r, hr⟩ := findEntity_total (src := d.source) (i := i) hn d.entities
        rw [hr]
        rcases r with _ | ⟨value, n⟩
        · exact ⟨_, rfl, fun q => absurd (hc ▸ hm) q⟩
        · obtain ⟨r, h1, _⟩ := ih (i + n + 2) (out ++ value) (by omega) (by omega)
          exact ⟨r, h1, fun q => absurd (hc ▸ hm) q⟩
      · rw [if_neg hc]
        obtain ⟨r, h1, h2⟩ := ih (i + 1) (out ++ [c]) (by omega) (by omega)
        exact ⟨r, h1, fun q => by rw [h2 q]; simp⟩
    · rw [done i (by omega)]
      exact ⟨_, rfl, fun _ => by rw [List.drop_eq_nil_of_le (by omega), List.append_nil]⟩

/-- `replace_entities` ends, and leaves text without `%` alone. -/
theorem replace_total {d : Doc} (hs : SrcOk d.source) {iv : Nat × Nat} (h : iv.2 ≤ d.source.length) : ∃ r, d.replace iv = some r ∧ (37 ∉ (d.source.drop iv.1).take (iv.2 - iv.1) → r = some ((d.source.drop iv.1).take (iv.2 - iv.1))) := by
  obtain ⟨r, h1, h2⟩ := replaceEntities_total (d := d) (a := d.source.drop iv.1) (num := iv.2 - iv.1) (by rw [List.length_drop]; omega) (fun c hc => hs.nz c (List.mem_of_mem_drop hc)) (iv.2 - iv.1 + 1) 0 [] (by omega) (by omega)
  exact ⟨r, h1, fun q => by rw [h2 q]; simp⟩

theorem envTo_ok {L : Lex} (hL : L.Ok) {src : List Int} (hs : SrcOk src) {y : Nat} (hy : y ≤ src.length) : (L.env src y).Ok (src.take y) where
  valid := .inl (by simp [Lex.env])
  text := (text_eq_of (fun c hc => hs.nz c (List.mem_of_mem_take hc)) ((List.take_prefix _ _).trans (List.prefix_append _ _)) (.inr (by show some y = some _; rw [List.length_take]; congr 1; omega))
    (by intro n e; cases e; rw [List.length_take]; omega)).symm
  small := by intro n e; cases e; exact Nat.lt_of_le_of_lt hy hs.small
  lower := hL.lower

theorem metaAttrs_total {L : Lex} (hL : L.Ok) (src : List Int) : ∀ (l : List Attr) (b : Bool) (c : Option Attr), ∃ b' c', metaAttrs L src l b c = some (b', c') ∧ (∀ a, c' = some a → c = some a ∨ a ∈ l)
  | [], b, c => ⟨b, c, rfl, fun _ => .inl⟩
  | a :: l, b, c => by
    obtain ⟨x, hx⟩ := saysIv_total hL src (some a.name) (asc "http-equiv")
    obtain ⟨y, hy⟩ := saysIv_total hL src a.value (asc "content-type")
    obtain ⟨z, hz⟩ := saysIv_total hL src (some a.name) (asc "content")
    rw [metaAttrs, hx, hy, hz]
    dsimp only
    split
    · obtain ⟨b', c', h1, h2⟩ := metaAttrs_total hL src l true c
      exact ⟨b', c', h1, fun m q => (h2 m q).imp_right (List.mem_cons_of_mem _)⟩
    · split
      · obtain ⟨b', c', h1, h2⟩ := metaAttrs_total hL src l b (some a)
        refine ⟨b', c', h1, fun m q => .inr ?_⟩
        rcases h2 m q with h | h
        · cases h; exact List.mem_cons_self
        · exact List.mem_cons_of_mem _ h
      · obtain ⟨b', c', h1, h2⟩ := metaAttrs_total hL src l b c
        exact ⟨b', c', h1, fun m q => (h2 m q).imp_right (List.mem_cons_of_mem _)⟩

theorem metaCharset_total {L : Lex} (hL : L.Ok) {d : Doc} (hs : SrcOk d.source) (code : Elem) {attrs : List Attr} (ha : ∀ a ∈ attrs, ∀ c, a.value = some c → c.1 ≤ c.2 ∧ c.2 ≤ d.source.length) : ∃ r, metaCharset L d code attrs = some r := by
  unfold metaCharset
  split
  · obtain ⟨b, c, h1, h2⟩ := metaAttrs_total hL d.source attrs false none
    rw [h1]
    rcases b with _ | _
    · exact ⟨_, rfl⟩
    · rcases c with _ | a
      · exact ⟨_, rfl⟩
      · have hm : a ∈ attrs := (h2 a rfl).resolve_left (fun q => nomatch q)
        dsimp only
        cases hv : a.value with
        | none => exact ⟨_, rfl⟩
        | some p =>
          obtain ⟨x, y⟩ := p
          have := ha a hm _ hv
          dsimp only at this ⊢
          obtain ⟨r, h3, _⟩ := mime_spec (envTo_ok hL hs this.2) (i := x) (by rw [List.length_take]; omega)
          rw [h3]
          cases r with
          | none => exact ⟨_, rfl⟩
          | some m =>
            dsimp only
            split <;> exact ⟨_, rfl⟩
  · exact ⟨_, rfl⟩

/-- A round that ends: it goes on, or throws, and throws only if there is a `%`. -/
def Ends (d : Doc) (r : Step) : Prop := (∃ d' i', r = .go d' i') ∨ (∃ d', r = .throws d' ∧ 37 ∈ d.source)

theorem ends_go (d d' : Doc) (i : Nat) : Ends d (.go d' i) := .inl ⟨d', i, rfl⟩

theorem attr_bounds {space : Int → Bool} {t : List Int} {i : Nat} {T : Tag} (h : TagAt space t i T) {a : Attr} (ha : a ∈ T.attrs) : a.name.2 ≤ t.length ∧ ∀ c, a.value = some c → c.1 ≤ c.2 ∧ c.2 ≤ t.length := by
  have hb := htmlTag_bounds h
  have := hb.2.2.2.2.2.2.2.1 a ha
  exact ⟨Nat.le_trans this.2.2.1 hb.2.2.1, fun c q => ⟨(this.2.2.2 c q).2.1, Nat.le_trans (this.2.2.2 c q).2.2 hb.2.2.1⟩⟩

theorem tagStep_ends {L : Lex} (hL : L.Ok) {d : Doc} (hs : SrcOk d.source) {i : Nat} {tag : Tag} (ht : TagAt L.v.space d.source i tag) (hst : ∀ s ∈ d.stack, s < d.nodes.length) : Ends d (tagStep L d i tag) := by
  have e0 : tagStep L d i tag = (match tag.type with
    | .element => tagElement L (d.upTo i tag) tag
    | .element_start => tagElement L (d.upTo i tag) tag
    | .element_end => tagEnd L (d.upTo i tag) tag
    | .declaration => tagDeclaration L (d.upTo i tag) tag
    | .comment => .go ((d.upTo i tag).push { kind := .comment, iv := tag.interval, parent := (d.upTo i tag).active, name := tag.name }) tag.interval.2
    | .instruction => .go ((d.upTo i tag).push { kind := .instruction, iv := tag.interval, parent := (d.upTo i tag).active, name := tag.name }) tag.interval.2) := rfl
  have hst' : ∀ s ∈ (d.upTo i tag).stack, s < (d.upTo i tag).nodes.length := by
    rw [d.upTo_stack, d.upTo_nodes]
    intro s q
    have := hst s q
    rw [List.length_append]
    omega
  have hs' : SrcOk (d.upTo i tag).source := by rw [d.upTo_source]; exact hs
  have el : Ends d (tagElement L (d.upTo i tag) tag) := by
    unfold tagElement
    obtain ⟨code, hc⟩ := code_total L (d.upTo i tag).source tag.name
    rw [hc]
    dsimp only
    obtain ⟨⟨n, s, p⟩, ho⟩ := endOpen_total (code := code) (K := (d.upTo i tag).nodes.length) (p := none) hst'
    rw [ho]
    dsimp only
    obtain ⟨m, hm⟩ := metaCharset_total hL hs' code (attrs := tag.attrs) (fun a ha => by rw [d.upTo_source]; exact (attr_bounds ht ha).2)
    rw [hm]
    exact ends_go ..
  rw [e0]
  cases tag.type with
  | element => exact el
  | element_start => exact el
  | element_end =>
    dsimp only
    unfold tagEnd
    obtain ⟨code, hc⟩ := code_total L (d.upTo i tag).source tag.name
    rw [hc]
    dsimp only
    obtain ⟨r, hr⟩ := findStart_total hL (src := (d.upTo i tag).source) (code := code) (name := tag.name) hst'
    rw [hr]
    rcases r with _ | ⟨s, n, st⟩
    · exact ends_go ..
    · exact ends_go ..
  | comment => exact ends_go ..
  | instruction => exact ends_go ..
  | declaration =>
    dsimp only
    unfold tagDeclaration
    dsimp only
    split
    · rename_i a0 a1 a2 a3 l ha
      obtain ⟨b0, h0⟩ := saysIv_total hL (d.upTo i tag).source (some a0.name) (asc "entity")
      obtain ⟨b1, h1⟩ := says_total ((d.upTo i tag).source.drop a1.name.1) (a1.name.2 - a1.name.1) (asc "%")
      obtain ⟨b2, h2⟩ := says_total ((d.upTo i tag).source.drop a3.name.1) (a3.name.2 - a3.name.1) (asc "SYSTEM")
      obtain ⟨b3, h3⟩ := says_total ((d.upTo i tag).source.drop a3.name.1) (a3.name.2 - a3.name.1) (asc "PUBLIC")
      rw [h0, h1, h2, h3]
      dsimp only
      split
      · obtain ⟨r, hr, hr'⟩ := replace_total (iv := a3.name) hs' (by rw [d.upTo_source]; exact (attr_bounds ht (by rw [ha]; simp)).1)
        rw [hr]
        rcases r with _ | v
        · refine .inr ⟨_, rfl, ?_⟩
          apply Classical.byContradiction
          intro q
          rw [← d.upTo_source i tag] at q
          have := hr' fun m => q (List.mem_of_mem_drop (List.mem_of_mem_take m))
          cases this
        · exact ends_go ..
      · exact ends_go ..
    · exact ends_go ..

theorem docStep_ends {L : Lex} (hL : L.Ok) {d : Doc} (hs : SrcOk d.source) (hn : NoStuck L d.source) {i : Nat} (hi : i < d.source.length) (ht : Tree d.nodes d.stack) (hh : Hush True d) : Ends d (docStep L d i) := by
  have hst := chain_bound ht.chain
  have nx : Ends d (nextChar L d i) := by rw [nextChar_eq hL hs hi]; exact ends_go ..
  have op : Ends d (openStep L d i) := by
    unfold openStep
    obtain ⟨r, h1, h2⟩ := conditionStart_spec (env_ok hL hs) (Nat.le_of_lt hi)
    rw [h1]
    cases r with
    | some p =>
      have hc := (h2 p).1 rfl
      have hb : p.1.2 ≤ d.source.length := by
        obtain ⟨a, d', y, h1, h2, h3, h4, h5, rfl⟩ := hc
        have := get_lt h4
        have := h5.2.1
        dsimp only
        omega
      dsimp only
      unfold beginCondition
      obtain ⟨r, hr, hr'⟩ := replace_total (iv := p.1) hs hb
      rw [hr]
      rcases r with _ | c
      · refine .inr ⟨_, rfl, ?_⟩
        apply Classical.byContradiction
        intro q
        have := hr' fun m => q (List.mem_of_mem_drop (List.mem_of_mem_take m))
        cases this
      · dsimp only
        obtain ⟨b1, h1⟩ := says_total c c.length (asc "CDATA")
        obtain ⟨b2, h2⟩ := says_total c c.length (asc "RCDATA")
        obtain ⟨b3, h3⟩ := says_total c c.length (asc "IGNORE")
        rw [h1, h2, h3]
        exact ends_go ..
    | none =>
      dsimp only
      unfold markupStep
      obtain ⟨r, h3, h4⟩ := htmlTag_spec_partial (env_ok hL hs) (Nat.le_of_lt hi) (hn i)
      split
      · rename_i hsp
        unfold specialStep
        rw [h3]
        cases hs1 : d.stack with
        | nil => exact absurd hs1 ((hh.top hsp).1 trivial)
        | cons s st =>
          dsimp only
          rw [List.getElem?_eq_getElem (hst s (by rw [hs1]; exact List.mem_cons_self))]
          cases r with
          | none => exact nx
          | some tag =>
            dsimp only
            split
            · obtain ⟨code, hc⟩ := code_total L d.source tag.name
              rw [hc]
              dsimp only
              split
              · exact ends_go ..
              · exact nx
            · exact nx
      · rw [h3]
        cases r with
        | none => exact nx
        | some tag => exact tagStep_ends hL hs ((h4 tag).1 rfl) hst
  unfold docStep
  obtain ⟨r, h1, h2⟩ := conditionEnd_spec (env_ok hL hs) (Nat.le_of_lt hi)
  rw [h1]
  dsimp only
  split
  · cases r with
    | none => exact nx
    | some e => exact ends_go ..
  · split
    · cases r with
      | none => exact nx
      | some e => exact ends_go ..
    · cases r with
      | none => exact op
      | some e =>
        dsimp only
        split
        · exact ends_go ..
        · exact op

theorem docLoop_ends {L : Lex} (hL : L.Ok) : ∀ (fuel : Nat) (d : Doc) (i : Nat), SrcOk d.source → NoStuck L d.source → Tree d.nodes d.stack → Hush True d → d.source.length + 1 ≤ fuel + i → fuel ≠ 0 →
    (∃ d', docLoop L fuel d i = .done d') ∨ (∃ d', docLoop L fuel d i = .throws d' ∧ 37 ∈ d.source)
  | 0, _, _, _, _, _, _, _, h => absurd rfl h
  | fuel + 1, d, i, hs, hn, ht, hh, hf, _ => by
    rw [docLoop]
    by_cases hi : i < d.source.length
    · rw [if_pos hi]
      have he := docStep_ends hL hs hn hi ht hh
      have hm := docStep_move hL hs hi
      rcases he with ⟨d', i', e⟩ | ⟨d', e, h37⟩
      · rw [e]
        dsimp only
        have hm := hm.1 _ _ e
        obtain ⟨a1, a2, a3⟩ := adds_source (move_adds hm) hi
        have := docLoop_ends hL fuel d' i' (by rw [a1]; exact hs) (by rw [a1]; exact hn) (tree_step ht hm).1 (hush_step ht hh hm) (by rw [a1]; omega) (by omega)
        rw [a1] at this
        exact this
      · rw [e]
        exact .inr ⟨d', rfl, h37⟩
    · rw [if_neg hi]
      exact .inl ⟨d, rfl⟩

/-! ### Properties -/

/-- **C109** Appending to a document comes to an end, unless there is a tag that makes the parser of tags loop: it succeeds, or throws if an entity is not defined; it cannot throw if there is no `%`. Missing: tags as `</a/>`, at which the code loops. -/
theorem doc_ends_partial {L : Lex} (hL : L.Ok) {d : Doc} (h : Fed L d) {more : List Int} (hs : SrcOk (d.source ++ more)) (hn : NoStuck L (d.source ++ more)) :
    (∃ d', d.append L more = .done d') ∨ (∃ d', d.append L more = .throws d' ∧ 37 ∈ d.source ++ more) := by
  have hh := fed_hush hL h
  have ht := reach_tree hL (fed_reach h)
  exact docLoop_ends hL _ { d with source := d.source ++ more } _ hs hn ht ⟨hh.quiet, hh.plain, hh.top⟩ (by show (d.source ++ more).length + 1 ≤ _; omega) (by omega)

end Verif.Html
