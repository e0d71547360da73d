import Verif.Html.Link
/-
`parser::link`: what it writes for tokens that refer to tokens before them. Lines 2211-2268 of include/stdex/html.hpp.
-/
namespace Verif.Html
open Verif.Str Verif.Sgml Verif.Parser

/-- The text of a token: characters, and tags of other tokens. -/
inductive Bit where
  | chr (c : Int)
  | ref (k : Nat)

/-- How it is in the text. -/
def Bit.spell (addr : Nat → Nat) : Bit → List Int
  | .chr c => [c]
  | .ref k => tokenTag (addr k)

/-- How it is linked, where the tokens give `outs`. -/
def Bit.shown (outs : List (List Int)) (esc : Bool) : Bit → List Int
  | .chr c => if esc then escapeMinChar c else [c]
  | .ref k => outs[k]?.getD []

/-- The bits have no marks and no terminators, and refer to tokens before `n`. -/
structure Bits (ps : List Bit) (n : Nat) : Prop where
  chr : ∀ c, Bit.chr c ∈ ps → c ≠ 0 ∧ c ≠ 18 ∧ c ≠ 19
  ref : ∀ k, Bit.ref k ∈ ps → k < n

theorem Bits.nil (n : Nat) : Bits [] n := ⟨(fun _ h => nomatch h), (fun _ h => nomatch h)⟩

theorem Bits.mono {ps : List Bit} {n m : Nat} (h : Bits ps n) (hm : n ≤ m) : Bits ps m := ⟨h.chr, fun k q => Nat.lt_of_lt_of_le (h.ref k q) hm⟩

theorem Bits.append {ps qs : List Bit} {n : Nat} (h : Bits ps n) (h' : Bits qs n) : Bits (ps ++ qs) n :=
  ⟨fun c q => (List.mem_append.1 q).elim (h.chr c) (h'.chr c), fun k q => (List.mem_append.1 q).elim (h.ref k) (h'.ref k)⟩

theorem Bits.chars {l : List Int} (h : ∀ c ∈ l, c ≠ 0 ∧ c ≠ 18 ∧ c ≠ 19) (n : Nat) : Bits (l.map .chr) n :=
  ⟨(fun c q => by obtain ⟨x, hx, e⟩ := List.mem_map.1 q; cases e; exact h _ hx), (fun k q => by obtain ⟨x, _, e⟩ := List.mem_map.1 q; cases e)⟩

theorem Bits.one {k n : Nat} (h : k < n) : Bits [.ref k] n :=
  ⟨(fun c q => by have e := List.mem_singleton.1 q; cases e), (fun k' q => by have e := List.mem_singleton.1 q; cases e; exact h)⟩

theorem spell_chars (addr : Nat → Nat) (l : List Int) : (l.map Bit.chr).flatMap (Bit.spell addr) = l := by
  induction l with
  | nil => rfl
  | cons c l ih => rw [List.map_cons, List.flatMap_cons, ih]; rfl

theorem shown_raw (outs : List (List Int)) (l : List Int) : (l.map Bit.chr).flatMap (Bit.shown outs false) = l := by
  induction l with
  | nil => rfl
  | cons c l ih => rw [List.map_cons, List.flatMap_cons, ih]; rfl

theorem shown_esc (outs : List (List Int)) (l : List Int) : (l.map Bit.chr).flatMap (Bit.shown outs true) = l.flatMap escapeMinChar := by
  induction l with
  | nil => rfl
  | cons c l ih => rw [List.map_cons, List.flatMap_cons, List.flatMap_cons, ih]; rfl

theorem get_prefix {outs outs' : List (List Int)} (h : outs <+: outs') {k : Nat} (hk : k < outs.length) : outs'[k]? = outs[k]? := by
  obtain ⟨s, rfl⟩ := h
  exact List.getElem?_append_left hk

theorem shown_mono {outs outs' : List (List Int)} (h : outs <+: outs') (esc : Bool) : ∀ {ps : List Bit}, Bits ps outs.length → ps.flatMap (Bit.shown outs' esc) = ps.flatMap (Bit.shown outs esc)
  | [], _ => rfl
  | p :: ps, hp => by
    rw [List.flatMap_cons, List.flatMap_cons, shown_mono h esc (ps := ps) ⟨fun c q => hp.chr c (List.mem_cons_of_mem _ q), fun k q => hp.ref k (List.mem_cons_of_mem _ q)⟩]
    congr 1
    cases p with
    | chr c => rfl
    | ref k => unfold Bit.shown; dsimp only; rw [get_prefix h (hp.ref k List.mem_cons_self)]

/-- What the token gives when linked, where tokens before `n` give `outs`. -/
inductive Fits (C : Ctx) (outs : List (List Int)) (n : Nat) (t : Tok) : List Int → Prop
  | sgml : t.kind = .url → t.enc = .sgml → (∀ c ∈ t.text, c ≠ 0) → Fits C outs n t (t.text.flatMap escapeChar)
  | css : t.kind = .url → t.enc = .css → (∀ c ∈ t.text, c ≠ 0) → Fits C outs n t (t.text.flatMap cssEscapeChar)
  | plain : t.kind ≠ .url → t.hasTokens = false → (∀ c ∈ t.text, c ≠ 0) → Fits C outs n t (if t.hasText then t.text.flatMap escapeMinChar else t.text)
  | tags {ps : List Bit} : t.kind ≠ .url → t.hasTokens = true → t.text = ps.flatMap (Bit.spell C.addr) → Bits ps n → Fits C outs n t (ps.flatMap (Bit.shown outs t.hasText))

theorem Fits.mono {C : Ctx} {outs outs' : List (List Int)} {n : Nat} {t : Tok} {o : List Int} (h : Fits C outs n t o) (hp : outs <+: outs') (hn : n ≤ outs.length) : Fits C outs' n t o := by
  cases h with
  | sgml a b c => exact .sgml a b c
  | css a b c => exact .css a b c
  | plain a b c => exact .plain a b c
  | tags a b c d => rw [← shown_mono hp _ (d.mono hn)]; exact .tags a b c d

/-- Tokens and what they give. -/
structure Sound (C : Ctx) (toks : List Tok) (outs : List (List Int)) : Prop where
  len : toks.length = outs.length
  fits : ∀ {k : Nat} {t : Tok} {o : List Int}, toks[k]? = some t → outs[k]? = some o → Fits C outs k t o

theorem Sound.nil (C : Ctx) : Sound C [] [] := ⟨rfl, fun h => nomatch h⟩

theorem Sound.push {C : Ctx} {toks : List Tok} {outs : List (List Int)} (h : Sound C toks outs) {t : Tok} {o : List Int} (ht : Fits C outs outs.length t o) : Sound C (toks ++ [t]) (outs ++ [o]) where
  len := by simp [h.len]
  fits := by
    intro k t' o' h1 h2
    by_cases q : k < outs.length
    · rw [List.getElem?_append_left (by rw [h.len]; exact q)] at h1
      rw [List.getElem?_append_left q] at h2
      exact (h.fits h1 h2).mono (List.prefix_append _ _) (by omega)
    · have hk : k = outs.length := by have := (List.getElem?_eq_some_iff.1 h2).1; simp at this; omega
      subst hk
      rw [← h.len, List.getElem?_concat_length] at h1
      rw [List.getElem?_concat_length] at h2
      cases h1; cases h2
      exact ht.mono (List.prefix_append _ _) (Nat.le_refl _)

theorem tokenAt_eq {C : Ctx} {toks : List Tok} (hC : C.Places toks.length) {k : Nat} (hk : k < toks.length) : tokenAt C.addr toks (C.addr k) = some k := by
  unfold tokenAt
  cases e : (List.range toks.length).find? fun j => C.addr j == C.addr k with
  | none =>
    have := List.find?_eq_none.1 e k (List.mem_range.2 hk)
    simp at this
  | some j =>
    have h1 := List.find?_some e
    have h2 := List.mem_range.1 (List.mem_of_find?_eq_some e)
    rw [hC.inj j k h2 hk (by simpa using h1)]

theorem tokenTag_length (a : Nat) : 2 ≤ (tokenTag a).length := by unfold tokenTag; simp

theorem spell_pos (addr : Nat → Nat) (p : Bit) : 1 ≤ (p.spell addr).length := by
  cases p with
  | chr c => exact Nat.le_refl _
  | ref k => exact Nat.le_trans (by decide) (tokenTag_length (addr k))

theorem tag_head (a : Nat) (r : List Int) : ∃ r', tokenTag a ++ r = 18 :: r' := ⟨hexUp a ++ [19] ++ r, by unfold tokenTag; simp⟩

theorem linkScan_spec {C : Ctx} {toks : List Tok} {outs : List (List Int)} (hS : Sound C toks outs) (hC : C.Places toks.length) {t : Tok} {go : Nat → List Int → Out (List Int)} {n : Nat} (hn : n ≤ toks.length)
    (hgo : ∀ k, k < n → ∀ t' o, toks[k]? = some t' → outs[k]? = some o → t'.kind ≠ .url → ∀ src, go k src = .done (src ++ o)) :
    ∀ (ps : List Bit), Bits ps n → ∀ (pre : List Int), t.text = pre ++ ps.flatMap (Bit.spell C.addr) → ∀ (fuel : Nat), (ps.flatMap (Bit.spell C.addr)).length < fuel → ∀ src,
      linkScan C toks t go fuel pre.length src = .done (src ++ ps.flatMap (Bit.shown outs t.hasText))
  | [], _, pre, ht, fuel, hf, src => by
    cases fuel with
    | zero => exact absurd hf (by simp)
    | succ fuel =>
      have : t.text[pre.length]? = none := by rw [ht]; simp
      unfold linkScan
      rw [this]
      simp
  | p :: ps, hb, pre, ht, fuel, hf, src => by
    have hb' : Bits ps n := ⟨fun c q => hb.chr c (List.mem_cons_of_mem _ q), fun k q => hb.ref k (List.mem_cons_of_mem _ q)⟩
    have hlen := spell_pos C.addr p
    rw [List.flatMap_cons, List.length_append] at hf
    cases fuel with
    | zero => omega
    | succ fuel =>
      have hrest : t.text = (pre ++ p.spell C.addr) ++ ps.flatMap (Bit.spell C.addr) := by rw [ht, List.flatMap_cons, List.append_assoc]
      have IH := fun s => linkScan_spec hS hC hn hgo ps hb' (pre ++ p.spell C.addr) hrest fuel (by omega) s
      rw [List.length_append] at IH
      unfold linkScan
      cases p with
      | chr c =>
        obtain ⟨c0, c18, _⟩ := hb.chr c List.mem_cons_self
        have hr : t.text[pre.length]? = some c := by rw [ht]; simp [Bit.spell]
        have hp : parseTag C.w (t.text ++ [0]) pre.length = some .null := by
          rw [ht, List.flatMap_cons]
          simp only [Bit.spell, List.singleton_append, List.append_assoc, List.cons_append]
          exact token_tag_other C.w c18
        rw [hr]
        dsimp only
        rw [if_neg c0, hp]
        simp only [Out.of_some, Out.done_bind]
        have IH' : ∀ s, linkScan C toks t go fuel (pre.length + 1) s = .done (s ++ ps.flatMap (Bit.shown outs t.hasText)) := IH
        cases ht' : t.hasText with
        | true =>
          rw [if_pos rfl, IH', ht']
          unfold escapeMin1
          rw [List.flatMap_cons, List.append_assoc]; rfl
        | false =>
          rw [if_neg (by decide), IH', ht', List.flatMap_cons, List.append_assoc]; rfl
      | ref k =>
        have hk := hb.ref k List.mem_cons_self
        have hkt : k < toks.length := by omega
        have hko : k < outs.length := by rw [← hS.len]; exact hkt
        obtain ⟨a0, aw⟩ := hC.range k hkt
        have hr : t.text[pre.length]? = some 18 := by rw [ht]; simp [Bit.spell, tokenTag]
        have hp : parseTag C.w (t.text ++ [0]) pre.length = some (.tok (C.addr k) (pre.length + (tokenTag (C.addr k)).length)) := by
          rw [ht, List.flatMap_cons]
          have := token_tag_read a0 aw pre (ps.flatMap (Bit.spell C.addr) ++ [0])
          simp only [List.append_assoc] at this ⊢
          exact this
        have h1 : toks[k]? = some toks[k] := List.getElem?_eq_getElem hkt
        have h2 : outs[k]? = some outs[k] := List.getElem?_eq_getElem hko
        have hfit := hS.fits h1 h2
        have IH' : ∀ s, linkScan C toks t go fuel (pre.length + (tokenTag (C.addr k)).length) s = .done (s ++ ps.flatMap (Bit.shown outs t.hasText)) := IH
        have hsh : Bit.shown outs t.hasText (.ref k) = outs[k] := by unfold Bit.shown; dsimp only; rw [h2]; rfl
        rw [hr]
        dsimp only
        rw [if_neg (by decide), hp]
        simp only [Out.of_some, Out.done_bind]
        rw [tokenAt_eq hC hkt]
        dsimp only
        rw [h1]
        dsimp only
        rw [List.flatMap_cons, hsh, ← List.append_assoc]
        have hte : ∀ f : Int → List Int, (∀ c ∈ toks[k].text, c ≠ 0) → ∀ s, eachChar f (toks[k].text ++ [0]) toks[k].text.length 0 s = some (s ++ toks[k].text.flatMap f) := by
          intro f h0 s
          rw [eachChar_eq f (valid_zero _ _), text_take h0 (Nat.le_refl _), List.take_length]
        generalize hx : outs[k] = x at hfit ⊢
        cases hfit with
        | sgml e1 e2 e3 =>
          rw [e1, e2]
          dsimp only
          unfold escape
          rw [hte _ e3]
          exact IH' _
        | css e1 e2 e3 =>
          rw [e1, e2]
          dsimp only
          unfold cssEscape
          rw [hte _ e3]
          exact IH' _
        | plain e1 e2 e3 =>
          have hg := hgo k hk _ _ h1 h2 e1 src
          rw [hx] at hg
          cases ek : toks[k].kind with
          | url => exact absurd ek e1
          | root | complete | starting | ending => dsimp only; rw [hg]; exact IH' _
        | tags e1 e2 e3 e4 =>
          have hg := hgo k hk _ _ h1 h2 e1 src
          rw [hx] at hg
          cases ek : toks[k].kind with
          | url => exact absurd ek e1
          | root | complete | starting | ending => dsimp only; rw [hg]; exact IH' _

theorem link_sound {C : Ctx} {toks : List Tok} {outs : List (List Int)} (hS : Sound C toks outs) (hC : C.Places toks.length) : ∀ (fuel k : Nat) (t : Tok) (o : List Int), k < fuel → toks[k]? = some t → outs[k]? = some o → t.kind ≠ .url →
    ∀ src, link C toks fuel k src = .done (src ++ o)
  | 0, _, _, _, h, _, _, _, _ => absurd h (by omega)
  | fuel + 1, k, t, o, hf, h1, h2, hk, src => by
    have hlt := (List.getElem?_eq_some_iff.1 h1).1
    unfold link
    rw [h1]
    dsimp only
    cases hS.fits h1 h2 with
    | sgml e _ _ => exact absurd e hk
    | css e _ _ => exact absurd e hk
    | plain _ e1 e2 =>
      rw [if_neg (by rw [e1]; decide)]
      cases ht : t.hasText with
      | true =>
        unfold escapeMin
        rw [if_pos rfl, if_pos rfl, eachChar_eq _ (valid_zero _ _), text_take e2 (Nat.le_refl _), List.take_length]; rfl
      | false => rw [if_neg (by decide), if_neg (by decide)]; rfl
    | tags _ e1 e2 e3 =>
      rw [if_pos e1]
      have := linkScan_spec hS hC (t := t) (go := link C toks fuel) (n := k) (by omega) (fun j hj t' o' q1 q2 q3 s => link_sound hS hC fuel j t' o' (by omega) q1 q2 q3 s) _ e3 [] e2 (t.text.length + 1) (by rw [← e2]; omega) src
      exact this

end Verif.Html
