import Verif.Parser.HttpReq
/-
The parsers of CSS and MIME types (include/stdex/parser.hpp 7351-7875). White space is `ctype.is(ctype.space, …)` of the locale and is any `v.space`.
`none` is undefined behaviour (or a loop that does not end), as before; `some none` is no match, where everything is invalidated.
-/
namespace Verif.Parser
open Verif.Str

/-- Reads of a chain of `&&`: the characters from `i` are, one by one, the first or the second of the pairs. -/
def litFrom (v : Env) : List (Int × Int) → Nat → Option Bool
  | [], _ => some true
  | p :: ps, i =>
    match rd v.s i with
    | none => none
    | some c => if c = p.1 ∨ c = p.2 then litFrom v ps (i + 1) else some false

/-- `i + (n - 1) < end && text[i] == … && …` -/
def litAt (v : Env) (ps : List (Int × Int)) (i : Nat) : Option Bool := if below v.fin (i + (ps.length - 1)) then litFrom v ps i else some false

/-- The loops 7378-7392, 8083-8100, 8184-8196: to the first place with the literal -/
def findLit (v : Env) (ps : List (Int × Int)) : Nat → Nat → Option (Option Nat)
  | 0, _ => none
  | fuel + 1, e =>
    match peek v e with
    | none => none
    | some none => some none
    | some (some _) =>
      match litAt v ps e with
      | none => none
      | some true => some (some e)
      | some false => findLit v ps fuel (e + 1)

/-- `content` and `interval` -/
abbrev Part := (Nat × Nat) × (Nat × Nat)

/-- `css_comment::do_match` 7364-7397 -/
def cssComment (v : Env) (i : Nat) : Option (Option Part) :=
  match litAt v [(47, 47), (42, 42)] i with
  | none => none
  | some false => some none
  | some true =>
    match findLit v [(42, 42), (47, 47)] (fuelOf v) (i + 2) with
    | none => none
    | some none => some none
    | some (some e) => some (some ((i + 2, e), (i, e + 2)))

/-- `css_cdo::do_match` 7415-7435: the end -/
def cssCdo (v : Env) (i : Nat) : Option (Option Nat) := (litAt v [(60, 60), (33, 33), (45, 45), (45, 45)] i).map fun b => if b then some (i + 4) else none

/-- `css_cdc::do_match` 7453-7472 -/
def cssCdc (v : Env) (i : Nat) : Option (Option Nat) := (litAt v [(45, 45), (45, 45), (62, 62)] i).map fun b => if b then some (i + 3) else none

/-- `i < end && (text[i] == '"' || text[i] == '\'')`: the quote -/
def quoteAt (v : Env) (i : Nat) : Option (Option Int) := (peek v i).map fun x => if x = some 34 ∨ x = some 39 then x else none

/-- The loops 7514-7533, 7594-7612, 7707-7726: the place of the closing quote -/
def quoteLoop (v : Env) (quote : Int) : Nat → Nat → Option (Option Nat)
  | 0, _ => none
  | fuel + 1, e =>
    match peek v e with
    | none => none
    | some none => some none
    | some (some c) =>
      if c = quote then some (some e)
      else if c = 92 then
        match quoteAt v (e + 1) with
        | none => none
        | some (some _) => quoteLoop v quote fuel (e + 2)
        | some none => quoteLoop v quote fuel (e + 1)
      else quoteLoop v quote fuel (e + 1)

/-- 7508-7522: the place of the closing quote if there is an opening one at `i` -/
def quotedAt (v : Env) (i : Nat) : Option (Option Nat) :=
  match quoteAt v i with
  | none => none
  | some none => some none
  | some (some q) => quoteLoop v q (fuelOf v) (i + 1)

/-- `css_string::do_match` 7499-7539 -/
def cssString (v : Env) (i : Nat) : Option (Option Part) := (quotedAt v i).map fun r => r.map fun e => ((i + 1, e), (i, e + 1))

/-- The loops 7629-7642, 8302-8314: `content.end` and the place of the stop character -/
def trimLoop (v : Env) (stop : Int) : Nat → Nat → Nat → Option (Option (Nat × Nat))
  | 0, _, _ => none
  | fuel + 1, e, y =>
    match peek v e with
    | none => none
    | some none => some none
    | some (some c) =>
      if c = stop then some (some (y, e))
      else if v.space c then trimLoop v stop fuel (e + 1) y
      else trimLoop v stop fuel (e + 1) (e + 1)

/-- "url(" 7575-7579 -/
def urlLit : List (Int × Int) := [(117, 85), (114, 82), (108, 76), (40, 40)]

/-- `css_uri::do_match` 7566-7649 -/
def cssUri (v : Env) (i : Nat) : Option (Option Part) :=
  match litAt v urlLit i with
  | none => none
  | some false => some none
  | some true =>
    match scan v v.space (fuelOf v) (i + 4) with
    | none => none
    | some a =>
      match quoteAt v a with
      | none => none
      | some (some q) =>
        match quoteLoop v q (fuelOf v) (a + 1) with
        | none => none
        | some none => some none
        | some (some e) =>
          match scan v v.space (fuelOf v) (e + 1) with
          | none => none
          | some d =>
            match hasChar v 41 d with
            | none => none
            | some false => some none
            | some true => some (some ((a + 1, e), (i, d + 1)))
      | some none =>
        match trimLoop v 41 (fuelOf v) a a with
        | none => none
        | some none => some none
        | some (some (y, d)) => some (some ((a, y), (i, d + 1)))

/-- "@import" 7685-7692 -/
def importLit : List (Int × Int) := [(64, 64), (105, 73), (109, 77), (112, 80), (111, 79), (114, 82), (116, 84)]

/-- `css_import::do_match` 7676-7733 -/
def cssImport (v : Env) (i : Nat) : Option (Option Part) :=
  match litAt v importLit i with
  | none => none
  | some false => some none
  | some true =>
    match scan v v.space (fuelOf v) (i + 7) with
    | none => none
    | some a => (quotedAt v a).map fun r => r.map fun e => ((a + 1, e), (i, e + 1))

/-- `base_type`, `sub_type`, `charset` and `interval` -/
structure Mime where
  base : Nat × Nat
  sub : Nat × Nat
  charset : Iv
  interval : Nat × Nat
deriving DecidableEq

/-- 7779-7781, 7797-7799 -/
def inMime (v : Env) (c : Int) : Bool := !(c == 47 || c == 59 || v.space c)

/-- "charset=" 7814-7822 -/
def charsetLit : List (Int × Int) := [(99, 67), (104, 72), (97, 65), (114, 82), (115, 83), (101, 69), (116, 84), (61, 61)]

/-- 7808-7859: `charset` and `interval.end` -/
def mimeCharset (v : Env) (b : Nat) : Option (Iv × Nat) :=
  match hasChar v 59 b with
  | none => none
  | some false => some (none, b)
  | some true =>
    match scan v v.space (fuelOf v) (b + 1) with
    | none => none
    | some c =>
      match litAt v charsetLit c with
      | none => none
      | some false => some (none, c)
      | some true =>
        match quoteAt v (c + 8) with
        | none => none
        | some (some q) =>
          match scan v (fun x => x != q) (fuelOf v) (c + 9) with
          | none => none
          | some d =>
            match peek v d with
            | none => none
            | some none => some (none, d)
            | some (some _) => some (some (c + 9, d), d + 1)
        | some none =>
          match scan v (fun x => !v.space x) (fuelOf v) (c + 8) with
          | none => none
          | some d => some (some (c + 8, d), d)

/-- `mime_type::do_match` 7764-7866 -/
def mime (v : Env) (i : Nat) : Option (Option Mime) :=
  match scan v (inMime v) (fuelOf v) i with
  | none => none
  | some a =>
    if a ≤ i then some none
    else
      match hasChar v 47 a with
      | none => none
      | some false => some none
      | some true =>
        match scan v (inMime v) (fuelOf v) (a + 1) with
        | none => none
        | some b =>
          if b ≤ a + 1 then some none
          else
            match mimeCharset v b with
            | none => none
            | some (cs, e) => some (some ⟨(i, a), (a + 1, b), cs, (i, e)⟩)

/-! ### Specification -/

/-- The result is defined, and it is what, and only what, `P` says. -/
def Decides {α : Type} (f : Option (Option α)) (P : α → Prop) : Prop := ∃ r, f = some r ∧ ∀ a, r = some a ↔ P a

/-- From `i` there is a literal, whose characters are each one of two. -/
def LitAt (ps : List (Int × Int)) (t : List Int) (i : Nat) : Prop := ∀ k a b, ps[k]? = some (a, b) → t[i + k]? = some a ∨ t[i + k]? = some b

/-- Upper case letters of ASCII as lower case letters -/
def asciiLower (c : Int) : Int := if 65 ≤ c ∧ c ≤ 90 then c + 32 else c

/-- From `i` there is the word, in upper or lower case. -/
def SaysAt (w : List Char) (t : List Int) (i : Nat) : Prop := ((t.drop i).take w.length).map asciiLower = w.map fun c => (c.toNat : Int)

/-- `e` is the first place from `a` with the literal. -/
def FirstLit (ps : List (Int × Int)) (t : List Int) (a e : Nat) : Prop := a ≤ e ∧ LitAt ps t e ∧ ∀ j, a ≤ j → j < e → ¬ LitAt ps t j

/-- `/*…*/` -/
def CssComment (t : List Int) (i : Nat) (p : Part) : Prop := ∃ e, LitAt [(47, 47), (42, 42)] t i ∧ FirstLit [(42, 42), (47, 47)] t (i + 2) e ∧ p = ((i + 2, e), (i, e + 2))

/-- `e` is the first place from `a` with the quote and no backslash before it. -/
def EndQuote (t : List Int) (q : Int) (a e : Nat) : Prop :=
  a ≤ e ∧ t[e]? = some q ∧ ¬ (a < e ∧ t[e - 1]? = some 92) ∧ ∀ j, a ≤ j → j < e → t[j]? = some q → a < j ∧ t[j - 1]? = some 92

/-- `'…'` or `"…"` with the quotes at `i` and `e` -/
def QuotedAt (t : List Int) (i e : Nat) : Prop := ∃ q, (q = 34 ∨ q = 39) ∧ t[i]? = some q ∧ EndQuote t q (i + 1) e

/-- A string in quotes -/
def CssString (t : List Int) (i : Nat) (p : Part) : Prop := ∃ e, QuotedAt t i e ∧ p = ((i + 1, e), (i, e + 1))

/-- The text from `a` to `d` is up to `y` without white space at the end. -/
def TrimEnd (space : Int → Bool) (t : List Int) (a d y : Nat) : Prop :=
  a ≤ y ∧ y ≤ d ∧ (∀ j, y ≤ j → j < d → ∃ c, t[j]? = some c ∧ space c = true) ∧ (y = a ∨ ∃ c, t[y - 1]? = some c ∧ space c = false)

/-- `url('…')`, `url("…")` or `url(…)`, where white space around is no part of the content -/
inductive CssUri (space : Int → Bool) (t : List Int) (i : Nat) : Part → Prop
  | quoted {a e d} : SaysAt ['u', 'r', 'l', '('] t i → RunAt (fun c => space c = true) t (i + 4) a → QuotedAt t a e → RunAt (fun c => space c = true) t (e + 1) d → t[d]? = some 41 → CssUri space t i ((a + 1, e), (i, d + 1))
  | plain {a d y} : SaysAt ['u', 'r', 'l', '('] t i → RunAt (fun c => space c = true) t (i + 4) a → t[a]? ≠ some 34 → t[a]? ≠ some 39 → RunAt (· ≠ 41) t a d → t[d]? = some 41 → TrimEnd space t a d y →
    CssUri space t i ((a, y), (i, d + 1))

/-- `@import '…'` or `@import "…"` -/
def CssImport (space : Int → Bool) (t : List Int) (i : Nat) (p : Part) : Prop :=
  ∃ a e, SaysAt ['@', 'i', 'm', 'p', 'o', 'r', 't'] t i ∧ RunAt (fun c => space c = true) t (i + 7) a ∧ QuotedAt t a e ∧ p = ((a + 1, e), (i, e + 1))

/-- What follows the types: nothing, a semicolon, or a semicolon and the charset, with or without quotes; and where that ends. -/
inductive CharsetAt (space : Int → Bool) (t : List Int) (b : Nat) : Iv → Nat → Prop
  | none : t[b]? ≠ some 59 → CharsetAt space t b none b
  | other {c} : t[b]? = some 59 → RunAt (fun c => space c = true) t (b + 1) c → ¬ SaysAt ['c', 'h', 'a', 'r', 's', 'e', 't', '='] t c → CharsetAt space t b .none c
  | plain {c d} : t[b]? = some 59 → RunAt (fun c => space c = true) t (b + 1) c → SaysAt ['c', 'h', 'a', 'r', 's', 'e', 't', '='] t c → t[c + 8]? ≠ some 34 → t[c + 8]? ≠ some 39 →
    RunAt (fun c => space c = false) t (c + 8) d → CharsetAt space t b (some (c + 8, d)) d
  | quoted {c d q} : t[b]? = some 59 → RunAt (fun c => space c = true) t (b + 1) c → SaysAt ['c', 'h', 'a', 'r', 's', 'e', 't', '='] t c → (q = 34 ∨ q = 39) → t[c + 8]? = some q → RunAt (· ≠ q) t (c + 9) d → t[d]? = some q →
    CharsetAt space t b (some (c + 9, d)) (d + 1)
  | unclosed {c d q} : t[b]? = some 59 → RunAt (fun c => space c = true) t (b + 1) c → SaysAt ['c', 'h', 'a', 'r', 's', 'e', 't', '='] t c → (q = 34 ∨ q = 39) → t[c + 8]? = some q → RunAt (· ≠ q) t (c + 9) d → d = t.length →
    CharsetAt space t b .none d

/-- No slash, semicolon, or white space -/
def InMime (space : Int → Bool) (c : Int) : Prop := c ≠ 47 ∧ c ≠ 59 ∧ space c = false

/-- `type/subtype` and what follows -/
def MimeAt (space : Int → Bool) (t : List Int) (i : Nat) (m : Mime) : Prop :=
  ∃ a b e, RunAt (InMime space) t i a ∧ i < a ∧ t[a]? = some 47 ∧ RunAt (InMime space) t (a + 1) b ∧ a + 1 < b ∧ CharsetAt space t b m.charset e ∧ m.base = (i, a) ∧ m.sub = (a + 1, b) ∧ m.interval = (i, e)

/-! ### Proofs -/

theorem Decides.no {α : Type} {f : Option (Option α)} {P : α → Prop} (hf : f = some none) (h : ∀ a, ¬ P a) : Decides f P := ⟨none, hf, fun a => ⟨(fun q => nomatch q), fun q => absurd q (h a)⟩⟩

theorem Decides.yes {α : Type} {f : Option (Option α)} {P : α → Prop} {a : α} (hf : f = some (some a)) (h : P a) (one : ∀ b, P b → b = a) : Decides f P :=
  ⟨some a, hf, fun b => ⟨fun q => by cases q; exact h, fun q => by rw [one b q]⟩⟩

theorem litAt_nil (t : List Int) (i : Nat) : LitAt [] t i := fun k a b q => by simp at q

theorem litAt_cons {p : Int × Int} {ps : List (Int × Int)} {t : List Int} {i : Nat} : LitAt (p :: ps) t i ↔ (t[i]? = some p.1 ∨ t[i]? = some p.2) ∧ LitAt ps t (i + 1) := by
  constructor
  · intro h
    refine ⟨h 0 p.1 p.2 rfl, ?_⟩
    intro k a b q
    have := h (k + 1) a b q
    rwa [show i + (k + 1) = i + 1 + k by omega] at this
  · rintro ⟨h1, h2⟩ k a b q
    cases k with
    | zero => cases q; exact h1
    | succ k =>
      have := h2 k a b q
      rwa [show i + 1 + k = i + (k + 1) by omega] at this

theorem litFrom_spec {v : Env} {t : List Int} (h : v.Ok t) : ∀ (ps : List (Int × Int)) {i : Nat}, (∀ p ∈ ps, p.1 ≠ 0 ∧ p.2 ≠ 0) → i ≤ t.length → (ps ≠ [] → below v.fin (i + (ps.length - 1)) = true) →
    (LitAt ps t i ∧ litFrom v ps i = some true) ∨ (¬ LitAt ps t i ∧ litFrom v ps i = some false) := by
  intro ps
  induction ps with
  | nil => intro i _ _ _; exact .inl ⟨litAt_nil t i, rfl⟩
  | cons p ps ih =>
    intro i hp hi hb
    have b : below v.fin i = true := by
      have := hb (by simp)
      cases hf : v.fin with
      | none => rfl
      | some n =>
        rw [hf] at this
        unfold below at this ⊢
        simp only [decide_eq_true_eq] at this ⊢
        omega
    have hr : rd v.s i = some (t[i]?.getD 0) := by
      rw [h.text] at hi ⊢
      exact rd_eq h.valid hi b
    unfold litFrom
    rw [hr]
    dsimp only
    have hp0 := hp p (by simp)
    cases hc : t[i]? with
    | none =>
      refine .inr ⟨?_, if_neg ?_⟩
      · rw [litAt_cons, hc]; rintro ⟨q | q, -⟩ <;> cases q
      · show ¬ ((0 : Int) = p.1 ∨ (0 : Int) = p.2)
        omega
    | some c =>
      show (_ ∧ (if c = p.1 ∨ c = p.2 then litFrom v ps (i + 1) else some false) = _) ∨ (_ ∧ (if c = p.1 ∨ c = p.2 then litFrom v ps (i + 1) else some false) = _)
      by_cases q : c = p.1 ∨ c = p.2
      · rw [if_pos q]
        have hl := get_lt hc
        have q' : t[i]? = some p.1 ∨ t[i]? = some p.2 := by rw [hc]; rcases q with q | q <;> simp [q]
        rcases ih (fun x hx => hp x (List.mem_cons_of_mem _ hx)) hl (by
          intro ne
          have := hb (by simp)
          rw [List.length_cons] at this
          have hps : 0 < ps.length := List.length_pos_iff.2 ne
          rwa [show i + (ps.length + 1 - 1) = i + 1 + (ps.length - 1) by omega] at this) with ⟨e1, e2⟩ | ⟨e1, e2⟩
        · exact .inl ⟨litAt_cons.2 ⟨q', e1⟩, e2⟩
        · exact .inr ⟨fun x => e1 (litAt_cons.1 x).2, e2⟩
      · rw [if_neg q]
        refine .inr ⟨fun x => q ?_, rfl⟩
        have := (litAt_cons.1 x).1
        rw [hc] at this
        rcases this with y | y <;> cases y
        · exact .inl rfl
        · exact .inr rfl

/-- The pairs are the two cases of the word. -/
def Cases : List (Int × Int) → List Char → Prop
  | [], [] => True
  | p :: ps, c :: w => (∀ x, (x = p.1 ∨ x = p.2) ↔ asciiLower x = (c.toNat : Int)) ∧ Cases ps w
  | _, _ => False

theorem litAt_says {t : List Int} : ∀ {ps : List (Int × Int)} {w : List Char}, Cases ps w → ∀ {i : Nat}, LitAt ps t i ↔ SaysAt w t i := by
  intro ps
  induction ps with
  | nil =>
    intro w hw i
    cases w with
    | nil => exact ⟨fun _ => rfl, fun _ => litAt_nil t i⟩
    | cons c w => exact hw.elim
  | cons p ps ih =>
    intro w hw i
    cases w with
    | nil => exact hw.elim
    | cons c w =>
      rw [litAt_cons, ih hw.2]
      unfold SaysAt
      rw [List.length_cons]
      cases hc : t[i]? with
      | none =>
        rw [List.drop_eq_nil_iff.2 (List.getElem?_eq_none_iff.1 hc)]
        simp
      | some d =>
        obtain ⟨hl, q⟩ := List.getElem?_eq_some_iff.1 hc
        rw [List.drop_eq_getElem_cons hl, q, List.take_succ_cons, List.map_cons, List.map_cons, List.cons.injEq, ← hw.1 d, Option.some.injEq, Option.some.injEq]

theorem case_pair {a b : Int} {c : Char} (h : (c.toNat : Int) = a) (hb : (97 ≤ a ∧ a ≤ 122 ∧ b = a - 32) ∨ (a = b ∧ ¬ (65 ≤ a ∧ a ≤ 90) ∧ ¬ (97 ≤ a ∧ a ≤ 122))) (x : Int) : (x = a ∨ x = b) ↔ asciiLower x = (c.toNat : Int) := by
  rw [h]
  unfold asciiLower
  split <;> omega

theorem url_says {t : List Int} {i : Nat} : LitAt urlLit t i ↔ SaysAt ['u', 'r', 'l', '('] t i :=
  litAt_says (ps := urlLit) (w := ['u', 'r', 'l', '(']) ⟨case_pair rfl (by decide), case_pair rfl (by decide), case_pair rfl (by decide), case_pair rfl (by decide), trivial⟩

theorem import_says {t : List Int} {i : Nat} : LitAt importLit t i ↔ SaysAt ['@', 'i', 'm', 'p', 'o', 'r', 't'] t i :=
  litAt_says (ps := importLit) (w := ['@', 'i', 'm', 'p', 'o', 'r', 't']) ⟨case_pair rfl (by decide), case_pair rfl (by decide), case_pair rfl (by decide), case_pair rfl (by decide), case_pair rfl (by decide), case_pair rfl (by decide), case_pair rfl (by decide), trivial⟩

theorem charset_says {t : List Int} {i : Nat} : LitAt charsetLit t i ↔ SaysAt ['c', 'h', 'a', 'r', 's', 'e', 't', '='] t i :=
  litAt_says (ps := charsetLit) (w := ['c', 'h', 'a', 'r', 's', 'e', 't', '=']) ⟨case_pair rfl (by decide), case_pair rfl (by decide), case_pair rfl (by decide), case_pair rfl (by decide), case_pair rfl (by decide), case_pair rfl (by decide), case_pair rfl (by decide), case_pair rfl (by decide), trivial⟩

/-- The characters of a literal are no terminators. -/
def NoNul (ps : List (Int × Int)) : Prop := ps ≠ [] ∧ ∀ p ∈ ps, p.1 ≠ 0 ∧ p.2 ≠ 0

instance (ps : List (Int × Int)) : Decidable (NoNul ps) := by unfold NoNul; infer_instance

theorem litAt_len {ps : List (Int × Int)} {t : List Int} {i : Nat} (hp : ps ≠ []) (h : LitAt ps t i) : i + ps.length ≤ t.length := by
  have hps : 0 < ps.length := List.length_pos_iff.2 hp
  have hk : ps.length - 1 < ps.length := by omega
  have := h (ps.length - 1) (ps[ps.length - 1]).1 (ps[ps.length - 1]).2 (List.getElem?_eq_getElem hk)
  rcases this with q | q <;> have := get_lt q <;> omega

theorem lit_cases {v : Env} {t : List Int} (h : v.Ok t) {ps : List (Int × Int)} (hp : NoNul ps) {i : Nat} (hi : i ≤ t.length) :
    (LitAt ps t i ∧ litAt v ps i = some true) ∨ (¬ LitAt ps t i ∧ litAt v ps i = some false) := by
  unfold litAt
  by_cases b : below v.fin (i + (ps.length - 1)) = true
  · rw [if_pos b]
    exact litFrom_spec h ps hp.2 hi (fun _ => b)
  · rw [if_neg b]
    refine .inr ⟨fun q => b ?_, rfl⟩
    have := litAt_len hp.1 q
    have hps : 0 < ps.length := List.length_pos_iff.2 hp.1
    cases hf : v.fin with
    | none => rfl
    | some n =>
      have := text_len_fin h hf
      unfold below
      simp only [decide_eq_true_eq]
      omega

theorem says_cases {v : Env} {t : List Int} (h : v.Ok t) {ps : List (Int × Int)} {w : List Char} (hp : NoNul ps) (hs : ∀ i, LitAt ps t i ↔ SaysAt w t i) {i : Nat} (hi : i ≤ t.length) :
    (SaysAt w t i ∧ litAt v ps i = some true) ∨ (¬ SaysAt w t i ∧ litAt v ps i = some false) := by
  rw [← hs]
  exact lit_cases h hp hi

theorem firstLit_one {ps : List (Int × Int)} {t : List Int} {a e e' : Nat} (h : FirstLit ps t a e) (h' : FirstLit ps t a e') : e = e' := by
  rcases Nat.lt_trichotomy e e' with q | q | q
  · exact absurd h.2.1 (h'.2.2 e h.1 q)
  · exact q
  · exact absurd h'.2.1 (h.2.2 e' h'.1 q)

theorem findLit_spec {v : Env} {t : List Int} (h : v.Ok t) {ps : List (Int × Int)} (hp : NoNul ps) : ∀ (fuel : Nat) {a : Nat}, a ≤ t.length → t.length - a < fuel →
    (∃ e, FirstLit ps t a e ∧ e + ps.length ≤ t.length ∧ findLit v ps fuel a = some (some e)) ∨ ((∀ e, ¬ FirstLit ps t a e) ∧ findLit v ps fuel a = some none) := by
  intro fuel
  induction fuel with
  | zero => intro a _ q; omega
  | succ fuel ih =>
    intro a ha hf
    unfold findLit
    rw [peek_eq h ha]
    have hps : 0 < ps.length := List.length_pos_iff.2 hp.1
    cases hc : t[a]? with
    | none =>
      refine .inr ⟨?_, rfl⟩
      intro e q
      have := litAt_len hp.1 q.2.1
      have := q.1
      have := List.getElem?_eq_none_iff.1 hc
      omega
    | some c =>
      dsimp only
      have hl := get_lt hc
      rcases lit_cases h hp ha with ⟨e1, e2⟩ | ⟨e1, e2⟩
      · rw [e2]
        exact .inl ⟨a, ⟨Nat.le_refl _, e1, fun j _ _ => by omega⟩, litAt_len hp.1 e1, rfl⟩
      · rw [e2]
        dsimp only
        have step : ∀ e, FirstLit ps t a e ↔ FirstLit ps t (a + 1) e := by
          intro e
          constructor
          · intro q
            have ne : a ≠ e := fun x => e1 (x ▸ q.2.1)
            exact ⟨by have := q.1; omega, q.2.1, fun j h1 h2 => q.2.2 j (by omega) h2⟩
          · intro q
            refine ⟨by have := q.1; omega, q.2.1, fun j h1 h2 => ?_⟩
            by_cases x : j = a
            · exact x ▸ e1
            · exact q.2.2 j (by omega) h2
        rcases ih hl (by omega) with ⟨e, x, y⟩ | ⟨x, y⟩
        · exact .inl ⟨e, (step e).2 x, y⟩
        · exact .inr ⟨fun e q => x e ((step e).1 q), y⟩

/-- **C96** (comments) -/
theorem cssComment_spec {v : Env} {t : List Int} (h : v.Ok t) {i : Nat} (hi : i ≤ t.length) : Decides (cssComment v i) (CssComment t i) := by
  unfold cssComment
  rcases lit_cases h (ps := [(47, 47), (42, 42)]) (by decide) hi with ⟨e1, e2⟩ | ⟨e1, e2⟩
  · rw [e2]
    have := litAt_len (by decide) e1
    rcases findLit_spec h (ps := [(42, 42), (47, 47)]) (by decide) (fuelOf v) (a := i + 2) this (fuel_all h _) with ⟨e, x, -, y⟩ | ⟨x, y⟩
    · refine .yes (a := ((i + 2, e), (i, e + 2))) (by dsimp only; rw [y]) ⟨e, e1, x, rfl⟩ ?_
      rintro b ⟨e', -, x', rfl⟩
      rw [firstLit_one x x']
    · refine .no (by dsimp only; rw [y]) ?_
      rintro a ⟨e, -, q, -⟩
      exact x e q
  · rw [e2]
    exact .no rfl (fun a ⟨e, q, _⟩ => e1 q)

theorem lit_decides {v : Env} {t : List Int} (h : v.Ok t) {ps : List (Int × Int)} (hp : NoNul ps) {i : Nat} (hi : i ≤ t.length) (n : Nat) :
    Decides ((litAt v ps i).map fun b => if b then some (i + n) else none) (fun e => LitAt ps t i ∧ e = i + n) := by
  rcases lit_cases h hp hi with ⟨e1, e2⟩ | ⟨e1, e2⟩
  · rw [e2]
    exact .yes (a := i + n) rfl ⟨e1, rfl⟩ (fun b q => q.2)
  · rw [e2]
    exact .no rfl (fun a q => e1 q.1)

/-- `<!--` and `-->` -/
def CdoAt (t : List Int) (i : Nat) (e : Nat) : Prop := (t.drop i).take 4 = [60, 33, 45, 45] ∧ e = i + 4
def CdcAt (t : List Int) (i : Nat) (e : Nat) : Prop := (t.drop i).take 3 = [45, 45, 62] ∧ e = i + 3

theorem litAt_take {t : List Int} (w : List Int) : ∀ {i : Nat}, LitAt (w.map fun c => (c, c)) t i ↔ (t.drop i).take w.length = w := by
  induction w with
  | nil => intro i; exact ⟨fun _ => by simp, fun _ => litAt_nil t i⟩
  | cons c w ih =>
    intro i
    rw [List.map_cons, litAt_cons, ih, List.length_cons]
    dsimp only
    rw [or_self]
    cases hc : t[i]? with
    | none =>
      rw [List.drop_eq_nil_iff.2 (List.getElem?_eq_none_iff.1 hc)]
      simp
    | some d =>
      obtain ⟨hl, q⟩ := List.getElem?_eq_some_iff.1 hc
      rw [List.drop_eq_getElem_cons hl, q, List.take_succ_cons]
      simp

/-- **C96** (delimiters) -/
theorem cssCdo_spec {v : Env} {t : List Int} (h : v.Ok t) {i : Nat} (hi : i ≤ t.length) : Decides (cssCdo v i) (CdoAt t i) := by
  obtain ⟨r, r1, r2⟩ := lit_decides h (ps := [(60, 60), (33, 33), (45, 45), (45, 45)]) (by decide) hi 4
  refine ⟨r, r1, fun a => ?_⟩
  exact (r2 a).trans (and_congr (litAt_take [60, 33, 45, 45] (i := i)) Iff.rfl)

theorem cssCdc_spec {v : Env} {t : List Int} (h : v.Ok t) {i : Nat} (hi : i ≤ t.length) : Decides (cssCdc v i) (CdcAt t i) := by
  obtain ⟨r, r1, r2⟩ := lit_decides h (ps := [(45, 45), (45, 45), (62, 62)]) (by decide) hi 3
  refine ⟨r, r1, fun a => ?_⟩
  exact (r2 a).trans (and_congr (litAt_take [45, 45, 62] (i := i)) Iff.rfl)

theorem quoteAt_eq {v : Env} {t : List Int} (h : v.Ok t) {i : Nat} (hi : i ≤ t.length) :
    (∃ q, (q = 34 ∨ q = 39) ∧ t[i]? = some q ∧ quoteAt v i = some (some q)) ∨ (t[i]? ≠ some 34 ∧ t[i]? ≠ some 39 ∧ quoteAt v i = some none) := by
  unfold quoteAt
  rw [peek_eq h hi]
  show _ ∨ (_ ∧ _ ∧ some (if t[i]? = some 34 ∨ t[i]? = some 39 then t[i]? else none) = some none)
  by_cases q : t[i]? = some 34 ∨ t[i]? = some 39
  · refine .inl ?_
    show ∃ q, _ ∧ _ ∧ some (if t[i]? = some 34 ∨ t[i]? = some 39 then t[i]? else none) = some (some q)
    rw [if_pos q]
    rcases q with q | q
    · exact ⟨34, .inl rfl, q, by rw [q]⟩
    · exact ⟨39, .inr rfl, q, by rw [q]⟩
  · rw [if_neg q]
    exact .inr ⟨fun x => q (.inl x), fun x => q (.inr x), rfl⟩

theorem endQuote_one {t : List Int} {q : Int} {a e e' : Nat} (h : EndQuote t q a e) (h' : EndQuote t q a e') : e = e' := by
  rcases Nat.lt_trichotomy e e' with x | x | x
  · exact absurd (h'.2.2.2 e h.1 x h.2.1) h.2.2.1
  · exact x
  · exact absurd (h.2.2.2 e' h'.1 x h'.2.1) h'.2.2.1

/-- One character is passed. -/
theorem endQuote_step {t : List Int} {q : Int} {a e : Nat} (hq : t[a]? ≠ some q) (hs : t[a]? = some 92 → t[a + 1]? ≠ some q) : EndQuote t q a e ↔ EndQuote t q (a + 1) e := by
  constructor
  · rintro ⟨h1, h2, h3, h4⟩
    have ne : a ≠ e := fun x => hq (x ▸ h2)
    refine ⟨by omega, h2, fun x => h3 ⟨by omega, x.2⟩, fun j j1 j2 j3 => ?_⟩
    obtain ⟨k1, k2⟩ := h4 j (by omega) j2 j3
    refine ⟨?_, k2⟩
    by_cases x : j = a + 1
    · subst x; exact absurd j3 (hs (by rwa [Nat.add_sub_cancel] at k2))
    · omega
  · rintro ⟨h1, h2, h3, h4⟩
    refine ⟨by omega, h2, fun x => ?_, fun j j1 j2 j3 => ?_⟩
    · by_cases y : e = a + 1
      · subst y; exact hs (by have := x.2; rwa [Nat.add_sub_cancel] at this) h2
      · exact h3 ⟨by omega, x.2⟩
    · by_cases y : j = a
      · subst y; exact absurd j3 hq
      · obtain ⟨k1, k2⟩ := h4 j (by omega) j2 j3
        exact ⟨by omega, k2⟩

/-- A backslash and a quote are passed. -/
theorem endQuote_escape {t : List Int} {q d : Int} {a e : Nat} (hq : q = 34 ∨ q = 39) (hs : t[a]? = some 92) (hd : d = 34 ∨ d = 39) (hn : t[a + 1]? = some d) : EndQuote t q a e ↔ EndQuote t q (a + 2) e := by
  have q92 : q ≠ 92 := by omega
  have d92 : d ≠ 92 := by omega
  constructor
  · rintro ⟨h1, h2, h3, h4⟩
    have ne : a ≠ e := fun x => by subst x; rw [hs] at h2; cases h2; exact q92 rfl
    have ne' : a + 1 ≠ e := fun x => h3 ⟨by omega, by rw [← x, Nat.add_sub_cancel]; exact hs⟩
    refine ⟨by omega, h2, fun x => h3 ⟨by omega, x.2⟩, fun j j1 j2 j3 => ?_⟩
    obtain ⟨k1, k2⟩ := h4 j (by omega) j2 j3
    refine ⟨?_, k2⟩
    by_cases x : j = a + 2
    · subst x
      rw [show a + 2 - 1 = a + 1 by omega, hn] at k2
      cases k2; exact absurd rfl d92
    · omega
  · rintro ⟨h1, h2, h3, h4⟩
    refine ⟨by omega, h2, fun x => ?_, fun j j1 j2 j3 => ?_⟩
    · by_cases y : e = a + 2
      · subst y
        have := x.2
        rw [show a + 2 - 1 = a + 1 by omega, hn] at this
        cases this; exact d92 rfl
      · exact h3 ⟨by omega, x.2⟩
    · by_cases y : j = a
      · subst y; rw [hs] at j3; cases j3; exact absurd rfl q92
      · by_cases z : j = a + 1
        · subst z; exact ⟨by omega, by rw [Nat.add_sub_cancel]; exact hs⟩
        · obtain ⟨k1, k2⟩ := h4 j (by omega) j2 j3
          exact ⟨by omega, k2⟩

theorem quoteLoop_spec {v : Env} {t : List Int} (h : v.Ok t) {q : Int} (hq : q = 34 ∨ q = 39) : ∀ (fuel : Nat) {a : Nat}, a ≤ t.length → t.length - a < fuel →
    (∃ e, EndQuote t q a e ∧ e < t.length ∧ quoteLoop v q fuel a = some (some e)) ∨ ((∀ e, ¬ EndQuote t q a e) ∧ quoteLoop v q fuel a = some none) := by
  intro fuel
  induction fuel using Nat.strongRecOn with
  | ind fuel ih =>
  intro a ha hf
  match fuel, ih, hf with
  | 0, _, hf => omega
  | fuel + 1, ih, hf =>
    unfold quoteLoop
    rw [peek_eq h ha]
    cases hc : t[a]? with
    | none =>
      refine .inr ⟨?_, rfl⟩
      intro e x
      have := get_lt x.2.1
      have := x.1
      have := List.getElem?_eq_none_iff.1 hc
      omega
    | some c =>
      have hl := get_lt hc
      dsimp only
      by_cases cq : c = q
      · rw [if_pos cq]
        exact .inl ⟨a, ⟨Nat.le_refl _, cq ▸ hc, fun x => by omega, fun j _ _ => by omega⟩, hl, rfl⟩
      · rw [if_neg cq]
        have hqa : t[a]? ≠ some q := fun x => by rw [hc] at x; cases x; exact cq rfl
        have pass : ∀ (k : Nat), 0 < k → a + k ≤ t.length → (∀ e, EndQuote t q a e ↔ EndQuote t q (a + k) e) →
            (∃ e, EndQuote t q a e ∧ e < t.length ∧ quoteLoop v q fuel (a + k) = some (some e)) ∨ ((∀ e, ¬ EndQuote t q a e) ∧ quoteLoop v q fuel (a + k) = some none) := by
          intro k k0 hk st
          rcases ih fuel (by omega) hk (by omega) with ⟨e, x, y⟩ | ⟨x, y⟩
          · exact .inl ⟨e, (st e).2 x, y⟩
          · exact .inr ⟨fun e z => x e ((st e).1 z), y⟩
        by_cases c92 : c = 92
        · rw [if_pos c92]
          subst c92
          rcases quoteAt_eq h hl with ⟨d, d1, d2, d3⟩ | ⟨d1, d2, d3⟩
          · rw [d3]
            exact pass 2 (by omega) (get_lt d2) (fun e => endQuote_escape hq hc d1 d2)
          · rw [d3]
            refine pass 1 (by omega) hl (fun e => endQuote_step hqa (fun _ => ?_))
            rcases hq with rfl | rfl
            · exact d1
            · exact d2
        · rw [if_neg c92]
          exact pass 1 (by omega) hl (fun e => endQuote_step hqa (fun x => by rw [hc] at x; cases x; exact absurd rfl c92))

theorem quoted_cases {v : Env} {t : List Int} (h : v.Ok t) {i : Nat} (hi : i ≤ t.length) :
    (∃ e, QuotedAt t i e ∧ e < t.length ∧ quotedAt v i = some (some e)) ∨ ((∀ e, ¬ QuotedAt t i e) ∧ quotedAt v i = some none) := by
  unfold quotedAt
  rcases quoteAt_eq h hi with ⟨q, d1, d2, d3⟩ | ⟨d1, d2, d3⟩
  · rw [d3]
    rcases quoteLoop_spec h d1 (fuelOf v) (a := i + 1) (get_lt d2) (fuel_all h _) with ⟨e, x, y, z⟩ | ⟨x, z⟩
    · exact .inl ⟨e, ⟨q, d1, d2, x⟩, y, z⟩
    · refine .inr ⟨?_, z⟩
      rintro e ⟨q', -, h2, h3⟩
      rw [d2] at h2; cases h2
      exact x e h3
  · rw [d3]
    refine .inr ⟨?_, rfl⟩
    rintro e ⟨q', rfl | rfl, h2, -⟩
    · exact d1 h2
    · exact d2 h2

theorem quotedAt_one {t : List Int} {i e e' : Nat} (h : QuotedAt t i e) (h' : QuotedAt t i e') : e = e' := by
  obtain ⟨q, -, h2, h3⟩ := h
  obtain ⟨q', -, h2', h3'⟩ := h'
  rw [h2] at h2'; cases h2'
  exact endQuote_one h3 h3'

/-- **C96** (strings) -/
theorem cssString_spec {v : Env} {t : List Int} (h : v.Ok t) {i : Nat} (hi : i ≤ t.length) : Decides (cssString v i) (CssString t i) := by
  unfold cssString
  rcases quoted_cases h hi with ⟨e, x, -, y⟩ | ⟨x, y⟩
  · rw [y]
    refine .yes (a := ((i + 1, e), (i, e + 1))) rfl ⟨e, x, rfl⟩ ?_
    rintro b ⟨e', x', rfl⟩
    rw [quotedAt_one x x']
  · rw [y]
    exact .no rfl (fun a ⟨e, q, _⟩ => x e q)

theorem trimEnd_one {space : Int → Bool} {t : List Int} {a d y y' : Nat} (h : TrimEnd space t a d y) (h' : TrimEnd space t a d y') : y = y' := by
  have key : ∀ {y y'}, TrimEnd space t a d y → TrimEnd space t a d y' → ¬ y < y' := by
    rintro y y' ⟨h1, h2, h3, h4⟩ ⟨k1, k2, k3, k4⟩ lt
    rcases k4 with k | ⟨c, k, kc⟩
    · omega
    · obtain ⟨x, p, q⟩ := h3 (y' - 1) (by omega) (by omega)
      rw [k] at p; cases p; rw [kc] at q; cases q
  have := key h h'
  have := key h' h
  omega

theorem trimLoop_spec {v : Env} {t : List Int} (h : v.Ok t) (stop : Int) {a : Nat} : ∀ (fuel : Nat) {e y : Nat}, e ≤ t.length → t.length - e < fuel → TrimEnd v.space t a e y →
    (∃ d z, RunAt (· ≠ stop) t e d ∧ t[d]? = some stop ∧ TrimEnd v.space t a d z ∧ trimLoop v stop fuel e y = some (some (z, d))) ∨ ((∀ d, RunAt (· ≠ stop) t e d → t[d]? ≠ some stop) ∧ trimLoop v stop fuel e y = some none) := by
  intro fuel
  induction fuel with
  | zero => intro e y _ q; omega
  | succ fuel ih =>
    intro e y he hf ht
    unfold trimLoop
    rw [peek_eq h he]
    cases hc : t[e]? with
    | none =>
      refine .inr ⟨?_, rfl⟩
      intro d hd hs
      have hr : RunAt (· ≠ stop) t e e := runAt_nil (fun c q => by rw [hc] at q; cases q)
      rw [runAt_one hd hr, hc] at hs
      cases hs
    | some c =>
      have hl := get_lt hc
      dsimp only
      by_cases cs : c = stop
      · rw [if_pos cs]
        exact .inl ⟨e, y, runAt_nil (fun d q x => by rw [hc] at q; cases q; exact x cs), cs ▸ hc, ht, rfl⟩
      · rw [if_neg cs]
        have back : ∀ d, RunAt (· ≠ stop) t e d → RunAt (· ≠ stop) t (e + 1) d := by
          intro d hd
          refine ⟨?_, fun j h1 h2 => hd.2.1 j (by omega) h2, hd.2.2⟩
          have := hd.1
          by_cases x : e = d
          · subst x; exact absurd cs (hd.2.2 c hc)
          · omega
        have fin : ∀ y', TrimEnd v.space t a (e + 1) y' →
            (∃ d z, RunAt (· ≠ stop) t e d ∧ t[d]? = some stop ∧ TrimEnd v.space t a d z ∧ trimLoop v stop fuel (e + 1) y' = some (some (z, d))) ∨ ((∀ d, RunAt (· ≠ stop) t e d → t[d]? ≠ some stop) ∧ trimLoop v stop fuel (e + 1) y' = some none) := by
          intro y' hy
          rcases ih hl (by omega) hy with ⟨d, z, h1, h2⟩ | ⟨h1, h2⟩
          · exact .inl ⟨d, z, runAt_cons hc cs h1, h2⟩
          · exact .inr ⟨fun d hd => h1 d (back d hd), h2⟩
        by_cases sp : v.space c = true
        · rw [if_pos sp]
          refine fin y ⟨ht.1, by have := ht.2.1; omega, fun j h1 h2 => ?_, ht.2.2.2⟩
          by_cases x : j = e
          · subst x; exact ⟨c, hc, sp⟩
          · exact ht.2.2.1 j h1 (by omega)
        · rw [if_neg sp]
          refine fin (e + 1) ⟨by have := ht.1; have := ht.2.1; omega, Nat.le_refl _, fun j h1 h2 => by omega, .inr ⟨c, ?_, by simpa using sp⟩⟩
          rw [Nat.add_sub_cancel]; exact hc

theorem space_to {v : Env} {t : List Int} (h : v.Ok t) {i : Nat} (hi : i ≤ t.length) : ∃ e, scan v v.space (fuelOf v) i = some e ∧ RunAt (fun c => v.space c = true) t i e ∧ e ≤ t.length :=
  scan_to h (fun _ => Iff.rfl) hi

/-- **C96** (`url(…)`) -/
theorem cssUri_spec {v : Env} {t : List Int} (h : v.Ok t) {i : Nat} (hi : i ≤ t.length) : Decides (cssUri v i) (CssUri v.space t i) := by
  unfold cssUri
  rcases says_cases h (ps := urlLit) (by decide) (fun _ => url_says) hi with ⟨e1, e2⟩ | ⟨e1, e2⟩
  · rw [e2]
    dsimp only
    obtain ⟨a, a1, a2, a3⟩ := space_to h (i := i + 4) (litAt_len (by decide) (url_says.2 e1))
    rw [a1]
    dsimp only
    rcases quoteAt_eq h a3 with ⟨q, d1, d2, d3⟩ | ⟨d1, d2, d3⟩
    · rw [d3]
      dsimp only
      have nop : ∀ {a' d y}, RunAt (fun c => v.space c = true) t (i + 4) a' → t[a']? ≠ some 34 → t[a']? ≠ some 39 → RunAt (· ≠ 41) t a' d → t[d]? = some 41 → TrimEnd v.space t a' d y → False := by
        intro a' d y h1 h2 h3 _ _ _
        have := runAt_one a2 h1; subst this
        rcases d1 with rfl | rfl
        · exact h2 d2
        · exact h3 d2
      rcases quoteLoop_spec h d1 (fuelOf v) (a := a + 1) (get_lt d2) (fuel_all h _) with ⟨e, x, y, z⟩ | ⟨x, z⟩
      · rw [z]
        dsimp only
        obtain ⟨d, s1, s2, s3⟩ := space_to h (i := e + 1) y
        rw [s1]
        dsimp only
        rw [hasChar_eq h s3]
        by_cases p : t[d]? = some 41
        · rw [decide_eq_true p]
          refine .yes rfl (CssUri.quoted e1 a2 ⟨q, d1, d2, x⟩ s2 p) ?_
          intro b hb
          cases hb with
          | quoted _ k2 k3 k4 k5 =>
            have := runAt_one a2 k2; subst this
            have := quotedAt_one k3 ⟨q, d1, d2, x⟩; subst this
            rw [runAt_one s2 k4]
          | plain _ k2 k3 k4 k5 k6 k7 => exact absurd (nop k2 k3 k4 k5 k6 k7) id
        · rw [decide_eq_false p]
          refine .no rfl ?_
          intro b hb
          cases hb with
          | quoted _ k2 k3 k4 k5 =>
            have := runAt_one a2 k2; subst this
            have := quotedAt_one k3 ⟨q, d1, d2, x⟩; subst this
            rw [← runAt_one s2 k4] at k5
            exact p k5
          | plain _ k2 k3 k4 k5 k6 k7 => exact nop k2 k3 k4 k5 k6 k7
      · rw [z]
        refine .no rfl ?_
        intro b hb
        cases hb with
        | quoted _ k2 k3 k4 k5 =>
          have := runAt_one a2 k2; subst this
          obtain ⟨q', -, l2, l3⟩ := k3
          rw [d2] at l2; cases l2
          exact x _ l3
        | plain _ k2 k3 k4 k5 k6 k7 => exact nop k2 k3 k4 k5 k6 k7
    · rw [d3]
      dsimp only
      have noq : ∀ {a' e}, RunAt (fun c => v.space c = true) t (i + 4) a' → QuotedAt t a' e → False := by
        rintro a' e h1 ⟨q, q1, q2, -⟩
        have := runAt_one a2 h1; subst this
        rcases q1 with rfl | rfl
        · exact d1 q2
        · exact d2 q2
      rcases trimLoop_spec h 41 (a := a) (fuelOf v) (e := a) (y := a) a3 (fuel_all h _) ⟨Nat.le_refl _, Nat.le_refl _, fun j _ _ => by omega, .inl rfl⟩ with ⟨d, z, s1, s2, s3, s4⟩ | ⟨s1, s2⟩
      · rw [s4]
        refine .yes rfl (CssUri.plain e1 a2 d1 d2 s1 s2 s3) ?_
        intro b hb
        cases hb with
        | quoted _ k2 k3 => exact absurd (noq k2 k3) id
        | plain _ k2 k3 k4 k5 k6 k7 =>
          have := runAt_one a2 k2; subst this
          have := runAt_one s1 k5; subst this
          rw [trimEnd_one s3 k7]
      · rw [s2]
        refine .no rfl ?_
        intro b hb
        cases hb with
        | quoted _ k2 k3 => exact noq k2 k3
        | plain _ k2 k3 k4 k5 k6 k7 =>
          have := runAt_one a2 k2; subst this
          exact s1 _ k5 k6
  · rw [e2]
    refine .no rfl ?_
    intro b hb
    cases hb with
    | quoted k => exact e1 k
    | plain k => exact e1 k

/-- **C96** (`@import`) -/
theorem cssImport_spec {v : Env} {t : List Int} (h : v.Ok t) {i : Nat} (hi : i ≤ t.length) : Decides (cssImport v i) (CssImport v.space t i) := by
  unfold cssImport
  rcases says_cases h (ps := importLit) (by decide) (fun _ => import_says) hi with ⟨e1, e2⟩ | ⟨e1, e2⟩
  · rw [e2]
    dsimp only
    obtain ⟨a, a1, a2, a3⟩ := space_to h (i := i + 7) (litAt_len (by decide) (import_says.2 e1))
    rw [a1]
    dsimp only
    rcases quoted_cases h a3 with ⟨e, x, -, y⟩ | ⟨x, y⟩
    · rw [y]
      refine .yes (a := ((a + 1, e), (i, e + 1))) rfl ⟨a, e, e1, a2, x, rfl⟩ ?_
      rintro b ⟨a', e', -, k2, k3, rfl⟩
      have := runAt_one a2 k2; subst this
      rw [quotedAt_one x k3]
    · rw [y]
      refine .no rfl ?_
      rintro b ⟨a', e', -, k2, k3, rfl⟩
      have := runAt_one a2 k2; subst this
      exact x _ k3
  · rw [e2]
    exact .no rfl (fun b ⟨_, _, k, _⟩ => e1 k)

theorem inMime_spec (v : Env) (c : Int) : inMime v c = true ↔ InMime v.space c := by
  unfold inMime InMime
  cases v.space c <;> simp

theorem charsetAt_one {space : Int → Bool} {t : List Int} {b e e' : Nat} {x x' : Iv} (h : CharsetAt space t b x e) (h' : CharsetAt space t b x' e') : x = x' ∧ e = e' := by
  have big : ∀ {c d : Nat} {q : Int}, SaysAt ['c', 'h', 'a', 'r', 's', 'e', 't', '='] t c → t[c + 8]? = some q → RunAt (· ≠ q) t (c + 9) d → t[d]? = some q → d = t.length → False := by
    intro c d q _ _ _ k k'
    have := get_lt k; omega
  have sp : ∀ {c c'}, RunAt (fun c => space c = true) t (b + 1) c → RunAt (fun c => space c = true) t (b + 1) c' → c = c' := fun k k' => runAt_one k k'
  cases h with
  | none k =>
    cases h' with
    | none => exact ⟨rfl, rfl⟩
    | other k' | plain k' | quoted k' | unclosed k' => exact absurd k' k
  | other k1 k2 k3 =>
    cases h' with
    | none k' => exact absurd k1 k'
    | other _ k' => exact ⟨rfl, sp k2 k'⟩
    | plain _ k' k'' | quoted _ k' k'' | unclosed _ k' k'' => have := sp k2 k'; subst this; exact absurd k'' k3
  | plain k1 k2 k3 k4 k5 k6 =>
    cases h' with
    | none k' => exact absurd k1 k'
    | other _ k' k'' => have := sp k2 k'; subst this; exact absurd k3 k''
    | plain _ k' _ _ _ k'' => have := sp k2 k'; subst this; rw [runAt_one k6 k'']; exact ⟨rfl, rfl⟩
    | quoted _ k' _ q k'' | unclosed _ k' _ q k'' =>
      have := sp k2 k'; subst this
      rcases q with rfl | rfl
      · exact absurd k'' k4
      · exact absurd k'' k5
  | quoted k1 k2 k3 kq k4 k5 k6 =>
    cases h' with
    | none k' => exact absurd k1 k'
    | other _ k' k'' => have := sp k2 k'; subst this; exact absurd k3 k''
    | plain _ k' _ k4' k5' =>
      have := sp k2 k'; subst this
      rcases kq with rfl | rfl
      · exact absurd k4 k4'
      · exact absurd k4 k5'
    | quoted _ k' _ _ l4 l5 l6 =>
      have := sp k2 k'; subst this
      rw [k4] at l4; cases l4
      rw [runAt_one k5 l5]; exact ⟨rfl, rfl⟩
    | unclosed _ k' _ _ l4 l5 l6 =>
      have := sp k2 k'; subst this
      rw [k4] at l4; cases l4
      have := runAt_one k5 l5; subst this
      exact absurd (big k3 k4 k5 k6 l6) id
  | unclosed k1 k2 k3 kq k4 k5 k6 =>
    cases h' with
    | none k' => exact absurd k1 k'
    | other _ k' k'' => have := sp k2 k'; subst this; exact absurd k3 k''
    | plain _ k' _ k4' k5' =>
      have := sp k2 k'; subst this
      rcases kq with rfl | rfl
      · exact absurd k4 k4'
      · exact absurd k4 k5'
    | quoted _ k' _ _ l4 l5 l6 =>
      have := sp k2 k'; subst this
      rw [k4] at l4; cases l4
      have := runAt_one k5 l5; subst this
      exact absurd (big k3 k4 k5 l6 k6) id
    | unclosed _ k' _ _ l4 l5 l6 => exact ⟨rfl, by rw [k6, l6]⟩

theorem mimeCharset_spec {v : Env} {t : List Int} (h : v.Ok t) {b : Nat} (hb : b ≤ t.length) : ∃ x e, CharsetAt v.space t b x e ∧ mimeCharset v b = some (x, e) := by
  unfold mimeCharset
  rw [hasChar_eq h hb]
  by_cases k1 : t[b]? = some 59
  · rw [decide_eq_true k1]
    dsimp only
    obtain ⟨c, a1, a2, a3⟩ := space_to h (i := b + 1) (get_lt k1)
    rw [a1]
    dsimp only
    rcases says_cases h (ps := charsetLit) (by decide) (fun _ => charset_says) a3 with ⟨e1, e2⟩ | ⟨e1, e2⟩
    · rw [e2]
      dsimp only
      have l8 : c + 8 ≤ t.length := litAt_len (by decide) (charset_says.2 e1)
      rcases quoteAt_eq h l8 with ⟨q, d1, d2, d3⟩ | ⟨d1, d2, d3⟩
      · rw [d3]
        dsimp only
        obtain ⟨d, s1, s2, s3⟩ := scan_to h (p := fun x => x != q) (P := (· ≠ q)) (by simp) (i := c + 9) (get_lt d2)
        rw [s1]
        dsimp only
        rw [peek_eq h s3]
        cases hd : t[d]? with
        | none => exact ⟨_, _, .unclosed k1 a2 e1 d1 d2 s2 (by have := List.getElem?_eq_none_iff.1 hd; omega), rfl⟩
        | some x =>
          have : x = q := Classical.byContradiction fun ne => s2.2.2 x hd ne
          subst this
          exact ⟨_, _, .quoted k1 a2 e1 d1 d2 s2 hd, rfl⟩
      · rw [d3]
        dsimp only
        obtain ⟨d, s1, s2, s3⟩ := scan_to h (p := fun x => !v.space x) (P := fun x => v.space x = false) (by simp) (i := c + 8) l8
        rw [s1]
        exact ⟨_, _, .plain k1 a2 e1 d1 d2 s2, rfl⟩
    · rw [e2]
      exact ⟨_, _, .other k1 a2 e1, rfl⟩
  · rw [decide_eq_false k1]
    exact ⟨_, _, .none k1, rfl⟩

/-- **C97** -/
theorem mime_spec {v : Env} {t : List Int} (h : v.Ok t) {i : Nat} (hi : i ≤ t.length) : Decides (mime v i) (MimeAt v.space t i) := by
  unfold mime
  obtain ⟨a, a1, a2, a3⟩ := scan_to h (inMime_spec v) hi
  rw [a1]
  dsimp only
  by_cases k : a ≤ i
  · rw [if_pos k]
    refine .no rfl ?_
    rintro m ⟨a', b, e, m1, m2, -⟩
    have := runAt_one a2 m1
    omega
  · rw [if_neg k, hasChar_eq h a3]
    by_cases k1 : t[a]? = some 47
    · rw [decide_eq_true k1]
      dsimp only
      obtain ⟨b, b1, b2, b3⟩ := scan_to h (inMime_spec v) (i := a + 1) (get_lt k1)
      rw [b1]
      dsimp only
      by_cases k2 : b ≤ a + 1
      · rw [if_pos k2]
        refine .no rfl ?_
        rintro m ⟨a', b', e, m1, m2, m3, m4, m5, -⟩
        have := runAt_one a2 m1; subst this
        have := runAt_one b2 m4
        omega
      · rw [if_neg k2]
        obtain ⟨x, e, x1, x2⟩ := mimeCharset_spec h b3
        rw [x2]
        refine .yes rfl ⟨a, b, e, a2, by omega, k1, b2, by omega, x1, rfl, rfl, rfl⟩ ?_
        rintro ⟨m1, m2, m3, m4⟩ ⟨a', b', e', n1, n2, n3, n4, n5, n6, n7, n8, n9⟩
        dsimp only at n6 n7 n8 n9
        have := runAt_one a2 n1; subst this
        have := runAt_one b2 n4; subst this
        obtain ⟨p1, p2⟩ := charsetAt_one x1 n6
        subst p1; subst p2
        rw [n7, n8, n9]
    · rw [decide_eq_false k1]
      refine .no rfl ?_
      rintro m ⟨a', b, e, m1, m2, m3, -⟩
      have := runAt_one a2 m1; subst this
      exact k1 m3

/-- A string in CSS may end with an escaped backslash, `"\\"`, but here that quote is escaped, and the string goes on. -/
theorem css_backslash : cssString (ipEnv [34, 92, 92, 34]) 0 = some none ∧ cssString (ipEnv [34, 92, 92, 34, 97, 34]) 0 = some (some ((1, 5), (0, 6))) := by decide +kernel

/-- `charset=utf-8; x` without quotes: the semicolon is part of the charset. -/
theorem mime_semicolon : mime (ipEnv [97, 47, 98, 59, 99, 104, 97, 114, 115, 101, 116, 61, 117, 59, 32, 120]) 0 = some (some ⟨(0, 1), (2, 3), some (12, 14), (0, 14)⟩) := by decide +kernel

/- `/* */`, `<!--`, `-->`, `'\''`, `url( a )`, `URL("a" )`, `@import 'a'` -/
example : cssComment (ipEnv [47, 42, 42, 32, 42, 47]) 0 = some (some ((2, 4), (0, 6))) := by decide +kernel
example : cssCdo (ipEnv [60, 33, 45, 45]) 0 = some (some 4) ∧ cssCdc (ipEnv [45, 45, 62]) 0 = some (some 3) := by decide +kernel
example : cssString (ipEnv [39, 92, 39, 39]) 0 = some (some ((1, 3), (0, 4))) := by decide +kernel
example : cssUri (ipEnv [117, 114, 108, 40, 32, 97, 32, 41]) 0 = some (some ((5, 6), (0, 8))) := by decide +kernel
example : cssUri (ipEnv [85, 82, 76, 40, 34, 97, 34, 32, 41]) 0 = some (some ((5, 6), (0, 9))) := by decide +kernel
example : cssImport (ipEnv [64, 105, 109, 112, 111, 114, 116, 32, 39, 97, 39]) 0 = some (some ((9, 10), (0, 11))) := by decide +kernel
example : mime (ipEnv [97, 47, 98, 59, 32, 67, 104, 97, 114, 115, 101, 116, 61, 34, 117, 34]) 0 = some (some ⟨(0, 1), (2, 3), some (14, 15), (0, 16)⟩) := by decide +kernel
example : (ipEnv [47, 42, 42, 47]).Ok [47, 42, 42, 47] := ⟨.inl (by decide), by decide, (fun n q => nomatch q), fun _ => Iff.rfl⟩

end Verif.Parser
