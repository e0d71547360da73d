import Verif.Parser.Http
/-
The parsers of HTTP parameters, media ranges and types, and cookies (include/stdex/parser.hpp 5835-6022, 6610-6739).
-/
namespace Verif.Parser
open Verif.Str

/-- The bound of the loops -/
def fuelOf (v : Env) : Nat := v.s.length + 2

/-- `name.interval`, `value` and `interval` of `http_parameter` and `http_cookie_parameter` -/
structure HttpParam where
  name : Iv
  value : HttpValue
  interval : Iv
deriving DecidableEq

def noValue : HttpValue := ⟨none, none, none, none⟩
def noParam : HttpParam := ⟨none, noValue, none⟩

/-- `i < end && text[i] == c`, with a `c` that is no terminator -/
def hasChar (v : Env) (c : Int) (i : Nat) : Option Bool := (peek v i).map fun x => decide (x = some c)

/-- 5869-5874, 6648-6653: the value ends the parameter. -/
def paramEnd (v : Env) (i a d : Nat) : Option (Bool × HttpParam) :=
  match httpValue v d with
  | none => none
  | some (false, _) => some (false, noParam)
  | some (true, x) => some (true, ⟨some (i, a), x, x.interval.map fun q => (i, q.2)⟩)

/-- `http_parameter::do_match` 5849-5879 -/
def httpParameter (v : Env) (i : Nat) : Option (Bool × HttpParam) :=
  match httpToken v i with
  | none => none
  | some none => some (false, noParam)
  | some (some a) =>
    match httpSpaces v (fuelOf v) a with
    | none => none
    | some b =>
      match hasChar v 61 b with
      | none => none
      | some true => paramEnd v i a (b + 1)
      | some false =>
        match httpSpaces v (fuelOf v) b with
        | none => none
        | some d => paramEnd v i a d

/-- `http_any_type::do_match` 5890-5913; where `start + 2 < end` holds, characters are read without further tests -/
def httpAnyType (v : Env) (i : Nat) : Option (Option Nat) :=
  match peek v i with
  | none => none
  | some x =>
    if x = some 42 then
      if below v.fin (i + 2) then
        match peek v (i + 1) with
        | none => none
        | some y =>
          if y = some 47 then
            match peek v (i + 2) with
            | none => none
            | some z => if z = some 42 then some (some (i + 3)) else some (some (i + 1))
          else some (some (i + 1))
      else some (some (i + 1))
    else some none

/-- `type`, `subtype` and `interval` -/
structure MediaRange where
  type : Iv
  subtype : Iv
  interval : Iv
deriving DecidableEq

def noRange : MediaRange := ⟨none, none, none⟩

/-- `http_media_range::do_match` 5933-5963 -/
def mediaRange (v : Env) (i : Nat) : Option (Bool × MediaRange) :=
  match httpToken v i with
  | none => none
  | some none => some (false, noRange)
  | some (some a) =>
    match httpSpaces v (fuelOf v) a with
    | none => none
    | some b =>
      match hasChar v 47 b with
      | none => none
      | some false => some (false, noRange)
      | some true =>
        match httpSpaces v (fuelOf v) (b + 1) with
        | none => none
        | some d =>
          match httpToken v d with
          | none => none
          | some none => some (false, noRange)
          | some (some e) => some (true, ⟨some (i, a), some (d, e), some (i, e)⟩)

/-- The loops 5993-6014, 6707-6728: `params`, in reverse -/
def paramLoop (v : Env) (el : Nat → Option (Bool × HttpParam)) : Nat → Nat → List HttpParam → Option (List HttpParam)
  | 0, _, _ => none
  | fuel + 1, e, acc =>
    match peek v e with
    | none => none
    | some none => some acc
    | some (some c) =>
      match httpSpace v e with
      | none => none
      | some (some e') => paramLoop v el fuel e' acc
      | some none =>
        if c = 59 then
          match httpSpaces v (fuelOf v) (e + 1) with
          | none => none
          | some d =>
            match el d with
            | none => none
            | some (false, _) => some acc
            | some (true, p) => paramLoop v el fuel ((p.interval.map Prod.snd).getD 0) (p :: acc)
        else some acc

/-- The end of the last one, or `e`: 6015, 6730 -/
def lastEnd (e : Nat) : List HttpParam → Nat
  | [] => e
  | p :: _ => (p.interval.map Prod.snd).getD 0

/-- `http_media_type::do_match` 5983-6021: the range (with the new `interval`), and `params` -/
def mediaType (v : Env) (i : Nat) : Option (Bool × MediaRange × List HttpParam) :=
  match mediaRange v i with
  | none => none
  | some (false, _) => some (false, noRange, [])
  | some (true, m) =>
    let e := (m.interval.map Prod.snd).getD 0
    match paramLoop v (httpParameter v) (2 * fuelOf v) e [] with
    | none => none
    | some ps => some (true, { m with interval := some (i, lastEnd e ps) }, ps.reverse)

/-- 6636-6653, 6690-6705: `name = value` from `i` in a match that begins at `s` -/
def cookiePair (v : Env) (s i : Nat) : Option (Bool × HttpParam) :=
  match httpToken v i with
  | none => none
  | some none => some (false, noParam)
  | some (some a) =>
    match httpSpaces v (fuelOf v) a with
    | none => none
    | some b =>
      match hasChar v 61 b with
      | none => none
      | some false => some (false, noParam)
      | some true =>
        match httpSpaces v (fuelOf v) (b + 1) with
        | none => none
        | some d =>
          match httpValue v d with
          | none => none
          | some (false, _) => some (false, noParam)
          | some (true, x) => some (true, ⟨some (i, a), x, x.interval.map fun q => (s, q.2)⟩)

/-- `http_cookie_parameter::do_match` 6624-6658 -/
def cookieParameter (v : Env) (i : Nat) : Option (Bool × HttpParam) :=
  match hasChar v 36 i with
  | none => none
  | some false => some (false, noParam)
  | some true => cookiePair v i (i + 1)

/-- `http_cookie::do_match` 6682-6736: `name`, `value` and `interval`, and `params` -/
def cookie (v : Env) (i : Nat) : Option (Bool × HttpParam × List HttpParam) :=
  match cookiePair v i i with
  | none => none
  | some (false, _) => some (false, noParam, [])
  | some (true, p) =>
    let e := (p.interval.map Prod.snd).getD 0
    match paramLoop v (cookieParameter v) (2 * fuelOf v) e [] with
    | none => none
    | some ps => some (true, { p with interval := some (i, lastEnd e ps) }, ps.reverse)

/-! ### Specification -/

/-- The longest token at `i` ends at `a`. -/
def TokenAt (t : List Int) (i a : Nat) : Prop := ∃ k, run1 isToken (t.drop i) = some k ∧ a = i + k

/-- Where the white space at `i` ends. -/
def skipTo (t : List Int) (i : Nat) : Nat := i + (blank (t.drop i)).getD 0

/-- A quoted string or a token at `i` that ends at `e`. -/
inductive ValueAt (t : List Int) (i : Nat) : HttpValue → Nat → Prop
  | string {w r} : t.drop i = 34 :: w ++ 34 :: r → QText w → ValueAt t i ⟨some (i + 1, i + 1 + w.length), some (i, i + w.length + 2), none, some (i, i + w.length + 2)⟩ (i + w.length + 2)
  | token {k} : run1 isToken (t.drop i) = some k → ValueAt t i ⟨none, none, some (i, i + k), some (i, i + k)⟩ (i + k)

/-- `name = value` at `i`, in a match that begins at `s`; white space is allowed around the equals sign. -/
def PairAt (t : List Int) (s i : Nat) (p : HttpParam) (e : Nat) : Prop :=
  ∃ a x, TokenAt t i a ∧ t[skipTo t a]? = some 61 ∧ ValueAt t (skipTo t (skipTo t a + 1)) x e ∧ p = ⟨some (i, a), x, some (s, e)⟩

/-- A parameter, as it should be. -/
def ParamAt (t : List Int) (i : Nat) (p : HttpParam) (e : Nat) : Prop := PairAt t i i p e

/-- A parameter of a cookie begins with `$`. -/
def CookieParamAt (t : List Int) (i : Nat) (p : HttpParam) (e : Nat) : Prop := t[i]? = some 36 ∧ PairAt t i (i + 1) p e

/-- `type / subtype`, with white space allowed around the slash -/
def RangeAt (t : List Int) (i : Nat) (m : MediaRange) (e : Nat) : Prop :=
  ∃ a, TokenAt t i a ∧ t[skipTo t a]? = some 47 ∧ TokenAt t (skipTo t (skipTo t a + 1)) e ∧ m = ⟨some (i, a), some (skipTo t (skipTo t a + 1), e), some (i, e)⟩

/-- The next parameter after `e`: a semicolon and the parameter, with white space allowed before each of them. -/
def NextAt (t : List Int) (El : Nat → HttpParam → Nat → Prop) (e : Nat) (p : HttpParam) (e' : Nat) : Prop := t[skipTo t e]? = some 59 ∧ El (skipTo t (skipTo t e + 1)) p e'

/-- All parameters after `e`, of which the last one ends at `e'`. -/
inductive ParamsAt (t : List Int) (El : Nat → HttpParam → Nat → Prop) : Nat → List HttpParam → Nat → Prop
  | stop {e} : (∀ p e', ¬ NextAt t El e p e') → ParamsAt t El e [] e
  | more {e p m l e'} : NextAt t El e p m → ParamsAt t El m l e' → ParamsAt t El e (p :: l) e'

/-! ### Proof -/

theorem skipTo_le {t : List Int} {i : Nat} (hi : i ≤ t.length) : i ≤ skipTo t i ∧ skipTo t i ≤ t.length := by
  unfold skipTo
  cases q : blank (t.drop i) with
  | none => simp; exact hi
  | some k => have := blank_pos q; simp at this ⊢; omega

theorem spaces_to {v : Env} {t : List Int} (h : v.Ok t) {i : Nat} (hi : i ≤ t.length) : httpSpaces v (fuelOf v) i = some (skipTo t i) := spaces_skip h hi

theorem peek_eq {v : Env} {t : List Int} (h : v.Ok t) {i : Nat} (hi : i ≤ t.length) : peek v i = some t[i]? := by
  unfold peek
  rw [cond_eq h.valid (by rw [← h.text]; exact hi), ← h.text]

theorem hasChar_eq {v : Env} {t : List Int} (h : v.Ok t) {i : Nat} (hi : i ≤ t.length) (c : Int) : hasChar v c i = some (decide (t[i]? = some c)) := by
  unfold hasChar; rw [peek_eq h hi]; rfl

theorem token_cases {v : Env} {t : List Int} (h : v.Ok t) {i : Nat} (hi : i ≤ t.length) :
    (∃ a, TokenAt t i a ∧ i < a ∧ a ≤ t.length ∧ httpToken v i = some (some a)) ∨ ((∀ a, ¬ TokenAt t i a) ∧ httpToken v i = some none) := by
  rw [token_spec h hi]
  cases q : run1 isToken (t.drop i) with
  | none => exact .inr ⟨(fun a ⟨k, e, _⟩ => by rw [q] at e; cases e), rfl⟩
  | some k =>
    have := run1_some q
    have h2 := this.2.1
    rw [List.length_drop] at h2
    exact .inl ⟨i + k, ⟨k, q, rfl⟩, by omega, by omega, rfl⟩

theorem tokenAt_one {t : List Int} {i a a' : Nat} (h : TokenAt t i a) (h' : TokenAt t i a') : a = a' := by
  obtain ⟨k, e, rfl⟩ := h
  obtain ⟨k', e', rfl⟩ := h'
  rw [e] at e'; cases e'; rfl

theorem tokenAt_le {t : List Int} {i a : Nat} (hi : i ≤ t.length) (h : TokenAt t i a) : i < a ∧ a ≤ t.length := by
  obtain ⟨k, e, rfl⟩ := h
  have := run1_some e
  have h2 := this.2.1
  rw [List.length_drop] at h2
  omega

theorem value_cases {v : Env} {t : List Int} (h : v.Ok t) {i : Nat} (hi : i ≤ t.length) :
    (∃ x e, ValueAt t i x e ∧ i < e ∧ e ≤ t.length ∧ x.interval = some (i, e) ∧ httpValue v i = some (true, x)) ∨ ((∀ x e, ¬ ValueAt t i x e) ∧ httpValue v i = some (false, noValue)) := by
  obtain ⟨s1, s2, s3⟩ := value_spec h hi
  by_cases q : ∃ w r, t.drop i = 34 :: w ++ 34 :: r ∧ QText w
  · obtain ⟨w, r, hd, hw⟩ := q
    have := drop_len hd hi
    simp at this
    exact .inl ⟨_, _, .string hd hw, by omega, by omega, rfl, s1 w r hd hw⟩
  · have hn : ∀ w r, t.drop i = 34 :: w ++ 34 :: r → ¬ QText w := fun w r hd hw => q ⟨w, r, hd, hw⟩
    cases e : run1 isToken (t.drop i) with
    | some k =>
      have := (run1_some e)
      have h2 := this.2.1
      rw [List.length_drop] at h2
      exact .inl ⟨_, _, .token e, by omega, by omega, rfl, s2 k e⟩
    | none =>
      refine .inr ⟨?_, s3 hn e⟩
      intro x e' hx
      cases hx with
      | string a b => exact hn _ _ a b
      | token a => rw [e] at a; cases a

theorem valueAt_one {t : List Int} {v : Env} (h : v.Ok t) {i : Nat} (hi : i ≤ t.length) {x x' : HttpValue} {e e' : Nat} (q : ValueAt t i x e) (q' : ValueAt t i x' e') : x = x' ∧ e = e' := by
  have key : ∀ {x e}, ValueAt t i x e → httpValue v i = some (true, x) ∧ x.interval = some (i, e) := by
    intro x e q
    obtain ⟨s1, s2, -⟩ := value_spec h hi
    cases q with
    | string a b => exact ⟨s1 _ _ a b, rfl⟩
    | token a => exact ⟨s2 _ a, rfl⟩
  obtain ⟨a, b⟩ := key q
  obtain ⟨a', b'⟩ := key q'
  rw [a] at a'; cases a'
  rw [b] at b'; cases b'
  exact ⟨rfl, rfl⟩

theorem get_lt {t : List Int} {i : Nat} {c : Int} (h : t[i]? = some c) : i + 1 ≤ t.length := lt_of_get h

theorem pair_cases {v : Env} {t : List Int} (h : v.Ok t) (s : Nat) {i : Nat} (hi : i ≤ t.length) :
    (∃ p e, PairAt t s i p e ∧ i < e ∧ e ≤ t.length ∧ cookiePair v s i = some (true, p)) ∨ ((∀ p e, ¬ PairAt t s i p e) ∧ cookiePair v s i = some (false, noParam)) := by
  unfold cookiePair
  rcases token_cases h hi with ⟨a, ta, ia, al, e1⟩ | ⟨n1, e1⟩
  · rw [e1]
    dsimp only
    rw [spaces_to h al]
    dsimp only
    have hb := skipTo_le al
    rw [hasChar_eq h hb.2]
    by_cases q : t[skipTo t a]? = some 61
    · rw [decide_eq_true q]
      dsimp only
      have hl := get_lt q
      rw [spaces_to h hl]
      dsimp only
      have hd := skipTo_le hl
      rcases value_cases h hd.2 with ⟨x, e, vx, ie, el, xi, e2⟩ | ⟨n2, e2⟩
      · rw [e2]
        dsimp only
        refine .inl ⟨_, e, ⟨a, x, ta, q, vx, rfl⟩, by omega, el, by rw [xi]; rfl⟩
      · rw [e2]
        refine .inr ⟨?_, rfl⟩
        rintro p e ⟨a', x, ta', -, vx, -⟩
        cases tokenAt_one ta ta'
        exact n2 _ _ vx
    · rw [decide_eq_false q]
      refine .inr ⟨?_, rfl⟩
      rintro p e ⟨a', x, ta', q', -, -⟩
      cases tokenAt_one ta ta'
      exact q q'
  · rw [e1]
    refine .inr ⟨?_, rfl⟩
    rintro p e ⟨a', x, ta', -⟩
    exact n1 _ ta'

theorem pairAt_one {v : Env} {t : List Int} (h : v.Ok t) {s i : Nat} (hi : i ≤ t.length) {p p' : HttpParam} {e e' : Nat} (q : PairAt t s i p e) (q' : PairAt t s i p' e') : p = p' ∧ e = e' := by
  obtain ⟨a, x, ta, q1, vx, rfl⟩ := q
  obtain ⟨a', x', ta', q1', vx', rfl⟩ := q'
  cases tokenAt_one ta ta'
  obtain ⟨rfl, rfl⟩ := valueAt_one h (skipTo_le (get_lt q1)).2 vx vx'
  exact ⟨rfl, rfl⟩

/-- What an element parser does: it matches iff there is one, and only that one. -/
structure Reads (n : Nat) (el : Nat → Option (Bool × HttpParam)) (El : Nat → HttpParam → Nat → Prop) : Prop where
  cases : ∀ i ≤ n, (∃ p e, El i p e ∧ el i = some (true, p)) ∨ ((∀ p e, ¬ El i p e) ∧ ∃ x, el i = some (false, x))
  one : ∀ i ≤ n, ∀ p e p' e', El i p e → El i p' e' → p = p' ∧ e = e'
  fin : ∀ i ≤ n, ∀ p e, El i p e → i < e ∧ e ≤ n ∧ p.interval = some (i, e)

theorem cookieParam_reads {v : Env} {t : List Int} (h : v.Ok t) : Reads t.length (cookieParameter v) (CookieParamAt t) := by
  refine ⟨?_, ?_, ?_⟩
  · intro i hi
    unfold cookieParameter
    rw [hasChar_eq h hi]
    by_cases q : t[i]? = some 36
    · rw [decide_eq_true q]
      dsimp only
      rcases pair_cases h i (get_lt q) with ⟨p, e, a, -, -, b⟩ | ⟨n, b⟩
      · exact .inl ⟨p, e, ⟨q, a⟩, b⟩
      · exact .inr ⟨(fun p e x => n p e x.2), _, b⟩
    · rw [decide_eq_false q]
      exact .inr ⟨(fun p e x => q x.1), _, rfl⟩
  · rintro i hi p e p' e' ⟨a, b⟩ ⟨-, b'⟩
    exact pairAt_one h (get_lt a) b b'
  · rintro i hi p e ⟨a, x, y, b1, b2, b3, rfl⟩
    have := tokenAt_le (get_lt a) b1
    have l := skipTo_le this.2
    have l2 := skipTo_le (get_lt b2)
    rcases value_cases h l2.2 with ⟨x', e', vx, i1, i2, -, -⟩ | ⟨n, -⟩
    · obtain ⟨rfl, rfl⟩ := valueAt_one h l2.2 b3 vx
      exact ⟨by omega, i2, rfl⟩
    · exact absurd b3 (n _ _)

/-- A parameter as it is read: without the equals sign white space (or nothing) is enough, and after it there is no white space. -/
def ParamRead (t : List Int) (i : Nat) (p : HttpParam) (e : Nat) : Prop :=
  ∃ a x, TokenAt t i a ∧ ValueAt t (if t[skipTo t a]? = some 61 then skipTo t a + 1 else skipTo t a) x e ∧ p = ⟨some (i, a), x, some (i, e)⟩

theorem skipTo_idem {t : List Int} (i : Nat) : skipTo t (skipTo t i) = skipTo t i := by
  unfold skipTo
  cases q : blank (t.drop i) with
  | none => simp [q]
  | some k =>
    have := blank_after q
    rw [List.drop_drop] at this
    simp [this]

theorem param_reads {v : Env} {t : List Int} (h : v.Ok t) : Reads t.length (httpParameter v) (ParamRead t) := by
  have pe : ∀ i a d, d ≤ t.length → (∃ x e, ValueAt t d x e ∧ d < e ∧ e ≤ t.length ∧ paramEnd v i a d = some (true, ⟨some (i, a), x, some (i, e)⟩)) ∨ ((∀ x e, ¬ ValueAt t d x e) ∧ paramEnd v i a d = some (false, noParam)) := by
    intro i a d hd
    unfold paramEnd
    rcases value_cases h hd with ⟨x, e, vx, ie, el, xi, e2⟩ | ⟨n2, e2⟩
    · rw [e2]; exact .inl ⟨x, e, vx, ie, el, by dsimp only; rw [xi]; rfl⟩
    · rw [e2]; exact .inr ⟨n2, rfl⟩
  have pos : ∀ a, a ≤ t.length → (if t[skipTo t a]? = some 61 then skipTo t a + 1 else skipTo t a) ≤ t.length ∧ a ≤ (if t[skipTo t a]? = some 61 then skipTo t a + 1 else skipTo t a) := by
    intro a ha
    have := skipTo_le ha
    split
    · rename_i q; have := get_lt q; omega
    · omega
  have run : ∀ i a, TokenAt t i a → i < a → a ≤ t.length → httpToken v i = some (some a) → httpParameter v i = paramEnd v i a (if t[skipTo t a]? = some 61 then skipTo t a + 1 else skipTo t a) := by
    intro i a ta ia al e1
    unfold httpParameter
    rw [e1]
    dsimp only
    rw [spaces_to h al]
    dsimp only
    have hb := skipTo_le al
    rw [hasChar_eq h hb.2]
    by_cases q : t[skipTo t a]? = some 61
    · rw [decide_eq_true q, if_pos q]
    · rw [decide_eq_false q, if_neg q]
      dsimp only
      rw [spaces_to h hb.2, skipTo_idem]
  refine ⟨?_, ?_, ?_⟩
  · intro i hi
    rcases token_cases h hi with ⟨a, ta, ia, al, e1⟩ | ⟨n1, e1⟩
    · rw [run i a ta ia al e1]
      rcases pe i a _ (pos a al).1 with ⟨x, e, vx, -, -, q⟩ | ⟨n, q⟩
      · exact .inl ⟨_, e, ⟨a, x, ta, vx, rfl⟩, q⟩
      · refine .inr ⟨?_, _, q⟩
        rintro p e ⟨a', x, ta', vx, -⟩
        cases tokenAt_one ta ta'
        exact n _ _ vx
    · refine .inr ⟨?_, noParam, by unfold httpParameter; rw [e1]⟩
      rintro p e ⟨a', x, ta', -⟩
      exact n1 _ ta'
  · rintro i hi p e p' e' ⟨a, x, ta, vx, rfl⟩ ⟨a', x', ta', vx', rfl⟩
    cases tokenAt_one ta ta'
    obtain ⟨rfl, rfl⟩ := valueAt_one h (pos a (tokenAt_le hi ta).2).1 vx vx'
    exact ⟨rfl, rfl⟩
  · rintro i hi p e ⟨a, x, ta, vx, rfl⟩
    have l := tokenAt_le hi ta
    have l2 := pos a l.2
    rcases value_cases h l2.1 with ⟨x', e', vx', i1, i2, -, -⟩ | ⟨n, -⟩
    · obtain ⟨rfl, rfl⟩ := valueAt_one h l2.1 vx vx'
      exact ⟨by omega, i2, rfl⟩
    · exact absurd vx (n _ _)

/-- After the name there is an equals sign, and no white space after that. -/
def PlainParam (t : List Int) (i : Nat) : Prop := ∀ a, TokenAt t i a → t[skipTo t a]? = some 61 ∧ skipTo t (skipTo t a + 1) = skipTo t a + 1

theorem plain_param {t : List Int} {i : Nat} (h : PlainParam t i) (p : HttpParam) (e : Nat) : ParamRead t i p e ↔ ParamAt t i p e := by
  constructor
  · rintro ⟨a, x, ta, vx, rfl⟩
    obtain ⟨q1, q2⟩ := h a ta
    rw [if_pos q1] at vx
    exact ⟨a, x, ta, q1, by rw [q2]; exact vx, rfl⟩
  · rintro ⟨a, x, ta, q1, vx, rfl⟩
    obtain ⟨-, q2⟩ := h a ta
    rw [q2] at vx
    exact ⟨a, x, ta, by rw [if_pos q1]; exact vx, rfl⟩

/-- **C89** (parameters), with an equals sign that no white space follows: a parameter is matched if it is there, with its name and value. -/
theorem param_spec_partial {v : Env} {t : List Int} (h : v.Ok t) {i : Nat} (hi : i ≤ t.length) (hp : PlainParam t i) :
    (∃ p e, ParamAt t i p e ∧ httpParameter v i = some (true, p)) ∨ ((∀ p e, ¬ ParamAt t i p e) ∧ ∃ x, httpParameter v i = some (false, x)) := by
  rcases (param_reads h).cases i hi with ⟨p, e, a, b⟩ | ⟨n, b⟩
  · exact .inl ⟨p, e, (plain_param hp p e).1 a, b⟩
  · exact .inr ⟨(fun p e q => n p e ((plain_param hp p e).2 q)), b⟩

/-- What C89 lacks: `a= b` is a parameter but is not matched. -/
theorem param_space : ParamAt [97, 61, 32, 98] 0 ⟨some (0, 1), ⟨none, none, some (3, 4), some (3, 4)⟩, some (0, 4)⟩ 4 ∧ httpParameter (ipEnv [97, 61, 32, 98]) 0 = some (false, noParam) :=
  ⟨⟨1, _, ⟨1, by decide, rfl⟩, by decide, .token (k := 1) (by decide), by decide⟩, by decide⟩

/-- What C89 lacks: `a b` is no parameter but is matched. -/
theorem param_noequal : (∀ p e, ¬ ParamAt [97, 32, 98] 0 p e) ∧ httpParameter (ipEnv [97, 32, 98]) 0 = some (true, ⟨some (0, 1), ⟨none, none, some (2, 3), some (2, 3)⟩, some (0, 3)⟩) := by
  refine ⟨?_, by decide⟩
  rintro p e ⟨a, x, ta, q, -⟩
  have : TokenAt [97, 32, 98] 0 1 := ⟨1, by decide, rfl⟩
  cases tokenAt_one ta this
  revert q
  decide

/-- **C89** (media ranges) -/
theorem range_spec {v : Env} {t : List Int} (h : v.Ok t) {i : Nat} (hi : i ≤ t.length) :
    (∃ m e, RangeAt t i m e ∧ e ≤ t.length ∧ mediaRange v i = some (true, m)) ∨ ((∀ m e, ¬ RangeAt t i m e) ∧ mediaRange v i = some (false, noRange)) := by
  unfold mediaRange
  rcases token_cases h hi with ⟨a, ta, ia, al, e1⟩ | ⟨n1, e1⟩
  · rw [e1]
    dsimp only
    rw [spaces_to h al]
    dsimp only
    have hb := skipTo_le al
    rw [hasChar_eq h hb.2]
    by_cases q : t[skipTo t a]? = some 47
    · rw [decide_eq_true q]
      dsimp only
      have hl := get_lt q
      rw [spaces_to h hl]
      dsimp only
      have hd := skipTo_le hl
      rcases token_cases h hd.2 with ⟨e, te, ie, el, e2⟩ | ⟨n2, e2⟩
      · rw [e2]
        exact .inl ⟨_, e, ⟨a, ta, q, te, rfl⟩, el, rfl⟩
      · rw [e2]
        refine .inr ⟨?_, rfl⟩
        rintro m e ⟨a', ta', -, te, -⟩
        cases tokenAt_one ta ta'
        exact n2 _ te
    · rw [decide_eq_false q]
      refine .inr ⟨?_, rfl⟩
      rintro p e ⟨a', ta', q', -, -⟩
      cases tokenAt_one ta ta'
      exact q q'
  · rw [e1]
    refine .inr ⟨?_, rfl⟩
    rintro p e ⟨a', ta', -⟩
    exact n1 _ ta'

theorem rangeAt_one {t : List Int} {i : Nat} {m m' : MediaRange} {e e' : Nat} (q : RangeAt t i m e) (q' : RangeAt t i m' e') : m = m' ∧ e = e' := by
  obtain ⟨a, ta, q1, te, rfl⟩ := q
  obtain ⟨a', ta', q1', te', rfl⟩ := q'
  cases tokenAt_one ta ta'
  cases tokenAt_one te te'
  exact ⟨rfl, rfl⟩

/-- There is exactly one list of all parameters, and it is read. -/
theorem params_spec {v : Env} {t : List Int} (h : v.Ok t) {el : Nat → Option (Bool × HttpParam)} {El : Nat → HttpParam → Nat → Prop} (hr : Reads t.length el El) :
    ∀ (fuel : Nat) {e : Nat} {acc : List HttpParam} (e0 : Nat), e ≤ t.length → 2 * (t.length - e) + (if blank (t.drop e) = none then 0 else 1) < fuel → lastEnd e0 acc = e →
    ∃ l e', ParamsAt t El e l e' ∧ paramLoop v el fuel e acc = some (l.reverse ++ acc) ∧ e' ≤ t.length ∧ lastEnd e0 (l.reverse ++ acc) = e' := by
  -- the loop after white space
  have after : ∀ (fuel : Nat) {e : Nat} {acc : List HttpParam} (e0 : Nat), e ≤ t.length → blank (t.drop e) = none → 
      (∀ {e' acc'}, e < e' → e' ≤ t.length → lastEnd e0 acc' = e' → ∃ l f, ParamsAt t El e' l f ∧ paramLoop v el fuel e' acc' = some (l.reverse ++ acc') ∧ f ≤ t.length ∧ lastEnd e0 (l.reverse ++ acc') = f) →
      (∃ p l m f, NextAt t El e p m ∧ ParamsAt t El m l f ∧ paramLoop v el (fuel + 1) e acc = some (l.reverse ++ p :: acc) ∧ f ≤ t.length ∧ lastEnd e0 (l.reverse ++ p :: acc) = f) ∨
      ((∀ p m, ¬ NextAt t El e p m) ∧ paramLoop v el (fuel + 1) e acc = some acc) := by
    intro fuel e acc e0 he hb ih
    have hs : skipTo t e = e := by unfold skipTo; rw [hb]; rfl
    unfold paramLoop
    rw [peek_eq h he]
    cases hc : t[e]? with
    | none =>
      refine .inr ⟨?_, rfl⟩
      rintro p m ⟨q, -⟩
      rw [hs, hc] at q; cases q
    | some c =>
      dsimp only
      rw [space_spec h he, hb]
      dsimp only [Option.map_none]
      by_cases c59 : c = 59
      · rw [if_pos c59]
        subst c59
        have hl := get_lt hc
        rw [spaces_to h hl]
        dsimp only
        have hd := skipTo_le hl
        rcases hr.cases _ hd.2 with ⟨p, e', a, b⟩ | ⟨n, x, b⟩
        · rw [b]
          dsimp only
          obtain ⟨f1, f2, f3⟩ := hr.fin _ hd.2 _ _ a
          rw [f3]
          dsimp only [Option.map_some, Option.getD_some]
          obtain ⟨l, f, q1, q2, q3, q4⟩ := ih (e' := e') (acc' := p :: acc) (by omega) f2 (by show (p.interval.map Prod.snd).getD 0 = e'; rw [f3]; rfl)
          exact .inl ⟨p, l, e', f, ⟨by rw [hs]; exact hc, by rw [hs]; exact a⟩, q1, q2, q3, q4⟩
        · rw [b]
          refine .inr ⟨?_, rfl⟩
          rintro p m ⟨-, q⟩
          rw [hs] at q
          exact n _ _ q
      · rw [if_neg c59]
        refine .inr ⟨?_, rfl⟩
        rintro p m ⟨q, -⟩
        rw [hs, hc] at q
        cases q
        exact c59 rfl
  intro fuel
  induction fuel using Nat.strongRecOn with
  | ind n ih =>
    intro e acc e0 he hf hacc
    obtain ⟨fuel, rfl⟩ : ∃ f, n = f + 1 := ⟨n - 1, by omega⟩
    cases hb : blank (t.drop e) with
    | none =>
      rw [if_pos hb] at hf
      rcases after fuel (acc := acc) e0 he hb (fun {e' acc'} h1 h2 h3 => ih fuel (by omega) e0 h2 (by split <;> omega) h3) with ⟨p, l, m, f, q1, q2, q3, q4, q5⟩ | ⟨q1, q2⟩
      · exact ⟨p :: l, f, .more q1 q2, by rw [q3]; simp, q4, by simpa using q5⟩
      · exact ⟨[], e, .stop q1, by rw [q2]; rfl, he, by simpa using hacc⟩
    | some k =>
      rw [if_neg (by rw [hb]; exact fun q => nomatch q)] at hf
      have hk := blank_pos hb
      rw [List.length_drop] at hk
      have hb' := blank_after hb
      rw [List.drop_drop] at hb'
      have hs : skipTo t e = e + k := by unfold skipTo; rw [hb]; rfl
      have hs' : skipTo t (e + k) = e + k := by unfold skipTo; rw [hb']; rfl
      have next : ∀ p m, NextAt t El e p m ↔ NextAt t El (e + k) p m := by
        intro p m; unfold NextAt; rw [hs, hs']
      have step : paramLoop v el (fuel + 1) e acc = paramLoop v el fuel (e + k) acc := by
        conv => lhs; unfold paramLoop
        rw [peek_eq h he]
        obtain ⟨c, hc⟩ : ∃ c, t[e]? = some c := ⟨t[e]'(by omega), List.getElem?_eq_getElem (by omega)⟩
        rw [hc]
        dsimp only
        rw [space_spec h he, hb]
        rfl
      rw [step]
      obtain ⟨f, rfl⟩ : ∃ f, fuel = f + 1 := ⟨fuel - 1, by omega⟩
      rcases after f (acc := acc) e0 (by omega) hb' (fun {e' acc'} h1 h2 h3 => ih f (by omega) e0 h2 (by split <;> omega) h3) with ⟨p, l, m, g, q1, q2, q3, q4, q5⟩ | ⟨q1, q2⟩
      · exact ⟨p :: l, g, .more ((next p m).2 q1) q2, by rw [q3]; simp, q4, by simpa using q5⟩
      · exact ⟨[], e, .stop (fun p m q => q1 p m ((next p m).1 q)), by rw [q2]; rfl, he, by simpa using hacc⟩

theorem paramsAt_one {t : List Int} {El : Nat → HttpParam → Nat → Prop} (hone : ∀ e p m p' m', NextAt t El e p m → NextAt t El e p' m' → p = p' ∧ m = m') {e : Nat} {l l' : List HttpParam} {f f' : Nat}
    (q : ParamsAt t El e l f) (q' : ParamsAt t El e l' f') : l = l' ∧ f = f' := by
  induction q generalizing l' f' with
  | stop n =>
    cases q' with
    | stop => exact ⟨rfl, rfl⟩
    | more a _ => exact absurd a (n _ _)
  | more a _ ih =>
    cases q' with
    | stop n => exact absurd a (n _ _)
    | more b r =>
      obtain ⟨rfl, rfl⟩ := hone _ _ _ _ _ a b
      obtain ⟨rfl, rfl⟩ := ih r
      exact ⟨rfl, rfl⟩

/-- As if the parameters were `El'`. -/
theorem paramsAt_congr {t : List Int} {El El' : Nat → HttpParam → Nat → Prop} (hq : ∀ e p m, El e p m ↔ El' e p m) {e : Nat} {l : List HttpParam} {f : Nat} (q : ParamsAt t El e l f) : ParamsAt t El' e l f := by
  induction q with
  | stop n => exact .stop (fun p m ⟨a, b⟩ => n p m ⟨a, (hq _ _ _).2 b⟩)
  | more a _ ih => exact .more ⟨a.1, (hq _ _ _).1 a.2⟩ ih

theorem fuel_ok {v : Env} {t : List Int} (h : v.Ok t) (e : Nat) : 2 * (t.length - e) + (if blank (t.drop e) = none then 0 else 1) < 2 * fuelOf v := by
  have := ok_len h
  unfold fuelOf
  split <;> omega

/-- The media type at `i` with the parameters that are read -/
theorem type_reads {v : Env} {t : List Int} (h : v.Ok t) {i : Nat} (hi : i ≤ t.length) :
    (∃ m a l e, RangeAt t i m a ∧ ParamsAt t (ParamRead t) a l e ∧ mediaType v i = some (true, { m with interval := some (i, e) }, l)) ∨
    ((∀ m a, ¬ RangeAt t i m a) ∧ mediaType v i = some (false, noRange, [])) := by
  unfold mediaType
  rcases range_spec h hi with ⟨m, a, hm, al, e1⟩ | ⟨n, e1⟩
  · rw [e1]
    have hint : (m.interval.map Prod.snd).getD 0 = a := by obtain ⟨_, _, _, _, rfl⟩ := hm; rfl
    dsimp only
    rw [hint]
    obtain ⟨l, e, q1, q2, q3, q4⟩ := params_spec h (param_reads h) (2 * fuelOf v) (e := a) (acc := []) a al (fuel_ok h a) rfl
    rw [q2]
    refine .inl ⟨m, a, l, e, hm, q1, ?_⟩
    dsimp only
    rw [q4]
    simp
  · rw [e1]
    exact .inr ⟨n, rfl⟩

/-- **C89** (media types), with no white space after the equals signs of parameters, and no parameters without one: a media type is matched iff there is a media range, and then with all its parameters, up to the end of the last one. -/
theorem type_spec_partial {v : Env} {t : List Int} (h : v.Ok t) {i : Nat} (hi : i ≤ t.length) (hp : ∀ j, PlainParam t j) :
    (∃ m a l e, RangeAt t i m a ∧ ParamsAt t (ParamAt t) a l e ∧ mediaType v i = some (true, { m with interval := some (i, e) }, l)) ∨
    ((∀ m a, ¬ RangeAt t i m a) ∧ mediaType v i = some (false, noRange, [])) := by
  rcases type_reads h hi with ⟨m, a, l, e, q1, q2, q3⟩ | q
  · exact .inl ⟨m, a, l, e, q1, paramsAt_congr (fun j p e => plain_param (hp j) p e) q2, q3⟩
  · exact .inr q

/-- **C90** A cookie is matched iff there is a `name=value`, and then with all its `$` parameters, up to the end of the last one. -/
theorem cookie_spec {v : Env} {t : List Int} (h : v.Ok t) {i : Nat} (hi : i ≤ t.length) :
    (∃ p a l e, PairAt t i i p a ∧ ParamsAt t (CookieParamAt t) a l e ∧ cookie v i = some (true, { p with interval := some (i, e) }, l)) ∨
    ((∀ p a, ¬ PairAt t i i p a) ∧ cookie v i = some (false, noParam, [])) := by
  unfold cookie
  rcases pair_cases h i hi with ⟨p, a, hp, -, al, e1⟩ | ⟨n, e1⟩
  · rw [e1]
    have hint : (p.interval.map Prod.snd).getD 0 = a := by obtain ⟨_, _, _, _, _, rfl⟩ := hp; rfl
    dsimp only
    rw [hint]
    obtain ⟨l, e, q1, q2, q3, q4⟩ := params_spec h (cookieParam_reads h) (2 * fuelOf v) (e := a) (acc := []) a al (fuel_ok h a) rfl
    rw [q2]
    refine .inl ⟨p, a, l, e, hp, q1, ?_⟩
    dsimp only
    rw [q4]
    simp
  · rw [e1]
    exact .inr ⟨n, rfl⟩

/-- **C90** There is only one such reading, so the cookie that is read is the one that is there. -/
theorem cookie_one {v : Env} {t : List Int} (h : v.Ok t) {i : Nat} (hi : i ≤ t.length) {p p' : HttpParam} {a a' e e' : Nat} {l l' : List HttpParam} (q : PairAt t i i p a) (r : ParamsAt t (CookieParamAt t) a l e)
    (q' : PairAt t i i p' a') (r' : ParamsAt t (CookieParamAt t) a' l' e') : p = p' ∧ l = l' ∧ e = e' := by
  obtain ⟨rfl, rfl⟩ := pairAt_one h hi q q'
  have one : ∀ e p m p' m', NextAt t (CookieParamAt t) e p m → NextAt t (CookieParamAt t) e p' m' → p = p' ∧ m = m' := by
    intro e p m p' m' a b
    have := get_lt a.1
    exact (cookieParam_reads h).one _ (skipTo_le this).2 _ _ _ _ a.2 b.2
  obtain ⟨rfl, rfl⟩ := paramsAt_one one r r'
  exact ⟨rfl, rfl, rfl⟩

/-- **C90** A cookie `name=value` (tokens) at the end of the text: what is written is read. -/
theorem cookie_simple {v : Env} {n w : List Int} (h : v.Ok (n ++ 61 :: w)) (hn : n ≠ []) (hw : w ≠ []) (tn : ∀ c ∈ n, isToken c = true) (tw : ∀ c ∈ w, isToken c = true) :
    cookie v 0 = some (true, ⟨some (0, n.length), ⟨none, none, some (n.length + 1, n.length + 1 + w.length), some (n.length + 1, n.length + 1 + w.length)⟩, some (0, n.length + 1 + w.length)⟩, []) := by
  have hr : ∀ (x y : List Int), x ≠ [] → (∀ c ∈ x, isToken c = true) → (∀ c ∈ y.head?, isToken c = false) → run1 isToken (x ++ y) = some x.length := by
    intro x y hx tx hy
    have : (x ++ y).takeWhile isToken = x := by
      rw [List.takeWhile_append_of_pos tx]
      cases y with
      | nil => simp
      | cons c y => rw [List.takeWhile_cons, hy c (by simp)]; simp
    unfold run1
    rw [this]
    simp [hx]
  have hsk : ∀ {c : Int} {r : List Int} {i : Nat}, (n ++ 61 :: w).drop i = c :: r → isspace c = false → skipTo (n ++ 61 :: w) i = i := by
    intro c r i hd hc
    unfold skipTo
    have h13 : c ≠ 13 := by intro e; subst e; revert hc; decide
    have h10 : c ≠ 10 := by intro e; subst e; revert hc; decide
    have hl : lineBreak (c :: r) = none := by
      unfold lineBreak
      split
      · rename_i e; cases e; exact absurd rfl h13
      · rename_i e; cases e; exact absurd rfl h10
      · rfl
    have : blank (c :: r) = none := by
      unfold blank run1
      rw [hl]
      simp [List.takeWhile_cons, hc]
    rw [hd, this]
    rfl
  have hspace : ∀ c, isToken c = true → isspace c = false := by
    intro c hc
    cases q : isspace c with
    | false => rfl
    | true => unfold isToken at hc; rw [q] at hc; simp at hc
  have dn : (n ++ 61 :: w).drop n.length = 61 :: w := by simp
  have dw : (n ++ 61 :: w).drop (n.length + 1) = w := drop_succ dn
  have e1 : skipTo (n ++ 61 :: w) n.length = n.length := hsk dn (by decide)
  have e2 : skipTo (n ++ 61 :: w) (n.length + 1) = n.length + 1 := by
    cases w with
    | nil => exact absurd rfl hw
    | cons c w => exact hsk dw (hspace c (tw c (by simp)))
  have hp : PairAt (n ++ 61 :: w) 0 0 ⟨some (0, n.length), ⟨none, none, some (n.length + 1, n.length + 1 + w.length), some (n.length + 1, n.length + 1 + w.length)⟩, some (0, n.length + 1 + w.length)⟩ (n.length + 1 + w.length) := by
    refine ⟨n.length, _, ⟨n.length, ?_, by omega⟩, ?_, ?_, rfl⟩
    · exact hr n (61 :: w) hn tn (by intro c hc; cases hc; decide)
    · rw [e1]; simp
    · rw [e1, e2]
      refine .token (k := w.length) ?_
      rw [dw]
      have := hr w [] hw tw (fun c hc => by cases hc)
      rwa [List.append_nil] at this
  have hs : ParamsAt (n ++ 61 :: w) (CookieParamAt (n ++ 61 :: w)) (n.length + 1 + w.length) [] (n.length + 1 + w.length) := by
    refine .stop ?_
    rintro p e ⟨q, -⟩
    have l := get_lt q
    have hlen : (n ++ 61 :: w).length = n.length + 1 + w.length := by simp; omega
    have := (skipTo_le (t := n ++ 61 :: w) (i := n.length + 1 + w.length) (by omega)).1
    omega
  rcases cookie_spec h (Nat.zero_le _) with ⟨p, a, l, e, q1, q2, q3⟩ | ⟨n, -⟩
  · have hpa := pairAt_one h (Nat.zero_le _) q1 hp
    obtain ⟨rfl, rfl, rfl⟩ := cookie_one h (Nat.zero_le _) q1 q2 hp hs
    rw [q3]
  · exact absurd hp (n _ _)

/-- **C89** (`*/*`): at an asterisk it matches, three characters if they are `*/*`, otherwise one. -/
theorem any_type_spec {v : Env} {t : List Int} (h : v.Ok t) {i : Nat} (hi : i ≤ t.length) :
    httpAnyType v i = some (if t[i]? = some 42 then (if t[i + 1]? = some 47 ∧ t[i + 2]? = some 42 then some (i + 3) else some (i + 1)) else none) := by
  unfold httpAnyType
  rw [peek_eq h hi]
  dsimp only
  by_cases q : t[i]? = some 42
  · rw [if_pos q, if_pos q]
    have l1 := get_lt q
    by_cases b : below v.fin (i + 2) = true
    · rw [if_pos b, peek_eq h l1]
      dsimp only
      by_cases q1 : t[i + 1]? = some 47
      · rw [if_pos q1, peek_eq h (get_lt q1)]
        dsimp only
        by_cases q2 : t[i + 2]? = some 42
        · rw [if_pos q2, if_pos ⟨q1, q2⟩]
        · rw [if_neg q2, if_neg (fun x => q2 x.2)]
      · rw [if_neg q1, if_neg (fun x => q1 x.1)]
    · rw [if_neg b]
      have : t[i + 2]? = none := by
        rw [List.getElem?_eq_none_iff]
        cases hf : v.fin with
        | none => rw [hf] at b; exact absurd rfl b
        | some f =>
          rw [hf] at b
          have : ¬ (i + 2 < f) := by intro x; exact b (by simpa [below] using x)
          have := text_len_fin h hf
          omega
      rw [if_neg (fun x => by rw [this] at x; cases x.2)]
  · rw [if_neg q, if_neg q]

-- `text/html ; charset="a b";q=1 ;` : two parameters, and the rest is not read
example : mediaType (ipEnv [116, 47, 104, 32, 59, 32, 99, 61, 34, 97, 32, 98, 34, 59, 113, 61, 49, 32, 59]) 0 =
    some (true, ⟨some (0, 1), some (2, 3), some (0, 17)⟩, [⟨some (6, 7), ⟨some (9, 12), some (8, 13), none, some (8, 13)⟩, some (6, 13)⟩, ⟨some (14, 15), ⟨none, none, some (16, 17), some (16, 17)⟩, some (14, 17)⟩]) := by decide +kernel
-- `a=b; $c = "d"`
example : cookie (ipEnv [97, 61, 98, 59, 32, 36, 99, 32, 61, 32, 34, 100, 34]) 0 =
    some (true, ⟨some (0, 1), ⟨none, none, some (2, 3), some (2, 3)⟩, some (0, 13)⟩, [⟨some (6, 7), ⟨some (11, 12), some (10, 13), none, some (10, 13)⟩, some (5, 13)⟩]) := by decide +kernel
example : httpAnyType (ipEnv [42, 47, 42]) 0 = some (some 3) ∧ httpAnyType (ipEnv [42, 47, 97]) 0 = some (some 1) := by decide

end Verif.Parser
