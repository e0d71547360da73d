import Verif.Parser.Url
/-
The parser of phone numbers (include/stdex/parser.hpp 4483-4618). Elements are the functions they compute, as in Parser/Number; the sets of
parentheses give the end of the match and `hit_offset`.
-/
namespace Verif.Parser
open Verif.Str

/-- The constructor's arguments 4487-4492; a missing one is a null pointer. `space` is given whether `match_multiline` is set. -/
structure PhoneParts where
  digit : Sub
  plus : Option Sub
  lpar : Option SubV
  rpar : Option SubV
  sep : Option Sub
  space : Option (Bool → Sub)

/-- `interval.end`, `value` and the local variables 4520-4521; `left` is `m_lparenthesis->hit_offset` if `m_lparenthesis->interval` is not empty, and `right` whether `m_rparenthesis->interval` is not. -/
structure PhoneSt where
  e : Nat
  value : List Int
  safeEnd : Nat
  safeLen : Nat
  has : Bool
  afterDigit : Bool
  inPar : Bool
  afterPar : Bool
  left : Option Nat
  right : Bool

/-- 4540-4549 -/
def onDigit (v : Env) (s : PhoneSt) (j : Nat) : PhoneSt :=
  let value := s.value ++ slice v.s (s.e, j)
  { s with value := value, e := j, safeEnd := if s.inPar then s.safeEnd else j, safeLen := if s.inPar then s.safeLen else value.length, has := s.has || !s.inPar, afterDigit := true, afterPar := false }

/-- 4556-4561 -/
def onLeft (v : Env) (s : PhoneSt) (j h : Nat) : PhoneSt :=
  { s with value := s.value ++ slice v.s (s.e, j), e := j, inPar := true, afterDigit := false, afterPar := false, left := some h }

/-- 4569-4576 -/
def onRight (v : Env) (s : PhoneSt) (j : Nat) : PhoneSt :=
  let value := s.value ++ slice v.s (s.e, j)
  { s with value := value, e := j, safeEnd := j, safeLen := value.length, inPar := false, afterDigit := false, afterPar := true, right := true }

/-- 4584-4587, 4593-4596 -/
def onGap (s : PhoneSt) (j : Nat) (right : Bool) : PhoneSt := { s with e := j, afterDigit := false, afterPar := false, right := right }

/-- 4578-4599: separators and spaces. -/
def gapStep (c : PhoneParts) (s : PhoneSt) (right : Bool) : Option PhoneSt :=
  match (if s.afterDigit && !s.inPar && !s.afterPar then opt c.sep s.e else none) with
  | some j => some (onGap s j right)
  | none =>
    match (if s.afterDigit || s.afterPar then opt (c.space.map fun f => f false) s.e else none) with
    | some j => some (onGap s j right)
    | none => none

/-- The body of the loop 4539-4599; `none` is `break`. -/
def phoneStep (v : Env) (c : PhoneParts) (l r : SubV) (s : PhoneSt) : Option PhoneSt :=
  match c.digit s.e with
  | some j => some (onDigit v s j)
  | none =>
    match (if s.left.isNone && !s.right then l s.e else none) with
    | some (j, h) => some (onLeft v s j h)
    | none =>
      match (if s.inPar && !s.right then r s.e else none) with
      | some (j, h) => if s.left = some h then some (onRight v s j) else gapStep c s true
      | none => gapStep c s s.right

/-- The loop 4535-4600. -/
def phoneLoop (v : Env) (c : PhoneParts) (l r : SubV) : Nat → PhoneSt → Option PhoneSt
  | 0, _ => none
  | fuel + 1, s =>
    match Str.cond v.s v.fin s.e with
    | none => none
    | some none => some s
    | some (some _) =>
      match phoneStep v c l r s with
      | none => some s
      | some s' => phoneLoop v c l r fuel s'

/-- 4520-4533: the plus sign, and `interval.end` -/
def phoneInit (v : Env) (c : PhoneParts) (i : Nat) : PhoneSt :=
  match opt c.plus i with
  | some j => ⟨j, slice v.s (i, j), i, (slice v.s (i, j)).length, false, false, false, false, none, false⟩
  | none => ⟨i, [], i, 0, false, false, false, false, none, false⟩

/-- `basic_phone_number::do_match` 4512-4610: `value` and `interval`. Without parentheses it dereferences a null pointer (4526-4527). -/
def phone (v : Env) (c : PhoneParts) (i : Nat) : Option (Bool × List Int × Iv) :=
  match c.lpar, c.rpar with
  | some l, some r =>
    match phoneLoop v c l r (v.s.length + 2) (phoneInit v c i) with
    | none => none
    | some s => some (if s.has then (true, s.value.take s.safeLen, some (i, s.safeEnd)) else (false, [], none))
  | _, _ => none

/-! ### Specification -/

/-- What a phone number is made of; parentheses have a shape. -/
inductive Tok
  | digit
  | left (h : Nat)
  | right (h : Nat)
  | sep
  | space
deriving DecidableEq

/-- An element at `i` that ends at `j`. -/
inductive TokAt (c : PhoneParts) (i : Nat) : Tok → Nat → Prop
  | digit {j} : c.digit i = some j → TokAt c i .digit j
  | left {l j h} : c.lpar = some l → l i = some (j, h) → TokAt c i (.left h) j
  | right {r j h} : c.rpar = some r → r i = some (j, h) → TokAt c i (.right h) j
  | sep {s j} : c.sep = some s → s i = some j → TokAt c i .sep j
  | space {s j} : c.space = some s → s false i = some j → TokAt c i .space j

/-- Elements one after another, with their intervals. -/
inductive Toks (c : PhoneParts) : Nat → List (Tok × Nat × Nat) → Nat → Prop
  | nil (i : Nat) : Toks c i [] i
  | cons {i m e : Nat} {k : Tok} {l : List (Tok × Nat × Nat)} : TokAt c i k m → Toks c m l e → Toks c i ((k, i, m) :: l) e

/-- After `a` there is an open parenthesis. -/
def Inside (a : List Tok) : Prop := (∃ h, .left h ∈ a) ∧ ∀ h, .right h ∉ a

/-- `k` may come after `a`: there is at most one pair of parentheses, which are of the same shape; separators directly follow digits and are not inside of parentheses; spaces directly follow digits or the right
parenthesis. -/
def May (a : List Tok) : Tok → Prop
  | .digit => True
  | .left _ => ∀ h, Tok.left h ∉ a ∧ Tok.right h ∉ a
  | .right h => Tok.left h ∈ a ∧ ∀ h', Tok.right h' ∉ a
  | .sep => a.getLast? = some .digit ∧ ¬ Inside a
  | .space => a.getLast? = some .digit ∨ ∃ h, a.getLast? = some (.right h)

/-- A sequence of elements that may be (the beginning of) a phone number. -/
def Formed (l : List Tok) : Prop := ∀ a k b, l = a ++ k :: b → May a k

/-- There is a digit outside of parentheses. -/
def Dial (l : List Tok) : Prop := ∃ a b, l = a ++ Tok.digit :: b ∧ ¬ Inside a

/-- The last one is a digit outside of parentheses, or the right parenthesis. -/
def Closes (l : List Tok) : Prop := ∃ a k, l = a ++ [k] ∧ ((k = .digit ∧ ¬ Inside a) ∨ ∃ h, k = .right h)

/-- A phone number, without the plus sign. -/
structure PhoneToks (l : List Tok) : Prop where
  formed : Formed l
  dial : Dial l
  ends : Closes l

/-- The normalized number: separators and spaces are left out. -/
def dialled (t : List Int) : List (Tok × Nat × Nat) → List Int
  | [] => []
  | (k, i, j) :: l => (if k = .sep ∨ k = .space then [] else slice t (i, j)) ++ dialled t l

/-- The number written at `i`: the plus sign ends at `m`, if there is one. -/
def PlusAt (c : PhoneParts) (i : Nat) (m : Nat) : Prop := (∃ p, c.plus = some p ∧ p i = some m) ∨ (opt c.plus i = none ∧ m = i)

/-- All elements take something, and no two of them match at the same place. -/
structure PhoneParts.Ok (c : PhoneParts) (n : Nat) : Prop where
  lpar : c.lpar ≠ none
  rpar : c.rpar ≠ none
  plus : ∀ p, c.plus = some p → Takes n p
  takes : ∀ i ≤ n, ∀ k j, TokAt c i k j → i < j ∧ j ≤ n
  one : ∀ i k j k' j', TokAt c i k j → TokAt c i k' j' → k = k'

/-! ### Proof -/

theorem Formed.prefix {a b : List Tok} (h : Formed (a ++ b)) : Formed a := by
  intro x k y e
  exact h x k (y ++ b) (by rw [e]; simp)

theorem Formed.snoc {a : List Tok} {k : Tok} (h : Formed a) (hk : May a k) : Formed (a ++ [k]) := by
  intro x k' y e
  rcases List.eq_nil_or_concat y with rfl | ⟨y', z, rfl⟩
  · have := List.append_inj' e rfl
    rw [← this.1]
    have q := this.2
    cases q
    exact hk
  · rw [List.concat_eq_append, ← List.cons_append, ← List.append_assoc] at e
    exact h x k' y' (List.append_inj' e rfl).1

theorem toks_snoc {c : PhoneParts} {k : Tok} {j : Nat} : ∀ {i e : Nat} {l : List (Tok × Nat × Nat)}, Toks c i l e → TokAt c e k j → Toks c i (l ++ [(k, e, j)]) j := by
  intro i e l h hk
  induction h with
  | nil i => exact .cons hk (.nil _)
  | cons a _ ih => exact .cons a (ih hk)

theorem toks_le {c : PhoneParts} {n : Nat} (hc : c.Ok n) {i e : Nat} {l : List (Tok × Nat × Nat)} (h : Toks c i l e) (hi : i ≤ n) : i ≤ e ∧ e ≤ n := by
  induction h with
  | nil i => exact ⟨Nat.le_refl _, hi⟩
  | cons a _ ih =>
    have := hc.takes _ hi _ _ a
    have := ih this.2
    omega

theorem tokAt_end {c : PhoneParts} {i j j' : Nat} {k : Tok} (h : TokAt c i k j) (h' : TokAt c i k j') : j = j' := by
  cases h with
  | digit a => cases h' with | digit b => rw [a] at b; cases b; rfl
  | left a a' => cases h' with | left b b' => rw [a] at b; cases b; rw [a'] at b'; cases b'; rfl
  | right a a' => cases h' with | right b b' => rw [a] at b; cases b; rw [a'] at b'; cases b'; rfl
  | sep a a' => cases h' with | sep b b' => rw [a] at b; cases b; rw [a'] at b'; cases b'; rfl
  | space a a' => cases h' with | space b b' => rw [a] at b; cases b; rw [a'] at b'; cases b'; rfl

/-- Two readings of the same text: one goes on where the other ends. -/
theorem toks_compare {c : PhoneParts} {n : Nat} (hc : c.Ok n) {i e : Nat} {l : List (Tok × Nat × Nat)} (h : Toks c i l e) :
    ∀ {e' : Nat} {l' : List (Tok × Nat × Nat)}, Toks c i l' e' → (∃ r, l = l' ++ r ∧ Toks c e' r e) ∨ (∃ r, l' = l ++ r ∧ Toks c e r e') := by
  induction h with
  | nil i => intro e' l' h'; exact .inr ⟨l', rfl, h'⟩
  | @cons i m e k l a hl ih =>
    intro e' l' h'
    cases h' with
    | nil => exact .inl ⟨_, rfl, .cons a hl⟩
    | cons b hl' =>
      have := hc.one _ _ _ _ _ a b
      subst this
      have := tokAt_end a b
      subst this
      rcases ih hl' with ⟨r, rfl, hr⟩ | ⟨r, rfl, hr⟩
      · exact .inl ⟨r, rfl, hr⟩
      · exact .inr ⟨r, rfl, hr⟩

/-- The names of the elements. -/
def kinds (l : List (Tok × Nat × Nat)) : List Tok := l.map Prod.fst

theorem dialled_append (t : List Int) (l l' : List (Tok × Nat × Nat)) : dialled t (l ++ l') = dialled t l ++ dialled t l' := by
  induction l with
  | nil => rfl
  | cons x l ih => obtain ⟨k, i, j⟩ := x; show _ ++ dialled t (l ++ l') = _; rw [ih, ← List.append_assoc]; rfl

theorem dial_append {a b : List Tok} (h : Dial a) : Dial (a ++ b) := by
  obtain ⟨x, y, rfl, hx⟩ := h
  exact ⟨x, y ++ b, by simp, hx⟩

/-- Invariant of the loop. -/
structure PhoneInv (t : List Int) (c : PhoneParts) (i0 : Nat) (pre : List Int) (s : PhoneSt) (l : List (Tok × Nat × Nat)) : Prop where
  toks : Toks c i0 l s.e
  formed : Formed (kinds l)
  value : s.value = pre ++ dialled t l
  left : ∀ h, s.left = some h ↔ Tok.left h ∈ kinds l
  right : s.right = true ↔ ∃ h, Tok.right h ∈ kinds l
  inPar : s.inPar = true ↔ Inside (kinds l)
  afterDigit : s.afterDigit = true ↔ (kinds l).getLast? = some .digit
  afterPar : s.afterPar = true ↔ ∃ h, (kinds l).getLast? = some (.right h)
  has : s.has = true ↔ Dial (kinds l)
  safe : s.has = true → ∃ l1 l2, l = l1 ++ l2 ∧ Toks c i0 l1 s.safeEnd ∧ PhoneToks (kinds l1) ∧ s.value.take s.safeLen = pre ++ dialled t l1 ∧ s.safeLen ≤ s.value.length ∧
    ∀ p q, l = p ++ q → PhoneToks (kinds p) → p.length ≤ l1.length

theorem inside_snoc {a : List Tok} {k : Tok} (hk : ∀ h, k ≠ .left h ∧ k ≠ .right h) : Inside (a ++ [k]) ↔ Inside a := by
  unfold Inside
  simp only [List.mem_append, List.mem_singleton]
  constructor
  · rintro ⟨⟨h, q⟩, q2⟩
    exact ⟨⟨h, q.resolve_right (fun e => (hk h).1 e.symm)⟩, fun h m => q2 h (.inl m)⟩
  · rintro ⟨⟨h, q⟩, q2⟩
    exact ⟨⟨h, .inl q⟩, fun h m => m.elim (q2 h) (fun e => (hk h).2 e.symm)⟩

theorem dial_snoc {a : List Tok} {k : Tok} : Dial (a ++ [k]) ↔ Dial a ∨ (k = .digit ∧ ¬ Inside a) := by
  constructor
  · rintro ⟨x, y, e, hx⟩
    rcases List.eq_nil_or_concat y with rfl | ⟨y', z, rfl⟩
    · have := List.append_inj' e rfl
      have q := this.2
      cases q
      rw [this.1]
      exact .inr ⟨rfl, hx⟩
    · rw [List.concat_eq_append, ← List.cons_append, ← List.append_assoc] at e
      exact .inl ⟨x, y', (List.append_inj' e rfl).1, hx⟩
  · rintro (h | ⟨rfl, h⟩)
    · exact dial_append h
    · exact ⟨a, [], rfl, h⟩

theorem ends_snoc {a : List Tok} {k : Tok} : Closes (a ++ [k]) ↔ (k = .digit ∧ ¬ Inside a) ∨ ∃ h, k = .right h := by
  constructor
  · rintro ⟨x, y, e, hx⟩
    have := List.append_inj' e rfl
    have q := this.2
    cases q
    rw [this.1]
    exact hx
  · intro h; exact ⟨a, k, rfl, h⟩

theorem kinds_snoc (l : List (Tok × Nat × Nat)) (k : Tok) (p : Nat × Nat) : kinds (l ++ [(k, p)]) = kinds l ++ [k] := by unfold kinds; simp

/-- What is not the end of a number leaves the longest one as it is. -/
theorem longest_keep {t : List Int} {c : PhoneParts} {i0 : Nat} {pre : List Int} {value value' : List Int} {safeEnd safeLen : Nat} {l : List (Tok × Nat × Nat)} {k : Tok} {p : Nat × Nat}
    (hv : ∃ w, value' = value ++ w) (hk : ¬ Closes (kinds l ++ [k]))
    (h : ∃ l1 l2, l = l1 ++ l2 ∧ Toks c i0 l1 safeEnd ∧ PhoneToks (kinds l1) ∧ value.take safeLen = pre ++ dialled t l1 ∧ safeLen ≤ value.length ∧ ∀ p q, l = p ++ q → PhoneToks (kinds p) → p.length ≤ l1.length) :
    ∃ l1 l2, l ++ [(k, p)] = l1 ++ l2 ∧ Toks c i0 l1 safeEnd ∧ PhoneToks (kinds l1) ∧ value'.take safeLen = pre ++ dialled t l1 ∧ safeLen ≤ value'.length ∧
      ∀ p' q, l ++ [(k, p)] = p' ++ q → PhoneToks (kinds p') → p'.length ≤ l1.length := by
  obtain ⟨l1, l2, rfl, h1, h2, h3, h4, h5⟩ := h
  obtain ⟨w, rfl⟩ := hv
  refine ⟨l1, l2 ++ [(k, p)], by simp, h1, h2, ?_, ?_, ?_⟩
  · rw [List.take_append_of_le_length h4]; exact h3
  · simp; omega
  · intro p' q e hp
    rcases List.eq_nil_or_concat q with rfl | ⟨q', z, rfl⟩
    · rw [List.append_nil] at e
      subst e
      rw [kinds_snoc] at hp
      exact absurd hp.ends hk
    · rw [List.concat_eq_append, ← List.append_assoc] at e
      exact h5 p' q' (List.append_inj' e rfl).1 hp

/-- A new longest number. -/
theorem longest_new {t : List Int} {c : PhoneParts} {i0 : Nat} {pre : List Int} {value : List Int} {l : List (Tok × Nat × Nat)} {e : Nat}
    (h1 : Toks c i0 l e) (h2 : PhoneToks (kinds l)) (hv : value = pre ++ dialled t l) :
    ∃ l1 l2, l = l1 ++ l2 ∧ Toks c i0 l1 e ∧ PhoneToks (kinds l1) ∧ value.take value.length = pre ++ dialled t l1 ∧ value.length ≤ value.length ∧
      ∀ p q, l = p ++ q → PhoneToks (kinds p) → p.length ≤ l1.length := by
  refine ⟨l, [], by simp, h1, h2, by rw [List.take_length]; exact hv, Nat.le_refl _, ?_⟩
  intro p q e _
  rw [e]; simp

theorem last_snoc {a : List Tok} {k : Tok} : (a ++ [k]).getLast? = some k := by simp

theorem inv_digit {v : Env} {t : List Int} (h : v.Ok t) {c : PhoneParts} (hc : c.Ok t.length) {i0 : Nat} (hi : i0 ≤ t.length) {pre : List Int} {s : PhoneSt} {l : List (Tok × Nat × Nat)}
    (hs : PhoneInv t c i0 pre s l) {j : Nat} (hd : c.digit s.e = some j) : PhoneInv t c i0 pre (onDigit v s j) (l ++ [(.digit, s.e, j)]) := by
  have he := toks_le hc hs.toks hi
  have hj := hc.takes _ he.2 _ _ (.digit hd)
  have hv : (onDigit v s j).value = pre ++ dialled t (l ++ [(.digit, s.e, j)]) := by
    show s.value ++ slice v.s (s.e, j) = _
    rw [hs.value, dialled_append, slice_text h (q := (s.e, j)) hj.2]
    simp [dialled]
  have ht := toks_snoc hs.toks (.digit hd)
  have hf : Formed (kinds l ++ [.digit]) := hs.formed.snoc trivial
  have hh : (onDigit v s j).has = true ↔ Dial (kinds l ++ [.digit]) := by
    show (s.has || !s.inPar) = true ↔ _
    rw [dial_snoc, Bool.or_eq_true, hs.has, ← hs.inPar]
    simp
  refine ⟨ht, ?_, hv, ?_, ?_, ?_, ?_, ?_, ?_, ?_⟩
  · rw [kinds_snoc]; exact hf
  · intro x; rw [kinds_snoc]; simp; exact hs.left x
  · rw [kinds_snoc]; simp; exact hs.right
  · rw [kinds_snoc, inside_snoc (by simp)]; exact hs.inPar
  · rw [kinds_snoc]; simp [onDigit]
  · rw [kinds_snoc]; simp [onDigit]
  · rw [kinds_snoc]; exact hh
  · intro hhas
    by_cases hp : s.inPar = true
    · have e1 : (onDigit v s j).safeEnd = s.safeEnd := by unfold onDigit; dsimp only; rw [if_pos hp]
      have e2 : (onDigit v s j).safeLen = s.safeLen := by unfold onDigit; dsimp only; rw [if_pos hp]
      rw [e1, e2]
      have : s.has = true := by
        have : (s.has || !s.inPar) = true := hhas
        rw [hp] at this; simpa using this
      refine longest_keep ⟨_, rfl⟩ ?_ (hs.safe this)
      rw [ends_snoc]
      rintro (⟨-, q⟩ | ⟨_, q⟩)
      · exact q (hs.inPar.1 hp)
      · cases q
    · have e1 : (onDigit v s j).safeEnd = j := by unfold onDigit; dsimp only; rw [if_neg hp]
      have e2 : (onDigit v s j).safeLen = (onDigit v s j).value.length := by unfold onDigit; dsimp only; rw [if_neg hp]
      rw [e1, e2]
      refine longest_new ht ⟨?_, ?_, ?_⟩ hv
      · rw [kinds_snoc]; exact hf
      · rw [kinds_snoc]; exact hh.1 hhas
      · rw [kinds_snoc, ends_snoc]; exact .inl ⟨rfl, fun q => hp (hs.inPar.2 q)⟩

theorem inv_left {v : Env} {t : List Int} (h : v.Ok t) {c : PhoneParts} (hc : c.Ok t.length) {i0 : Nat} (hi : i0 ≤ t.length) {pre : List Int} {s : PhoneSt} {l : List (Tok × Nat × Nat)}
    (hs : PhoneInv t c i0 pre s l) {j x : Nat} (hd : TokAt c s.e (.left x) j) (hl : s.left = none) (hr : s.right = false) : PhoneInv t c i0 pre (onLeft v s j x) (l ++ [(.left x, s.e, j)]) := by
  have he := toks_le hc hs.toks hi
  have hj := hc.takes _ he.2 _ _ hd
  have hv : (onLeft v s j x).value = pre ++ dialled t (l ++ [(.left x, s.e, j)]) := by
    show s.value ++ slice v.s (s.e, j) = _
    rw [hs.value, dialled_append, slice_text h (q := (s.e, j)) hj.2]
    simp [dialled]
  have nl : ∀ y, Tok.left y ∉ kinds l := by
    intro y m
    have := (hs.left y).2 m
    rw [hl] at this; cases this
  have nr : ∀ y, Tok.right y ∉ kinds l := by
    intro y m
    have := hs.right.2 ⟨y, m⟩
    rw [hr] at this; cases this
  refine ⟨toks_snoc hs.toks hd, ?_, hv, ?_, ?_, ?_, ?_, ?_, ?_, ?_⟩
  · rw [kinds_snoc]; exact hs.formed.snoc (fun y => ⟨nl y, nr y⟩)
  · intro y; rw [kinds_snoc]; simp [onLeft, nl y]; exact eq_comm
  · rw [kinds_snoc]; simp [onLeft, hr, nr]
  · rw [kinds_snoc]; simp [onLeft, Inside, nr]
  · rw [kinds_snoc]; simp [onLeft]
  · rw [kinds_snoc]; simp [onLeft]
  · rw [kinds_snoc, dial_snoc]; simp; exact hs.has
  · intro hhas
    refine longest_keep ⟨_, rfl⟩ ?_ (hs.safe hhas)
    rw [ends_snoc]
    rintro (⟨q, -⟩ | ⟨_, q⟩) <;> cases q

theorem inv_right {v : Env} {t : List Int} (h : v.Ok t) {c : PhoneParts} (hc : c.Ok t.length) {i0 : Nat} (hi : i0 ≤ t.length) {pre : List Int} {s : PhoneSt} {l : List (Tok × Nat × Nat)}
    (hs : PhoneInv t c i0 pre s l) {j x : Nat} (hd : TokAt c s.e (.right x) j) (hl : s.left = some x) (hr : s.right = false) : PhoneInv t c i0 pre (onRight v s j) (l ++ [(.right x, s.e, j)]) := by
  have he := toks_le hc hs.toks hi
  have hj := hc.takes _ he.2 _ _ hd
  have hv : (onRight v s j).value = pre ++ dialled t (l ++ [(.right x, s.e, j)]) := by
    show s.value ++ slice v.s (s.e, j) = _
    rw [hs.value, dialled_append, slice_text h (q := (s.e, j)) hj.2]
    simp [dialled]
  have nr : ∀ y, Tok.right y ∉ kinds l := by
    intro y m
    have := hs.right.2 ⟨y, m⟩
    rw [hr] at this; cases this
  have hf : Formed (kinds l ++ [.right x]) := hs.formed.snoc ⟨(hs.left x).1 hl, nr⟩
  have ht := toks_snoc hs.toks hd
  have hh : (onRight v s j).has = true ↔ Dial (kinds l ++ [.right x]) := by rw [dial_snoc]; simp; exact hs.has
  refine ⟨ht, ?_, hv, ?_, ?_, ?_, ?_, ?_, ?_, ?_⟩
  · rw [kinds_snoc]; exact hf
  · intro y; rw [kinds_snoc]; simp; exact hs.left y
  · rw [kinds_snoc]; simp [onRight]
  · rw [kinds_snoc]; simp [onRight, Inside]; intro _ _; exact ⟨x, fun _ => rfl⟩
  · rw [kinds_snoc]; simp [onRight]
  · rw [kinds_snoc]; simp [onRight]
  · rw [kinds_snoc]; exact hh
  · intro hhas
    refine longest_new ht ⟨?_, ?_, ?_⟩ hv
    · rw [kinds_snoc]; exact hf
    · rw [kinds_snoc]; exact hh.1 hhas
    · rw [kinds_snoc, ends_snoc]; exact .inr ⟨x, rfl⟩

theorem inv_gap {t : List Int} {c : PhoneParts} {i0 : Nat} {pre : List Int} {s : PhoneSt} {l : List (Tok × Nat × Nat)}
    (hs : PhoneInv t c i0 pre s l) {j : Nat} {k : Tok} (hk : k = .sep ∨ k = .space) (hd : TokAt c s.e k j) (hm : May (kinds l) k) : PhoneInv t c i0 pre (onGap s j s.right) (l ++ [(k, s.e, j)]) := by
  refine ⟨toks_snoc hs.toks hd, ?_, ?_, ?_, ?_, ?_, ?_, ?_, ?_, ?_⟩
  · rw [kinds_snoc]; exact hs.formed.snoc hm
  · show s.value = _
    rw [hs.value, dialled_append]
    simp [dialled, hk]
  · intro y; rw [kinds_snoc]; rcases hk with rfl | rfl <;> (simp; exact hs.left y)
  · rw [kinds_snoc]; rcases hk with rfl | rfl <;> (simp; exact hs.right)
  · rw [kinds_snoc, inside_snoc (by rcases hk with rfl | rfl <;> simp)]; exact hs.inPar
  · rw [kinds_snoc]; rcases hk with rfl | rfl <;> simp [onGap]
  · rw [kinds_snoc]; rcases hk with rfl | rfl <;> simp [onGap]
  · rw [kinds_snoc, dial_snoc]; rcases hk with rfl | rfl <;> (simp; exact hs.has)
  · intro hhas
    refine longest_keep ⟨[], by simp [onGap]⟩ ?_ (hs.safe hhas)
    rw [ends_snoc]
    rcases hk with rfl | rfl <;> (rintro (⟨q, -⟩ | ⟨_, q⟩) <;> cases q)

theorem opt_sep {c : PhoneParts} {i j : Nat} : opt c.sep i = some j ↔ TokAt c i .sep j := by
  unfold opt
  constructor
  · intro q; split at q
    · cases q
    · rename_i d e; exact .sep e q
  · intro q; cases q with | sep a b => rw [a]; exact b

theorem opt_space {c : PhoneParts} {i j : Nat} : opt (c.space.map fun f => f false) i = some j ↔ TokAt c i .space j := by
  unfold opt
  constructor
  · intro q; split at q
    · cases q
    · rename_i d e
      cases f : c.space with
      | none => rw [f] at e; cases e
      | some g => rw [f] at e; cases e; exact .space f q
  · intro q; cases q with | space a b => rw [a]; exact b

/-- Separators and spaces, when there is no digit and no parenthesis. -/
theorem phoneGap_spec {t : List Int} {c : PhoneParts} {i0 : Nat} {pre : List Int} {s : PhoneSt} {l : List (Tok × Nat × Nat)} (hs : PhoneInv t c i0 pre s l) :
    (∃ k j, (k = .sep ∨ k = .space) ∧ TokAt c s.e k j ∧ May (kinds l) k ∧ ∀ r, gapStep c s r = some (onGap s j r)) ∨
    ((∀ k j, (k = .sep ∨ k = .space) → TokAt c s.e k j → ¬ May (kinds l) k) ∧ ∀ r, gapStep c s r = none) := by
  have m1 : (s.afterDigit && !s.inPar && !s.afterPar) = true ↔ May (kinds l) .sep := by
    unfold May
    rw [← hs.afterDigit, ← hs.inPar]
    have : s.afterDigit = true → s.afterPar = false := by
      intro q
      have a := hs.afterDigit.1 q
      cases b : s.afterPar with
      | false => rfl
      | true => obtain ⟨x, e⟩ := hs.afterPar.1 b; rw [a] at e; cases e
    revert this
    cases s.afterDigit <;> cases s.inPar <;> cases s.afterPar <;> simp
  have m2 : (s.afterDigit || s.afterPar) = true ↔ May (kinds l) .space := by
    unfold May
    rw [← hs.afterDigit, ← hs.afterPar, Bool.or_eq_true]
  cases a : (if s.afterDigit && !s.inPar && !s.afterPar then opt c.sep s.e else none) with
  | some j =>
    split at a
    · rename_i b
      exact .inl ⟨.sep, j, .inl rfl, opt_sep.1 a, m1.1 b, fun r => by unfold gapStep; rw [if_pos b, a]⟩
    · cases a
  | none =>
    have n1 : ∀ j, TokAt c s.e .sep j → ¬ May (kinds l) .sep := by
      intro j hj hm
      rw [if_pos (m1.2 hm), opt_sep.2 hj] at a
      cases a
    cases b : (if s.afterDigit || s.afterPar then opt (c.space.map fun f => f false) s.e else none) with
    | some j =>
      refine .inl ⟨.space, j, .inr rfl, ?_, ?_, fun r => by unfold gapStep; rw [a, b]⟩
      · split at b
        · exact opt_space.1 b
        · cases b
      · split at b
        · rename_i q; exact m2.1 q
        · cases b
    | none =>
      have n2 : ∀ j, TokAt c s.e .space j → ¬ May (kinds l) .space := by
        intro j hj hm
        rw [if_pos (m2.2 hm), opt_space.2 hj] at b
        cases b
      refine .inr ⟨?_, fun r => by unfold gapStep; rw [a, b]⟩
      rintro k j (rfl | rfl)
      · exact n1 j
      · exact n2 j

theorem step_spec {v : Env} {t : List Int} (h : v.Ok t) {c : PhoneParts} (hc : c.Ok t.length) {pl pr : SubV} (hl : c.lpar = some pl) (hr : c.rpar = some pr)
    {i0 : Nat} (hi : i0 ≤ t.length) {pre : List Int} {s : PhoneSt} {l : List (Tok × Nat × Nat)} (hs : PhoneInv t c i0 pre s l) :
    (∃ s' k j, phoneStep v c pl pr s = some s' ∧ s'.e = j ∧ TokAt c s.e k j ∧ PhoneInv t c i0 pre s' (l ++ [(k, s.e, j)])) ∨
    (phoneStep v c pl pr s = none ∧ ∀ k j, TokAt c s.e k j → ¬ May (kinds l) k) := by
  unfold phoneStep
  cases a : c.digit s.e with
  | some j => exact .inl ⟨_, .digit, j, rfl, rfl, .digit a, inv_digit h hc hi hs a⟩
  | none =>
    have n1 : ∀ j, ¬ TokAt c s.e .digit j := by
      intro j q; cases q with | digit q => rw [a] at q; cases q
    have m1 : (s.left.isNone && !s.right) = true ↔ ∀ x, Tok.left x ∉ kinds l ∧ Tok.right x ∉ kinds l := by
      rw [Bool.and_eq_true]
      constructor
      · rintro ⟨q1, q2⟩ x
        refine ⟨fun m => ?_, fun m => ?_⟩
        · rw [(hs.left x).2 m] at q1; cases q1
        · rw [hs.right.2 ⟨x, m⟩] at q2; cases q2
      · intro q
        refine ⟨?_, ?_⟩
        · cases b : s.left with
          | none => rfl
          | some x => exact absurd ((hs.left x).1 b) (q x).1
        · cases b : s.right with
          | false => rfl
          | true => obtain ⟨x, m⟩ := hs.right.1 b; exact absurd m (q x).2
    dsimp only
    cases b : (if s.left.isNone && !s.right then pl s.e else none) with
    | some x =>
      obtain ⟨j, x⟩ := x
      split at b
      · rename_i q
        rw [Bool.and_eq_true] at q
        have tk : TokAt c s.e (.left x) j := .left hl b
        exact .inl ⟨_, .left x, j, rfl, rfl, tk, inv_left h hc hi hs tk (Option.isNone_iff_eq_none.1 q.1) (by simpa using q.2)⟩
      · cases b
    | none =>
      have n2 : ∀ x j, TokAt c s.e (.left x) j → ¬ May (kinds l) (.left x) := by
        intro x j q m
        cases q with
        | left q1 q2 =>
          rw [hl] at q1; cases q1
          rw [if_pos (m1.2 m), q2] at b
          cases b
      dsimp only
      cases d : (if s.inPar && !s.right then pr s.e else none) with
      | some x =>
        obtain ⟨j, x⟩ := x
        split at d
        · rename_i q
          rw [Bool.and_eq_true] at q
          have tk : TokAt c s.e (.right x) j := .right hr d
          dsimp only
          by_cases g : s.left = some x
          · rw [if_pos g]
            exact .inl ⟨_, .right x, j, rfl, rfl, tk, inv_right h hc hi hs tk g (by simpa using q.2)⟩
          · rw [if_neg g]
            rcases phoneGap_spec hs with ⟨k, j', q1, q2, -, -⟩ | ⟨-, q2⟩
            · have := hc.one _ _ _ _ _ tk q2
              rcases q1 with rfl | rfl <;> cases this
            · refine .inr ⟨q2 _, ?_⟩
              intro k j' hk hm
              have := hc.one _ _ _ _ _ tk hk
              subst this
              exact g ((hs.left x).2 hm.1)
        · cases d
      | none =>
        have n3 : ∀ x j, TokAt c s.e (.right x) j → ¬ May (kinds l) (.right x) := by
          intro x j q m
          cases q with
          | right q1 q2 =>
            rw [hr] at q1; cases q1
            have : (s.inPar && !s.right) = true := by
              rw [Bool.and_eq_true]
              refine ⟨hs.inPar.2 ⟨⟨x, m.1⟩, m.2⟩, ?_⟩
              cases e : s.right with
              | false => rfl
              | true => obtain ⟨y, e⟩ := hs.right.1 e; exact absurd e (m.2 y)
            rw [if_pos this, q2] at d
            cases d
        dsimp only
        rcases phoneGap_spec hs with ⟨k, j, q1, q2, q3, q4⟩ | ⟨q1, q2⟩
        · exact .inl ⟨_, k, j, q4 _, rfl, q2, inv_gap hs q1 q2 q3⟩
        · refine .inr ⟨q2 _, ?_⟩
          intro k j hk
          cases k with
          | digit => exact absurd hk (n1 j)
          | left x => exact n2 x j hk
          | right x => exact n3 x j hk
          | sep => exact q1 _ _ (.inl rfl) hk
          | space => exact q1 _ _ (.inr rfl) hk

theorem loop_spec {v : Env} {t : List Int} (h : v.Ok t) {c : PhoneParts} (hc : c.Ok t.length) {pl pr : SubV} (hl : c.lpar = some pl) (hr : c.rpar = some pr)
    {i0 : Nat} (hi : i0 ≤ t.length) {pre : List Int} : ∀ (fuel : Nat) {s : PhoneSt} {l : List (Tok × Nat × Nat)}, PhoneInv t c i0 pre s l → t.length - s.e < fuel →
    ∃ s' l', phoneLoop v c pl pr fuel s = some s' ∧ PhoneInv t c i0 pre s' l' ∧ ∀ k j, TokAt c s'.e k j → ¬ May (kinds l') k := by
  intro fuel
  induction fuel with
  | zero => intro s l _ q; omega
  | succ fuel ih =>
    intro s l hs hf
    have he := toks_le hc hs.toks hi
    unfold phoneLoop
    rw [cond_eq h.valid (by rw [← h.text]; exact he.2), ← h.text]
    cases q : t[s.e]? with
    | none =>
      refine ⟨s, l, rfl, hs, ?_⟩
      intro k j hk
      have := hc.takes _ he.2 _ _ hk
      rw [List.getElem?_eq_none_iff] at q
      omega
    | some x =>
      dsimp only
      rcases step_spec h hc hl hr hi hs with ⟨s', k, j, e1, e2, e3, e4⟩ | ⟨e1, e2⟩
      · rw [e1]
        have := hc.takes _ he.2 _ _ e3
        exact ih e4 (by omega)
      · rw [e1]
        exact ⟨s, l, rfl, hs, e2⟩

/-- **C85** The longest phone number is matched, with the number it stands for. -/
theorem phone_spec {v : Env} {t : List Int} (h : v.Ok t) {c : PhoneParts} (hc : c.Ok t.length) {i m : Nat} (hi : i ≤ t.length) (hp : PlusAt c i m) :
    (∃ l e, Toks c m l e ∧ PhoneToks (kinds l) ∧ (∀ l' e', Toks c m l' e' → PhoneToks (kinds l') → e' ≤ e) ∧ phone v c i = some (true, slice t (i, m) ++ dialled t l, some (i, e))) ∨
    ((∀ l e, Toks c m l e → ¬ PhoneToks (kinds l)) ∧ phone v c i = some (false, [], none)) := by
  obtain ⟨pl, hl⟩ := Option.ne_none_iff_exists'.1 hc.lpar
  obtain ⟨pr, hr⟩ := Option.ne_none_iff_exists'.1 hc.rpar
  have hm : m ≤ t.length := by
    rcases hp with ⟨p, e, q⟩ | ⟨-, rfl⟩
    · exact (hc.plus p e _ hi _ q).2
    · exact hi
  have h0 : PhoneInv t c m (slice t (i, m)) (phoneInit v c i) [] := by
    have e : (phoneInit v c i).e = m ∧ (phoneInit v c i).value = slice t (i, m) ∧ (phoneInit v c i).has = false ∧ (phoneInit v c i).afterDigit = false ∧ (phoneInit v c i).inPar = false ∧
        (phoneInit v c i).afterPar = false ∧ (phoneInit v c i).left = none ∧ (phoneInit v c i).right = false := by
      unfold phoneInit
      rcases hp with ⟨p, e, q⟩ | ⟨q, rfl⟩
      · have : opt c.plus i = some m := by rw [e]; exact q
        rw [this]
        exact ⟨rfl, slice_text h (q := (i, m)) hm, rfl, rfl, rfl, rfl, rfl, rfl⟩
      · rw [q]
        exact ⟨rfl, by simp [slice], rfl, rfl, rfl, rfl, rfl, rfl⟩
    obtain ⟨e1, e2, e3, e4, e5, e6, e7, e8⟩ := e
    refine ⟨by rw [e1]; exact .nil _, ?_, by rw [e2]; simp [dialled], by rw [e7]; simp [kinds], by rw [e8]; simp [kinds], by rw [e5]; simp [kinds, Inside], by rw [e4]; simp [kinds], by rw [e6]; simp [kinds], ?_, ?_⟩
    · intro a k b q
      have q : ([] : List Tok) = a ++ k :: b := q
      cases a <;> cases q
    · rw [e3]
      refine ⟨(fun q => nomatch q), ?_⟩
      rintro ⟨a, b, q, -⟩
      have q : ([] : List Tok) = a ++ .digit :: b := q
      cases a <;> cases q
    · intro q; rw [e3] at q; cases q
  have hf : t.length - (phoneInit v c i).e < v.s.length + 2 := by have := text_length_le v.s v.fin; rw [← h.text] at this; omega
  obtain ⟨s, l, e1, hs, e2⟩ := loop_spec h hc hl hr hm (v.s.length + 2) h0 hf
  have run : phone v c i = some (if s.has then (true, s.value.take s.safeLen, some (i, s.safeEnd)) else (false, [], none)) := by
    unfold phone
    rw [hl, hr]
    show (match phoneLoop v c pl pr (v.s.length + 2) (phoneInit v c i) with | none => none | some s => _) = _
    rw [e1]
  -- every number is at the beginning of what has been read
  have all : ∀ l' e', Toks c m l' e' → PhoneToks (kinds l') → ∃ r, l = l' ++ r ∧ Toks c e' r s.e := by
    intro l' e' ht hn
    rcases toks_compare hc hs.toks ht with q | ⟨r, q, hr⟩
    · exact q
    · cases hr with
      | nil => exact ⟨[], by rw [q]; simp, by exact .nil _⟩
      | @cons _ x _ k r' a b =>
        refine absurd (hn.formed (kinds l) k (kinds r') ?_) (e2 k x a)
        rw [q]; unfold kinds; simp
  rw [run]
  by_cases hh : s.has = true
  · rw [if_pos hh]
    obtain ⟨l1, l2, rfl, q1, q2, q3, q4, q5⟩ := hs.safe hh
    refine .inl ⟨l1, s.safeEnd, q1, q2, ?_, by rw [q3]⟩
    intro l' e' ht hn
    obtain ⟨r, qr, -⟩ := all l' e' ht hn
    have len := q5 l' r qr hn
    -- l' is a prefix of l1
    rcases toks_compare hc q1 ht with ⟨r', -, q⟩ | ⟨r', e, q⟩
    · exact (toks_le hc q (toks_le hc ht hm).2).1
    · have : r' = [] := by
        have := congrArg List.length e
        simp at this
        exact List.length_eq_zero_iff.1 (by omega)
      subst this
      cases q
      exact Nat.le_refl _
  · rw [if_neg hh]
    refine .inr ⟨?_, rfl⟩
    intro l' e' ht hn
    obtain ⟨r, qr, -⟩ := all l' e' ht hn
    apply hh
    rw [hs.has, qr]
    unfold kinds
    rw [List.map_append]
    exact dial_append hn.dial

/-- Without parentheses, it dereferences a null pointer. -/
theorem phone_null (v : Env) (c : PhoneParts) (i : Nat) (h : c.lpar = none ∨ c.rpar = none) : phone v c i = none := by
  unfold phone
  rcases h with h | h
  · rw [h]
  · rw [h]; split
    · rename_i q; cases q
    · rfl

/-! ### Examples -/

/-- The shape of the parenthesis, if it is one. -/
def parenSub (t : List Int) (w : List Int) : SubV := fun i => match t[i]? with
  | some c => (w.idxOf? c).map fun k => (i + 1, k)
  | none => none

/-- Digits, `+`, `( [`, `) ]`, `- /` and the space. -/
def asciiPhone (t : List Int) : PhoneParts where
  digit := testSub t fun c => decide (48 ≤ c ∧ c ≤ 57)
  plus := some (charSub t 43)
  lpar := some (parenSub t [40, 91])
  rpar := some (parenSub t [41, 93])
  sep := some (testSub t fun c => c == 45 || c == 47)
  space := some fun _ => charSub t 32

theorem testSub_some {t : List Int} {p : Int → Bool} {i j : Nat} (h : testSub t p i = some j) : ∃ c, t[i]? = some c ∧ p c = true ∧ j = i + 1 := by
  unfold testSub at h
  split at h
  · rename_i c q
    split at h
    · rename_i r; cases h; exact ⟨c, q, r, rfl⟩
    · cases h
  · cases h

theorem parenSub_some {t w : List Int} {i j x : Nat} (h : parenSub t w i = some (j, x)) : ∃ c, t[i]? = some c ∧ w.idxOf? c = some x ∧ j = i + 1 := by
  unfold parenSub at h
  split at h
  · rename_i c q
    cases e : w.idxOf? c with
    | none => rw [e] at h; cases h
    | some y => rw [e] at h; cases h; exact ⟨c, q, e, rfl⟩
  · cases h

/-- The elements of every text satisfy the hypotheses of `phone_spec`. -/
theorem asciiPhone_ok (t : List Int) : (asciiPhone t).Ok t.length := by
  have cs : ∀ {x : Int} {i j : Nat}, charSub t x i = some j → t[i]? = some x ∧ j = i + 1 := by
    intro x i j h
    unfold charSub at h
    split at h
    · cases h; exact ⟨by assumption, rfl⟩
    · cases h
  have key : ∀ i k j, TokAt (asciiPhone t) i k j → j = i + 1 ∧ ∃ c, t[i]? = some c ∧
      (match k with
       | .digit => 48 ≤ c ∧ c ≤ 57
       | .left h => (c = 40 ∧ h = 0) ∨ (c = 91 ∧ h = 1)
       | .right h => (c = 41 ∧ h = 0) ∨ (c = 93 ∧ h = 1)
       | .sep => c = 45 ∨ c = 47
       | .space => c = 32) := by
    have idx : ∀ (a b c : Int) (x : Nat), a ≠ b → [a, b].idxOf? c = some x → (c = a ∧ x = 0) ∨ (c = b ∧ x = 1) := by
      intro a b c x _ q
      unfold List.idxOf? at q
      rw [List.findIdx?_cons, List.findIdx?_cons, List.findIdx?_nil] at q
      by_cases e : a = c
      · subst e; simp at q; exact .inl ⟨rfl, q.symm⟩
      · by_cases e2 : b = c
        · subst e2; simp [e] at q; exact .inr ⟨rfl, q.symm⟩
        · simp [e, e2] at q
    intro i k j h
    cases h with
    | digit a => obtain ⟨c, e1, e2, e3⟩ := testSub_some a; exact ⟨e3, c, e1, by simpa using e2⟩
    | left a b => cases a; obtain ⟨c, e1, e2, e3⟩ := parenSub_some b; exact ⟨e3, c, e1, idx _ _ _ _ (by decide) e2⟩
    | right a b => cases a; obtain ⟨c, e1, e2, e3⟩ := parenSub_some b; exact ⟨e3, c, e1, idx _ _ _ _ (by decide) e2⟩
    | sep a b => cases a; obtain ⟨c, e1, e2, e3⟩ := testSub_some b; exact ⟨e3, c, e1, by simpa using e2⟩
    | space a b => cases a; obtain ⟨e1, e2⟩ := cs b; exact ⟨e2, _, e1, rfl⟩
  refine ⟨(fun q => nomatch q), (fun q => nomatch q), ?_, ?_, ?_⟩
  · intro p e; cases e; exact charSub_takes t 43
  · intro i _ k j h
    obtain ⟨e, c, q, -⟩ := key i k j h
    have := lt_of_get q
    omega
  · intro i k j k' j' h h'
    obtain ⟨-, c, q, r⟩ := key i k j h
    obtain ⟨-, c', q', r'⟩ := key i k' j' h'
    rw [q] at q'; cases q'
    cases k <;> cases k' <;> dsimp only at r r' <;> first | rfl | (exfalso; omega) | (congr 1; omega)

/-- `+1 (23) 4-5 x`: the number is `+1(23)45` -/
example : phone (ipEnv [43, 49, 32, 40, 50, 51, 41, 32, 52, 45, 53, 32, 120]) (asciiPhone [43, 49, 32, 40, 50, 51, 41, 32, 52, 45, 53, 32, 120]) 0 =
    some (true, [43, 49, 40, 50, 51, 41, 52, 53], some (0, 11)) := by decide +kernel

/-- `1(2]3`: parentheses of different shapes, the number is `1` -/
example : phone (ipEnv [49, 40, 50, 93, 51]) (asciiPhone [49, 40, 50, 93, 51]) 0 = some (true, [49], some (0, 1)) := by decide +kernel

/-- A number -/
example : PhoneToks [.digit, .space, .left 0, .digit, .right 0] := by
  have f : ∀ l : List Tok, (∀ n < l.length, ∀ k, l[n]? = some k → May (l.take n) k) → Formed l := by
    intro l h a k b e
    have := h a.length (by rw [e]; simp) k (by rw [e]; simp)
    rw [e] at this
    simpa using this
  refine ⟨f _ ?_, ⟨[], _, rfl, fun q => by obtain ⟨⟨x, q⟩, -⟩ := q; cases q⟩, ⟨[.digit, .space, .left 0, .digit], .right 0, rfl, .inr ⟨0, rfl⟩⟩⟩
  intro n hn k hk
  match n, hn with
  | 0, _ => cases hk; trivial
  | 1, _ => cases hk; exact .inl rfl
  | 2, _ => cases hk; intro h; simp
  | 3, _ => cases hk; trivial
  | 4, _ => cases hk; refine ⟨by simp, fun h' => by simp⟩

end Verif.Parser
