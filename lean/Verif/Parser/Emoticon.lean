import Verif.Parser.Phone
/-
The parsers of emoticons (include/stdex/parser.hpp 3870-3964) and of chemical formulas (5489-5555). Elements are the functions they compute,
as in Parser/Number; the set of mouths gives the end of the match and `hit_offset`.
-/
namespace Verif.Parser
open Verif.Str

/-! ### Emoticons -/

/-- The constructor's arguments 3874-3878 -/
structure EmoParts where
  whole : Option Sub
  apex : Option Sub
  eyes : Sub
  nose : Option Sub
  mouth : SubV

/-- The intervals of the elements, and of the match -/
structure Emo where
  whole : Iv
  apex : Iv
  eyes : Iv
  nose : Iv
  mouth : Iv
  interval : Iv
deriving DecidableEq

def emoInvalid : Emo := ⟨none, none, none, none, none, none⟩

/-- The loops 3936, 3947: `interval.end`, and `mouth->hit_offset` after the last `match` (`none` is `SIZE_MAX`, 752, 802, 1106) -/
def mouths (m : SubV) (h : Nat) : Nat → Nat → Option (Nat × Option Nat)
  | 0, _ => none
  | fuel + 1, e =>
    match m e with
    | none => some (e, none)
    | some (j, h') => if h' = h then mouths m h fuel j else some (e, some h')

/-- `match` of the nose and the mouth 3929-3930: the nose and the mouth with its `hit_offset` -/
def noseMouth (c : EmoParts) (e : Nat) : Option ((Nat × Nat) × (Nat × Nat) × Nat) :=
  match opt c.nose e with
  | none => none
  | some n => (c.mouth n).map fun m => ((e, n), (n, m.1), m.2)

/-- 3928-3954, from where the eyes may be; `fuel` bounds the mouths -/
def emoFace (c : EmoParts) (fuel i : Nat) (apex : Iv) (e : Nat) : Option (Bool × Emo × Option Nat) :=
  match c.eyes e with
  | none => some (false, emoInvalid, none)
  | some y =>
    match noseMouth c y with
    | some (nose, m, h) =>
      match mouths c.mouth h fuel m.2 with
      | none => none
      | some (e', k) => some (true, ⟨none, apex, some (e, y), some nose, some (m.1, e'), some (i, e')⟩, k)
    | none =>
      match c.mouth y with
      | none => some (false, emoInvalid, none)
      | some (m, h) =>
        match mouths c.mouth h fuel m with
        | none => none
        | some (e', k) => some (true, ⟨none, apex, some (e, y), none, some (y, e'), some (i, e')⟩, k)

/-- `basic_emoticon::do_match` 3905-3963: the intervals, and `mouth->hit_offset` -/
def emoticon (v : Env) (c : EmoParts) (i : Nat) : Option (Bool × Emo × Option Nat) :=
  match opt c.whole i with
  | some e => some (true, ⟨some (i, e), none, none, none, none, some (i, e)⟩, none)
  | none =>
    match opt c.apex i with
    | some a => emoFace c (v.s.length + 2) i (some (i, a)) a
    | none => emoFace c (v.s.length + 2) i none i

/-! ### Specification of emoticons -/

/-- The mouth `h`, as often as it is repeated. -/
inductive Mouths (m : SubV) (h : Nat) : Nat → Nat → Prop
  | last {i j} : m i = some (j, h) → (∀ j', m j ≠ some (j', h)) → Mouths m h i j
  | more {i m' j} : m i = some (m', h) → Mouths m h m' j → Mouths m h i j

/-- An element that may be there, from `i` to `j`. -/
def Perhaps (d : Option Sub) (i : Nat) (x : Iv) (j : Nat) : Prop := (x = none ∧ j = i) ∨ (opt d i = some j ∧ x = some (i, j))

/-- A face at `i`: perhaps an apex, the eyes, perhaps a nose, and the mouth `h`. -/
def FaceAt (c : EmoParts) (i : Nat) (x : Emo) (h : Nat) : Prop :=
  ∃ a y n e, Perhaps c.apex i x.apex a ∧ c.eyes a = some y ∧ Perhaps c.nose y x.nose n ∧ Mouths c.mouth h n e ∧ x.whole = none ∧ x.eyes = some (a, y) ∧ x.mouth = some (n, e) ∧ x.interval = some (i, e)

/-- Where the apex is, there are no eyes. -/
def ApexNotEyes (c : EmoParts) (i : Nat) : Prop := ∀ a, opt c.apex i = some a → c.eyes i = none

/-! ### Proof for emoticons -/

theorem mouths_spec {m : SubV} {n h : Nat} (hm : TakesV n m) : ∀ (fuel : Nat) {i : Nat}, i ≤ n → n - i < fuel → ∀ {p}, m p = some (i, h) →
    ∃ e k, mouths m h fuel i = some (e, k) ∧ Mouths m h p e ∧ k ≠ some h := by
  intro fuel
  induction fuel with
  | zero => intro i _ q; omega
  | succ fuel ih =>
    intro i hi hf p hp
    unfold mouths
    cases q : m i with
    | none => exact ⟨i, none, rfl, .last hp (fun j' e => by rw [q] at e; cases e), (fun e => nomatch e)⟩
    | some x =>
      obtain ⟨j, h'⟩ := x
      have := hm i hi j h' q
      dsimp only
      by_cases e : h' = h
      · subst e
        rw [if_pos rfl]
        obtain ⟨e', k, q1, q2, q3⟩ := ih this.2 (by omega) q
        exact ⟨e', k, q1, .more hp q2, q3⟩
      · rw [if_neg e]
        refine ⟨i, some h', rfl, .last hp ?_, ?_⟩
        · intro j' r; rw [q] at r; cases r; exact e rfl
        · intro r; cases r; exact e rfl

theorem mouths_first {m : SubV} {h i e : Nat} (q : Mouths m h i e) : ∃ j, m i = some (j, h) := by
  cases q with
  | last a _ => exact ⟨_, a⟩
  | more a _ => exact ⟨_, a⟩

/-- The elements that emoticons are made of take something. -/
structure EmoParts.Ok (c : EmoParts) (n : Nat) : Prop where
  apex : ∀ d, c.apex = some d → Takes n d
  eyes : Takes n c.eyes
  nose : ∀ d, c.nose = some d → Takes n d
  mouth : TakesV n c.mouth

theorem optTakes {n : Nat} {d : Option Sub} (h : ∀ x, d = some x → Takes n x) {i j : Nat} (hi : i ≤ n) (q : opt d i = some j) : i < j ∧ j ≤ n := by
  unfold opt at q
  split at q
  · cases q
  · exact h _ rfl i hi j q

theorem emoFace_spec {c : EmoParts} {n : Nat} (hc : c.Ok n) {fuel i : Nat} (hf : n < fuel) {apex : Iv} {a : Nat} (ha : a ≤ n) :
    (∃ y nose m e h k, c.eyes a = some y ∧ Perhaps c.nose y nose m ∧ Mouths c.mouth h m e ∧ k ≠ some h ∧ emoFace c fuel i apex a = some (true, ⟨none, apex, some (a, y), nose, some (m, e), some (i, e)⟩, k) ∧
      (nose = none → ∀ m', opt c.nose y = some m' → c.mouth m' = none)) ∨
    ((∀ y nose m e h, c.eyes a = some y → Perhaps c.nose y nose m → ¬ Mouths c.mouth h m e) ∧ emoFace c fuel i apex a = some (false, emoInvalid, none)) := by
  unfold emoFace
  cases q : c.eyes a with
  | none => exact .inr ⟨(fun _ _ _ _ _ e => nomatch e), rfl⟩
  | some y =>
    have hy := hc.eyes a ha y q
    dsimp only
    cases r : noseMouth c y with
    | some x =>
      obtain ⟨nose, m, h⟩ := x
      unfold noseMouth at r
      cases s : opt c.nose y with
      | none => rw [s] at r; cases r
      | some b =>
        rw [s] at r
        dsimp only at r
        cases u : c.mouth b with
        | none => rw [u] at r; cases r
        | some z =>
          obtain ⟨z, w⟩ := z
          rw [u] at r; cases r
          have hb := optTakes hc.nose hy.2 s
          have hz := hc.mouth b hb.2 z _ u
          obtain ⟨e, k, q1, q2, q3⟩ := mouths_spec hc.mouth fuel hz.2 (by omega) u
          dsimp only
          rw [q1]
          exact .inl ⟨y, some (y, b), b, e, _, k, rfl, .inr ⟨s, rfl⟩, q2, q3, rfl, (fun e => nomatch e)⟩
    | none =>
      have nn : ∀ m', opt c.nose y = some m' → c.mouth m' = none := by
        intro m' e
        unfold noseMouth at r
        rw [e] at r
        cases u : c.mouth m' with
        | none => rfl
        | some z => dsimp only at r; rw [u] at r; cases r
      dsimp only
      cases u : c.mouth y with
      | none =>
        refine .inr ⟨?_, rfl⟩
        intro y' nose m e h ey hn hm
        cases ey
        obtain ⟨j, hj⟩ := mouths_first hm
        rcases hn with ⟨-, rfl⟩ | ⟨s, -⟩
        · rw [u] at hj; cases hj
        · rw [nn m s] at hj; cases hj
      | some z =>
        obtain ⟨z, w⟩ := z
        have hz := hc.mouth y hy.2 z _ u
        obtain ⟨e, k, q1, q2, q3⟩ := mouths_spec hc.mouth fuel hz.2 (by omega) u
        dsimp only
        rw [q1]
        exact .inl ⟨y, none, y, e, w, k, rfl, .inl ⟨rfl, rfl⟩, q2, q3, rfl, fun _ => nn⟩

/-- **C86**, where the apex can not be taken for the eyes and without `hit_offset`: an emoticon is matched if there is one, with the intervals of its parts; as a whole if possible, and with a nose if possible. -/
theorem emoticon_spec_partial {v : Env} {t : List Int} (h : v.Ok t) {c : EmoParts} (hc : c.Ok t.length) {i : Nat} (hi : i ≤ t.length) (ha : ApexNotEyes c i) :
    (∀ e, opt c.whole i = some e → emoticon v c i = some (true, ⟨some (i, e), none, none, none, none, some (i, e)⟩, none)) ∧
    (opt c.whole i = none →
      (∃ x m k, emoticon v c i = some (true, x, k) ∧ FaceAt c i x m ∧ (x.nose = none → ∀ x' m', FaceAt c i x' m' → x'.nose = none)) ∨
      ((∀ x m, ¬ FaceAt c i x m) ∧ emoticon v c i = some (false, ⟨none, none, none, none, none, none⟩, none))) := by
  have hf : t.length < v.s.length + 2 := by have := text_length_le v.s v.fin; rw [← h.text] at this; omega
  refine ⟨fun e q => by unfold emoticon; rw [q], fun q => ?_⟩
  unfold emoticon
  rw [q]
  dsimp only
  -- the apex is there exactly if it matches
  have key : ∃ apex a, a ≤ t.length ∧ Perhaps c.apex i apex a ∧ (∀ x b y, Perhaps c.apex i x b → c.eyes b = some y → x = apex ∧ b = a) ∧
      (match opt c.apex i with | some a => emoFace c (v.s.length + 2) i (some (i, a)) a | none => emoFace c (v.s.length + 2) i none i) = emoFace c (v.s.length + 2) i apex a := by
    cases r : opt c.apex i with
    | none =>
      refine ⟨none, i, hi, .inl ⟨rfl, rfl⟩, ?_, rfl⟩
      rintro x b y (⟨rfl, rfl⟩ | ⟨s, -⟩) _
      · exact ⟨rfl, rfl⟩
      · rw [r] at s; cases s
    | some a =>
      refine ⟨some (i, a), a, (optTakes hc.apex hi r).2, .inr ⟨r, rfl⟩, ?_, rfl⟩
      rintro x b y (⟨rfl, rfl⟩ | ⟨s, rfl⟩) hy
      · rw [ha a r] at hy; cases hy
      · rw [r] at s; cases s; exact ⟨rfl, rfl⟩
  obtain ⟨apex, a, q1, q2, q3, q4⟩ := key
  rw [q4]
  rcases emoFace_spec hc (i := i) (apex := apex) hf q1 with ⟨y, nose, m, e, w, k, r1, r2, r3, r4, r5, r6⟩ | ⟨r1, r2⟩
  · refine .inl ⟨_, w, k, r5, ⟨a, y, m, e, q2, r1, r2, r3, rfl, rfl, rfl, rfl⟩, ?_⟩
    rintro hn x' m' ⟨a', y', n', e', s1, s2, s3, s4, -⟩
    obtain ⟨-, rfl⟩ := q3 _ _ _ s1 s2
    rw [r1] at s2; cases s2
    rcases s3 with ⟨s3, -⟩ | ⟨s3, -⟩
    · exact s3
    · obtain ⟨j, hj⟩ := mouths_first s4
      rw [r6 hn n' s3] at hj; cases hj
  · refine .inr ⟨?_, r2⟩
    rintro x m ⟨a', y', n', e', s1, s2, s3, s4, -⟩
    obtain ⟨-, rfl⟩ := q3 _ _ _ s1 s2
    exact r1 _ _ _ _ _ s2 s3 s4

/-- What C86 lacks: `hit_offset` is never that of the mouth which has been matched. -/
theorem emoticon_hit {v : Env} {t : List Int} (h : v.Ok t) {c : EmoParts} (hc : c.Ok t.length) {i : Nat} (hi : i ≤ t.length) (hw : opt c.whole i = none) {x : Emo} {k : Option Nat}
    (hr : emoticon v c i = some (true, x, k)) : ∃ m, FaceAt c i x m ∧ k ≠ some m := by
  have hf : t.length < v.s.length + 2 := by have := text_length_le v.s v.fin; rw [← h.text] at this; omega
  unfold emoticon at hr
  rw [hw] at hr
  dsimp only at hr
  have key : ∃ apex a, a ≤ t.length ∧ Perhaps c.apex i apex a ∧ emoFace c (v.s.length + 2) i apex a = some (true, x, k) := by
    split at hr
    · rename_i a r; exact ⟨_, a, (optTakes hc.apex hi r).2, .inr ⟨r, rfl⟩, hr⟩
    · exact ⟨none, i, hi, .inl ⟨rfl, rfl⟩, hr⟩
  obtain ⟨apex, a, q1, q2, q3⟩ := key
  rcases emoFace_spec hc (i := i) (apex := apex) hf q1 with ⟨y, nose, m, e, w, k', r1, r2, r3, r4, r5, -⟩ | ⟨-, r2⟩
  · rw [q3] at r5; cases r5
    exact ⟨w, ⟨a, y, m, e, q2, r1, r2, r3, rfl, rfl, rfl, rfl⟩, r4⟩
  · rw [q3] at r2; cases r2

/-- Apex `B`, eyes `: B`, nose `-` and mouths `) (` -/
def asciiEmo (t : List Int) : EmoParts where
  whole := none
  apex := some (charSub t 66)
  eyes := testSub t fun c => c == 58 || c == 66
  nose := some (charSub t 45)
  mouth := parenSub t [41, 40]

theorem parenSub_takes (t w : List Int) : TakesV t.length (parenSub t w) := by
  intro i _ j x h
  obtain ⟨c, e, -, rfl⟩ := parenSub_some h
  have := lt_of_get e
  omega

theorem asciiEmo_ok (t : List Int) : (asciiEmo t).Ok t.length :=
  ⟨fun d e => by cases e; exact charSub_takes t 66, testSub_takes t _, fun d e => by cases e; exact charSub_takes t 45, parenSub_takes t _⟩

/-- What C86 lacks: in `B)` there is a face, but `B` is taken for an apex. -/
theorem emoticon_apex : FaceAt (asciiEmo [66, 41]) 0 ⟨none, none, some (0, 1), none, some (1, 2), some (0, 2)⟩ 0 ∧ ¬ ApexNotEyes (asciiEmo [66, 41]) 0 ∧
    emoticon (ipEnv [66, 41]) (asciiEmo [66, 41]) 0 = some (false, emoInvalid, none) := by
  refine ⟨⟨0, 1, 1, 2, .inl ⟨rfl, rfl⟩, by decide, .inl ⟨rfl, rfl⟩, .last (by decide) ?_, rfl, rfl, rfl, rfl⟩, ?_, by decide⟩
  · intro j' e
    have : (asciiEmo [66, 41]).mouth 2 = none := by decide
    rw [this] at e; cases e
  · intro q
    have := q 1 (by decide)
    revert this
    decide

/-- `B:-))(`: the mouth is `))`, where `hit_offset` is that of `(` -/
example : emoticon (ipEnv [66, 58, 45, 41, 41, 40]) (asciiEmo [66, 58, 45, 41, 41, 40]) 0 = some (true, ⟨none, some (0, 1), some (1, 2), some (2, 3), some (3, 5), some (0, 5)⟩, some 1) ∧
    ApexNotEyes (asciiEmo [58, 45, 41, 41]) 0 ∧ emoticon (ipEnv [58, 45, 41, 41]) (asciiEmo [58, 45, 41, 41]) 0 = some (true, ⟨none, none, some (0, 1), some (1, 2), some (2, 4), some (0, 4)⟩, none) :=
  ⟨by decide, (fun a e => by have : opt (asciiEmo [58, 45, 41, 41]).apex 0 = none := by decide
                             rw [this] at e; cases e), by decide⟩

/-! ### Chemical formulas -/

/-- `m_element` (given whether `match_case_insensitive` is set), `m_digit`, `m_sign` -/
structure ChemParts where
  element : Bool → Sub
  digit : Sub
  sign : Sub

/-- The loop 5532-5535: `interval.end` and `has_digits` -/
def chemDigits (c : ChemParts) : Nat → Nat → Bool → Option (Nat × Bool)
  | 0, _, _ => none
  | fuel + 1, e, d =>
    match c.digit e with
    | some j => chemDigits c fuel j true
    | none => some (e, d)

/-- The loop 5529-5549: `has_digits`, `has_charge` and `interval` -/
def chemLoop (c : ChemParts) (i : Nat) : Nat → Nat → Bool → Option (Bool × Bool × Bool × Iv)
  | 0, _, _ => none
  | fuel + 1, e, d =>
    match c.element false e with
    | some j =>
      match chemDigits c fuel j d with
      | none => none
      | some (e', d') => chemLoop c i fuel e' d'
    | none =>
      if i < e then
        match c.sign e with
        | some j => some (true, d, true, some (i, j))
        | none => some (true, d, false, some (i, e))
      else some (false, d, false, none)

/-- `basic_chemical_formula::do_match` 5516-5550 -/
def chem (v : Env) (c : ChemParts) (i : Nat) : Option (Bool × Bool × Bool × Iv) := chemLoop c i (2 * (v.s.length + 2)) i false

/-- Elements and digits one after another, and whether there are digits. -/
inductive ChemRun (c : ChemParts) : Nat → Bool → Nat → Prop
  | nil (i : Nat) : ChemRun c i false i
  | element {i m j d} : c.element false i = some m → ChemRun c m d j → ChemRun c i d j
  | digit {i m j d} : c.digit i = some m → ChemRun c m d j → ChemRun c i true j

/-- A formula without charge: it begins with an element. -/
def Formula (c : ChemParts) (i : Nat) (d : Bool) (j : Nat) : Prop := ∃ m, c.element false i = some m ∧ ChemRun c m d j

/-- Elements are no digits. -/
structure ChemParts.Ok (c : ChemParts) (n : Nat) : Prop where
  element : Takes n (c.element false)
  digit : Takes n c.digit
  apart : ∀ i j, c.element false i = some j → c.digit i = none

theorem chemRun_le {c : ChemParts} {n : Nat} (hc : c.Ok n) {i j : Nat} {d : Bool} (h : ChemRun c i d j) : i ≤ n → i ≤ j ∧ j ≤ n := by
  induction h with
  | nil i => exact fun q => ⟨Nat.le_refl _, q⟩
  | element a _ ih => intro q; have := hc.element _ q _ a; have := ih this.2; omega
  | digit a _ ih => intro q; have := hc.digit _ q _ a; have := ih this.2; omega

theorem chemRun_digit {c : ChemParts} {i m j : Nat} {d : Bool} (h : ChemRun c i d m) (hd : c.digit m = some j) : ChemRun c i true j := by
  induction h with
  | nil i => exact .digit hd (.nil _)
  | element a _ ih => exact .element a (ih hd)
  | digit a _ ih => exact .digit a (ih hd)

theorem chemRun_element {c : ChemParts} {i m j : Nat} {d : Bool} (h : ChemRun c i d m) (hd : c.element false m = some j) : ChemRun c i d j := by
  induction h with
  | nil i => exact .element hd (.nil _)
  | element a _ ih => exact .element a (ih hd)
  | digit a _ ih => exact .digit a (ih hd)

/-- A run that can not go on is the longest one. -/
theorem chemRun_longest {c : ChemParts} {n : Nat} (hc : c.Ok n) {i e : Nat} {d : Bool} (h : ChemRun c i d e) (h1 : c.element false e = none) (h2 : c.digit e = none) :
    i ≤ n → ∀ {d' j}, ChemRun c i d' j → j ≤ e := by
  induction h with
  | nil i =>
    intro _ d' j q
    cases q with
    | nil => exact Nat.le_refl _
    | element a _ => rw [h1] at a; cases a
    | digit a _ => rw [h2] at a; cases a
  | element a b ih =>
    intro hi d' j q
    have hm := hc.element _ hi _ a
    cases q with
    | nil => have := chemRun_le hc b hm.2; omega
    | element a' q => rw [a] at a'; cases a'; exact ih h1 h2 hm.2 q
    | digit a' _ => rw [hc.apart _ _ a] at a'; cases a'
  | digit a b ih =>
    intro hi d' j q
    have hm := hc.digit _ hi _ a
    cases q with
    | nil => have := chemRun_le hc b hm.2; omega
    | element a' _ => rw [hc.apart _ _ a'] at a; cases a
    | digit a' q => rw [a] at a'; cases a'; exact ih h1 h2 hm.2 q

theorem chemDigits_spec {c : ChemParts} {n : Nat} (hc : c.Ok n) : ∀ (fuel : Nat) {e i : Nat} {d : Bool}, e ≤ n → n - e < fuel → ChemRun c i d e →
    ∃ e' d', chemDigits c fuel e d = some (e', d') ∧ ChemRun c i d' e' ∧ e ≤ e' ∧ e' ≤ n ∧ c.digit e' = none := by
  intro fuel
  induction fuel with
  | zero => intro e i d _ q; omega
  | succ fuel ih =>
    intro e i d he hf hr
    unfold chemDigits
    cases q : c.digit e with
    | none => exact ⟨e, d, rfl, hr, Nat.le_refl _, he, q⟩
    | some j =>
      have := hc.digit e he j q
      obtain ⟨e', d', q1, q2, q3, q4⟩ := ih (e := j) (i := i) (d := true) this.2 (by omega) (chemRun_digit hr q)
      exact ⟨e', d', q1, q2, by omega, q4⟩

theorem chemLoop_spec {c : ChemParts} {n : Nat} (hc : c.Ok n) {i m : Nat} (hm : m ≤ n) (him : i < m) : ∀ (fuel : Nat) {e : Nat} {d : Bool}, e ≤ n → m ≤ e → 2 * (n - e) + 1 < fuel → ChemRun c m d e → c.digit e = none →
    ∃ e' d', ChemRun c m d' e' ∧ c.element false e' = none ∧ c.digit e' = none ∧
      chemLoop c i fuel e d = (match c.sign e' with | some j => some (true, d', true, some (i, j)) | none => some (true, d', false, some (i, e'))) := by
  intro fuel
  induction fuel with
  | zero => intro e d _ _ q; omega
  | succ fuel ih =>
    intro e d he hme hf hr hd
    unfold chemLoop
    cases q : c.element false e with
    | none =>
      dsimp only
      rw [if_pos (by omega)]
      exact ⟨e, d, hr, q, hd, rfl⟩
    | some j =>
      have := hc.element e he j q
      obtain ⟨e', d', q1, q2, q3, q4, q5⟩ := chemDigits_spec hc fuel this.2 (by omega) (chemRun_element hr q)
      dsimp only
      rw [q1]
      exact ih q4 (by omega) (by omega) q2 q5

/-- **C87** The longest formula is matched, and whether it has digits and a charge. -/
theorem chem_spec {v : Env} {t : List Int} (h : v.Ok t) {c : ChemParts} (hc : c.Ok t.length) {i : Nat} (hi : i ≤ t.length) :
    (∃ d e, Formula c i d e ∧ (∀ d' e', Formula c i d' e' → e' ≤ e) ∧
      ((∃ j, c.sign e = some j ∧ chem v c i = some (true, d, true, some (i, j))) ∨ (c.sign e = none ∧ chem v c i = some (true, d, false, some (i, e))))) ∨
    ((∀ d e, ¬ Formula c i d e) ∧ chem v c i = some (false, false, false, none)) := by
  have hf : t.length ≤ v.s.length := by have := text_length_le v.s v.fin; rw [← h.text] at this; exact this
  unfold chem
  rw [show 2 * (v.s.length + 2) = (2 * v.s.length + 3) + 1 from by omega]
  unfold chemLoop
  cases q : c.element false i with
  | none =>
    dsimp only
    rw [if_neg (Nat.lt_irrefl i)]
    refine .inr ⟨?_, rfl⟩
    rintro d e ⟨m, a, -⟩
    rw [q] at a; cases a
  | some m =>
    have hm := hc.element i hi m q
    obtain ⟨e, d, q1, q2, q3, q4, q5⟩ := chemDigits_spec hc (2 * v.s.length + 3) hm.2 (by omega) (.nil m)
    dsimp only
    rw [q1]
    obtain ⟨e', d', r1, r2, r3, r4⟩ := chemLoop_spec hc hm.2 hm.1 (2 * v.s.length + 3) q4 q3 (by omega) q2 q5
    dsimp only
    rw [r4]
    refine .inl ⟨d', e', ⟨m, q, r1⟩, ?_, ?_⟩
    · rintro d'' e'' ⟨m', a, b⟩
      rw [q] at a; cases a
      exact chemRun_longest hc r1 r2 r3 hm.2 b
    · cases s : c.sign e' with
      | none => exact .inr ⟨rfl, rfl⟩
      | some j => exact .inl ⟨j, rfl, rfl⟩

/-- Elements are those of the same case, whatever the flags say: the other parser is never asked. -/
theorem chem_case {v : Env} {c c' : ChemParts} (h1 : c.element false = c'.element false) (h2 : c.digit = c'.digit) (h3 : c.sign = c'.sign) (i : Nat) : chem v c i = chem v c' i := by
  have d : ∀ fuel e b, chemDigits c fuel e b = chemDigits c' fuel e b := by
    intro fuel
    induction fuel with
    | zero => intro e b; rfl
    | succ fuel ih => intro e b; unfold chemDigits; rw [h2]; split <;> first | exact ih _ _ | rfl
  have l : ∀ fuel e b, chemLoop c i fuel e b = chemLoop c' i fuel e b := by
    intro fuel
    induction fuel with
    | zero => intro e b; rfl
    | succ fuel ih =>
      intro e b
      unfold chemLoop
      rw [h1, h3]
      split
      · rw [d]; split
        · rfl
        · exact ih _ _
      · rfl
  exact l _ _ _

/-- `H`, `O`, `Na`; digits; `+` and `-` -/
def asciiChem (t : List Int) : ChemParts where
  element := fun _ i => match wordSub t [72] i with
    | some j => some j
    | none => match wordSub t [78, 97] i with
      | some j => some j
      | none => wordSub t [79] i
  digit := testSub t fun c => decide (48 ≤ c ∧ c ≤ 57)
  sign := testSub t fun c => c == 43 || c == 45

theorem wordSub_some {t w : List Int} {i j : Nat} (h : wordSub t w i = some j) : w ≠ [] ∧ j = i + w.length ∧ ∃ r, t.drop i = w ++ r := by
  unfold wordSub at h
  split at h
  · rename_i q
    cases h
    have := List.isPrefixOf_iff_prefix.1 q.2
    obtain ⟨r, e⟩ := this
    exact ⟨q.1, rfl, r, e.symm⟩
  · cases h

theorem asciiChem_ok (t : List Int) : (asciiChem t).Ok t.length := by
  have key : ∀ i j, (asciiChem t).element false i = some j → ∃ w, w ∈ [[72], [78, 97], [79]] ∧ wordSub t w i = some j := by
    intro i j h
    unfold asciiChem at h
    dsimp only at h
    split at h
    · rename_i q; cases h; exact ⟨[72], by simp, q⟩
    · split at h
      · rename_i q; cases h; exact ⟨[78, 97], by simp, q⟩
      · exact ⟨[79], by simp, h⟩
  have key2 : ∀ i j, (asciiChem t).element false i = some j → ∃ c, (c = 72 ∨ c = 78 ∨ c = 79) ∧ t[i]? = some c ∧ i < j ∧ j ≤ t.length := by
    intro i j h
    obtain ⟨w, hw, q⟩ := key i j h
    obtain ⟨_, rfl, r, e⟩ := wordSub_some q
    have len := congrArg List.length e
    have at0 := congrArg (fun l : List Int => l[0]?) e
    simp at len at0
    simp at hw
    rcases hw with rfl | rfl | rfl <;> simp at len at0
    · exact ⟨72, .inl rfl, at0, by simp, by simp; omega⟩
    · exact ⟨78, .inr (.inl rfl), at0, by simp, by simp; omega⟩
    · exact ⟨79, .inr (.inr rfl), at0, by simp, by simp; omega⟩
  refine ⟨?_, testSub_takes t _, ?_⟩
  · intro i _ j h
    obtain ⟨c, -, -, q⟩ := key2 i j h
    exact q
  · intro i j h
    obtain ⟨c, hc, q, -⟩ := key2 i j h
    show testSub t _ i = none
    unfold testSub
    rw [q]
    rcases hc with rfl | rfl | rfl <;> rfl

/-- `H2O`, `Na+` and `2H` -/
example : chem (ipEnv [72, 50, 79]) (asciiChem [72, 50, 79]) 0 = some (true, true, false, some (0, 3)) ∧ chem (ipEnv [78, 97, 43]) (asciiChem [78, 97, 43]) 0 = some (true, false, true, some (0, 3)) ∧
    chem (ipEnv [50, 72]) (asciiChem [50, 72]) 0 = some (false, false, false, none) := ⟨by decide +kernel, by decide +kernel, by decide +kernel⟩

end Verif.Parser
