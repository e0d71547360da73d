import Verif.Parser.Json
/-
The parser of DNS names (include/stdex/parser.hpp 2775-2943). Elements are the functions they compute, as in Parser/Number; `m_domain_char`
gives the end of its match and `allow_on_edge`.
-/
namespace Verif.Parser
open Verif.Str

/-- `basic_dns_domain_char::do_match` 2789-2814: the end of the match and `allow_on_edge`; `alnum` is `ctype::is(alnum, …)`. -/
def dnsChar (v : Env) (idn : Bool) (alnum : Int → Bool) (i : Nat) : Option (Option (Nat × Bool)) :=
  match Str.cond v.s v.fin i with
  | none => none
  | some none => some none
  | some (some c) =>
    if (65 ≤ c ∧ c ≤ 90) ∨ (97 ≤ c ∧ c ≤ 122) ∨ (48 ≤ c ∧ c ≤ 57) then some (some (i + 1, true))
    else if c = 45 then some (some (i + 1, false))
    else if idn && alnum c then some (some (i + 1, true))
    else some none

/-- `m_allow_absolute`, `m_domain_char`, `m_separator` -/
structure DnsParts where
  absolute : Bool
  chr : Nat → Option (Nat × Bool)
  sep : Sub

/-- The loop 2904-2927: whether it returns at 2925, `i`, and `interval.end`. -/
def dnsLabel (v : Env) (c : DnsParts) : Nat → Nat → Nat → Bool → Option (Bool × Nat × Nat)
  | 0, _, _, _ => none
  | fuel + 1, i, e, edge =>
    match Str.cond v.s v.fin i with
    | none => none
    | some none => some (false, i, e)
    | some (some _) =>
      match (if edge then c.sep i else none) with
      | some s => some (false, s, if c.absolute then s else i)
      | none =>
        match c.chr i with
        | some (j, edge') => dnsLabel v c fuel j (if edge' then j else e) edge'
        | none => some (true, i, e)

/-- The loop 2898-2931, where the first argument is `127 - count`, and 2932-2937: the match. -/
def dnsLoop (v : Env) (c : DnsParts) (start : Nat) : Nat → Nat → Nat → Nat → Option Iv
  | 0, count, i, e =>
    match Str.cond v.s v.fin i with
    | none => none
    | some _ => some (if count = 0 then none else some (start, e))
  | left + 1, count, i, e =>
    match Str.cond v.s v.fin i with
    | none => none
    | some none => some (if count = 0 then none else some (start, e))
    | some (some _) =>
      match c.chr i with
      | some (j, true) =>
        match dnsLabel v c (v.s.length + 2) j j true with
        | none => none
        | some (true, _, e') => some (some (start, e'))
        | some (false, i', e') => dnsLoop v c start left (count + 1) i' e'
      | _ => some (if count = 0 then none else some (start, e))

/-- `basic_dns_name::do_match` 2890-2938: the interval, if it matches. -/
def dnsName (v : Env) (c : DnsParts) (i : Nat) : Option Iv := dnsLoop v c i 127 0 i i

/-! ### Specification -/

/-- Characters one after another; the last one may be on an edge or not. -/
inductive Chars (c : DnsParts) : Nat → Nat → Bool → Prop
  | one {i j : Nat} {b : Bool} : c.chr i = some (j, b) → Chars c i j b
  | cons {i m j : Nat} {a b : Bool} : c.chr i = some (m, a) → Chars c m j b → Chars c i j b

/-- A label: its first and its last character are allowed on the edge. -/
def Label (c : DnsParts) (i j : Nat) : Prop := (∃ m, c.chr i = some (m, true)) ∧ Chars c i j true

/-- `k` labels with separators between them. -/
inductive Name (c : DnsParts) : Nat → Nat → Nat → Prop
  | one {i j : Nat} : Label c i j → Name c 1 i j
  | cons {k i m s j : Nat} : Label c i m → c.sep m = some s → Name c k s j → Name c (k + 1) i j

/-- A name, with a separator at its end only if absolute names are allowed. -/
def Whole (c : DnsParts) (k i j : Nat) : Prop := Name c k i j ∨ (c.absolute = true ∧ ∃ m, Name c k i m ∧ c.sep m = some j)

/-- The longest name of at most `n` labels at `i` ends at `e`. -/
def Longest (c : DnsParts) (n i e : Nat) : Prop := (∃ k, k ≤ n ∧ Whole c k i e) ∧ ∀ k j, k ≤ n → Whole c k i j → j ≤ e

/-- Elements take code units of the text, and a separator is no character of a label. -/
structure DnsParts.Ok (c : DnsParts) (n : Nat) : Prop where
  chr : ∀ i ≤ n, ∀ j b, c.chr i = some (j, b) → i < j ∧ j ≤ n
  sep : Takes n c.sep
  apart : ∀ i s, c.sep i = some s → c.chr i = none

/-! ### Proofs -/

theorem chars_le {c : DnsParts} {n : Nat} (hc : c.Ok n) {i j : Nat} {b : Bool} (h : Chars c i j b) (hi : i ≤ n) : i < j ∧ j ≤ n := by
  induction h with
  | one q => exact hc.chr _ hi _ _ q
  | cons q _ ih => have := hc.chr _ hi _ _ q; have := ih this.2; omega

theorem chars_head {c : DnsParts} {i j : Nat} {b : Bool} (h : Chars c i j b) : ∃ x, c.chr i = some x := by cases h <;> exact ⟨_, by assumption⟩

theorem chars_snoc {c : DnsParts} {i j k : Nat} {a b : Bool} (h : Chars c i j a) (q : c.chr j = some (k, b)) : Chars c i k b := by
  induction h with
  | one q' => exact .cons q' (.one q)
  | cons q' _ ih => exact .cons q' (ih q)

/-- Two runs of characters from the same position: one continues the other. -/
theorem chars_compare {c : DnsParts} {n : Nat} (hc : c.Ok n) {i j : Nat} {a : Bool} (h : Chars c i j a) (hi : i ≤ n) :
    ∀ {k : Nat} {b : Bool}, Chars c i k b → (k = j ∧ a = b) ∨ (k < j ∧ ∃ x, c.chr k = some x) ∨ (j < k ∧ ∃ x, c.chr j = some x) := by
  induction h with
  | one q =>
    intro k b h'
    cases h' with
    | one q' => rw [q] at q'; cases q'; exact .inl ⟨rfl, rfl⟩
    | cons q' r =>
      rw [q] at q'; cases q'
      exact .inr (.inr ⟨(chars_le hc r (hc.chr _ hi _ _ q).2).1, chars_head r⟩)
  | cons q r ih =>
    intro k b h'
    have le := (hc.chr _ hi _ _ q).2
    cases h' with
    | one q' => rw [q] at q'; cases q'; exact .inr (.inl ⟨(chars_le hc r le).1, chars_head r⟩)
    | cons q' r' => rw [q] at q'; cases q'; exact ih le r'

/-- A run that goes on after `i` has the character at `i`. -/
theorem chars_step {c : DnsParts} {n : Nat} (hc : c.Ok n) {a i j k : Nat} {b b' ed : Bool} (h1 : Chars c a i b) (h2 : Chars c a k b') (ha : a ≤ n) (hk : i < k) (q : c.chr i = some (j, ed)) : j ≤ k := by
  induction h1 generalizing k with
  | one q1 =>
    have lj := hc.chr _ (hc.chr _ ha _ _ q1).2 _ _ q
    cases h2 with
    | one q2 => rw [q1] at q2; cases q2; omega
    | cons q2 r2 =>
      rw [q1] at q2; cases q2
      cases r2 with
      | one q3 => rw [q] at q3; cases q3; exact Nat.le_refl _
      | cons q3 r3 => rw [q] at q3; cases q3; have := (chars_le hc r3 lj.2).1; omega
  | cons q1 r1 ih1 =>
    have le := (hc.chr _ ha _ _ q1).2
    cases h2 with
    | one q2 => rw [q1] at q2; cases q2; have := (chars_le hc r1 le).1; omega
    | cons q2 r2 => rw [q1] at q2; cases q2; exact ih1 r2 le hk q

/-- How the loop over a label ends: nothing follows (the label ends at `e`), or a separator from `m` to `i`. -/
inductive LabelEnd (c : DnsParts) (s : Nat) : Bool → Nat → Nat → Prop
  | last {b : Bool} {i e : Nat} : Label c s e → (∀ j, Label c s j → j ≤ e ∧ c.sep j = none) → LabelEnd c s b i e
  | more {m i : Nat} : Label c s m → c.sep m = some i → (∀ j, Label c s j → j ≤ m ∧ (j ≠ m → c.sep j = none)) → LabelEnd c s false i (if c.absolute then i else m)

theorem dnsLabel_spec {v : Env} {t : List Int} (h : v.Ok t) {c : DnsParts} (hc : c.Ok t.length) {s m : Nat} (hs : c.chr s = some (m, true)) (hsl : s ≤ t.length) :
    ∀ (fuel i e : Nat) (edge : Bool), t.length - i < fuel → i ≤ t.length → Chars c s i edge → Label c s e → (edge = true → e = i) → (∀ j, Label c s j → j ≤ i → j ≤ e) →
      ∃ b i' e', dnsLabel v c fuel i e edge = some (b, i', e') ∧ LabelEnd c s b i' e' ∧ i' ≤ t.length ∧ (b = false → i' = t.length ∨ ∃ m, Label c s m ∧ c.sep m = some i') := by
  intro fuel
  induction fuel with
  | zero => intro i e edge q; omega
  | succ fuel ih =>
    intro i e edge hf hi hch hl he hm
    rw [dnsLabel, cond_eq h.valid (by rw [← h.text]; exact hi), ← h.text]
    have lab : ∀ {k}, Label c s k → k < i → c.sep k = none := by
      intro k hk lt
      rcases chars_compare hc hch hsl hk.2 with ⟨e, _⟩ | ⟨_, x, e⟩ | ⟨lt', _⟩
      · omega
      · cases q : c.sep k with
        | none => rfl
        | some s' => rw [hc.apart k s' q] at e; cases e
      · omega
    by_cases hlt : i < t.length
    rotate_left
    · have : i = t.length := by omega
      rw [List.getElem?_eq_none (by omega)]
      refine ⟨false, i, e, rfl, .last hl fun j hj => ?_, hi, fun _ => .inl this⟩
      have le := chars_le hc hj.2 hsl
      refine ⟨hm j hj (by omega), ?_⟩
      by_cases q : j < i
      · exact lab hj q
      · cases q2 : c.sep j with
        | none => rfl
        | some s' => have := hc.sep j le.2 s' q2; omega
    rw [List.getElem?_eq_getElem hlt]
    dsimp only
    by_cases hsep : edge = true ∧ ∃ s', c.sep i = some s'
    · obtain ⟨rfl, s', q⟩ := hsep
      rw [if_pos rfl, q]
      dsimp only
      have hl' : Label c s i := ⟨⟨m, hs⟩, hch⟩
      refine ⟨_, _, _, rfl, .more hl' q fun j hj => ?_, (hc.sep i hi s' q).2, fun _ => .inr ⟨i, hl', q⟩⟩
      have le : j ≤ i := by
        rcases chars_compare hc hch hsl hj.2 with ⟨e, _⟩ | ⟨lt, _⟩ | ⟨_, x, e⟩
        · omega
        · omega
        · rw [hc.apart i s' q] at e; cases e
      exact ⟨le, fun ne => lab hj (by omega)⟩
    have hsep' : (if edge = true then c.sep i else none) = none := by
      cases edge with
      | false => rfl
      | true =>
        rw [if_pos rfl]
        cases q : c.sep i with
        | none => rfl
        | some s' => exact absurd ⟨rfl, s', q⟩ hsep
    rw [hsep']
    dsimp only
    cases q : c.chr i with
    | none =>
      dsimp only
      refine ⟨true, i, e, rfl, .last hl fun j hj => ?_, hi, fun q => nomatch q⟩
      have le : j ≤ i := by
        rcases chars_compare hc hch hsl hj.2 with ⟨e, _⟩ | ⟨lt, _⟩ | ⟨_, x, e⟩
        · omega
        · omega
        · rw [q] at e; cases e
      refine ⟨hm j hj le, ?_⟩
      by_cases lt : j < i
      · exact lab hj lt
      · have : j = i := by omega
        subst this
        have ed : edge = true := by
          rcases chars_compare hc hch hsl hj.2 with ⟨_, e⟩ | ⟨lt, _⟩ | ⟨lt, _⟩
          · exact e
          · omega
          · omega
        subst ed
        exact hsep'
    | some r =>
      obtain ⟨j, edge'⟩ := r
      dsimp only
      have lj := hc.chr i hi j edge' q
      have hch' := chars_snoc hch q
      refine ih j (if edge' then j else e) edge' (by omega) lj.2 hch' ?_ ?_ ?_
      · cases edge' with
        | true => exact ⟨⟨m, hs⟩, hch'⟩
        | false => exact hl
      · rintro rfl; rfl
      · intro k hk le
        cases edge' with
        | true => exact le
        | false =>
          show k ≤ e
          by_cases lt : k ≤ i
          · exact hm k hk lt
          · exfalso
            rcases chars_compare hc hch' hsl hk.2 with ⟨_, e⟩ | ⟨lt', x, e⟩ | ⟨lt', _⟩
            · cases e
            · rcases chars_compare hc hch hsl hk.2 with ⟨e, _⟩ | ⟨lt, _⟩ | ⟨lt2, x2, e2⟩
              · omega
              · omega
              · have := chars_step hc hch hk.2 hsl lt2 q
                omega
            · omega

theorem name_pos {c : DnsParts} {k i j : Nat} (h : Name c k i j) : 1 ≤ k := by cases h <;> omega

theorem name_head {c : DnsParts} {k i j : Nat} (h : Name c k i j) : ∃ m, c.chr i = some (m, true) := by
  cases h with
  | one l => exact l.1
  | cons l _ _ => exact l.1

theorem name_le {c : DnsParts} {n : Nat} (hc : c.Ok n) {k i j : Nat} (h : Name c k i j) (hi : i ≤ n) : i < j ∧ j ≤ n := by
  induction h with
  | one l => exact chars_le hc l.2 hi
  | cons l s _ ih =>
    have l1 := chars_le hc l.2 hi
    have l2 := hc.sep _ l1.2 _ s
    have := ih l2.2
    omega

theorem dnsLoop_spec {v : Env} {t : List Int} (h : v.Ok t) {c : DnsParts} (hc : c.Ok t.length) (start : Nat) :
    ∀ (left count i e : Nat), i ≤ t.length →
      (∃ e', (∃ m, c.chr i = some (m, true)) ∧ left ≠ 0 ∧ Longest c left i e' ∧ dnsLoop v c start left count i e = some (some (start, e'))) ∨
      (((∀ m, c.chr i ≠ some (m, true)) ∨ left = 0) ∧ dnsLoop v c start left count i e = some (if count = 0 then none else some (start, e))) := by
  intro left
  induction left with
  | zero =>
    intro count i e hi
    right
    rw [dnsLoop, cond_eq h.valid (by rw [← h.text]; exact hi)]
    exact ⟨.inr rfl, rfl⟩
  | succ left ih =>
    intro count i e hi
    rw [dnsLoop, cond_eq h.valid (by rw [← h.text]; exact hi), ← h.text]
    by_cases hlt : i < t.length
    rotate_left
    · right
      rw [List.getElem?_eq_none (by omega)]
      exact ⟨.inl fun m q => by have := hc.chr i hi m true q; omega, rfl⟩
    rw [List.getElem?_eq_getElem hlt]
    dsimp only
    by_cases hm : ∃ m, c.chr i = some (m, true)
    rotate_left
    · right
      refine ⟨.inl fun m q => hm ⟨m, q⟩, ?_⟩
      cases q : c.chr i with
      | none => rfl
      | some r =>
        obtain ⟨m, b⟩ := r
        cases b with
        | false => rfl
        | true => exact absurd ⟨m, q⟩ hm
    left
    obtain ⟨m, hm⟩ := hm
    rw [hm]
    dsimp only
    have lm := hc.chr i hi m true hm
    have hlen : t.length ≤ v.s.length := by rw [h.text]; exact text_length_le _ _
    have hl : Label c i m := ⟨⟨m, hm⟩, .one hm⟩
    obtain ⟨b, i', e', a1, a2, a3, a4⟩ := dnsLabel_spec h hc hm hi (v.s.length + 2) m m true (by omega) lm.2 (.one hm) hl (fun _ => rfl) (fun j _ q => q)
    rw [a1]
    -- names in terms of the first label
    have noMore : Label c i e' → (∀ j, Label c i j → j ≤ e' ∧ c.sep j = none) → Longest c (left + 1) i e' := by
      intro l1 l2
      refine ⟨⟨1, by omega, .inl (.one l1)⟩, fun k j _ hw => ?_⟩
      rcases hw with hw | ⟨_, m', hw, hs⟩
      · cases hw with
        | one l => exact (l2 _ l).1
        | cons l s _ => rw [(l2 _ l).2] at s; cases s
      · cases hw with
        | one l => rw [(l2 _ l).2] at hs; cases hs
        | cons l s _ => rw [(l2 _ l).2] at s; cases s
    cases a2 with
    | @last _ _ _ l1 l2 =>
      refine ⟨e', ⟨m, rfl⟩, by omega, noMore l1 l2, ?_⟩
      cases b with
      | true => rfl
      | false =>
        dsimp only
        rcases a4 rfl with a4 | ⟨mm, ml, ms⟩
        · rcases ih (count + 1) i' e' a3 with ⟨e2, ⟨m2, q⟩, _⟩ | ⟨_, q⟩
          · have := hc.chr i' a3 m2 true q; omega
          · rw [q, if_neg (by omega)]
        · rw [(l2 mm ml).2] at ms; cases ms
    | @more m1 _ l1 l2 l3 =>
      dsimp only
      have lt1 := chars_le hc l1.2 hi
      have lt2 := hc.sep m1 lt1.2 i' l2
      have unique : ∀ {j s}, Label c i j → c.sep j = some s → j = m1 ∧ s = i' := by
        intro j s lj sj
        have e : j = m1 := by
          by_cases q : j = m1
          · exact q
          · rw [(l3 j lj).2 q] at sj; cases sj
        rw [e, l2] at sj
        cases sj
        exact ⟨e, rfl⟩
      rcases ih (count + 1) i' (if c.absolute then i' else m1) a3 with ⟨e2, q1, q2, ⟨⟨k, q3, q4⟩, q5⟩, q6⟩ | ⟨q1, q2⟩
      · refine ⟨e2, ⟨m, rfl⟩, by omega, ⟨⟨k + 1, by omega, ?_⟩, fun k' j le hw => ?_⟩, q6⟩
        · rcases q4 with q4 | ⟨ab, m', q4, s'⟩
          · exact .inl (.cons l1 l2 q4)
          · exact .inr ⟨ab, m', .cons l1 l2 q4, s'⟩
        · have past : i' < e2 := by
            rcases q4 with q4 | ⟨ab, m', q4, s'⟩
            · exact (name_le hc q4 lt2.2).1
            · have := name_le hc q4 lt2.2; have := hc.sep _ this.2 _ s'; omega
          rcases hw with hw | ⟨ab, m', hw, s'⟩
          · cases hw with
            | one l => have := (l3 _ l).1; omega
            | cons l s hw => obtain ⟨rfl, rfl⟩ := unique l s; exact q5 _ _ (by omega) (.inl hw)
          · cases hw with
            | one l => obtain ⟨rfl, rfl⟩ := unique l s'; omega
            | cons l s hw => obtain ⟨rfl, rfl⟩ := unique l s; exact q5 _ _ (by omega) (.inr ⟨ab, m', hw, s'⟩)
      · refine ⟨if c.absolute then i' else m1, ⟨m, rfl⟩, by omega, ⟨⟨1, by omega, ?_⟩, fun k' j le hw => ?_⟩, by rw [q2, if_neg (by omega)]⟩
        · by_cases ab : c.absolute = true
          · rw [if_pos ab]; exact .inr ⟨ab, m1, .one l1, l2⟩
          · rw [if_neg ab]; exact .inl (.one l1)
        · have none' : ∀ {k s j}, Label c i s → c.sep s = some j → ∀ j', Name c k j j' → k + 1 ≤ left + 1 → False := by
            intro k s j l s' j' hn hk
            obtain ⟨rfl, rfl⟩ := unique l s'
            rcases q1 with q1 | q1
            · obtain ⟨m', q⟩ := name_head hn; exact q1 m' q
            · have := name_pos hn; omega
          have big : m1 ≤ (if c.absolute = true then i' else m1) := by split <;> omega
          rcases hw with hw | ⟨ab, m', hw, s'⟩
          · cases hw with
            | one l => have := (l3 _ l).1; omega
            | cons l s hw => exact absurd le (fun le => none' l s _ hw le)
          · cases hw with
            | one l => obtain ⟨rfl, rfl⟩ := unique l s'; rw [if_pos ab]; exact Nat.le_refl _
            | cons l s hw => exact absurd le (fun le => none' l s _ hw le)

/-- **C82** A DNS name is matched if a label starts at `i`, and then the longest one of at most 127 labels, each of which begins and ends with a character that is allowed on the edge, with a
separator at the end only if absolute names are allowed. Otherwise nothing matches. The parser ends and reads nothing outside of the text. -/
theorem dnsName_spec {v : Env} {t : List Int} (h : v.Ok t) {c : DnsParts} (hc : c.Ok t.length) {i : Nat} (hi : i ≤ t.length) :
    (∃ e, Longest c 127 i e ∧ dnsName v c i = some (some (i, e))) ∨ ((∀ k j, ¬ Name c k i j) ∧ dnsName v c i = some none) := by
  rcases dnsLoop_spec h hc i 127 0 i i hi with ⟨e, _, _, a, b⟩ | ⟨a, b⟩
  · exact .inl ⟨e, a, b⟩
  · refine .inr ⟨fun k j q => ?_, b⟩
    obtain ⟨m, q⟩ := name_head q
    rcases a with a | a
    · exact a m q
    · cases a

/-- The longest name is one only. -/
theorem longest_unique {c : DnsParts} {n i e e' : Nat} (h : Longest c n i e) (h' : Longest c n i e') : e = e' := by
  obtain ⟨⟨k, a, b⟩, d⟩ := h
  obtain ⟨⟨k', a', b'⟩, d'⟩ := h'
  have := d _ _ a' b'
  have := d' _ _ a b
  omega

/-! ### Names in a text -/

/-- A character of a label: letters, digits, hyphens, and what the locale counts as alphanumeric if internationalised names are allowed. -/
def edgeChar (idn : Bool) (alnum : Int → Bool) (c : Int) : Bool := decide ((65 ≤ c ∧ c ≤ 90) ∨ (97 ≤ c ∧ c ≤ 122) ∨ (48 ≤ c ∧ c ≤ 57)) || (c != 45 && idn && alnum c)

/-- The elements for a text `t`: labels as above, and dots. -/
def asciiDns (t : List Int) (idn : Bool) (alnum : Int → Bool) (absolute : Bool) : DnsParts where
  absolute := absolute
  chr := fun i => match t[i]? with
    | none => none
    | some c => if edgeChar idn alnum c then some (i + 1, true) else if c = 45 then some (i + 1, false) else none
  sep := charSub t 46

/-- It is what `basic_dns_domain_char` does. -/
theorem dnsChar_ascii {v : Env} {t : List Int} (h : v.Ok t) (idn : Bool) (alnum : Int → Bool) (absolute : Bool) {i : Nat} (hi : i ≤ t.length) :
    dnsChar v idn alnum i = some ((asciiDns t idn alnum absolute).chr i) := by
  unfold dnsChar
  rw [cond_eq h.valid (by rw [← h.text]; exact hi), ← h.text]
  unfold asciiDns edgeChar
  dsimp only
  cases q : t[i]? with
  | none => rfl
  | some c =>
    dsimp only
    by_cases c1 : (65 ≤ c ∧ c ≤ 90) ∨ (97 ≤ c ∧ c ≤ 122) ∨ (48 ≤ c ∧ c ≤ 57)
    · rw [if_pos c1, if_pos (by rw [decide_eq_true c1]; rfl)]
    · rw [if_neg c1, decide_eq_false c1, Bool.false_or]
      by_cases c2 : c = 45
      · subst c2; rw [if_pos rfl, if_neg (by simp), if_pos rfl]
      · rw [if_neg c2, if_neg c2]
        by_cases c3 : (idn && alnum c) = true
        · rw [if_pos c3, if_pos (by simpa [c2] using c3)]
        · rw [if_neg c3, if_neg (by simpa [c2] using c3)]

theorem asciiDns_ok (t : List Int) (idn : Bool) (alnum : Int → Bool) (absolute : Bool) (hd : alnum 46 = false) : (asciiDns t idn alnum absolute).Ok t.length where
  chr := by
    intro i _ j b q
    unfold asciiDns at q
    dsimp only at q
    split at q
    · cases q
    · rename_i e
      have := lt_of_get e
      repeat' split at q
      all_goals first | (cases q; omega) | cases q
  sep := charSub_takes t 46
  apart := by
    intro i s q
    have q : charSub t 46 i = some s := q
    unfold charSub at q
    split at q
    · rename_i e
      unfold asciiDns edgeChar
      dsimp only
      rw [e]
      simp [hd]
    · cases q

/-- A label as text. -/
def LabelText (idn : Bool) (alnum : Int → Bool) (l : List Int) : Prop :=
  l ≠ [] ∧ (∀ c ∈ l, edgeChar idn alnum c = true ∨ c = 45) ∧ (∀ c, l.head? = some c → edgeChar idn alnum c = true) ∧ (∀ c, l.getLast? = some c → edgeChar idn alnum c = true)

/-- Labels with dots between them. -/
def dotJoin : List (List Int) → List Int
  | [] => []
  | [l] => l
  | l :: ls => l ++ 46 :: dotJoin ls

theorem chars_text {t : List Int} {idn : Bool} {alnum : Int → Bool} {ab : Bool} : ∀ (l : List Int) (i : Nat) (rest : List Int), t.drop i = l ++ rest → (∀ c ∈ l, edgeChar idn alnum c = true ∨ c = 45) →
    ∀ x, l.getLast? = some x → Chars (asciiDns t idn alnum ab) i (i + l.length) (edgeChar idn alnum x) := by
  intro l
  induction l with
  | nil => intro i rest _ _ x q; cases q
  | cons a l ih =>
    intro i rest hd hl x hx
    have hd' : t.drop i = a :: (l ++ rest) := hd
    have get : t[i]? = some a := by
      have := congrArg (fun l : List Int => l[0]?) hd'
      simpa using this
    have hc : (asciiDns t idn alnum ab).chr i = some (i + 1, edgeChar idn alnum a) := by
      unfold asciiDns
      dsimp only
      rw [get]
      dsimp only
      rcases hl a List.mem_cons_self with q | q
      · rw [if_pos q, q]
      · by_cases e : edgeChar idn alnum a = true
        · rw [if_pos e, e]
        · rw [if_neg e, if_pos q]; simp [e]
    cases l with
    | nil => cases hx; exact .one hc
    | cons b l =>
      have := ih (i + 1) rest (drop_succ hd') (fun c q => hl c (List.mem_cons_of_mem _ q)) x (by rw [List.getLast?_cons_cons] at hx; exact hx)
      have e : i + (a :: b :: l).length = i + 1 + (b :: l).length := by simp; omega
      rw [e]
      exact .cons hc this

theorem label_text {t : List Int} {idn : Bool} {alnum : Int → Bool} {ab : Bool} {l rest : List Int} {i : Nat} (hd : t.drop i = l ++ rest) (hl : LabelText idn alnum l) :
    Label (asciiDns t idn alnum ab) i (i + l.length) := by
  obtain ⟨h1, h2, h3, h4⟩ := hl
  cases l with
  | nil => exact absurd rfl h1
  | cons a l =>
    obtain ⟨x, hx⟩ : ∃ x, (a :: l).getLast? = some x := ⟨_, List.getLast?_eq_some_getLast (by simp)⟩
    refine ⟨⟨i + 1, ?_⟩, by have := chars_text (ab := ab) (a :: l) i rest hd h2 x hx; rw [h4 x hx] at this; exact this⟩
    have get : t[i]? = some a := by
      have := congrArg (fun l : List Int => l[0]?) hd
      simpa using this
    unfold asciiDns
    dsimp only
    rw [get]
    dsimp only
    rw [if_pos (h3 a rfl)]

theorem name_text {t : List Int} {idn : Bool} {alnum : Int → Bool} {ab : Bool} : ∀ (ls : List (List Int)) (i : Nat) (rest : List Int), ls ≠ [] → t.drop i = dotJoin ls ++ rest → (∀ l ∈ ls, LabelText idn alnum l) →
    Name (asciiDns t idn alnum ab) ls.length i (i + (dotJoin ls).length) := by
  intro ls
  induction ls with
  | nil => intro i rest q; exact absurd rfl q
  | cons l ls ih =>
    intro i rest _ hd hl
    cases ls with
    | nil => exact .one (label_text hd (hl l List.mem_cons_self))
    | cons l2 ls =>
      have hd' : t.drop i = l ++ (46 :: (dotJoin (l2 :: ls) ++ rest)) := by rw [hd]; simp [dotJoin]
      have d2 := drop_add hd'
      have := ih (i + l.length + 1) rest (by simp) (drop_succ d2) (fun l' q => hl l' (List.mem_cons_of_mem _ q))
      have e : i + (dotJoin (l :: l2 :: ls)).length = i + l.length + 1 + (dotJoin (l2 :: ls)).length := by simp [dotJoin]; omega
      rw [e]
      exact .cons (label_text hd' (hl l List.mem_cons_self)) (by show charSub t 46 _ = _; rw [char_at d2, if_pos rfl]) this

/-- **C82** A text that is a name of at most 127 labels is matched as a whole, and with a dot at its end if absolute names are allowed. -/
theorem dnsName_text {v : Env} {idn : Bool} {alnum : Int → Bool} {ab : Bool} (h46 : alnum 46 = false) {ls : List (List Int)} (h0 : ls ≠ []) (hn : ls.length ≤ 127) (hl : ∀ l ∈ ls, LabelText idn alnum l)
    {t : List Int} (ht : t = dotJoin ls ∨ (ab = true ∧ t = dotJoin ls ++ [46])) (h : v.Ok t) :
    dnsName v (asciiDns t idn alnum ab) 0 = some (some (0, t.length)) := by
  have hc := asciiDns_ok t idn alnum ab h46
  have hw : Whole (asciiDns t idn alnum ab) ls.length 0 t.length := by
    rcases ht with ht | ⟨hab, ht⟩
    · have := name_text (t := t) (ab := ab) ls 0 [] h0 (by rw [ht]; simp) hl
      rw [Nat.zero_add, ← ht] at this
      exact .inl this
    · have := name_text (t := t) (ab := ab) ls 0 [46] h0 (by rw [ht]; simp) hl
      refine .inr ⟨hab, _, this, ?_⟩
      show charSub t 46 _ = _
      have d : t.drop (0 + (dotJoin ls).length) = [46] := by rw [ht]; simp
      rw [char_at d, if_pos rfl, ht]
      simp
  rcases dnsName_spec h hc (Nat.zero_le _) with ⟨e, ⟨⟨k, a1, a2⟩, a3⟩, b⟩ | ⟨a, _⟩
  · have le := a3 _ _ hn hw
    have : e ≤ t.length := by
      rcases a2 with a2 | ⟨_, m, a2, s⟩
      · exact (name_le hc a2 (Nat.zero_le _)).2
      · exact (hc.sep _ (name_le hc a2 (Nat.zero_le _)).2 _ s).2
    rw [b, show e = t.length from by omega]
  · rcases hw with hw | ⟨_, _, hw, _⟩
    · exact absurd hw (a _ _)
    · exact absurd hw (a _ _)

/-- `a-b.si` -/
example : LabelText false (fun _ => false) [97, 45, 98] ∧ LabelText false (fun _ => false) [115, 105] ∧ dotJoin [[97, 45, 98], [115, 105]] = [97, 45, 98, 46, 115, 105] := by
  refine ⟨⟨by decide, by decide, ?_, ?_⟩, ⟨by decide, by decide, ?_, ?_⟩, rfl⟩ <;> rintro c ⟨⟩ <;> decide

/-- Of `a.b-.c` only `a.b` is a name, and of `a.-` it is `a` or, if absolute names are allowed, `a.`; `-a` is none. -/
example : dnsName (ipEnv [97, 46, 98, 45, 46, 99]) (asciiDns [97, 46, 98, 45, 46, 99] false (fun _ => false) true) 0 = some (some (0, 3)) ∧
    dnsName (ipEnv [97, 46, 45]) (asciiDns [97, 46, 45] false (fun _ => false) false) 0 = some (some (0, 1)) ∧
    dnsName (ipEnv [97, 46, 45]) (asciiDns [97, 46, 45] false (fun _ => false) true) 0 = some (some (0, 2)) ∧
    dnsName (ipEnv [45, 97]) (asciiDns [45, 97] false (fun _ => false) true) 0 = some none := by decide +kernel

end Verif.Parser
