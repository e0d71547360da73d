import Verif.Locale.LangTable
import Verif.Sgml.Decode
/-
Language names and codes, include/stdex/langid.hpp.
-/
namespace Verif.Locale
open Verif.Str Verif.Sgml

/-! ### Model -/

/-- `primary_langid`, langid.hpp 50-53. -/
def primaryLangid (lang : BitVec 16) : BitVec 16 := lang &&& 0x3ff#16

/-- `sub_langid`, langid.hpp 62-65. -/
def subLangid (lang : BitVec 16) : BitVec 16 := lang &&& 0xfc00#16

/-- `langid_unknown`, langid.hpp 33. -/
def unknown : Nat := 0x7f

/-- `stricmp_less::operator()`, langid.hpp 78-97; `none` is a read past the end. -/
def nameLess (T : CT) (s1 s2 : List Int) (i : Nat) : Option Bool :=
  match _h : rd s1 i, rd s2 i with
  | some c1, some c2 =>
    let a := tolower T c1
    let b := tolower T c2
    if a = 0 ∧ b = 0 then some false
    else if b = 0 then some false
    else if a = 0 then some true
    else if ispunct a ∧ ispunct b then nameLess T s1 s2 (i + 1)
    else if ispunct b then some false
    else if ispunct a then some true
    else if b < a then some false
    else if a < b then some true
    else nameLess T s1 s2 (i + 1)
  | _, _ => none
termination_by s1.length - i
decreasing_by all_goals (have := (List.getElem?_eq_some_iff.1 _h).1; omega)

/-- `std::map::insert`: the entries are in order, and an entry whose key is there is not inserted. -/
def mapInsert {κ ν : Type} (less : κ → κ → Option Bool) (k : κ) (v : ν) : List (κ × ν) → Option (List (κ × ν))
  | [] => some [(k, v)]
  | (k', v') :: l => do
    if ← less k' k then
      let l' ← mapInsert less k v l
      pure ((k', v') :: l')
    else if ← less k k' then pure ((k, v) :: (k', v') :: l)
    else pure ((k', v') :: l)

/-- A map made of an initializer list, entry by entry. -/
def mapOf {κ ν : Type} (less : κ → κ → Option Bool) : List (κ × ν) → List (κ × ν) → Option (List (κ × ν))
  | m, [] => some m
  | m, (k, v) :: l => do mapOf less (← mapInsert less k v m) l

/-- `std::map::find`: the first entry whose key is not before `k`, unless `k` is before it. -/
def mapFind {κ ν : Type} (less : κ → κ → Option Bool) (k : κ) : List (κ × ν) → Option (Option ν)
  | [] => some none
  | (k', v') :: l => do
    if ← less k' k then mapFind less k l
    else if ← less k k' then pure none
    else pure (some v')

/-- A string literal. -/
def lit (s : String) : List Int := asc s ++ [0]

/-- `langid_from_rfc1766`, langid.hpp 74-539. `char` has 8 bits; its sign is `T`'s. -/
def langidFrom (T : CT) (name : List Int) : Option Nat := do
  let m ← mapOf (fun a b => nameLess T a b 0) [] (namesTable.map fun p => (lit p.1, p.2))
  pure ((← mapFind (fun a b => nameLess T a b 0) name m).getD unknown)

/-- `rfc1766_from_langid`, langid.hpp 549-991; keys are ordered by `std::less`. -/
def nameFrom (lang : Nat) (fallback : Option String) : Option (Option String) := do
  let m ← mapOf (fun a b : Nat => some (decide (a < b))) [] codesTable
  pure ((← mapFind (fun a b : Nat => some (decide (a < b))) lang m).or fallback)

/-! ### Specification -/

/-- What two characters are compared by: any punctuation is the same, and so are upper and lower case. -/
def charKey (c : Int) : Option Int := if ispunct c then none else some (lowerSpec c)

/-- Names are the same, up to case and to what separates their parts. -/
def sameName (a b : List Int) : Prop := a.map charKey = b.map charKey

instance (a b : List Int) : Decidable (sameName a b) := inferInstanceAs (Decidable (_ = _))

/-- Names in order: punctuation before anything else, prefixes first. -/
def before : List (Option Int) → List (Option Int) → Bool
  | [], [] => false
  | [], _ :: _ => true
  | _ :: _, [] => false
  | none :: a, none :: b => before a b
  | none :: _, some _ :: _ => true
  | some _ :: _, none :: _ => false
  | some x :: a, some y :: b => if x < y then true else if y < x then false else before a b

/-! ### Proofs -/

theorem before_irrefl : ∀ a, before a a = false
  | [] => rfl
  | none :: a => by simp only [before]; exact before_irrefl a
  | some x :: a => by simp only [before, Int.lt_irrefl, if_false]; exact before_irrefl a

theorem before_asymm : ∀ {a b}, before a b = true → before b a = false
  | [], [], h => by cases h
  | [], _ :: _, _ => rfl
  | _ :: _, [], h => by simp [before] at h
  | none :: a, none :: b, h => by simp only [before] at h ⊢; exact before_asymm h
  | none :: _, some _ :: _, _ => rfl
  | some _ :: _, none :: _, h => by simp [before] at h
  | some x :: a, some y :: b, h => by
    simp only [before] at h ⊢
    by_cases h1 : x < y
    · rw [if_neg (by omega), if_pos h1]
    · rw [if_neg h1] at h
      by_cases h2 : y < x
      · rw [if_pos h2] at h; cases h
      · rw [if_neg h2] at h
        rw [if_neg h2, if_neg h1]
        exact before_asymm h

theorem before_connex : ∀ {a b}, before a b = false → before b a = false → a = b
  | [], [], _, _ => rfl
  | [], _ :: _, h, _ => by simp [before] at h
  | _ :: _, [], _, h => by simp [before] at h
  | none :: a, none :: b, h, h' => by simp only [before] at h h'; rw [before_connex h h']
  | none :: _, some _ :: _, h, _ => by simp [before] at h
  | some _ :: _, none :: _, _, h => by simp [before] at h
  | some x :: a, some y :: b, h, h' => by
    simp only [before] at h h'
    by_cases h1 : x < y
    · rw [if_pos h1] at h; cases h
    · by_cases h2 : y < x
      · rw [if_pos h2] at h'; cases h'
      · rw [if_neg h1, if_neg h2] at h
        rw [if_neg h2, if_neg h1] at h'
        have : x = y := by omega
        rw [this, before_connex h h']

theorem before_trans : ∀ {a b c}, before a b = true → before b c = true → before a c = true
  | [], _, [], h, h' => by
    rename_i b
    cases b with
    | nil => cases h
    | cons x b => simp [before] at h'
  | [], _, _ :: _, _, _ => rfl
  | _ :: _, [], _, h, _ => by simp [before] at h
  | _ :: _, _ :: _, [], _, h => by simp [before] at h
  | none :: a, none :: b, none :: c, h, h' => by simp only [before] at h h' ⊢; exact before_trans h h'
  | none :: _, _ :: _, some _ :: _, _, _ => rfl
  | none :: _, some _ :: _, none :: _, _, h => by simp [before] at h
  | some _ :: _, none :: _, _ :: _, h, _ => by simp [before] at h
  | some _ :: _, some _ :: _, none :: _, _, h => by simp [before] at h
  | some x :: a, some y :: b, some z :: c, h, h' => by
    simp only [before] at h h' ⊢
    by_cases h1 : x < y
    · by_cases h2 : z < y
      · rw [if_neg (by omega), if_pos h2] at h'; cases h'
      · rw [if_pos (by omega)]
    · rw [if_neg h1] at h
      by_cases h2 : y < x
      · rw [if_pos h2] at h; cases h
      · rw [if_neg h2] at h
        have : x = y := by omega
        subst this
        by_cases h3 : x < z
        · rw [if_pos h3]
        · rw [if_neg h3] at h' ⊢
          by_cases h4 : z < x
          · rw [if_pos h4] at h'; cases h'
          · rw [if_neg h4] at h' ⊢
            exact before_trans h h'

/-- An order of keys, through `key`. -/
structure Orders {κ τ : Type} (less : κ → κ → Option Bool) (P : κ → Prop) (key : κ → τ) : Prop where
  total : ∀ a b, P a → P b → (less a b).isSome
  irrefl : ∀ a b, P a → P b → key a = key b → less a b = some false
  connex : ∀ a b, P a → P b → less a b = some false → less b a = some false → key a = key b
  asymm : ∀ a b, P a → P b → less a b = some true → less b a = some false
  trans : ∀ a b c, P a → P b → P c → less a b = some true → less b c = some true → less a c = some true

theorem less_cases {κ τ : Type} {less : κ → κ → Option Bool} {P : κ → Prop} {key : κ → τ} (h : Orders less P key) {a b : κ} (ha : P a) (hb : P b) :
    (less a b = some true ∧ less b a = some false ∧ key a ≠ key b) ∨ (less a b = some false ∧ less b a = some true ∧ key a ≠ key b) ∨ (less a b = some false ∧ less b a = some false ∧ key a = key b) := by
  obtain ⟨x, hx⟩ := Option.isSome_iff_exists.1 (h.total a b ha hb)
  obtain ⟨y, hy⟩ := Option.isSome_iff_exists.1 (h.total b a hb ha)
  cases x with
  | true =>
    refine .inl ⟨hx, h.asymm a b ha hb hx, fun e => ?_⟩
    rw [h.irrefl a b ha hb e] at hx
    cases hx
  | false =>
    cases y with
    | true =>
      refine .inr (.inl ⟨hx, hy, fun e => ?_⟩)
      rw [h.irrefl b a hb ha e.symm] at hy
      cases hy
    | false => exact .inr (.inr ⟨hx, hy, h.connex a b ha hb hx hy⟩)

/-- What is found in a map in order is the entry with the key. -/
theorem mapFind_spec {κ ν τ : Type} [DecidableEq τ] {less : κ → κ → Option Bool} {P : κ → Prop} {key : κ → τ} (h : Orders less P key) {k : κ} (hk : P k) : ∀ {m : List (κ × ν)}, (∀ e ∈ m, P e.1) → (m.Pairwise fun a b => less a.1 b.1 = some true) →
    mapFind less k m = some ((m.find? fun e => decide (key e.1 = key k)).map (·.2))
  | [], _, _ => rfl
  | (k', v') :: m, ho, hs => by
    have hk' : P k' := ho _ List.mem_cons_self
    have ho' : ∀ e ∈ m, P e.1 := fun e he => ho e (List.mem_cons_of_mem _ he)
    rw [mapFind]
    rcases less_cases h hk' hk with ⟨h1, h2, h3⟩ | ⟨h1, h2, h3⟩ | ⟨h1, h2, h3⟩
    · rw [h1]
      simp only [Option.bind_eq_bind, Option.bind_some, if_true]
      rw [mapFind_spec h hk ho' (List.pairwise_cons.1 hs).2, List.find?_cons_of_neg (by simpa using h3)]
    · rw [h1, h2]
      simp only [Option.bind_eq_bind, Option.bind_some, if_true, Bool.false_eq_true, if_false]
      rw [List.find?_cons_of_neg (by simpa using h3), List.find?_eq_none.2]
      · rfl
      · intro e he
        have q := (List.pairwise_cons.1 hs).1 e he
        have q2 := h.trans k k' e.1 hk hk' (ho' e he) h2 q
        simp only [decide_eq_true_eq]
        intro c
        rw [h.irrefl k e.1 hk (ho' e he) c.symm] at q2
        cases q2
    · rw [h1, h2]
      simp only [Option.bind_eq_bind, Option.bind_some, Bool.false_eq_true, if_false]
      rw [List.find?_cons_of_pos (by simpa using h3)]
      rfl

theorem mapInsert_spec {κ ν τ : Type} [DecidableEq τ] {less : κ → κ → Option Bool} {P : κ → Prop} {key : κ → τ} (h : Orders less P key) {k : κ} (hk : P k) (v : ν) : ∀ {m : List (κ × ν)}, (∀ e ∈ m, P e.1) → (m.Pairwise fun a b => less a.1 b.1 = some true) →
    ∃ m', mapInsert less k v m = some m' ∧ (∀ e ∈ m', P e.1) ∧ (m'.Pairwise fun a b => less a.1 b.1 = some true) ∧ (∀ e ∈ m', e ∈ m ∨ e.1 = k) ∧
      ∀ x : τ, (m'.find? fun e => decide (key e.1 = x)) = ((m.find? fun e => decide (key e.1 = x)).or (if key k = x then some (k, v) else none))
  | [], _, _ => ⟨[(k, v)], rfl, (fun e he => by rw [List.mem_singleton.1 he]; exact hk), List.pairwise_singleton _ _, (fun e he => .inr (by rw [List.mem_singleton.1 he])), fun x => by
      by_cases q : key k = x
      · rw [List.find?_cons_of_pos (by simpa using q), if_pos q]; rfl
      · rw [List.find?_cons_of_neg (by simpa using q), if_neg q]; rfl⟩
  | (k', v') :: m, ho, hs => by
    have hk' : P k' := ho _ List.mem_cons_self
    have ho' : ∀ e ∈ m, P e.1 := fun e he => ho e (List.mem_cons_of_mem _ he)
    rw [mapInsert]
    rcases less_cases h hk' hk with ⟨h1, h2, h3⟩ | ⟨h1, h2, h3⟩ | ⟨h1, h2, h3⟩
    · obtain ⟨m', e1, e2, e3, e4, e5⟩ := mapInsert_spec h hk v ho' (List.pairwise_cons.1 hs).2
      rw [h1, e1]
      refine ⟨(k', v') :: m', rfl, ?_, ?_, ?_, ?_⟩
      · intro e he
        rcases List.mem_cons.1 he with q | q
        · rw [q]; exact hk'
        · exact e2 e q
      · refine List.pairwise_cons.2 ⟨fun e he => ?_, e3⟩
        rcases e4 e he with q | q
        · exact (List.pairwise_cons.1 hs).1 e q
        · rw [q]; exact h1
      · intro e he
        rcases List.mem_cons.1 he with q | q
        · exact .inl (by rw [q]; exact List.mem_cons_self)
        · exact (e4 e q).imp (List.mem_cons_of_mem _) id
      · intro x
        by_cases q : key k' = x
        · rw [List.find?_cons_of_pos (by simpa using q), List.find?_cons_of_pos (by simpa using q)]; rfl
        · rw [List.find?_cons_of_neg (by simpa using q), List.find?_cons_of_neg (by simpa using q)]; exact e5 x
    · rw [h1, h2]
      refine ⟨(k, v) :: (k', v') :: m, rfl, ?_, ?_, ?_, ?_⟩
      · intro e he
        rcases List.mem_cons.1 he with q | q
        · rw [q]; exact hk
        · exact ho e q
      · refine List.pairwise_cons.2 ⟨fun e he => ?_, hs⟩
        rcases List.mem_cons.1 he with q | q
        · rw [q]; exact h2
        · exact h.trans k k' e.1 hk hk' (ho' e q) h2 ((List.pairwise_cons.1 hs).1 e q)
      · intro e he
        rcases List.mem_cons.1 he with q | q
        · exact .inr (by rw [q])
        · exact .inl q
      · intro x
        by_cases q : key k = x
        · rw [List.find?_cons_of_pos (by simpa using q), if_pos q]
          have : ((k', v') :: m).find? (fun e => decide (key e.1 = x)) = none := by
            rw [List.find?_eq_none]
            intro e he
            simp only [decide_eq_true_eq]
            intro c
            have : less k e.1 = some true := by
              rcases List.mem_cons.1 he with q | q
              · rw [q]; exact h2
              · exact h.trans k k' e.1 hk hk' (ho' e q) h2 ((List.pairwise_cons.1 hs).1 e q)
            rw [h.irrefl k e.1 hk (ho e he) (q.trans c.symm)] at this
            cases this
          rw [this]; rfl
        · rw [List.find?_cons_of_neg (by simpa using q), if_neg q]; simp
    · rw [h1, h2]
      refine ⟨(k', v') :: m, rfl, ho, hs, fun e he => .inl he, fun x => ?_⟩
      by_cases q : key k = x
      · rw [List.find?_cons_of_pos (by simpa using h3.trans q)]; rfl
      · rw [if_neg q]; simp

theorem mapOf_spec {κ ν τ : Type} [DecidableEq τ] {less : κ → κ → Option Bool} {P : κ → Prop} {key : κ → τ} (h : Orders less P key) : ∀ (l m : List (κ × ν)), (∀ e ∈ l, P e.1) → (∀ e ∈ m, P e.1) → (m.Pairwise fun a b => less a.1 b.1 = some true) →
    ∃ m', mapOf less m l = some m' ∧ (∀ e ∈ m', P e.1) ∧ (m'.Pairwise fun a b => less a.1 b.1 = some true) ∧
      ∀ x : τ, ((m'.find? fun e => decide (key e.1 = x)).map (·.2)) = (((m ++ l).find? fun e => decide (key e.1 = x)).map (·.2))
  | [], m, _, h2, h3 => ⟨m, rfl, h2, h3, fun x => by simp⟩
  | (k, v) :: l, m, h1, h2, h3 => by
    obtain ⟨m1, e1, e2, e3, e4, e5⟩ := mapInsert_spec h (h1 _ List.mem_cons_self) v h2 h3
    obtain ⟨m', f1, f2, f3, f4⟩ := mapOf_spec h l m1 (fun e he => h1 e (List.mem_cons_of_mem _ he)) e2 e3
    refine ⟨m', ?_, f2, f3, fun x => ?_⟩
    · rw [mapOf, e1]; exact f1
    · rw [f4 x, List.find?_append, List.find?_append, e5 x]
      cases m.find? (fun e => decide (key e.1 = x)) with
      | some y => rfl
      | none =>
        by_cases q : key k = x
        · rw [if_pos q, List.find?_cons_of_pos (by simpa using q)]; rfl
        · rw [if_neg q, List.find?_cons_of_neg (by simpa using q)]; rfl

/-- A map finds the first entry of its list that has the key. -/
theorem map_spec {κ ν τ : Type} [DecidableEq τ] {less : κ → κ → Option Bool} {P : κ → Prop} {key : κ → τ} (h : Orders less P key) {l : List (κ × ν)} (hl : ∀ e ∈ l, P e.1) {k : κ} (hk : P k) :
    ∃ m, mapOf less [] l = some m ∧ mapFind less k m = some ((l.find? fun e => decide (key e.1 = key k)).map (·.2)) := by
  obtain ⟨m, e1, e2, e3, e4⟩ := mapOf_spec h l [] hl (fun e he => nomatch he) List.Pairwise.nil
  refine ⟨m, e1, ?_⟩
  rw [mapFind_spec h hk e2 e3, e4]
  rfl

theorem lowerSpec_zero {c : Int} : lowerSpec c = 0 ↔ c = 0 := by unfold lowerSpec; split <;> omega

theorem punct_lower (c : Int) : ispunct (lowerSpec c) = ispunct c := by
  unfold lowerSpec
  split
  · rename_i h
    unfold ispunct
    rw [decide_eq_decide]
    omega
  · rfl

/-- The comparison of what is left. -/
theorem nameLess_spec {T : CT} (hT : 8 ≤ T.bits) : ∀ (a b : List Int) (p q : List Int), p.length = q.length → (∀ c ∈ a, c ≠ 0) → (∀ c ∈ b, c ≠ 0) → ∀ r s : List Int,
    nameLess T (p ++ (a ++ 0 :: r)) (q ++ (b ++ 0 :: s)) p.length = some (before (a.map charKey) (b.map charKey)) := by
  intro a
  induction a with
  | nil =>
    intro b p q hpq ha hb r s
    rw [nameLess]
    have h1 : rd (p ++ ([] ++ 0 :: r)) p.length = some 0 := by unfold rd; simp
    rw [h1]
    cases b with
    | nil =>
      have h2 : rd (q ++ ([] ++ 0 :: s)) p.length = some 0 := by unfold rd; rw [hpq]; simp
      rw [h2]
      dsimp only
      have : tolower T 0 = 0 := rfl
      rw [this]
      rfl
    | cons y b =>
      have h2 : rd (q ++ ((y :: b) ++ 0 :: s)) p.length = some y := by unfold rd; rw [hpq]; simp
      rw [h2]
      dsimp only
      have h0 : tolower T 0 = 0 := rfl
      have hy : tolower T y ≠ 0 := by
        rw [tolower_spec T hT]
        exact fun e => (hb y List.mem_cons_self) (lowerSpec_zero.1 e)
      rw [h0, if_neg (by simp [hy]), if_neg hy, if_pos rfl]
      simp [before]
  | cons x a ih =>
    intro b p q hpq ha hb r s
    rw [nameLess]
    have h1 : rd (p ++ ((x :: a) ++ 0 :: r)) p.length = some x := by unfold rd; simp
    have hx : tolower T x = lowerSpec x := tolower_spec T hT _
    have hx0 : lowerSpec x ≠ 0 := fun e => (ha x List.mem_cons_self) (lowerSpec_zero.1 e)
    rw [h1]
    cases b with
    | nil =>
      have h2 : rd (q ++ ([] ++ 0 :: s)) p.length = some 0 := by unfold rd; rw [hpq]; simp
      rw [h2]
      dsimp only
      have h0 : tolower T 0 = 0 := rfl
      rw [h0, hx, if_neg (by simp [hx0]), if_pos rfl]
      simp [before]
    | cons y b =>
      have h2 : rd (q ++ ((y :: b) ++ 0 :: s)) p.length = some y := by unfold rd; rw [hpq]; simp
      have hy : tolower T y = lowerSpec y := tolower_spec T hT _
      have hy0 : lowerSpec y ≠ 0 := fun e => (hb y List.mem_cons_self) (lowerSpec_zero.1 e)
      rw [h2]
      dsimp only
      rw [hx, hy, if_neg (by simp [hx0]), if_neg hy0, if_neg hx0, punct_lower, punct_lower]
      have hnext := ih b (p ++ [x]) (q ++ [y]) (by simp [hpq]) (fun c hc => ha c (List.mem_cons_of_mem _ hc)) (fun c hc => hb c (List.mem_cons_of_mem _ hc)) r s
      rw [show p ++ [x] ++ (a ++ 0 :: r) = p ++ ((x :: a) ++ 0 :: r) from by simp, show q ++ [y] ++ (b ++ 0 :: s) = q ++ ((y :: b) ++ 0 :: s) from by simp, show (p ++ [x]).length = p.length + 1 from by simp] at hnext
      simp only [List.map_cons, charKey]
      by_cases h3 : ispunct x = true
      · by_cases h4 : ispunct y = true
        · rw [if_pos ⟨h3, h4⟩, if_pos h3, if_pos h4, hnext]; rfl
        · rw [if_neg (by simp [h4]), if_neg h4, if_pos h3, if_pos h3, if_neg h4]; rfl
      · by_cases h4 : ispunct y = true
        · rw [if_neg (by simp [h3]), if_pos h4, if_neg h3, if_pos h4]; rfl
        · rw [if_neg (by simp [h3]), if_neg h4, if_neg h3, if_neg h3, if_neg h4]
          simp only [before]
          by_cases h5 : lowerSpec y < lowerSpec x
          · rw [if_pos h5, if_neg (by omega), if_pos h5]
          · rw [if_neg h5]
            by_cases h6 : lowerSpec x < lowerSpec y
            · rw [if_pos h6, if_pos h6]
            · rw [if_neg h6, if_neg h6, if_neg h5, hnext]

/-- A string in C, up to its terminator. -/
def cstr (s : List Int) : List Int := s.takeWhile fun c => decide (c ≠ 0)

theorem cstr_split {s : List Int} (h : 0 ∈ s) : ∃ r, s = cstr s ++ 0 :: r := by
  induction s with
  | nil => cases h
  | cons c s ih =>
    unfold cstr
    by_cases hc : c = 0
    · rw [List.takeWhile_cons_of_neg (by simp [hc]), hc]; exact ⟨s, rfl⟩
    · rw [List.takeWhile_cons_of_pos (by simpa using hc)]
      obtain ⟨r, hr⟩ := ih (by simpa [Ne.symm hc] using h)
      exact ⟨r, by rw [List.cons_append]; exact congrArg _ hr⟩

theorem cstr_nz (s : List Int) : ∀ c ∈ cstr s, c ≠ 0 := by
  intro c hc
  induction s with
  | nil => cases hc
  | cons x s ih =>
    unfold cstr at hc
    by_cases hx : x = 0
    · rw [List.takeWhile_cons_of_neg (by simp [hx])] at hc; cases hc
    · rw [List.takeWhile_cons_of_pos (by simpa using hx)] at hc
      rcases List.mem_cons.1 hc with q | q
      · rw [q]; exact hx
      · exact ih q

theorem cstr_lit {l : List Int} (h : ∀ c ∈ l, c ≠ 0) (r : List Int) : cstr (l ++ 0 :: r) = l := by
  induction l with
  | nil => unfold cstr; rw [List.nil_append, List.takeWhile_cons_of_neg (by simp)]
  | cons x l ih =>
    have := ih fun c hc => h c (List.mem_cons_of_mem _ hc)
    unfold cstr at this ⊢
    rw [List.cons_append, List.takeWhile_cons_of_pos (by simpa using h x List.mem_cons_self), this]

theorem nameLess_cstr {T : CT} (hT : 8 ≤ T.bits) {a b : List Int} (ha : 0 ∈ a) (hb : 0 ∈ b) : nameLess T a b 0 = some (before ((cstr a).map charKey) ((cstr b).map charKey)) := by
  obtain ⟨r, hr⟩ := cstr_split ha
  obtain ⟨s, hs⟩ := cstr_split hb
  have := nameLess_spec hT (cstr a) (cstr b) [] [] rfl (cstr_nz a) (cstr_nz b) r s
  rw [List.nil_append, List.nil_append, ← hr, ← hs] at this
  exact this

theorem nameLess_orders {T : CT} (hT : 8 ≤ T.bits) : Orders (fun a b => nameLess T a b 0) (fun s => 0 ∈ s) (fun s => (cstr s).map charKey) where
  total := fun a b ha hb => by rw [nameLess_cstr hT ha hb]; rfl
  irrefl := fun a b ha hb e => by have q := nameLess_cstr (T := T) hT ha hb; rw [e, before_irrefl] at q; exact q
  connex := fun a b ha hb h1 h2 => by
    rw [nameLess_cstr hT ha hb] at h1
    rw [nameLess_cstr hT hb ha] at h2
    exact before_connex (Option.some.inj h1) (Option.some.inj h2)
  asymm := fun a b ha hb h1 => by
    rw [nameLess_cstr hT ha hb] at h1
    rw [nameLess_cstr hT hb ha, before_asymm (Option.some.inj h1)]
  trans := fun a b c ha hb hc h1 h2 => by
    rw [nameLess_cstr hT ha hb] at h1
    rw [nameLess_cstr hT hb hc] at h2
    rw [nameLess_cstr hT ha hc, before_trans (Option.some.inj h1) (Option.some.inj h2)]

theorem nat_orders : Orders (fun a b : Nat => some (decide (a < b))) (fun _ => True) id where
  total := fun _ _ _ _ => rfl
  irrefl := fun a b _ _ e => by have : a = b := e; simp [this]
  connex := fun a b _ _ h1 h2 => by simp at h1 h2; show a = b; omega
  asymm := fun a b _ _ h1 => by simp at h1 ⊢; omega
  trans := fun a b c _ _ _ h1 h2 => by simp at h1 h2 ⊢; omega

theorem asc_nz {s : String} (h : ∀ c ∈ s.toList, c ≠ '\x00') : ∀ c ∈ asc s, c ≠ 0 := by
  intro c hc
  obtain ⟨x, hx, rfl⟩ := List.mem_map.1 hc
  intro e
  have : x.toNat = 0 := by omega
  exact h x hx (Char.toNat_inj.1 this)

/-- Every name in the table, and its keys. -/
def keyed : List (List (Option Int) × Nat) := namesTable.map fun p => ((asc p.1).map charKey, p.2)

theorem names_nz : ∀ p ∈ namesTable, ∀ c ∈ asc p.1, c ≠ 0 := by decide +kernel

theorem find_keyed (x : List (Option Int)) : ((namesTable.map fun p => (lit p.1, p.2)).find? fun e => decide ((cstr e.1).map charKey = x)).map (·.2) = (keyed.find? fun e => decide (e.1 = x)).map (·.2) := by
  unfold keyed
  have hn := names_nz
  generalize namesTable = t at hn ⊢
  induction t with
  | nil => rfl
  | cons p t ih =>
    have ih := ih fun q hq => hn q (List.mem_cons_of_mem _ hq)
    have hp : cstr (lit p.1) = asc p.1 := cstr_lit (hn p List.mem_cons_self) []
    simp only [List.map_cons]
    by_cases h : (asc p.1).map charKey = x
    · rw [List.find?_cons_of_pos (by simpa [hp] using h), List.find?_cons_of_pos (by simpa using h)]; rfl
    · rw [List.find?_cons_of_neg (by simpa [hp] using h), List.find?_cons_of_neg (by simpa using h)]; exact ih

theorem langidFrom_keyed {T : CT} (hT : 8 ≤ T.bits) {s : List Int} (h : 0 ∈ s) : langidFrom T s = some (((keyed.find? fun e => decide (e.1 = (cstr s).map charKey)).map (·.2)).getD unknown) := by
  obtain ⟨m, h1, h2⟩ := map_spec (nameLess_orders hT) (l := namesTable.map fun p => (lit p.1, p.2)) (fun e he => by obtain ⟨p, -, rfl⟩ := List.mem_map.1 he; simp [lit]) h
  unfold langidFrom
  rw [h1]
  simp only [Option.bind_eq_bind, Option.bind_some]
  rw [h2, find_keyed]
  rfl

/-- The codes whose name stands for another code. -/
def lostCodes : List Nat := [0x804, 0xc04, 0x814, 0x7c14, 0x641a, 0x681a, 0x6c1a, 0x701a, 0x781a, 0x7c1a, 0x7c28, 0x82c, 0x782c, 0x82e, 0x703b, 0x743b, 0x783b, 0x7c3b, 0x843, 0x7c43, 0x846, 0x850, 0x7850, 0x859, 0x7c5c, 0x85d, 0x785d, 0x85f, 0x785f, 0x867, 0x7c68, 0x7c86, 0x8c, 0x7c92]

theorem tables_names : ∀ e ∈ keyed, e.2 ≠ unknown ∧ ∃ n, codesTable.lookup e.2 = some n ∧ (asc n).map charKey = e.1 := by
  have : keyed.all (fun e => decide (e.2 ≠ unknown) && (match codesTable.lookup e.2 with | some n => decide ((asc n).map charKey = e.1) | none => false)) = true := by decide +kernel
  intro e he
  have := List.all_eq_true.1 this e he
  rw [Bool.and_eq_true, decide_eq_true_eq] at this
  refine ⟨this.1, ?_⟩
  have h2 := this.2
  split at h2
  · next n hn => exact ⟨n, hn, of_decide_eq_true h2⟩
  · cases h2

theorem tables_codes : ∀ e ∈ codesTable, e.1 < 65536 ∧ codesTable.lookup e.1 = some e.2 ∧ (∀ c ∈ asc e.2, c ≠ 0) ∧ ((keyed.lookup ((asc e.2).map charKey) = some e.1 ∧ e.1 ∉ lostCodes) ∨ (e.1 ∈ lostCodes ∧ keyed.lookup ((asc e.2).map charKey) ≠ some e.1)) := by
  decide +kernel

end Verif.Locale
