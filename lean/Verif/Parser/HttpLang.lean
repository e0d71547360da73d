import Verif.Parser.HttpUrl
import Verif.Parser.Sgml
/-
The parsers of languages, weight factors and weighted values, and collections of values (include/stdex/parser.hpp 6383-6605, 7152-7197).
-/
namespace Verif.Parser
open Verif.Str

/-- The loop 6402-6434: `components`, in reverse -/
def langLoop (v : Env) : Nat → Nat → List (Nat × Nat) → Option (List (Nat × Nat))
  | 0, _, _ => none
  | fuel + 1, i, acc =>
    match peek v i with
    | none => none
    | some none => some acc
    | some (some _) =>
      match scan v isalpha (fuelOf v) i with
      | none => none
      | some e =>
        if i < e then
          match (if below v.fin e then (rd v.s e).map fun c => decide (c = 45) else some false) with
          | none => none
          | some true => langLoop v fuel (e + 1) ((i, e) :: acc)
          | some false => some ((i, e) :: acc)
        else some acc

/-- `http_language::do_match` 6395-6442: `components` and `interval` -/
def language (v : Env) (i : Nat) : Option (Bool × List (Nat × Nat) × Iv) :=
  match langLoop v (fuelOf v) i [] with
  | none => none
  | some [] => some (false, [], none)
  | some (k :: l) => some (true, (k :: l).reverse, some (i, k.2))

/-- The loops 6475-6506: digits into a number and a power of ten, both of 64 bits; `interval.end` -/
def digitsLoop (v : Env) : Nat → Nat → Nat → Nat → Option (Nat × Nat × Nat)
  | 0, _, _, _ => none
  | fuel + 1, i, n, k =>
    match peek v i with
    | none => none
    | some none => some (i, n, k)
    | some (some c) => if 48 ≤ c ∧ c ≤ 57 then digitsLoop v fuel (i + 1) ((n * 10 + (c - 48).toNat) % 2 ^ 64) (k * 10 % 2 ^ 64) else some (i, n, k)

/-- What `value` 6510 is computed from: `celi_del`, `decimalni_del` and `decimalni_del_n`. Arithmetic with `double` is not modelled. -/
structure Weight where
  whole : Nat
  part : Nat
  unit : Nat
deriving DecidableEq

/-- `value = 1.0f` -/
def oneWeight : Weight := ⟨1, 0, 1⟩

/-- `http_weight::do_match` 6465-6518: `interval` and `value` -/
def weight (v : Env) (i : Nat) : Option (Bool × Iv × Weight) :=
  match digitsLoop v (fuelOf v) i 0 1 with
  | none => none
  | some (e, n, _) =>
    match hasChar v 46 e with
    | none => none
    | some false => some (if i < e then (true, some (i, e), ⟨n, 0, 1⟩) else (false, none, oneWeight))
    | some true =>
      match digitsLoop v (fuelOf v) (e + 1) 0 1 with
      | none => none
      | some (f, m, k) => some (true, some (i, f), ⟨n, m, k⟩)

/-- `http_asterisk::do_match` 6527-6541 -/
def asterisk (v : Env) (i : Nat) : Option (Option Nat) :=
  match (if below v.fin i then (rd v.s i).map fun c => decide (c = 42) else some false) with
  | none => none
  | some true => some (some (i + 1))
  | some false => some none

/-- `asterisk.interval`, `value.interval`, `factor.interval` and `factor.value`, and `interval` -/
structure Weighted where
  asterisk : Iv
  value : Iv
  factor : Iv × Weight
  interval : Iv
deriving DecidableEq

/-- 6584-6598: `interval.end` and `factor`, which may not be touched -/
def factorAt (v : Env) (old : Iv × Weight) (a : Nat) : Option (Nat × Iv × Weight) :=
  match scan v isspace (fuelOf v) a with
  | none => none
  | some b =>
    match hasChar v 59 b with
    | none => none
    | some false => some (b, old)
    | some true =>
      match scan v isspace (fuelOf v) (b + 1) with
      | none => none
      | some c =>
        match peek v c with
        | none => none
        | some q =>
          if q = some 113 ∨ q = some 81 then
            match scan v isspace (fuelOf v) (c + 1) with
            | none => none
            | some d =>
              match hasChar v 61 d with
              | none => none
              | some false => some (d, old)
              | some true =>
                match scan v isspace (fuelOf v) (d + 1) with
                | none => none
                | some e =>
                  match weight v e with
                  | none => none
                  | some (true, iv, w) => some ((iv.map Prod.snd).getD 0, iv, w)
                  | some (false, iv, w) => some (e, iv, w)
          else some (c, old)

/-- 6599-6604: the value ends at `a` -/
def weightedEnd (v : Env) (old : Iv × Weight) (i a : Nat) (mk : Iv × Weight → Iv → Weighted) : Option (Bool × Weighted) :=
  match factorAt v old a with
  | none => none
  | some (_, none, _) => some (true, mk (none, oneWeight) (some (i, a)))
  | some (e, some q, w) => some (true, mk (some q, w) (some (i, e)))

/-- `http_weighted_value::do_match` 6565-6605 with parsers `ast` and `val`; `old` is what `factor` was before -/
def weightedValue (v : Env) (ast val : Nat → Option (Option Nat)) (old : Iv × Weight) (i : Nat) : Option (Bool × Weighted) :=
  match ast i with
  | none => none
  | some (some a) => weightedEnd v old i a fun f q => ⟨some (i, a), none, f, q⟩
  | some none =>
    match val i with
    | none => none
    | some (some a) => weightedEnd v old i a fun f q => ⟨none, some (i, a), f, q⟩
    | some none => some (false, ⟨none, none, old, none⟩)

/-- `std::multiset::insert` with `http_factor_more` 7183-7189: after all elements with the same or a larger factor -/
def insertBy {α β : Type} (le : β → β → Prop) [DecidableRel le] (key : α → β) (x : α) : List α → List α
  | [] => [x]
  | y :: l => if le (key x) (key y) then y :: insertBy le key x l else x :: y :: l

/-- `http_value_collection::insert` 7159-7181 with a parser of elements and `T::insert`: the collection -/
def collect {α : Type} (v : Env) (el : Nat → Option (Option (α × Nat))) (ins : α → List α → List α) : Nat → Nat → List α → Option (List α)
  | 0, _, _ => none
  | fuel + 1, i, l =>
    if below v.fin i then
      match scan v isspace (fuelOf v) i with
      | none => none
      | some a =>
        match hasChar v 44 a with
        | none => none
        | some q =>
          match (if q then scan v isspace (fuelOf v) (a + 1) else some a) with
          | none => none
          | some b =>
            match el b with
            | none => none
            | some none => some l
            | some (some (x, e)) => collect v el ins fuel e (ins x l)
    else some l

/-! ### Specification -/

def Letter (c : Int) : Prop := (65 ≤ c ∧ c ≤ 90) ∨ (97 ≤ c ∧ c ≤ 122)
def White (c : Int) : Prop := c = 32 ∨ (9 ≤ c ∧ c ≤ 13)

/-- A language: as many components as there are, with dashes between them. -/
inductive LangAt (t : List Int) : Nat → List (Nat × Nat) → Prop
  | last {a b} : RunAt Letter t a b → a < b → (t[b]? = some 45 → RunAt Letter t (b + 1) (b + 1)) → LangAt t a [(a, b)]
  | more {a b l} : RunAt Letter t a b → a < b → t[b]? = some 45 → LangAt t (b + 1) l → LangAt t a ((a, b) :: l)

/-- A weight: digits, and after a point more digits. -/
inductive WeightAt (t : List Int) (i : Nat) : Nat → Weight → Prop
  | whole {e} : RunAt Decimal t i e → i < e → t[e]? ≠ some 46 → WeightAt t i e ⟨decimal ((t.drop i).take (e - i)), 0, 1⟩
  | part {e f} : RunAt Decimal t i e → t[e]? = some 46 → RunAt Decimal t (e + 1) f →
    WeightAt t i f ⟨decimal ((t.drop i).take (e - i)), decimal ((t.drop (e + 1)).take (f - (e + 1))), 10 ^ (f - (e + 1))⟩

/-- `; q = weight` after `a`, with white space -/
def FactorAt (t : List Int) (a : Nat) (q : Nat × Nat) (w : Weight) : Prop :=
  ∃ b c d e, RunAt White t a b ∧ t[b]? = some 59 ∧ RunAt White t (b + 1) c ∧ (t[c]? = some 113 ∨ t[c]? = some 81) ∧ RunAt White t (c + 1) d ∧ t[d]? = some 61 ∧ RunAt White t (d + 1) e ∧ q.1 = e ∧ WeightAt t e q.2 w

/-- The element at `b` follows `i`: white space, and perhaps a comma and white space. -/
def NextItem (t : List Int) (i b : Nat) : Prop := ∃ a, RunAt White t i a ∧ ((t[a]? ≠ some 44 ∧ b = a) ∨ (t[a]? = some 44 ∧ RunAt White t (a + 1) b))

/-- All elements after `i`: `El` has each of them with its end -/
inductive ItemsAt {α : Type} (t : List Int) (El : Nat → α → Nat → Prop) : Nat → List α → Prop
  | stop {i} : (∀ b x e, NextItem t i b → ¬ El b x e) → ItemsAt t El i []
  | item {i b x e l} : NextItem t i b → El b x e → ItemsAt t El e l → ItemsAt t El i (x :: l)

/-! ### Proof -/

theorem isalpha_letter (c : Int) : isalpha c = true ↔ Letter c := by
  unfold isalpha Letter islower isupper
  simp
  omega

theorem isspace_white (c : Int) : isspace c = true ↔ White c := by
  unfold isspace White
  simp
  omega

theorem langAt_one {t : List Int} {i : Nat} {l l' : List (Nat × Nat)} (h : LangAt t i l) (h' : LangAt t i l') : l = l' := by
  have first : ∀ {a l}, LangAt t a l → ∃ b, RunAt Letter t a b ∧ a < b := by
    intro a l h
    cases h with
    | last r q => exact ⟨_, r, q⟩
    | more r q => exact ⟨_, r, q⟩
  induction h generalizing l' with
  | last r q n =>
    cases h' with
    | last r' => cases runAt_one r r'; rfl
    | more r' _ d s =>
      cases runAt_one r r'
      obtain ⟨b, x, y⟩ := first s
      have := runAt_one x (n d)
      omega
  | more r q d s ih =>
    cases h' with
    | last r' _ n =>
      cases runAt_one r r'
      obtain ⟨b, x, y⟩ := first s
      have := runAt_one x (n d)
      omega
    | more r' _ _ s' => cases runAt_one r r'; rw [ih s']

theorem langLoop_spec {v : Env} {t : List Int} (h : v.Ok t) : ∀ (fuel : Nat) {i : Nat} {acc : List (Nat × Nat)}, i ≤ t.length → t.length - i < fuel →
    (∃ l, LangAt t i l ∧ langLoop v fuel i acc = some (l.reverse ++ acc)) ∨ (RunAt Letter t i i ∧ langLoop v fuel i acc = some acc) := by
  intro fuel
  induction fuel with
  | zero => intro i acc _ q; omega
  | succ fuel ih =>
    intro i acc hi hf
    unfold langLoop
    rw [peek_eq h hi]
    cases hc : t[i]? with
    | none => exact .inr ⟨runAt_nil (fun c q => by rw [hc] at q; cases q), rfl⟩
    | some c =>
      dsimp only
      obtain ⟨e, e1, e2, e3⟩ := scan_to h isalpha_letter hi
      rw [e1]
      dsimp only
      by_cases lt : i < e
      · rw [if_pos lt, raw_is h e3 (by decide)]
        by_cases q : t[e]? = some 45
        · rw [decide_eq_true q]
          dsimp only
          have hl := get_lt q
          rcases ih (acc := (i, e) :: acc) hl (by omega) with ⟨l, l1, l2⟩ | ⟨l1, l2⟩
          · exact .inl ⟨(i, e) :: l, .more e2 lt q l1, by rw [l2]; simp⟩
          · exact .inl ⟨[(i, e)], .last e2 lt (fun _ => l1), by rw [l2]; rfl⟩
        · rw [decide_eq_false q]
          exact .inl ⟨[(i, e)], .last e2 lt (fun x => absurd x q), rfl⟩
      · rw [if_neg lt]
        have : e = i := by have := e2.1; omega
        subst this
        exact .inr ⟨e2, rfl⟩

theorem fuel_all {v : Env} {t : List Int} (h : v.Ok t) (i : Nat) : t.length - i < fuelOf v := by
  have := ok_len h
  unfold fuelOf
  omega

/-- **C92** (languages): all components are matched, and the interval ends with the last one. -/
theorem language_spec {v : Env} {t : List Int} (h : v.Ok t) {i : Nat} (hi : i ≤ t.length) :
    (∃ l k, LangAt t i l ∧ l.getLast? = some k ∧ language v i = some (true, l, some (i, k.2))) ∨ ((∀ l, ¬ LangAt t i l) ∧ language v i = some (false, [], none)) := by
  unfold language
  rcases langLoop_spec h (fuelOf v) (acc := []) hi (fuel_all h i) with ⟨l, l1, l2⟩ | ⟨l1, l2⟩
  · rw [l2, List.append_nil]
    have hn : l ≠ [] := by cases l1 <;> simp
    cases hr : l.reverse with
    | nil => exact absurd (by simpa using hr) hn
    | cons k r =>
      refine .inl ⟨l, k, l1, ?_, ?_⟩
      · rw [List.getLast?_eq_head?_reverse, hr]; rfl
      · dsimp only
        rw [← hr, List.reverse_reverse]
  · rw [l2]
    refine .inr ⟨?_, rfl⟩
    intro l hl
    cases hl with
    | last r q => have := runAt_one r l1; omega
    | more r q => have := runAt_one r l1; omega

theorem decimal_mod (w : List Int) : ∀ n, w.foldl (fun n c => (n * 10 + (c - 48).toNat) % 2 ^ 64) (n % 2 ^ 64) = (w.foldl (fun n c => n * 10 + (c - 48).toNat) n) % 2 ^ 64 := by
  induction w with
  | nil => intro n; rfl
  | cons c w ih =>
    intro n
    rw [List.foldl_cons, List.foldl_cons, ← ih]
    congr 1
    omega

theorem digitsLoop_spec {v : Env} {t : List Int} (h : v.Ok t) : ∀ (fuel : Nat) {i n k : Nat}, i ≤ t.length → t.length - i < fuel →
    ∃ e, RunAt Decimal t i e ∧ e ≤ t.length ∧ digitsLoop v fuel i (n % 2 ^ 64) (k % 2 ^ 64) = some (e, ((t.drop i).take (e - i)).foldl (fun n c => n * 10 + (c - 48).toNat) n % 2 ^ 64, k * 10 ^ (e - i) % 2 ^ 64) := by
  intro fuel
  induction fuel with
  | zero => intro i n k _ q; omega
  | succ fuel ih =>
    intro i n k hi hf
    unfold digitsLoop
    rw [peek_eq h hi]
    cases hc : t[i]? with
    | none => exact ⟨i, runAt_nil (fun c q => by rw [hc] at q; cases q), hi, by simp⟩
    | some c =>
      dsimp only
      by_cases q : 48 ≤ c ∧ c ≤ 57
      · rw [if_pos q]
        have hl := get_lt hc
        obtain ⟨e, e1, e2, e3⟩ := ih (n := n * 10 + (c - 48).toNat) (k := k * 10) hl (by omega)
        refine ⟨e, runAt_cons hc q e1, e2, ?_⟩
        rw [show (n % 2 ^ 64 * 10 + (c - 48).toNat) % 2 ^ 64 = (n * 10 + (c - 48).toNat) % 2 ^ 64 from by omega, show k % 2 ^ 64 * 10 % 2 ^ 64 = k * 10 % 2 ^ 64 from by omega, e3, take_run hc e1.1, List.foldl_cons]
        have := e1.1
        have hk : k * 10 ^ (e - i) = k * 10 * 10 ^ (e - (i + 1)) := by
          rw [show e - i = (e - (i + 1)) + 1 from by omega, Nat.mul_assoc, Nat.pow_succ 10 (e - (i + 1)), Nat.mul_comm 10]
        rw [hk]
      · rw [if_neg q]
        exact ⟨i, runAt_nil (fun d r x => by rw [hc] at r; cases r; exact q x), hi, by simp⟩

/-- All numbers are of 64 bits. -/
def Weight.wrap (w : Weight) : Weight := ⟨w.whole % 2 ^ 64, w.part % 2 ^ 64, w.unit % 2 ^ 64⟩

theorem digits_spec {v : Env} {t : List Int} (h : v.Ok t) {i : Nat} (hi : i ≤ t.length) :
    ∃ e, RunAt Decimal t i e ∧ e ≤ t.length ∧ digitsLoop v (fuelOf v) i 0 1 = some (e, decimal ((t.drop i).take (e - i)) % 2 ^ 64, 10 ^ (e - i) % 2 ^ 64) := by
  obtain ⟨e, e1, e2, e3⟩ := digitsLoop_spec h (fuelOf v) (n := 0) (k := 1) hi (fuel_all h i)
  rw [Nat.one_mul] at e3
  exact ⟨e, e1, e2, e3⟩

theorem weight_reads {v : Env} {t : List Int} (h : v.Ok t) {i : Nat} (hi : i ≤ t.length) :
    (∃ e w, WeightAt t i e w ∧ e ≤ t.length ∧ weight v i = some (true, some (i, e), w.wrap)) ∨ ((∀ e w, ¬ WeightAt t i e w) ∧ weight v i = some (false, none, oneWeight)) := by
  unfold weight
  obtain ⟨e, e1, e2, e3⟩ := digits_spec h hi
  rw [e3]
  dsimp only
  rw [hasChar_eq h e2]
  by_cases q : t[e]? = some 46
  · rw [decide_eq_true q]
    dsimp only
    obtain ⟨f, f1, f2, f3⟩ := digits_spec h (get_lt q)
    rw [f3]
    exact .inl ⟨f, _, .part e1 q f1, f2, rfl⟩
  · rw [decide_eq_false q]
    dsimp only
    by_cases lt : i < e
    · rw [if_pos lt]
      exact .inl ⟨e, _, .whole e1 lt q, e2, rfl⟩
    · rw [if_neg lt]
      refine .inr ⟨?_, rfl⟩
      intro f w hw
      cases hw with
      | whole r l => cases runAt_one e1 r; exact lt l
      | part r l => cases runAt_one e1 r; exact q l

theorem weightAt_one {t : List Int} {i e e' : Nat} {w w' : Weight} (h : WeightAt t i e w) (h' : WeightAt t i e' w') : e = e' ∧ w = w' := by
  cases h with
  | whole r _ n =>
    cases h' with
    | whole r' => cases runAt_one r r'; exact ⟨rfl, rfl⟩
    | part r' q => cases runAt_one r r'; exact absurd q n
  | part r q f =>
    cases h' with
    | whole r' _ n => cases runAt_one r r'; exact absurd q n
    | part r' _ f' => cases runAt_one r r'; cases runAt_one f f'; exact ⟨rfl, rfl⟩

theorem decimal_lt (w : List Int) (hw : ∀ c ∈ w, Decimal c) : ∀ n m, n < m → w.foldl (fun n c => n * 10 + (c - 48).toNat) n < m * 10 ^ w.length := by
  induction w with
  | nil => intro n m q; simpa using q
  | cons c w ih =>
    intro n m q
    have hc := hw c (by simp)
    unfold Decimal at hc
    have := ih (fun x hx => hw x (by simp [hx])) (n * 10 + (c - 48).toNat) (m * 10) (by omega)
    rw [List.foldl_cons, List.length_cons, Nat.pow_succ, Nat.mul_comm (10 ^ w.length), ← Nat.mul_assoc]
    exact this

theorem run_mem {P : Int → Prop} {t : List Int} {i e : Nat} (h : RunAt P t i e) : ∀ c ∈ (t.drop i).take (e - i), P c := by
  intro c hc
  obtain ⟨j, hj⟩ := List.getElem?_of_mem hc
  have hlt : j < e - i := by
    have := (List.getElem?_eq_some_iff.1 hj).1
    simp at this
    omega
  rw [List.getElem?_take_of_lt hlt, List.getElem?_drop] at hj
  obtain ⟨d, q, r⟩ := h.2.1 (i + j) (by omega) (by omega)
  rw [q] at hj; cases hj
  exact r

/-- At most 19 digits before the point, and after it -/
def ShortWeight (t : List Int) (i : Nat) : Prop := ∀ e, RunAt Decimal t i e → e - i ≤ 19 ∧ ∀ f, t[e]? = some 46 → RunAt Decimal t (e + 1) f → f - (e + 1) ≤ 19

theorem decimal_short {t : List Int} {i e : Nat} (h : RunAt Decimal t i e) (hs : e - i ≤ 19) : decimal ((t.drop i).take (e - i)) % 2 ^ 64 = decimal ((t.drop i).take (e - i)) ∧ 10 ^ (e - i) % 2 ^ 64 = 10 ^ (e - i) := by
  have hl : ((t.drop i).take (e - i)).length ≤ 19 := by simp; omega
  have h1 := decimal_lt _ (run_mem h) 0 1 (by omega)
  have h2 : 10 ^ ((t.drop i).take (e - i)).length ≤ 10 ^ 19 := Nat.pow_le_pow_right (by omega) hl
  have h3 : 10 ^ (e - i) ≤ 10 ^ 19 := Nat.pow_le_pow_right (by omega) hs
  constructor
  · refine Nat.mod_eq_of_lt ?_
    unfold decimal
    omega
  · exact Nat.mod_eq_of_lt (by omega)

theorem weight_short {t : List Int} {i : Nat} (hs : ShortWeight t i) {e : Nat} {w : Weight} (h : WeightAt t i e w) : w.wrap = w := by
  cases h with
  | whole r _ _ =>
    unfold Weight.wrap
    dsimp only
    rw [(decimal_short r (hs _ r).1).1]
  | part r q f =>
    unfold Weight.wrap
    dsimp only
    have := decimal_short f ((hs _ r).2 _ q f)
    rw [(decimal_short r (hs _ r).1).1, this.1, this.2]

/-- **C92** (weights) of at most 19 digits: the number before the point, and the fraction. -/
theorem weight_spec_partial {v : Env} {t : List Int} (h : v.Ok t) {i : Nat} (hi : i ≤ t.length) (hs : ShortWeight t i) :
    (∃ e w, WeightAt t i e w ∧ weight v i = some (true, some (i, e), w)) ∨ ((∀ e w, ¬ WeightAt t i e w) ∧ weight v i = some (false, none, oneWeight)) := by
  rcases weight_reads h hi with ⟨e, w, h1, -, h2⟩ | q
  · rw [weight_short hs h1] at h2
    exact .inl ⟨e, w, h1, h2⟩
  · exact .inr q

/-- What C92 lacks: a fraction of 64 digits is divided by 0. -/
theorem weight_zero (w : List Int) (hw : w.length = 64) (hd : ∀ c ∈ w, Decimal c) : ∃ n, weight (ipEnv (46 :: w)) 0 = some (true, some (0, 65), ⟨0, n, 0⟩) := by
  have hz : ∀ c ∈ (46 :: w : List Int), c ≠ 0 := by
    intro c hc
    rcases List.mem_cons.1 hc with rfl | q
    · decide
    · have := hd c q; unfold Decimal at this; omega
  have ok : (ipEnv (46 :: w)).Ok (46 :: w) := ⟨.inl (by simp [ipEnv]), (text_term hz).symm, (fun n q => nomatch q), fun c => Iff.rfl⟩
  have r0 : RunAt Decimal (46 :: w) 0 0 := runAt_nil (fun c q => by cases q; unfold Decimal; omega)
  have r1 : RunAt Decimal (46 :: w) 1 65 := by
    refine ⟨by omega, ?_, ?_⟩
    · intro j h1 h2
      obtain ⟨k, rfl⟩ : ∃ k, j = k + 1 := ⟨j - 1, by omega⟩
      have hk : k < w.length := by omega
      exact ⟨w[k], by simp [hk], hd _ (List.getElem_mem hk)⟩
    · intro c q
      have := get_lt q
      simp at this
      omega
  have hw' : WeightAt (46 :: w) 0 65 _ := .part r0 rfl r1
  rcases weight_reads ok (Nat.zero_le _) with ⟨e, x, x1, -, x2⟩ | ⟨n, -⟩
  · obtain ⟨rfl, rfl⟩ := weightAt_one x1 hw'
    refine ⟨decimal (((46 :: w).drop (0 + 1)).take (65 - (0 + 1))) % 2 ^ 64, ?_⟩
    rw [x2]
    have hu : (10 ^ (65 - (0 + 1)) % 2 ^ 64 : Nat) = 0 := by decide
    have hd : decimal (((46 :: w).drop 0).take (0 - 0)) % 2 ^ 64 = 0 := rfl
    unfold Weight.wrap
    dsimp only
    rw [hu, hd]
  · exact absurd hw' (n _ _)

theorem ws_to {v : Env} {t : List Int} (h : v.Ok t) {i : Nat} (hi : i ≤ t.length) : ∃ e, scan v isspace (fuelOf v) i = some e ∧ RunAt White t i e ∧ e ≤ t.length := scan_to h isspace_white hi

theorem factor_reads {v : Env} {t : List Int} (h : v.Ok t) {a : Nat} (ha : a ≤ t.length) (old : Iv × Weight) :
    (∃ q w, FactorAt t a q w ∧ q.2 ≤ t.length ∧ a < q.2 ∧ factorAt v old a = some (q.2, some q, w.wrap)) ∨ ((∀ q w, ¬ FactorAt t a q w) ∧ ∃ e, factorAt v old a = some (e, old) ∨ factorAt v old a = some (e, none, oneWeight)) := by
  unfold factorAt
  obtain ⟨b, b1, b2, b3⟩ := ws_to h ha
  rw [b1]
  dsimp only
  rw [hasChar_eq h b3]
  by_cases q1 : t[b]? = some 59
  case neg =>
    rw [decide_eq_false q1]
    refine .inr ⟨?_, b, .inl rfl⟩
    rintro q w ⟨b', _, _, _, r, x, -⟩
    cases runAt_one b2 r; exact q1 x
  rw [decide_eq_true q1]
  dsimp only
  obtain ⟨c, c1, c2, c3⟩ := ws_to h (get_lt q1)
  rw [c1]
  dsimp only
  rw [peek_eq h c3]
  dsimp only
  by_cases q2 : t[c]? = some 113 ∨ t[c]? = some 81
  case neg =>
    rw [if_neg q2]
    refine .inr ⟨?_, c, .inl rfl⟩
    rintro q w ⟨b', c', _, _, r, _, r2, x, -⟩
    cases runAt_one b2 r; cases runAt_one c2 r2; exact q2 x
  rw [if_pos q2]
  have lc : c + 1 ≤ t.length := q2.elim get_lt get_lt
  obtain ⟨d, d1, d2, d3⟩ := ws_to h lc
  rw [d1]
  dsimp only
  rw [hasChar_eq h d3]
  by_cases q3 : t[d]? = some 61
  case neg =>
    rw [decide_eq_false q3]
    refine .inr ⟨?_, d, .inl rfl⟩
    rintro q w ⟨b', c', d', _, r, _, r2, _, r3, x, -⟩
    cases runAt_one b2 r; cases runAt_one c2 r2; cases runAt_one d2 r3; exact q3 x
  rw [decide_eq_true q3]
  dsimp only
  obtain ⟨e, e1, e2, e3⟩ := ws_to h (get_lt q3)
  rw [e1]
  dsimp only
  have o1 := b2.1; have o2 := c2.1; have o3 := d2.1; have o4 := e2.1
  rcases weight_reads h e3 with ⟨f, w, w1, w2, w3⟩ | ⟨n, w3⟩
  · rw [w3]
    refine .inl ⟨(e, f), w, ⟨b, c, d, e, b2, q1, c2, q2, d2, q3, e2, rfl, w1⟩, w2, ?_, rfl⟩
    have : e ≤ f := by cases w1 with
      | whole r l => exact r.1
      | part r _ s => have := r.1; have := s.1; omega
    dsimp only
    omega
  · rw [w3]
    refine .inr ⟨?_, e, .inr rfl⟩
    rintro q w ⟨b', c', d', e', r, _, r2, _, r3, _, r4, x, y⟩
    cases runAt_one b2 r; cases runAt_one c2 r2; cases runAt_one d2 r3; cases runAt_one e2 r4
    exact n _ _ y

/-- What the value and its factor should be: `mk` is the asterisk or the value, which ends at `a`. -/
inductive FactorEnd (t : List Int) (i a : Nat) : Iv × Weight → Iv → Prop
  | some {q w} : FactorAt t a q w → FactorEnd t i a (some q, w) (some (i, q.2))
  | none : (∀ q w, ¬ FactorAt t a q w) → FactorEnd t i a (none, oneWeight) (some (i, a))

/-- A weighted value, in which an asterisk comes before a value; `Ast` and `Val` have the ends of both. -/
inductive WeightedAt (t : List Int) (Ast Val : Nat → Nat → Prop) (i : Nat) : Weighted → Prop
  | asterisk {a f q} : Ast i a → FactorEnd t i a f q → WeightedAt t Ast Val i ⟨some (i, a), none, f, q⟩
  | value {a f q} : (∀ a, ¬ Ast i a) → Val i a → FactorEnd t i a f q → WeightedAt t Ast Val i ⟨none, some (i, a), f, q⟩

/-- A parser of values: it matches iff there is one, and only that one, of at least one character. -/
structure ReadsEnd (n : Nat) (f : Nat → Option (Option Nat)) (F : Nat → Nat → Prop) : Prop where
  cases : ∀ i ≤ n, (∃ e, F i e ∧ i < e ∧ e ≤ n ∧ f i = some (some e)) ∨ ((∀ e, ¬ F i e) ∧ f i = some none)

theorem asterisk_reads {v : Env} {t : List Int} (h : v.Ok t) : ReadsEnd t.length (asterisk v) fun i e => t[i]? = some 42 ∧ e = i + 1 := by
  refine ⟨?_⟩
  intro i hi
  unfold asterisk
  rw [raw_is h hi (by decide)]
  by_cases q : t[i]? = some 42
  · rw [decide_eq_true q]
    exact .inl ⟨i + 1, ⟨q, rfl⟩, by omega, get_lt q, rfl⟩
  · rw [decide_eq_false q]
    exact .inr ⟨(fun e x => q x.1), rfl⟩

theorem token_reads {v : Env} {t : List Int} (h : v.Ok t) : ReadsEnd t.length (httpToken v) (TokenAt t) := by
  refine ⟨?_⟩
  intro i hi
  rcases token_cases h hi with ⟨a, h1, h2, h3, h4⟩ | q
  · exact .inl ⟨a, h1, h2, h3, h4⟩
  · exact .inr q

theorem weightedEnd_spec {v : Env} {t : List Int} (h : v.Ok t) {i a : Nat} (hi : i < a) (ha : a ≤ t.length) (hs : ∀ j, ShortWeight t j) (w : Weight) (mk : Iv × Weight → Iv → Weighted) :
    ∃ f q e, FactorEnd t i a f q ∧ weightedEnd v (none, w) i a mk = some (true, mk f q) ∧ q = some (i, e) ∧ i < e ∧ e ≤ t.length := by
  unfold weightedEnd
  rcases factor_reads h ha (none, w) with ⟨q, x, x1, x2, x4, x3⟩ | ⟨n, e, x⟩
  · rw [x3]
    have : x.wrap = x := by
      obtain ⟨_, _, _, e, _, _, _, _, _, _, _, _, y⟩ := x1
      exact weight_short (hs _) y
    rw [this]
    exact ⟨_, _, _, .some x1, rfl, rfl, by omega, x2⟩
  · rcases x with x | x
    · rw [x]; exact ⟨_, _, _, .none n, rfl, rfl, hi, ha⟩
    · rw [x]; exact ⟨_, _, _, .none n, rfl, rfl, hi, ha⟩

/-- **C92** A new parser of weighted values matches the asterisk or the value, and the factor if there is one; without it the factor is 1 and the interval ends with the value. Weights of more than 19 digits are left out. -/
theorem weighted_spec_partial {v : Env} {t : List Int} (h : v.Ok t) {ast val : Nat → Option (Option Nat)} {Ast Val : Nat → Nat → Prop} (ha : ReadsEnd t.length ast Ast) (hv : ReadsEnd t.length val Val) (hs : ∀ j, ShortWeight t j) {i : Nat} (hi : i ≤ t.length) :
    (∃ r e, WeightedAt t Ast Val i r ∧ r.interval = some (i, e) ∧ i < e ∧ e ≤ t.length ∧ weightedValue v ast val (none, oneWeight) i = some (true, r)) ∨
    ((∀ r, ¬ WeightedAt t Ast Val i r) ∧ weightedValue v ast val (none, oneWeight) i = some (false, ⟨none, none, (none, oneWeight), none⟩)) := by
  unfold weightedValue
  rcases ha.cases i hi with ⟨a, a1, a2, a3, a4⟩ | ⟨na, a4⟩
  · rw [a4]
    dsimp only
    obtain ⟨f, q, e, e1, e2, e3, e4, e5⟩ := weightedEnd_spec h a2 a3 hs oneWeight fun f q => ⟨some (i, a), none, f, q⟩
    exact .inl ⟨_, e, .asterisk a1 e1, e3, e4, e5, e2⟩
  · rw [a4]
    dsimp only
    rcases hv.cases i hi with ⟨a, a1, a2, a3, a4⟩ | ⟨n, a4⟩
    · rw [a4]
      dsimp only
      obtain ⟨f, q, e, e1, e2, e3, e4, e5⟩ := weightedEnd_spec h a2 a3 hs oneWeight fun f q => ⟨none, some (i, a), f, q⟩
      exact .inl ⟨_, e, .value na a1 e1, e3, e4, e5, e2⟩
    · rw [a4]
      refine .inr ⟨?_, rfl⟩
      intro r hr
      cases hr with
      | asterisk x => exact na _ x
      | value _ x => exact n _ x

/-- What C92 lacks: a parser that matched before keeps its factor where there is none now, and the interval includes white space after the value. Here 0.5 from `a;q=0.5` is still the factor of `b `. -/
theorem weighted_stale : weightedValue (ipEnv [98, 32]) (asterisk (ipEnv [98, 32])) (httpToken (ipEnv [98, 32])) (some (4, 7), ⟨0, 5, 10⟩) 0 = some (true, ⟨none, some (0, 1), (some (4, 7), ⟨0, 5, 10⟩), some (0, 2)⟩) ∧
    weightedValue (ipEnv [98, 32]) (asterisk (ipEnv [98, 32])) (httpToken (ipEnv [98, 32])) (none, oneWeight) 0 = some (true, ⟨none, some (0, 1), (none, oneWeight), some (0, 1)⟩) := by decide +kernel

/-! ### Collections -/

theorem nextItem_one {t : List Int} {i b b' : Nat} (h : NextItem t i b) (h' : NextItem t i b') : b = b' := by
  obtain ⟨a, r, q⟩ := h
  obtain ⟨a', r', q'⟩ := h'
  cases runAt_one r r'
  rcases q with ⟨n, rfl⟩ | ⟨c, s⟩ <;> rcases q' with ⟨n', rfl⟩ | ⟨c', s'⟩
  · rfl
  · exact absurd c' n
  · exact absurd c n'
  · exact runAt_one s s'

/-- **C93** All elements are read, in their order, each just once. -/
theorem collect_spec {α : Type} {v : Env} {t : List Int} (h : v.Ok t) {el : Nat → Option (Option (α × Nat))} {El : Nat → α → Nat → Prop} (ins : α → List α → List α)
    (he : ∀ i ≤ t.length, (∃ x e, El i x e ∧ i < e ∧ e ≤ t.length ∧ el i = some (some (x, e))) ∨ ((∀ x e, ¬ El i x e) ∧ el i = some none)) :
    ∀ (fuel : Nat) {i : Nat} (l : List α), i ≤ t.length → t.length - i < fuel → ∃ xs, ItemsAt t El i xs ∧ collect v el ins fuel i l = some (xs.foldl (fun l x => ins x l) l) := by
  have hlast : ∀ x e, ¬ El t.length x e := by
    intro x e q
    rcases he t.length (Nat.le_refl _) with ⟨_, e', _, h1, h2, _⟩ | ⟨n, -⟩
    · omega
    · exact n _ _ q
  intro fuel
  induction fuel with
  | zero => intro i l _ q; omega
  | succ fuel ih =>
    intro i l hi hf
    unfold collect
    by_cases b : below v.fin i = true
    · rw [if_pos b]
      obtain ⟨a, a1, a2, a3⟩ := ws_to h hi
      rw [a1]
      dsimp only
      rw [hasChar_eq h a3]
      dsimp only
      have hb : ∃ b, NextItem t i b ∧ i ≤ b ∧ b ≤ t.length ∧ (if decide (t[a]? = some 44) = true then scan v isspace (fuelOf v) (a + 1) else some a) = some b := by
        by_cases q : t[a]? = some 44
        · obtain ⟨b, b1, b2, b3⟩ := ws_to h (get_lt q)
          have := a2.1; have := b2.1
          exact ⟨b, ⟨a, a2, .inr ⟨q, b2⟩⟩, by omega, b3, by rw [if_pos (decide_eq_true q)]; exact b1⟩
        · exact ⟨a, ⟨a, a2, .inl ⟨q, rfl⟩⟩, a2.1, a3, by rw [if_neg (by simpa using q)]⟩
      obtain ⟨b, b1, b2, b3, b4⟩ := hb
      rw [b4]
      dsimp only
      rcases he b b3 with ⟨x, e, e1, e2, e3, e4⟩ | ⟨n, e4⟩
      · rw [e4]
        dsimp only
        obtain ⟨xs, x1, x2⟩ := ih (ins x l) e3 (by omega)
        exact ⟨x :: xs, .item b1 e1 x1, x2⟩
      · rw [e4]
        refine ⟨[], .stop ?_, rfl⟩
        intro b' x e q
        cases nextItem_one b1 q
        exact n x e
    · rw [if_neg b]
      have : i = t.length := by
        cases hf : v.fin with
        | none => rw [hf] at b; exact absurd rfl b
        | some n => have := text_len_fin h hf; rw [hf] at b; simp [below] at b; omega
      subst this
      refine ⟨[], .stop ?_, rfl⟩
      rintro b' x e ⟨a, r, q⟩ y
      have := r.1
      have := runAt_le r (Nat.le_refl _)
      have ea : a = t.length := by omega
      subst ea
      rcases q with ⟨-, rfl⟩ | ⟨q, -⟩
      · exact hlast _ _ y
      · rw [List.getElem?_eq_none (Nat.le_refl _)] at q; cases q

/-- From larger to smaller -/
inductive Falling {α β : Type} (le : β → β → Prop) (key : α → β) : List α → Prop
  | nil : Falling le key []
  | cons {x l} : (∀ y ∈ l, le (key y) (key x)) → Falling le key l → Falling le key (x :: l)

theorem insertBy_perm {α β : Type} (le : β → β → Prop) [DecidableRel le] (key : α → β) (x : α) (l : List α) : List.Perm (insertBy le key x l) (x :: l) := by
  induction l with
  | nil => exact .refl _
  | cons y l ih =>
    unfold insertBy
    by_cases q : le (key x) (key y)
    · rw [if_pos q]; exact (List.Perm.cons y ih).trans (List.Perm.swap x y l)
    · rw [if_neg q]

theorem insertBy_falling {α β : Type} (le : β → β → Prop) [DecidableRel le] (total : ∀ a b, le a b ∨ le b a) (trans : ∀ a b c, le a b → le b c → le a c) (key : α → β) (x : α) (l : List α) (h : Falling le key l) : Falling le key (insertBy le key x l) := by
  induction h with
  | nil => exact .cons (by simp) .nil
  | @cons y l hy hl ih =>
    unfold insertBy
    by_cases q : le (key x) (key y)
    · rw [if_pos q]
      refine .cons ?_ ih
      intro z hz
      rcases List.mem_cons.1 ((insertBy_perm le key x l).mem_iff.1 hz) with rfl | r
      · exact q
      · exact hy z r
    · rw [if_neg q]
      have q' := (total (key x) (key y)).resolve_left q
      refine .cons ?_ (.cons hy hl)
      intro z hz
      rcases List.mem_cons.1 hz with rfl | r
      · exact q'
      · exact trans _ _ _ (hy z r) q'

theorem insertBy_filter {α β : Type} (le : β → β → Prop) [DecidableRel le] (trans : ∀ a b c, le a b → le b c → le a c) (key : α → β) (x : α) (l : List α) (h : Falling le key l) (p : α → Bool) (hp : ∀ y z, p y = true → p z = true → le (key y) (key z)) :
    (insertBy le key x l).filter p = l.filter p ++ (if p x then [x] else []) := by
  induction h with
  | nil => unfold insertBy; cases h : p x <;> simp [h]
  | @cons y l hy hl ih =>
    unfold insertBy
    by_cases q : le (key x) (key y)
    · rw [if_pos q, List.filter_cons, List.filter_cons, ih]
      cases p y <;> simp
    · rw [if_neg q, List.filter_cons]
      cases hx : p x with
      | false => simp
      | true =>
        have : (y :: l).filter p = [] := by
          rw [List.filter_eq_nil_iff]
          intro z hz hpz
          have h1 := hp x z hx hpz
          rcases List.mem_cons.1 hz with rfl | r
          · exact q h1
          · exact q (trans _ _ _ h1 (hy z r))
        rw [this]
        simp

/-- **C93** A weighted collection has all elements of the text, from the largest factor to the smallest one, and elements with the same factor in their order. -/
theorem collection_spec {α β : Type} {v : Env} {t : List Int} (h : v.Ok t) {el : Nat → Option (Option (α × Nat))} {El : Nat → α → Nat → Prop} (le : β → β → Prop) [DecidableRel le] (total : ∀ a b, le a b ∨ le b a) (trans : ∀ a b c, le a b → le b c → le a c) (key : α → β)
    (he : ∀ i ≤ t.length, (∃ x e, El i x e ∧ i < e ∧ e ≤ t.length ∧ el i = some (some (x, e))) ∨ ((∀ x e, ¬ El i x e) ∧ el i = some none)) {i : Nat} (hi : i ≤ t.length) :
    ∃ xs r, ItemsAt t El i xs ∧ collect v el (insertBy le key) (fuelOf v) i [] = some r ∧ r.Perm xs ∧ Falling le key r ∧ ∀ p : α → Bool, (∀ y z, p y = true → p z = true → le (key y) (key z)) → r.filter p = xs.filter p := by
  obtain ⟨xs, x1, x2⟩ := collect_spec h (insertBy le key) he (fuelOf v) [] hi (fuel_all h i)
  have key' : ∀ (xs l : List α), Falling le key l → (xs.foldl (fun l x => insertBy le key x l) l).Perm (l ++ xs) ∧ Falling le key (xs.foldl (fun l x => insertBy le key x l) l) ∧
      ∀ p : α → Bool, (∀ y z, p y = true → p z = true → le (key y) (key z)) → (xs.foldl (fun l x => insertBy le key x l) l).filter p = l.filter p ++ xs.filter p := by
    intro xs
    induction xs with
    | nil => intro l hl; exact ⟨by simp, hl, by simp⟩
    | cons x xs ih =>
      intro l hl
      obtain ⟨a, b, c⟩ := ih _ (insertBy_falling le total trans key x l hl)
      refine ⟨?_, b, ?_⟩
      · refine a.trans (((insertBy_perm le key x l).append_right xs).trans ?_)
        rw [List.cons_append]
        exact List.perm_middle.symm
      · intro p hp
        rw [List.foldl_cons, c p hp, insertBy_filter le trans key x l hl p hp, List.filter_cons]
        cases p x <;> simp
  obtain ⟨a, b, c⟩ := key' xs [] .nil
  exact ⟨xs, _, x1, x2, by simpa using a, b, fun p hp => by simpa using c p hp⟩

/-- There is only one such list. -/
theorem itemsAt_one {α : Type} {t : List Int} {El : Nat → α → Nat → Prop} (one : ∀ i x e x' e', El i x e → El i x' e' → x = x' ∧ e = e') {i : Nat} {l l' : List α} (h : ItemsAt t El i l) (h' : ItemsAt t El i l') : l = l' := by
  induction h generalizing l' with
  | stop n =>
    cases h' with
    | stop => rfl
    | item a b => exact absurd b (n _ _ _ a)
  | item a b _ ih =>
    cases h' with
    | stop n => exact absurd b (n _ _ _ a)
    | item a' b' r =>
      cases nextItem_one a a'
      obtain ⟨rfl, rfl⟩ := one _ _ _ _ _ b b'
      rw [ih r]

-- `en-US, *;q=0.5`
example : language (ipEnv [101, 110, 45, 85, 83, 44]) 0 = some (true, [(0, 2), (3, 5)], some (0, 5)) := by decide +kernel
example : language (ipEnv [101, 110, 45, 44]) 0 = some (true, [(0, 2)], some (0, 2)) := by decide +kernel
example : weight (ipEnv [48, 46, 53, 44]) 0 = some (true, some (0, 3), ⟨0, 5, 10⟩) := by decide +kernel
example : weightedValue (ipEnv [42, 59, 113, 61, 48, 46, 53]) (asterisk (ipEnv [42, 59, 113, 61, 48, 46, 53])) (httpToken (ipEnv [42, 59, 113, 61, 48, 46, 53])) (none, oneWeight) 0 = some (true, ⟨some (0, 1), none, (some (4, 7), ⟨0, 5, 10⟩), some (0, 7)⟩) := by decide +kernel
-- `a , bb,,c`, from the longest to the shortest: the empty element ends it
example : collect (ipEnv [97, 32, 44, 32, 98, 98, 44, 44, 99]) (fun i => (httpToken (ipEnv [97, 32, 44, 32, 98, 98, 44, 44, 99]) i).map fun o => o.map fun e => ((i, e), e)) (insertBy (· ≤ ·) fun q : Nat × Nat => q.2 - q.1) 20 0 [] = some [(4, 6), (0, 1)] := by decide +kernel

end Verif.Parser
