import Verif.Parser.Ip
import Verif.Str.ToInt
/-
Parsers of IBAN and of the creditor reference (include/stdex/parser.hpp 4634-5055). `m_space` is the function it computes, as in
Parser/Number (`fun _ => none` if it is null); `ctype::toupper` is an arbitrary function.
-/
namespace Verif.Parser
open Verif.Str

/-- `struct country_t` 4674-4678 -/
structure Country where
  c0 : Int
  c1 : Int
  d0 : Int
  d1 : Int
  length : Nat
deriving DecidableEq

/-- `s_countries` 4679-4786 -/
def countries : List Country := [
  ⟨65, 68, 0, 0, 24⟩, ⟨65, 69, 0, 0, 23⟩, ⟨65, 76, 0, 0, 28⟩, ⟨65, 79, 0, 0, 25⟩, ⟨65, 84, 0, 0, 20⟩, ⟨65, 90, 0, 0, 28⟩, ⟨66, 65, 51, 57, 20⟩, ⟨66, 69, 0, 0, 16⟩,
  ⟨66, 70, 0, 0, 28⟩, ⟨66, 71, 0, 0, 22⟩, ⟨66, 72, 0, 0, 22⟩, ⟨66, 73, 0, 0, 27⟩, ⟨66, 74, 0, 0, 28⟩, ⟨66, 82, 0, 0, 29⟩, ⟨66, 89, 0, 0, 28⟩, ⟨67, 70, 0, 0, 27⟩,
  ⟨67, 71, 0, 0, 27⟩, ⟨67, 72, 0, 0, 21⟩, ⟨67, 73, 0, 0, 28⟩, ⟨67, 77, 0, 0, 27⟩, ⟨67, 82, 0, 0, 22⟩, ⟨67, 86, 0, 0, 25⟩, ⟨67, 89, 0, 0, 28⟩, ⟨67, 90, 0, 0, 24⟩,
  ⟨68, 69, 0, 0, 22⟩, ⟨68, 74, 0, 0, 27⟩, ⟨68, 75, 0, 0, 18⟩, ⟨68, 79, 0, 0, 28⟩, ⟨68, 90, 0, 0, 26⟩, ⟨69, 69, 0, 0, 20⟩, ⟨69, 71, 0, 0, 29⟩, ⟨69, 83, 0, 0, 24⟩,
  ⟨70, 73, 0, 0, 18⟩, ⟨70, 79, 0, 0, 18⟩, ⟨70, 82, 0, 0, 27⟩, ⟨71, 65, 0, 0, 27⟩, ⟨71, 66, 0, 0, 22⟩, ⟨71, 69, 0, 0, 22⟩, ⟨71, 73, 0, 0, 23⟩, ⟨71, 76, 0, 0, 18⟩,
  ⟨71, 81, 0, 0, 27⟩, ⟨71, 82, 0, 0, 27⟩, ⟨71, 84, 0, 0, 28⟩, ⟨71, 87, 0, 0, 25⟩, ⟨72, 78, 0, 0, 28⟩, ⟨72, 82, 0, 0, 21⟩, ⟨72, 85, 0, 0, 28⟩, ⟨73, 69, 0, 0, 22⟩,
  ⟨73, 76, 0, 0, 23⟩, ⟨73, 81, 0, 0, 23⟩, ⟨73, 82, 0, 0, 26⟩, ⟨73, 83, 0, 0, 26⟩, ⟨73, 84, 0, 0, 27⟩, ⟨74, 79, 0, 0, 30⟩, ⟨75, 77, 0, 0, 27⟩, ⟨75, 87, 0, 0, 30⟩,
  ⟨75, 90, 0, 0, 20⟩, ⟨76, 66, 0, 0, 28⟩, ⟨76, 67, 0, 0, 32⟩, ⟨76, 73, 0, 0, 21⟩, ⟨76, 84, 0, 0, 20⟩, ⟨76, 85, 0, 0, 20⟩, ⟨76, 86, 0, 0, 21⟩, ⟨76, 89, 0, 0, 25⟩,
  ⟨77, 65, 0, 0, 28⟩, ⟨77, 67, 0, 0, 27⟩, ⟨77, 68, 0, 0, 24⟩, ⟨77, 69, 50, 53, 22⟩, ⟨77, 71, 0, 0, 27⟩, ⟨77, 75, 48, 55, 19⟩, ⟨77, 76, 0, 0, 28⟩, ⟨77, 82, 49, 51, 27⟩,
  ⟨77, 84, 0, 0, 31⟩, ⟨77, 85, 0, 0, 30⟩, ⟨77, 90, 0, 0, 25⟩, ⟨78, 69, 0, 0, 28⟩, ⟨78, 73, 0, 0, 32⟩, ⟨78, 76, 0, 0, 18⟩, ⟨78, 79, 0, 0, 15⟩, ⟨80, 75, 0, 0, 24⟩,
  ⟨80, 76, 0, 0, 28⟩, ⟨80, 83, 0, 0, 29⟩, ⟨80, 84, 53, 48, 25⟩, ⟨81, 65, 0, 0, 29⟩, ⟨82, 79, 0, 0, 24⟩, ⟨82, 83, 51, 53, 22⟩, ⟨82, 85, 0, 0, 33⟩, ⟨83, 65, 0, 0, 24⟩,
  ⟨83, 67, 0, 0, 31⟩, ⟨83, 68, 0, 0, 18⟩, ⟨83, 69, 0, 0, 24⟩, ⟨83, 73, 53, 54, 19⟩, ⟨83, 75, 0, 0, 24⟩, ⟨83, 77, 0, 0, 27⟩, ⟨83, 78, 0, 0, 28⟩, ⟨83, 84, 0, 0, 25⟩,
  ⟨83, 86, 0, 0, 28⟩, ⟨84, 68, 0, 0, 27⟩, ⟨84, 71, 0, 0, 28⟩, ⟨84, 76, 51, 56, 23⟩, ⟨84, 78, 53, 57, 24⟩, ⟨84, 82, 0, 0, 26⟩, ⟨85, 65, 0, 0, 29⟩, ⟨86, 65, 0, 0, 22⟩,
  ⟨86, 71, 0, 0, 24⟩, ⟨88, 75, 0, 0, 20⟩]

/-- `case_insensitive ? ctype.toupper(c) : c` -/
def upCase (v : Env) (upper : Int → Int) (c : Int) : Int := if v.ci then upper c else c

/-- The search 4800-4813, with the bounds `l` and `r`; `none` is `goto error`. -/
def bisect (a b : Int) : Nat → Nat → Nat → Option Country
  | 0, _, _ => none
  | fuel + 1, l, r =>
    if l ≥ r then none
    else
      match countries[(l + r) / 2]? with
      | none => none
      | some c =>
        if c.c0 < a ∨ (c.c0 = a ∧ c.c1 < b) then bisect a b fuel ((l + r) / 2 + 1) r
        else if a < c.c0 ∨ (a = c.c0 ∧ b < c.c1) then bisect a b fuel l ((l + r) / 2)
        else some c

/-- 4869-4882, 5017-5030: what a character adds to `normalized`. -/
def normChar (c : Int) : List Int :=
  if 48 ≤ c ∧ c ≤ 57 then [c]
  else if 65 ≤ c ∧ c ≤ 74 then [49, 48 + c - 65]
  else if 75 ≤ c ∧ c ≤ 84 then [50, 48 + c - 75]
  else if 85 ≤ c ∧ c ≤ 90 then [51, 48 + c - 85]
  else []

/-- 4851-4862: the same for the country. -/
def normLetter (c : Int) : List Int :=
  if 65 ≤ c ∧ c ≤ 74 then [49, 48 + c - 65]
  else if 75 ≤ c ∧ c ≤ 84 then [50, 48 + c - 75]
  else if 85 ≤ c ∧ c ≤ 90 then [51, 48 + c - 85]
  else []

/-- The inner loop 4894-4895, 5042-5043: `nominator` and `next`. -/
def foldDigits (s : List Int) : Nat → Nat → Nat → Nat → Option (Nat × Nat)
  | 0, _, _, _ => none
  | fuel + 1, nom, next, count =>
    if count < 9 then
      match rd s next with
      | none => none
      | some c => if c = 0 then some (nom, next) else foldDigits s fuel ((nom * 10 + (c - 48).toNat) % 2 ^ 32) (next + 1) (count + 1)
    else some (nom, next)

/-- The loop 4887-4896, 5035-5044: `is_valid`. -/
def modLoop (s : List Int) : Nat → Nat → Nat → Option Bool
  | 0, _, _ => none
  | fuel + 1, nom, next =>
    match rd s next with
    | none => none
    | some c =>
      if c = 0 then some (decide (nom % 97 = 1))
      else
        match foldDigits s 10 (nom % 97) next (if nom % 97 = 0 then 0 else if nom % 97 < 10 then 1 else 2) with
        | none => none
        | some (nom', next') => modLoop s fuel nom' next'

/-- 4885-4896, 5033-5044, where `s` is `normalized` with its terminator. -/
def mod97 (s : List Int) : Option Bool :=
  match strtouint s (some 9) 32 10 with
  | none => none
  | some (nom, next) => modLoop s (s.length + 1) nom next

/-- 4845-4896, 5003-5044 with an array `normalized` of `cap` elements, which are written one after another; `none` if they are too few. -/
def isValid (cap : Nat) (body tail : List Int) : Option Bool :=
  if (body.flatMap normChar ++ tail).length < cap then mod97 (body.flatMap normChar ++ tail ++ [0]) else none

/-- `country`, `check_digits`, `bban` (4659-4661, up to the terminator), `is_valid`, and `interval`. -/
structure Iban where
  country : List Int
  check : List Int
  bban : List Int
  valid : Bool
  interval : Option (Nat × Nat)
deriving DecidableEq

/-- `invalidate` 4650-4657. -/
def ibanInvalid : Iban := ⟨[], [], [], false, none⟩

/-- The loop 4828-4842 and 4843, with an array of `cap` elements: `interval.end` and `bban`; the inner `none` is `goto error`. -/
def bbanLoop (v : Env) (upper : Int → Int) (space : Sub) (cap len : Nat) : Nat → Nat → List Int → Option (Option (Nat × List Int))
  | 0, _, _ => none
  | fuel + 1, e, w =>
    if w.length < len then
      match Str.cond v.s v.fin e with
      | none => none
      | some none => some none
      | some (some c) =>
        match space e with
        | some e' => bbanLoop v upper space cap len fuel e' w
        | none =>
          if (48 ≤ upCase v upper c ∧ upCase v upper c ≤ 57) ∨ (65 ≤ upCase v upper c ∧ upCase v upper c ≤ 90) then
            if w.length < cap then bbanLoop v upper space cap len fuel (e + 1) (w ++ [upCase v upper c]) else none
          else some none
    else if w.length < cap then some (some (e, w)) else none

/-- A letter of the country 4793-4798; the inner `none` is `goto error`. -/
def letterAt (v : Env) (upper : Int → Int) (e : Nat) : Option (Option Int) :=
  match Str.cond v.s v.fin e with
  | none => none
  | some none => some none
  | some (some c) => if upCase v upper c < 65 ∨ 90 < upCase v upper c then some none else some (some (upCase v upper c))

/-- A check digit 4817-4819, 4971-4973 (a terminator is less than '0'). -/
def checkAt (v : Env) (e : Nat) : Option (Option Int) :=
  match Str.cond v.s v.fin e with
  | none => none
  | some none => some none
  | some (some c) => if c < 48 ∨ 57 < c then some none else some (some c)

/-- Both parts have to succeed: `none` is undefined, `some none` is `goto error`. -/
def andThen {α β : Type} (a : Option (Option α)) (f : α → Option (Option β)) : Option (Option β) :=
  match a with
  | none => none
  | some none => some none
  | some (some x) => f x

/-- 4827-4899 -/
def ibanTail (v : Env) (upper : Int → Int) (space : Sub) (i : Nat) (row : Country) (a b d0 d1 : Int) : Option (Option Iban) :=
  andThen (bbanLoop v upper space 31 (row.length - 4) (v.s.length + 2) (i + 4) []) fun (e, w) =>
    match isValid 69 w (normLetter a ++ normLetter b ++ [d0, d1]) with
    | none => none
    | some ok => some (some ⟨[a, b], [d0, d1], w, ok, some (i, e)⟩)

/-- 4791-4899 -/
def ibanRun (v : Env) (upper : Int → Int) (space : Sub) (i : Nat) : Option (Option Iban) :=
  andThen (letterAt v upper i) fun a =>
  andThen (letterAt v upper (i + 1)) fun b =>
  match bisect a b (countries.length + 1) 0 countries.length with
  | none => some none
  | some row =>
    andThen (checkAt v (i + 2)) fun d0 =>
    andThen (checkAt v (i + 3)) fun d1 =>
    if (row.d0 ≠ 0 ∧ d0 ≠ row.d0) ∨ (row.d1 ≠ 0 ∧ d1 ≠ row.d1) then some none
    else ibanTail v upper space i row a b d0 d1

/-- `basic_iban::do_match` 4671-4903: the result, and the object. -/
def iban (v : Env) (upper : Int → Int) (space : Sub) (i : Nat) (_old : Iban) : Option (Bool × Iban) :=
  match ibanRun v upper space i with
  | none => none
  | some none => some (false, ibanInvalid)
  | some (some x) => some (true, x)

/-! ### Specification -/

/-- The number that ISO 7064 checks: a digit stands for itself, and a letter for the two digits of a number from 10 (A) to 35 (Z). -/
def isoNumber : List Int → Nat → Nat
  | [], n => n
  | c :: w, n => if 65 ≤ c then isoNumber w (n * 100 + (c - 55).toNat) else isoNumber w (n * 10 + (c - 48).toNat)

/-- Digits and capital letters. -/
def Alnum (c : Int) : Prop := (48 ≤ c ∧ c ≤ 57) ∨ (65 ≤ c ∧ c ≤ 90)

/-- The characters `w` are written from `i` to `j`, with blanks before each of them. -/
inductive Spaced (t : List Int) (up : Int → Int) (space : Sub) : Nat → List Int → Nat → Prop
  | nil (i : Nat) : Spaced t up space i [] i
  | blank {i k j : Nat} {c : Int} {w : List Int} : i < t.length → space i = some k → Spaced t up space k (c :: w) j → Spaced t up space i (c :: w) j
  | char {i j : Nat} {c : Int} {w : List Int} : t[i]? = some c → space i = none → Alnum (up c) → Spaced t up space (i + 1) w j → Spaced t up space i (up c :: w) j

/-- At `i` is an IBAN: a country of the list, two digits (those that the country requires), and as many characters as the length of the country leaves. -/
structure IbanAt (t : List Int) (up : Int → Int) (space : Sub) (i : Nat) (a b d0 d1 : Int) (w : List Int) (j : Nat) : Prop where
  country : ∃ row ∈ countries, row.c0 = a ∧ row.c1 = b ∧ (row.d0 ≠ 0 → row.d0 = d0) ∧ (row.d1 ≠ 0 → row.d1 = d1) ∧ w.length + 4 = row.length
  letter0 : ∃ c, t[i]? = some c ∧ up c = a
  letter1 : ∃ c, t[i + 1]? = some c ∧ up c = b
  digit0 : t[i + 2]? = some d0 ∧ 48 ≤ d0 ∧ d0 ≤ 57
  digit1 : t[i + 3]? = some d1 ∧ 48 ≤ d1 ∧ d1 ≤ 57
  rest : Spaced t up space (i + 4) w j

/-! ### Proofs -/

theorem spaced_unique {t : List Int} {up : Int → Int} {space : Sub} {i j : Nat} {w : List Int} (h : Spaced t up space i w j) : ∀ {w' : List Int} {j' : Nat}, Spaced t up space i w' j' →
    w.length = w'.length → w = w' ∧ j = j' := by
  induction h with
  | nil i =>
    intro w' j' h' hl
    cases h' with
    | nil => exact ⟨rfl, rfl⟩
    | blank => cases hl
    | char => cases hl
  | blank h1 h2 _ ih =>
    intro w' j' h' hl
    cases h' with
    | nil => cases hl
    | blank g1 g2 g3 => rw [h2] at g2; cases g2; exact ih g3 hl
    | char g1 g2 g3 => rw [h2] at g2; cases g2
  | char h1 h2 h3 _ ih =>
    intro w' j' h' hl
    cases h' with
    | nil => cases hl
    | blank g1 g2 g3 => rw [h2] at g2; cases g2
    | char g1 g2 g3 g4 =>
      rw [h1] at g1; cases g1
      have ⟨a, b⟩ := ih g4 (by simpa using hl)
      exact ⟨by rw [a], b⟩

/-- The length of the arrays suffices. -/
theorem countries_length : ∀ row ∈ countries, 4 ≤ row.length ∧ row.length ≤ 33 := by decide +kernel

/-- The order of the list. -/
theorem countries_sorted : ∀ i : Fin 105, ∀ x y, countries[i.val]? = some x → countries[i.val + 1]? = some y → x.c0 < y.c0 ∨ (x.c0 = y.c0 ∧ x.c1 < y.c1) := by
  have : ∀ i : Fin 105, (match countries[i.val]?, countries[i.val + 1]? with
    | some x, some y => decide (x.c0 < y.c0 ∨ (x.c0 = y.c0 ∧ x.c1 < y.c1)) | _, _ => true) = true := by decide +kernel
  intro i x y hx hy
  have := this i
  rw [hx, hy] at this
  simpa using this

theorem countries_count : countries.length = 106 := by decide +kernel

theorem countries_lt {i j : Nat} (h : i < j) {x y : Country} (hx : countries[i]? = some x) (hy : countries[j]? = some y) : x.c0 < y.c0 ∨ (x.c0 = y.c0 ∧ x.c1 < y.c1) := by
  have hj : j < 106 := by have := (List.getElem?_eq_some_iff.1 hy).1; rw [countries_count] at this; exact this
  obtain ⟨d, rfl⟩ : ∃ d, j = i + 1 + d := ⟨j - i - 1, by omega⟩
  clear h
  induction d generalizing y with
  | zero => exact countries_sorted ⟨i, by omega⟩ x y hx hy
  | succ d ih =>
    have hm : i + 1 + d < countries.length := by rw [countries_count]; omega
    have h1 := ih (y := countries[i + 1 + d]) (List.getElem?_eq_getElem hm) (by omega)
    have h2 := countries_sorted ⟨i + 1 + d, by omega⟩ _ y (List.getElem?_eq_getElem hm) hy
    omega

theorem bisect_spec (a b : Int) : ∀ (fuel l r : Nat), r ≤ 106 → r < fuel + l → (∀ i x, countries[i]? = some x → i < l → x.c0 < a ∨ (x.c0 = a ∧ x.c1 < b)) →
    (∀ i x, countries[i]? = some x → r ≤ i → a < x.c0 ∨ (a = x.c0 ∧ b < x.c1)) →
    (∃ x ∈ countries, x.c0 = a ∧ x.c1 = b ∧ bisect a b fuel l r = some x) ∨ ((∀ x ∈ countries, ¬ (x.c0 = a ∧ x.c1 = b)) ∧ bisect a b fuel l r = none) := by
  have absent : ∀ l r : Nat, l ≥ r → (∀ i x, countries[i]? = some x → i < l → x.c0 < a ∨ (x.c0 = a ∧ x.c1 < b)) →
      (∀ i x, countries[i]? = some x → r ≤ i → a < x.c0 ∨ (a = x.c0 ∧ b < x.c1)) → ∀ x ∈ countries, ¬ (x.c0 = a ∧ x.c1 = b) := by
    intro l r c hl hr x hx q
    obtain ⟨i, hi⟩ := List.getElem?_of_mem hx
    by_cases c2 : i < l
    · have := hl i x hi c2; omega
    · have := hr i x hi (by omega); omega
  intro fuel
  induction fuel with
  | zero => intro l r _ hf hl hr; exact .inr ⟨absent l r (by omega) hl hr, rfl⟩
  | succ fuel ih =>
    intro l r h106 hf hl hr
    rw [bisect]
    by_cases c : l ≥ r
    · rw [if_pos c]; exact .inr ⟨absent l r c hl hr, rfl⟩
    · rw [if_neg c]
      have hm : (l + r) / 2 < countries.length := by rw [countries_count]; omega
      have hx := List.getElem?_eq_getElem hm
      rw [hx]
      generalize countries[(l + r) / 2] = x at hx
      dsimp only
      by_cases c1 : x.c0 < a ∨ (x.c0 = a ∧ x.c1 < b)
      · rw [if_pos c1]
        refine ih _ _ h106 (by omega) ?_ hr
        intro i y hy hi
        by_cases e : i = (l + r) / 2
        · rw [e, hx] at hy; cases hy; exact c1
        · have := countries_lt (show i < (l + r) / 2 by omega) hy hx; omega
      · rw [if_neg c1]
        by_cases c2 : a < x.c0 ∨ (a = x.c0 ∧ b < x.c1)
        · rw [if_pos c2]
          refine ih _ _ (by omega) (by omega) hl ?_
          intro i y hy hi
          by_cases e : i = (l + r) / 2
          · rw [e, hx] at hy; cases hy; exact c2
          · have := countries_lt (show (l + r) / 2 < i by omega) hx hy; omega
        · rw [if_neg c2]
          exact .inl ⟨x, List.mem_of_getElem? hx, by omega, by omega, rfl⟩

theorem country_unique {x y : Country} (hx : x ∈ countries) (hy : y ∈ countries) (h0 : x.c0 = y.c0) (h1 : x.c1 = y.c1) : x = y := by
  obtain ⟨i, hi⟩ := List.getElem?_of_mem hx
  obtain ⟨j, hj⟩ := List.getElem?_of_mem hy
  rcases Nat.lt_trichotomy i j with q | q | q
  · have := countries_lt q hi hj; omega
  · subst q; rw [hi] at hj; cases hj; rfl
  · have := countries_lt q hj hi; omega

/-- Decimal digits. -/
def Dec (c : Int) : Prop := 48 ≤ c ∧ c ≤ 57

/-- The number of a string of digits behind the number `n`. -/
def num (l : List Int) (n : Nat) : Nat := l.foldl (fun n c => n * 10 + (c - 48).toNat) n

theorem digitIn_dec {c : Int} (h : Dec c) : digitIn 10 c = some (c - 48).toNat := by
  obtain ⟨k, rfl⟩ : ∃ k : Fin 10, c = (k.val : Int) + 48 := ⟨⟨(c - 48).toNat, by unfold Dec at h; omega⟩, by unfold Dec at h; simp only; omega⟩
  clear h
  revert k
  decide

theorem number_dec : ∀ {l : List Int}, (∀ c ∈ l, Dec c) → ∀ n, l.foldl (fun n c => n * 10 + (digitIn 10 c).getD 0) n = num l n := by
  intro l
  induction l with
  | nil => intro _ n; rfl
  | cons c l ih =>
    intro h n
    unfold num
    rw [List.foldl_cons, List.foldl_cons, ih fun x hx => h x (List.mem_cons_of_mem _ hx), digitIn_dec (h c List.mem_cons_self)]
    rfl

theorem readSpec_dec {l : List Int} (h : ∀ c ∈ l, Dec c) : (readSpec 10 l).neg = false ∧ (readSpec 10 l).value = num l 0 ∧ (readSpec 10 l).rest = [] := by
  have hd : l.dropWhile isspace = l := by
    cases l with
    | nil => rfl
    | cons c r =>
      have := h c List.mem_cons_self
      unfold Dec at this
      rw [List.dropWhile_cons_of_neg]
      unfold isspace; simp; omega
  have hs : signSpec l = (false, l) := by
    cases l with
    | nil => rfl
    | cons c r =>
      have := h c List.mem_cons_self
      unfold Dec at this
      show (if c = 45 then (true, r) else if c = 43 then (false, r) else (false, c :: r)) = _
      rw [if_neg (by omega), if_neg (by omega)]
  have hp : prefixSpec 10 l = (10, l) := by
    unfold prefixSpec
    split
    · rw [if_neg (by omega), if_neg (by omega)]
    · rw [if_neg (by omega)]
    · rw [if_neg (by omega)]
  have hall : ∀ c ∈ l, (digitIn 10 c).isSome = true := fun c hc => by rw [digitIn_dec (h c hc)]; rfl
  have tw : l.takeWhile (fun x => (digitIn 10 x).isSome) = l := by
    have := List.takeWhile_append_of_pos (p := fun x => (digitIn 10 x).isSome) (l₁ := l) (l₂ := []) hall
    simpa using this
  have dw : l.dropWhile (fun x => (digitIn 10 x).isSome) = [] := by
    have := List.dropWhile_append_of_pos (p := fun x => (digitIn 10 x).isSome) (l₁ := l) (l₂ := []) hall
    simpa using this
  unfold readSpec
  dsimp only
  rw [hd, hs]
  dsimp only
  rw [hp]
  dsimp only
  rw [tw, dw]
  exact ⟨rfl, number_dec h 0, rfl⟩

theorem num_lt : ∀ {l : List Int}, (∀ c ∈ l, Dec c) → ∀ {n k : Nat}, n < 10 ^ k → num l n < 10 ^ (k + l.length) := by
  intro l
  induction l with
  | nil => intro _ n k h; exact h
  | cons c l ih =>
    intro h n k hn
    have hc := h c List.mem_cons_self
    unfold Dec at hc
    have : n * 10 + (c - 48).toNat < 10 ^ (k + 1) := by rw [Nat.pow_succ]; omega
    have := ih (fun x hx => h x (List.mem_cons_of_mem _ hx)) this
    rw [List.length_cons, show k + (l.length + 1) = k + 1 + l.length by omega]
    exact this

theorem num_append (a b : List Int) (n : Nat) : num (a ++ b) n = num b (num a n) := by unfold num; rw [List.foldl_append]

theorem num_take_succ {l : List Int} {k : Nat} (h : k < l.length) : num (l.take (k + 1)) 0 = num (l.take k) 0 * 10 + (l[k] - 48).toNat := by
  rw [List.take_succ_eq_append_getElem h, num_append]; rfl

theorem foldDigits_spec {ds : List Int} (hd : ∀ c ∈ ds, Dec c) : ∀ (fuel nom next count : Nat), next ≤ ds.length → count ≤ 9 → 9 < fuel + count → nom < 10 ^ count →
    nom % 97 = num (ds.take next) 0 % 97 → ∃ nom' next', foldDigits (ds ++ [0]) fuel nom next count = some (nom', next') ∧ nom' % 97 = num (ds.take next') 0 % 97 ∧
      next ≤ next' ∧ next' ≤ ds.length ∧ (next < ds.length → count < 9 → next < next') := by
  intro fuel
  induction fuel with
  | zero => intro nom next count _ h1 h2; omega
  | succ fuel ih =>
    intro nom next count h1 h2 h3 h4 h5
    rw [foldDigits]
    by_cases c : count < 9
    · rw [if_pos c]
      by_cases e : next < ds.length
      · have hr : rd (ds ++ [0]) next = some ds[next] := by
          unfold rd; rw [List.getElem?_append_left e, List.getElem?_eq_getElem e]
        have hx := hd _ (List.getElem_mem e)
        rw [hr]
        dsimp only
        unfold Dec at hx
        rw [if_neg (by omega)]
        have p9 : (10 : Nat) ^ (count + 1) ≤ 10 ^ 9 := Nat.pow_le_pow_right (by omega) (by omega)
        have p1 : (10 : Nat) ^ (count + 1) = 10 ^ count * 10 := Nat.pow_succ ..
        have hsmall : nom * 10 + (ds[next] - 48).toNat < 10 ^ (count + 1) := by omega
        have p32 : (10 : Nat) ^ 9 < 2 ^ 32 := by decide
        rw [Nat.mod_eq_of_lt (by omega)]
        obtain ⟨nom', next', a1, a2, a3, a4, a5⟩ := ih (nom * 10 + (ds[next] - 48).toNat) (next + 1) (count + 1) e (by omega) (by omega) hsmall (by
          rw [num_take_succ e]; omega)
        exact ⟨nom', next', a1, a2, by omega, a4, fun _ _ => by omega⟩
      · have hr : rd (ds ++ [0]) next = some 0 := by
          unfold rd; rw [List.getElem?_append_right (by omega), show next - ds.length = 0 by omega]; rfl
        rw [hr]
        exact ⟨nom, next, rfl, h5, Nat.le_refl _, h1, fun q => absurd q e⟩
    · rw [if_neg c]
      exact ⟨nom, next, rfl, h5, Nat.le_refl _, h1, fun _ q => absurd q c⟩

theorem modLoop_spec {ds : List Int} (hd : ∀ c ∈ ds, Dec c) : ∀ (fuel nom next : Nat), next ≤ ds.length → ds.length < fuel + next → nom % 97 = num (ds.take next) 0 % 97 →
    modLoop (ds ++ [0]) fuel nom next = some (decide (num ds 0 % 97 = 1)) := by
  intro fuel
  induction fuel with
  | zero => intro nom next h1 h2; omega
  | succ fuel ih =>
    intro nom next h1 h2 h3
    rw [modLoop]
    by_cases e : next < ds.length
    · have hr : rd (ds ++ [0]) next = some ds[next] := by
        unfold rd; rw [List.getElem?_append_left e, List.getElem?_eq_getElem e]
      have hx := hd _ (List.getElem_mem e)
      unfold Dec at hx
      rw [hr]
      dsimp only
      rw [if_neg (by omega)]
      obtain ⟨nom', next', a1, a2, a3, a4, a5⟩ := foldDigits_spec hd 10 (nom % 97) next (if nom % 97 = 0 then 0 else if nom % 97 < 10 then 1 else 2) h1
        (by split; omega; split <;> omega) (by omega) (by
          split
          · omega
          · split
            · omega
            · have := Nat.mod_lt nom (show 0 < 97 by omega); omega) (by rw [Nat.mod_mod]; exact h3)
      rw [a1]
      dsimp only
      have := a5 e (by split; omega; split <;> omega)
      exact ih nom' next' a4 (by omega) a2
    · have hr : rd (ds ++ [0]) next = some 0 := by
        unfold rd; rw [List.getElem?_append_right (by omega), show next - ds.length = 0 by omega]; rfl
      rw [hr]
      dsimp only
      rw [if_pos rfl, h3, List.take_of_length_le (by omega)]

/-- The remainder is that of the number that the digits form. -/
theorem mod97_spec {ds : List Int} (hd : ∀ c ∈ ds, Dec c) (h9 : 9 ≤ ds.length) : mod97 (ds ++ [0]) = some (decide (num ds 0 % 97 = 1)) := by
  have ht : text (ds ++ [0]) (some 9) = ds.take 9 := by
    unfold text
    dsimp only
    rw [List.take_append_of_le_length h9]
    have := List.takeWhile_append_of_pos (p := fun c : Int => decide (c ≠ 0)) (l₁ := ds.take 9) (l₂ := []) (fun c hc => by
      have := hd c (List.mem_of_mem_take hc)
      unfold Dec at this
      simp; omega)
    simpa using this
  have hd9 : ∀ c ∈ ds.take 9, Dec c := fun c hc => hd c (List.mem_of_mem_take hc)
  have ⟨r1, r2, r3⟩ := readSpec_dec hd9
  have hv : Valid (ds ++ [0]) (some 9) := .inl (by simp)
  have e := strtouint_partial (w := 32) (radix := 10) hv (.inr (by omega)) (by rw [ht]; exact r1)
  rw [ht, r2, r3, List.length_nil, List.length_take, Nat.min_eq_left h9] at e
  have hl := num_lt hd9 (n := 0) (k := 0) (by omega)
  rw [List.length_take, Nat.min_eq_left h9] at hl
  have p32 : (10 : Nat) ^ (0 + 9) < 2 ^ 32 - 1 := by decide
  rw [Nat.min_eq_left (by omega)] at e
  unfold mod97
  rw [e]
  dsimp only
  refine modLoop_spec hd _ _ _ h9 ?_ rfl
  rw [List.length_append, List.length_singleton]; omega

theorem normChar_dec {c : Int} : ∀ x ∈ normChar c, Dec x := by
  intro x hx
  unfold normChar at hx
  unfold Dec
  split at hx
  · simp at hx; omega
  · split at hx
    · simp at hx; omega
    · split at hx
      · simp at hx; omega
      · split at hx
        · simp at hx; omega
        · cases hx

theorem normChar_iso {c : Int} (h : Alnum c) (n : Nat) : num (normChar c) n = isoNumber [c] n := by
  unfold Alnum at h
  have e : isoNumber [c] n = if 65 ≤ c then n * 100 + (c - 55).toNat else n * 10 + (c - 48).toNat := rfl
  rw [e]
  unfold normChar
  by_cases c1 : 48 ≤ c ∧ c ≤ 57
  · rw [if_pos c1, if_neg (show ¬ 65 ≤ c by omega)]; rfl
  · rw [if_neg c1, if_pos (show 65 ≤ c by omega)]
    by_cases c2 : 65 ≤ c ∧ c ≤ 74
    · rw [if_pos c2]; simp only [num, List.foldl]; omega
    · rw [if_neg c2]
      by_cases c3 : 75 ≤ c ∧ c ≤ 84
      · rw [if_pos c3]; simp only [num, List.foldl]; omega
      · rw [if_neg c3, if_pos (by omega)]; simp only [num, List.foldl]; omega

theorem isoNumber_cons (c : Int) (w : List Int) (n : Nat) : isoNumber (c :: w) n = isoNumber w (isoNumber [c] n) := by
  rw [isoNumber, isoNumber]
  by_cases h : 65 ≤ c
  · rw [if_pos h, if_pos h]; rfl
  · rw [if_neg h, if_neg h]; rfl

theorem norm_iso : ∀ {w : List Int}, (∀ c ∈ w, Alnum c) → ∀ n, num (w.flatMap normChar) n = isoNumber w n := by
  intro w
  induction w with
  | nil => intro _ n; rfl
  | cons c w ih =>
    intro h n
    rw [List.flatMap_cons, num_append, ih (fun x hx => h x (List.mem_cons_of_mem _ hx)), normChar_iso (h c List.mem_cons_self), isoNumber_cons c w]

theorem isoNumber_append (a b : List Int) (n : Nat) : isoNumber (a ++ b) n = isoNumber b (isoNumber a n) := by
  induction a generalizing n with
  | nil => rfl
  | cons c a ih => rw [List.cons_append, isoNumber_cons, ih, ← isoNumber_cons]

theorem normChar_length {c : Int} (h : Alnum c) : (normChar c).length = if 65 ≤ c then 2 else 1 := by
  unfold Alnum at h
  unfold normChar
  by_cases c1 : 48 ≤ c ∧ c ≤ 57
  · rw [if_pos c1, if_neg (by omega)]; rfl
  · rw [if_neg c1, if_pos (show 65 ≤ c by omega)]
    by_cases c2 : 65 ≤ c ∧ c ≤ 74
    · rw [if_pos c2]; rfl
    · rw [if_neg c2]
      by_cases c3 : 75 ≤ c ∧ c ≤ 84
      · rw [if_pos c3]; rfl
      · rw [if_neg c3, if_pos (by omega)]; rfl

/-- The number of letters. -/
def letters (w : List Int) : Nat := w.countP fun c => decide (65 ≤ c)

theorem norm_length : ∀ {w : List Int}, (∀ c ∈ w, Alnum c) → (w.flatMap normChar).length = w.length + letters w := by
  intro w
  induction w with
  | nil => intro _; rfl
  | cons c w ih =>
    intro h
    rw [List.flatMap_cons, List.length_append, ih (fun x hx => h x (List.mem_cons_of_mem _ hx)), normChar_length (h c List.mem_cons_self)]
    unfold letters
    rw [List.countP_cons, List.length_cons]
    by_cases q : 65 ≤ c
    · rw [if_pos q, if_pos (by simpa using q)]; omega
    · rw [if_neg q, if_neg (by simpa using q)]; omega

/-- The check as ISO 7064 prescribes, if the array is long enough. -/
theorem isValid_spec {cap : Nat} {w u tail : List Int} (hw : ∀ c ∈ w, Alnum c) (hu : ∀ c ∈ u, Alnum c) (ht : tail = u.flatMap normChar)
    (h9 : 9 ≤ w.length + u.length) (hc : w.length + letters w + tail.length < cap) : isValid cap w tail = some (decide (isoNumber (w ++ u) 0 % 97 = 1)) := by
  unfold isValid
  rw [if_pos (by rw [List.length_append, norm_length hw]; exact hc)]
  have e : w.flatMap normChar ++ tail = (w ++ u).flatMap normChar := by rw [ht, List.flatMap_append]
  have hwu : ∀ c ∈ w ++ u, Alnum c := fun c q => (List.mem_append.1 q).elim (hw c) (hu c)
  rw [e, mod97_spec]
  · rw [norm_iso hwu]
  · intro c hc
    obtain ⟨x, _, hx⟩ := List.mem_flatMap.1 hc
    exact normChar_dec c hx
  · rw [norm_length hwu, List.length_append]; omega

theorem spaced_alnum {t : List Int} {up : Int → Int} {space : Sub} {i j : Nat} {w : List Int} (h : Spaced t up space i w j) : ∀ c ∈ w, Alnum c := by
  induction h with
  | nil => intro c q; cases q
  | blank _ _ _ ih => exact ih
  | char _ _ h3 _ ih => intro c q; rcases List.mem_cons.1 q with rfl | q; exact h3; exact ih c q

theorem bbanLoop_spec {v : Env} {t : List Int} (h : v.Ok t) (upper : Int → Int) {space : Sub} (hs : Takes t.length space) {cap len : Nat} (hc : len < cap) :
    ∀ (fuel e : Nat) (w : List Int), e ≤ t.length → t.length < fuel + e → w.length ≤ len →
      (∃ w' j, Spaced t (upCase v upper) space e w' j ∧ w.length + w'.length = len ∧ bbanLoop v upper space cap len fuel e w = some (some (j, w ++ w'))) ∨
      ((∀ w' j, Spaced t (upCase v upper) space e w' j → w.length + w'.length ≠ len) ∧ bbanLoop v upper space cap len fuel e w = some none) := by
  intro fuel
  induction fuel with
  | zero => intro e w h1 h2; omega
  | succ fuel ih =>
    intro e w h1 h2 h3
    rw [bbanLoop]
    by_cases c : w.length < len
    · rw [if_pos c, cond_eq h.valid (by rw [← h.text]; exact h1), ← h.text]
      cases ht : t[e]? with
      | none =>
        refine .inr ⟨fun w' j q => ?_, rfl⟩
        have := List.getElem?_eq_none_iff.1 ht
        cases q with
        | nil => simp; omega
        | blank g => omega
        | char g => rw [ht] at g; cases g
      | some x =>
        have hlt := (List.getElem?_eq_some_iff.1 ht).1
        dsimp only
        cases hsp : space e with
        | some e' =>
          have ⟨k1, k2⟩ := hs e h1 e' hsp
          rcases ih e' w k2 (by omega) h3 with ⟨w', j, a1, a2, a3⟩ | ⟨a1, a2⟩
          · refine .inl ⟨w', j, ?_, a2, a3⟩
            cases w' with
            | nil => simp at a2; omega
            | cons y w' => exact .blank hlt hsp a1
          · refine .inr ⟨fun w' j q => ?_, a2⟩
            cases q with
            | nil => simp; omega
            | blank _ g2 g3 => rw [hsp] at g2; cases g2; exact a1 _ _ g3
            | char _ g2 => rw [hsp] at g2; cases g2
        | none =>
          dsimp only
          by_cases ca : (48 ≤ upCase v upper x ∧ upCase v upper x ≤ 57) ∨ (65 ≤ upCase v upper x ∧ upCase v upper x ≤ 90)
          · rw [if_pos ca, if_pos (by omega)]
            rcases ih (e + 1) (w ++ [upCase v upper x]) hlt (by omega) (by rw [List.length_append, List.length_singleton]; omega) with ⟨w', j, a1, a2, a3⟩ | ⟨a1, a2⟩
            · rw [List.length_append, List.length_singleton] at a2
              refine .inl ⟨upCase v upper x :: w', j, .char ht hsp ca a1, by rw [List.length_cons]; omega, ?_⟩
              rw [a3, List.append_assoc]; rfl
            · refine .inr ⟨fun w' j q => ?_, a2⟩
              cases q with
              | nil => simp; omega
              | blank _ g2 => rw [hsp] at g2; cases g2
              | char g1 g2 g3 g4 =>
                rw [ht] at g1; cases g1
                have := a1 _ _ g4
                rw [List.length_append, List.length_singleton] at this
                rw [List.length_cons]; omega
          · rw [if_neg ca]
            refine .inr ⟨fun w' j q => ?_, rfl⟩
            cases q with
            | nil => simp; omega
            | blank _ g2 => rw [hsp] at g2; cases g2
            | char g1 g2 g3 g4 => rw [ht] at g1; cases g1; exact absurd g3 ca
    · rw [if_neg c, if_pos (by omega)]
      refine .inl ⟨[], e, .nil _, by simp; omega, by simp⟩

theorem letterAt_spec {v : Env} {t : List Int} (h : v.Ok t) (upper : Int → Int) {i : Nat} (hi : i ≤ t.length) :
    (∃ c, t[i]? = some c ∧ 65 ≤ upCase v upper c ∧ upCase v upper c ≤ 90 ∧ letterAt v upper i = some (some (upCase v upper c))) ∨
    ((∀ c, t[i]? = some c → ¬ (65 ≤ upCase v upper c ∧ upCase v upper c ≤ 90)) ∧ letterAt v upper i = some none) := by
  unfold letterAt
  rw [cond_eq h.valid (by rw [← h.text]; exact hi), ← h.text]
  cases ht : t[i]? with
  | none => exact .inr ⟨(fun c q => nomatch q), rfl⟩
  | some c =>
    dsimp only
    by_cases q : upCase v upper c < 65 ∨ 90 < upCase v upper c
    · rw [if_pos q]; exact .inr ⟨fun c' e => by cases e; omega, rfl⟩
    · rw [if_neg q]; exact .inl ⟨c, rfl, by omega, by omega, rfl⟩

theorem checkAt_spec {v : Env} {t : List Int} (h : v.Ok t) {i : Nat} (hi : i ≤ t.length) :
    (∃ c, t[i]? = some c ∧ 48 ≤ c ∧ c ≤ 57 ∧ checkAt v i = some (some c)) ∨ ((∀ c, t[i]? = some c → ¬ (48 ≤ c ∧ c ≤ 57)) ∧ checkAt v i = some none) := by
  unfold checkAt
  rw [cond_eq h.valid (by rw [← h.text]; exact hi), ← h.text]
  cases ht : t[i]? with
  | none => exact .inr ⟨(fun c q => nomatch q), rfl⟩
  | some c =>
    dsimp only
    by_cases q : c < 48 ∨ 57 < c
    · rw [if_pos q]; exact .inr ⟨fun c' e => by cases e; omega, rfl⟩
    · rw [if_neg q]; exact .inl ⟨c, rfl, by omega, by omega, rfl⟩

theorem countries_letters : ∀ row ∈ countries, 65 ≤ row.c0 ∧ row.c0 ≤ 90 ∧ 65 ≤ row.c1 ∧ row.c1 ≤ 90 := by decide +kernel
theorem countries_min : ∀ row ∈ countries, 15 ≤ row.length := by decide +kernel

theorem normLetter_eq {c : Int} (h : 65 ≤ c) : normLetter c = normChar c := by
  unfold normLetter normChar
  rw [if_neg (show ¬ (48 ≤ c ∧ c ≤ 57) by omega)]

theorem normDigit_eq {c : Int} (h : 48 ≤ c ∧ c ≤ 57) : [c] = normChar c := by
  unfold normChar; rw [if_pos h]

theorem lt_of_get {t : List Int} {i : Nat} {c : Int} (h : t[i]? = some c) : i < t.length := (List.getElem?_eq_some_iff.1 h).1

/-- The IBAN is there, or it is not; the array `bban` is never overrun. -/
theorem ibanRun_spec {v : Env} {t : List Int} (h : v.Ok t) (upper : Int → Int) {space : Sub} (hs : Takes t.length space) {i : Nat} (hi : i ≤ t.length) :
    (∃ a b d0 d1 w j, IbanAt t (upCase v upper) space i a b d0 d1 w j ∧
      ibanRun v upper space i = some (some ⟨[a, b], [d0, d1], w, decide (isoNumber (w ++ [a, b, d0, d1]) 0 % 97 = 1), some (i, j)⟩)) ∨
    ((∀ a b d0 d1 w j, ¬ IbanAt t (upCase v upper) space i a b d0 d1 w j) ∧ ibanRun v upper space i = some none) := by
  unfold ibanRun
  rcases letterAt_spec h upper hi with ⟨x0, p1, p2, p3, p4⟩ | ⟨p1, p2⟩
  rotate_left
  · rw [p2]
    refine .inr ⟨fun a b d0 d1 w j q => ?_, rfl⟩
    obtain ⟨c, q1, q2⟩ := q.letter0
    obtain ⟨row, r1, r2, _⟩ := q.country
    have := countries_letters row r1
    exact p1 c q1 (by rw [q2]; omega)
  rw [p4]; dsimp only [andThen]
  rcases letterAt_spec h upper (lt_of_get p1) with ⟨x1, s1, s2, s3, s4⟩ | ⟨s1, s2⟩
  rotate_left
  · rw [s2]
    refine .inr ⟨fun a b d0 d1 w j q => ?_, rfl⟩
    obtain ⟨c, q1, q2⟩ := q.letter1
    obtain ⟨row, r1, _, r2, _⟩ := q.country
    have := countries_letters row r1
    exact s1 c q1 (by rw [q2]; omega)
  rw [s4]; dsimp only [andThen]
  rcases bisect_spec (upCase v upper x0) (upCase v upper x1) (countries.length + 1) 0 countries.length (by rw [countries_count]; omega) (by omega) (fun _ _ _ q => absurd q (by omega))
    (fun i x q1 q2 => absurd (List.getElem?_eq_some_iff.1 q1).1 (by omega)) with ⟨row, b1, b2, b3, b4⟩ | ⟨b1, b2⟩
  rotate_left
  · rw [b2]
    refine .inr ⟨fun a b d0 d1 w j q => ?_, rfl⟩
    obtain ⟨c, q1, q2⟩ := q.letter0
    obtain ⟨c', q1', q2'⟩ := q.letter1
    obtain ⟨row, r1, r2, r3, _⟩ := q.country
    rw [p1] at q1; cases q1
    rw [s1] at q1'; cases q1'
    exact b1 row r1 ⟨by rw [r2, q2], by rw [r3, q2']⟩
  rw [b4]; dsimp only
  have theRow : ∀ {a b d0 d1 w j}, IbanAt t (upCase v upper) space i a b d0 d1 w j → a = upCase v upper x0 ∧ b = upCase v upper x1 ∧
      (row.d0 ≠ 0 → row.d0 = d0) ∧ (row.d1 ≠ 0 → row.d1 = d1) ∧ w.length + 4 = row.length := by
    intro a b d0 d1 w j q
    obtain ⟨c, q1, q2⟩ := q.letter0
    obtain ⟨c', q1', q2'⟩ := q.letter1
    obtain ⟨row', r1, r2, r3, r4⟩ := q.country
    rw [p1] at q1; cases q1
    rw [s1] at q1'; cases q1'
    have := country_unique r1 b1 (by rw [r2, b2, q2]) (by rw [r3, b3, q2'])
    rw [this] at r4
    exact ⟨q2.symm, q2'.symm, r4⟩
  rcases checkAt_spec h (lt_of_get s1) with ⟨d0, e1, e2, e3, e4⟩ | ⟨e1, e2⟩
  rotate_left
  · rw [e2]
    refine .inr ⟨fun a b d0 d1 w j q => e1 _ q.digit0.1 q.digit0.2, rfl⟩
  rw [e4]; dsimp only [andThen]
  rcases checkAt_spec h (lt_of_get e1) with ⟨d1, f1, f2, f3, f4⟩ | ⟨f1, f2⟩
  rotate_left
  · rw [f2]
    refine .inr ⟨fun a b d0 d1 w j q => f1 _ q.digit1.1 q.digit1.2, rfl⟩
  rw [f4]; dsimp only [andThen]
  by_cases cd : (row.d0 ≠ 0 ∧ d0 ≠ row.d0) ∨ (row.d1 ≠ 0 ∧ d1 ≠ row.d1)
  · rw [if_pos cd]
    refine .inr ⟨fun a b d0' d1' w j q => ?_, rfl⟩
    have g0 := q.digit0.1
    have g1 := q.digit1.1
    rw [e1] at g0; cases g0
    rw [f1] at g1; cases g1
    obtain ⟨_, _, k1, k2, _⟩ := theRow q
    rcases cd with ⟨n1, n2⟩ | ⟨n1, n2⟩
    · exact n2 (k1 n1).symm
    · exact n2 (k2 n1).symm
  rw [if_neg cd]
  unfold ibanTail
  have hl := countries_length row b1
  have hm := countries_min row b1
  rcases bbanLoop_spec h upper hs (cap := 31) (len := row.length - 4) (by omega) (v.s.length + 2) (i + 4) [] (lt_of_get f1) (by
      have : t.length ≤ v.s.length := by rw [h.text]; exact text_length_le _ _
      omega) (Nat.zero_le _) with ⟨w, j, a1, a2, a3⟩ | ⟨a1, a2⟩
  · rw [a3]; dsimp only [andThen]
    rw [List.length_nil] at a2
    rw [List.nil_append]
    have hw := spaced_alnum a1
    have hu : ∀ c ∈ [upCase v upper x0, upCase v upper x1, d0, d1], Alnum c := by
      intro c hc
      simp only [List.mem_cons, List.not_mem_nil, or_false] at hc
      unfold Alnum
      rcases hc with rfl | rfl | rfl | rfl <;> omega
    have ht : normLetter (upCase v upper x0) ++ normLetter (upCase v upper x1) ++ [d0, d1] = [upCase v upper x0, upCase v upper x1, d0, d1].flatMap normChar := by
      rw [normLetter_eq p2, normLetter_eq s2]
      simp only [List.flatMap_cons, List.flatMap_nil, List.append_nil]
      rw [← normDigit_eq ⟨e2, e3⟩, ← normDigit_eq ⟨f2, f3⟩, List.append_assoc]
      rfl
    have hlet : letters w ≤ w.length := List.countP_le_length
    rw [isValid_spec hw hu ht (by simp; omega) (by
      rw [ht, norm_length hu]
      have : letters [upCase v upper x0, upCase v upper x1, d0, d1] ≤ 4 := List.countP_le_length
      simp only [List.length_cons, List.length_nil]; omega)]
    exact .inl ⟨_, _, d0, d1, w, j, ⟨⟨row, b1, b2, b3, by omega, by omega, by omega⟩, ⟨x0, p1, rfl⟩, ⟨x1, s1, rfl⟩, ⟨e1, e2, e3⟩, ⟨f1, f2, f3⟩, a1⟩, rfl⟩
  · rw [a2]
    refine .inr ⟨fun a b d0' d1' w j q => ?_, rfl⟩
    have := a1 w j q.rest
    obtain ⟨_, _, _, _, k⟩ := theRow q
    rw [List.length_nil] at this
    omega

theorem iban_unique {t : List Int} {up : Int → Int} {space : Sub} {i j j' : Nat} {a b d0 d1 a' b' d0' d1' : Int} {w w' : List Int} (h : IbanAt t up space i a b d0 d1 w j)
    (h' : IbanAt t up space i a' b' d0' d1' w' j') : a = a' ∧ b = b' ∧ d0 = d0' ∧ d1 = d1' ∧ w = w' ∧ j = j' := by
  obtain ⟨c, q1, q2⟩ := h.letter0
  obtain ⟨c1, r1, r2⟩ := h.letter1
  obtain ⟨c', q1', q2'⟩ := h'.letter0
  obtain ⟨c1', r1', r2'⟩ := h'.letter1
  rw [q1] at q1'; cases q1'
  rw [r1] at r1'; cases r1'
  have e0 := h.digit0.1
  have e1 := h.digit1.1
  rw [h'.digit0.1] at e0; cases e0
  rw [h'.digit1.1] at e1; cases e1
  obtain ⟨row, m1, m2, m3, _, _, m4⟩ := h.country
  obtain ⟨row', n1, n2, n3, _, _, n4⟩ := h'.country
  have := country_unique m1 n1 (by rw [m2, n2, ← q2, ← q2']) (by rw [m3, n3, ← r2, ← r2'])
  subst this
  have ⟨x, y⟩ := spaced_unique h.rest h'.rest (by omega)
  exact ⟨by rw [← q2, ← q2'], by rw [← r2, ← r2'], rfl, rfl, x, y⟩

/-- **C77** (IBAN) A match is an IBAN of a known country, with the digits and the length that the country requires; its parts are stored without blanks, and `is_valid`
tells whether the number that ISO 7064 forms from it leaves the remainder 1. Otherwise nothing matches and everything is cleared. -/
theorem iban_spec {v : Env} {t : List Int} (h : v.Ok t) (upper : Int → Int) {space : Sub} (hs : Takes t.length space) {i : Nat} (hi : i ≤ t.length) (old : Iban) :
    (∀ a b d0 d1 w j, IbanAt t (upCase v upper) space i a b d0 d1 w j →
      iban v upper space i old = some (true, ⟨[a, b], [d0, d1], w, decide (isoNumber (w ++ [a, b, d0, d1]) 0 % 97 = 1), some (i, j)⟩)) ∧
    ((∀ a b d0 d1 w j, ¬ IbanAt t (upCase v upper) space i a b d0 d1 w j) → iban v upper space i old = some (false, ⟨[], [], [], false, none⟩)) := by
  unfold iban
  rcases ibanRun_spec h upper hs hi with ⟨a, b, d0, d1, w, j, p, q⟩ | ⟨p, q⟩
  · rw [q]
    refine ⟨fun a' b' d0' d1' w' j' p' => ?_, fun n => absurd p (n _ _ _ _ _ _)⟩
    obtain ⟨rfl, rfl, rfl, rfl, rfl, rfl⟩ := iban_unique p p'
    rfl
  · rw [q]
    exact ⟨fun a b d0 d1 w j p' => absurd p' (p _ _ _ _ _ _), fun _ => rfl⟩

/-! ### Creditor reference 4924-5055 -/

/-- How the inner loop 4980-4992 ends: `goto out`, `goto error`, or after four characters; with `interval.end` and the characters stored so far. -/
inductive GroupEnd
  | out (e : Nat) (w : List Int)
  | error
  | more (e : Nat) (w : List Int)
deriving DecidableEq

/-- The inner loop 4980-4992 with `k` rounds left; `cap` is `_countof(reference) - 1`. -/
def refGroup (v : Env) (upper : Int → Int) (cap : Nat) : Nat → Nat → List Int → Option GroupEnd
  | 0, e, w => some (.more e w)
  | k + 1, e, w =>
    match Str.cond v.s v.fin e with
    | none => none
    | some none => some (.out e w)
    | some (some c) =>
      if (48 ≤ upCase v upper c ∧ upCase v upper c ≤ 57) ∨ (65 ≤ upCase v upper c ∧ upCase v upper c ≤ 90) then
        if w.length ≥ cap then some .error else refGroup v upper cap k (e + 1) (w ++ [upCase v upper c])
      else some (.out e w)

/-- The loop 4977-4993: `interval.end` and the characters; the inner `none` is `goto error`. -/
def refLoop (v : Env) (upper : Int → Int) (space : Sub) (cap : Nat) : Nat → Nat → List Int → Option (Option (Nat × List Int))
  | 0, _, _ => none
  | fuel + 1, e, w =>
    match refGroup v upper cap 4 ((space e).getD e) w with
    | none => none
    | some (.out e' w') => some (some (e', w'))
    | some .error => some none
    | some (.more e' w') => refLoop v upper space cap fuel e' w'

/-- 4997-5001 on the array of 22 elements that starts with the `n` characters read. -/
def refAlign (arr : List Int) (n : Nat) : List Int :=
  let (b, _) := alignMove 0 n 21 (arr.set 21 0)
  alignFill 0 48 (21 - n) b

/-- A letter of the identifier 4965-4966. -/
def idAt (v : Env) (upper : Int → Int) (e : Nat) (x : Int) : Option Bool := (rd v.s e).map fun c => decide (upCase v upper c = x)

/-- `check_digits`, `reference` (up to the terminator), `is_valid`, `interval`. -/
structure Creditor where
  check : List Int
  reference : List Int
  valid : Bool
  interval : Option (Nat × Nat)
deriving DecidableEq

/-- 4970-5047 -/
def creditorTail (v : Env) (upper : Int → Int) (space : Sub) (i : Nat) (old : List Int) : Option (Option Creditor) :=
  andThen (checkAt v (i + 2)) fun d0 =>
  andThen (checkAt v (i + 3)) fun d1 =>
  andThen (refLoop v upper space 21 (v.s.length + 2) (i + 4) []) fun (e, w) =>
    if w.length = 0 then some none
    else
      let ref := (refAlign (w ++ old.drop w.length) w.length).takeWhile fun c => decide (c ≠ 0)
      match isValid 47 ref [50, 55, 49, 53, d0, d1] with
      | none => none
      | some ok => some (some ⟨[d0, d1], ref, ok, some (i, e)⟩)

/-- 4963-5047 -/
def creditorRun (v : Env) (upper : Int → Int) (space : Sub) (i : Nat) (old : List Int) : Option (Option Creditor) :=
  if below v.fin (i + 1) then
    match idAt v upper i 82 with
    | none => none
    | some false => some none
    | some true =>
      match idAt v upper (i + 1) 70 with
      | none => none
      | some false => some none
      | some true => creditorTail v upper space i old
  else some none

/-- `basic_creditor_reference::do_match` 4957-5051; `old` is the array `reference` before. -/
def creditor (v : Env) (upper : Int → Int) (space : Sub) (i : Nat) (old : List Int) : Option (Bool × Creditor) :=
  match creditorRun v upper space i old with
  | none => none
  | some none => some (false, ⟨[], [], false, none⟩)
  | some (some x) => some (true, x)

/-! #### Specification -/

/-- The characters `w` are written from `k`. -/
def Run (t : List Int) (up : Int → Int) (k : Nat) (w : List Int) : Prop := ∀ m x, w[m]? = some x → ∃ c, t[k + m]? = some c ∧ up c = x ∧ Alnum x

/-- No letter or digit is at `k`. -/
def NoChar (t : List Int) (up : Int → Int) (k : Nat) : Prop := ∀ c, t[k]? = some c → ¬ Alnum (up c)

/-- Groups of four characters are written from `i` to `j`, a last one of less, and blanks before each group, also the last. -/
inductive Fours (t : List Int) (up : Int → Int) (space : Sub) : Nat → List Int → Nat → Prop
  | last {i k : Nat} {g : List Int} : (space i).getD i = k → Run t up k g → g.length < 4 → NoChar t up (k + g.length) → Fours t up space i g (k + g.length)
  | more {i k j : Nat} {g w : List Int} : (space i).getD i = k → Run t up k g → g.length = 4 → Fours t up space (k + 4) w j → Fours t up space i (g ++ w) j

/-- At `i` is a creditor reference: RF, two digits, and 1 to 21 characters. -/
structure CreditorAt (t : List Int) (up : Int → Int) (space : Sub) (i : Nat) (d0 d1 : Int) (w : List Int) (j : Nat) : Prop where
  letter0 : ∃ c, t[i]? = some c ∧ up c = 82
  letter1 : ∃ c, t[i + 1]? = some c ∧ up c = 70
  digit0 : t[i + 2]? = some d0 ∧ 48 ≤ d0 ∧ d0 ≤ 57
  digit1 : t[i + 3]? = some d1 ∧ 48 ≤ d1 ∧ d1 ≤ 57
  rest : Fours t up space (i + 4) w j
  least : w ≠ []
  most : w.length ≤ 21

/-! #### Proofs -/

theorem refGroup_run {v : Env} {t : List Int} (h : v.Ok t) (upper : Int → Int) {cap : Nat} : ∀ (g : List Int) (m k : Nat) (w : List Int), Run t (upCase v upper) k g → g.length ≤ m → w.length ≤ cap →
    refGroup v upper cap m k w = if w.length + g.length ≤ cap then refGroup v upper cap (m - g.length) (k + g.length) (w ++ g) else some .error := by
  intro g
  induction g with
  | nil =>
    intro m k w _ _ hc
    rw [if_pos (by simpa using hc), List.append_nil]; rfl
  | cons x g ih =>
    intro m k w hr hm hc
    rw [List.length_cons] at hm ⊢
    obtain ⟨m, rfl⟩ : ∃ q, m = q + 1 := ⟨m - 1, by omega⟩
    obtain ⟨c, a1, a2, a3⟩ := hr 0 x (by simp)
    rw [Nat.add_zero] at a1
    have hlt := lt_of_get a1
    have ca : (48 ≤ upCase v upper c ∧ upCase v upper c ≤ 57) ∨ (65 ≤ upCase v upper c ∧ upCase v upper c ≤ 90) := by rw [a2]; exact a3
    rw [refGroup, cond_eq h.valid (by rw [← h.text]; omega), ← h.text, a1]
    dsimp only
    rw [if_pos ca]
    by_cases cc : w.length ≥ cap
    · rw [if_pos cc, if_neg (by omega)]
    · rw [if_neg cc, a2, ih m (k + 1) (w ++ [x]) (fun m y q => by
        have := hr (m + 1) y (by simpa using q)
        rwa [show k + (m + 1) = k + 1 + m by omega] at this) (by omega) (by rw [List.length_append, List.length_singleton]; omega)]
      rw [List.length_append, List.length_singleton, List.append_assoc]
      rw [show w.length + 1 + g.length = w.length + (g.length + 1) by omega, show m + 1 - (g.length + 1) = m - g.length by omega, show k + 1 + g.length = k + (g.length + 1) by omega]
      rfl

theorem refGroup_stop {v : Env} {t : List Int} (h : v.Ok t) (upper : Int → Int) {cap : Nat} {m k : Nat} {w : List Int} (hk : k ≤ t.length) (hn : NoChar t (upCase v upper) k) :
    refGroup v upper cap (m + 1) k w = some (.out k w) := by
  rw [refGroup, cond_eq h.valid (by rw [← h.text]; omega), ← h.text]
  cases ht : t[k]? with
  | none => rfl
  | some c =>
    dsimp only
    rw [if_neg]
    exact hn c ht

theorem run_le {t : List Int} {up : Int → Int} {k : Nat} {g : List Int} (hr : Run t up k g) (hk : k ≤ t.length) : k + g.length ≤ t.length := by
  cases g with
  | nil => simpa using hk
  | cons x g =>
    obtain ⟨c, a, _⟩ := hr g.length ((x :: g)[g.length]'(by simp)) (List.getElem?_eq_getElem _)
    have := lt_of_get a
    rw [List.length_cons]; omega

theorem space_le {t : List Int} {space : Sub} (hs : Takes t.length space) {i : Nat} (hi : i ≤ t.length) : (space i).getD i ≤ t.length ∧ i ≤ (space i).getD i := by
  cases h : space i with
  | none => exact ⟨hi, Nat.le_refl _⟩
  | some k => have := hs i hi k h; exact ⟨this.2, Nat.le_of_lt this.1⟩

theorem refLoop_fours {v : Env} {t : List Int} (h : v.Ok t) (upper : Int → Int) {space : Sub} (hs : Takes t.length space) {cap : Nat} {i j : Nat} {w' : List Int}
    (hf : Fours t (upCase v upper) space i w' j) : ∀ (fuel : Nat) (w : List Int), i ≤ t.length → t.length < fuel + i → w.length ≤ cap →
      refLoop v upper space cap fuel i w = if w.length + w'.length ≤ cap then some (some (j, w ++ w')) else some none := by
  induction hf with
  | last h1 h2 h3 h4 =>
    rename_i i k g
    intro fuel w hi hfu hc
    obtain ⟨fuel, rfl⟩ : ∃ q, fuel = q + 1 := ⟨fuel - 1, by omega⟩
    have hk := (space_le hs hi).1
    rw [h1] at hk
    rw [refLoop, h1, refGroup_run h upper g 4 k w h2 (by omega) hc]
    by_cases c : w.length + g.length ≤ cap
    · rw [if_pos c, if_pos c, show 4 - g.length = (3 - g.length) + 1 by omega, refGroup_stop h upper (run_le h2 hk) h4]
    · rw [if_neg c, if_neg c]
  | more h1 h2 h3 _ ih =>
    rename_i i k j g w' _
    intro fuel w hi hfu hc
    obtain ⟨fuel, rfl⟩ : ∃ q, fuel = q + 1 := ⟨fuel - 1, by omega⟩
    have ⟨hk, hk'⟩ := space_le hs hi
    rw [h1] at hk hk'
    have hle := run_le h2 hk
    rw [refLoop, h1, refGroup_run h upper g 4 k w h2 (by omega) hc]
    by_cases c : w.length + g.length ≤ cap
    · rw [if_pos c, show 4 - g.length = 0 by omega, refGroup]
      dsimp only
      rw [show k + g.length = k + 4 by omega, ih fuel (w ++ g) (by omega) (by omega) (by rw [List.length_append]; exact c)]
      rw [List.length_append, List.length_append, List.append_assoc, Nat.add_assoc]
    · rw [if_neg c, if_neg (by rw [List.length_append]; omega)]

theorem run_exists (t : List Int) (up : Int → Int) : ∀ (m k : Nat), ∃ g, Run t up k g ∧ g.length ≤ m ∧ (g.length < m → NoChar t up (k + g.length)) := by
  intro m
  induction m with
  | zero => intro k; exact ⟨[], fun m x q => (by simp at q), Nat.le_refl _, fun q => absurd q (by simp)⟩
  | succ m ih =>
    intro k
    by_cases c : ∃ x, t[k]? = some x ∧ Alnum (up x)
    · obtain ⟨x, c1, c2⟩ := c
      obtain ⟨g, a1, a2, a3⟩ := ih (k + 1)
      refine ⟨up x :: g, ?_, by rw [List.length_cons]; omega, ?_⟩
      · intro m' y q
        cases m' with
        | zero => rw [List.getElem?_cons_zero] at q; cases q; exact ⟨x, c1, rfl, c2⟩
        | succ m' =>
          rw [List.getElem?_cons_succ] at q
          rw [show k + (m' + 1) = k + 1 + m' by omega]
          exact a1 m' y q
      · rw [List.length_cons, show k + (g.length + 1) = k + 1 + g.length by omega]; exact fun q => a3 (by omega)
    · exact ⟨[], fun m x q => (by simp at q), Nat.zero_le _, fun _ y hy q => c ⟨y, hy, q⟩⟩

theorem fours_exists {t : List Int} (up : Int → Int) {space : Sub} (hs : Takes t.length space) : ∀ (n i : Nat), i ≤ t.length → t.length - i < n → ∃ w j, Fours t up space i w j := by
  intro n
  induction n with
  | zero => intro i _ q; omega
  | succ n ih =>
    intro i hi hn
    obtain ⟨g, a1, a2, a3⟩ := run_exists t up 4 ((space i).getD i)
    have ⟨hk, hk'⟩ := space_le hs hi
    have hle := run_le a1 hk
    by_cases c : g.length < 4
    · exact ⟨g, _, .last rfl a1 c (a3 c)⟩
    · obtain ⟨w, j, q⟩ := ih ((space i).getD i + 4) (by omega) (by omega)
      exact ⟨g ++ w, j, .more rfl a1 (by omega) q⟩

theorem fours_unique {v : Env} {t : List Int} (h : v.Ok t) (upper : Int → Int) {space : Sub} (hs : Takes t.length space) {i j j' : Nat} {w w' : List Int} (hi : i ≤ t.length)
    (a : Fours t (upCase v upper) space i w j) (b : Fours t (upCase v upper) space i w' j') : w = w' ∧ j = j' := by
  have x := refLoop_fours h upper hs (cap := w.length + w'.length) a (t.length + 1) [] hi (by omega) (Nat.zero_le _)
  rw [refLoop_fours h upper hs (cap := w.length + w'.length) b (t.length + 1) [] hi (by omega) (Nat.zero_le _)] at x
  rw [if_pos (by simp), if_pos (by simp)] at x
  injection x with x; injection x with x; injection x with x y
  exact ⟨y.symm, x.symm⟩

theorem fours_alnum {t : List Int} {up : Int → Int} {space : Sub} {i j : Nat} {w : List Int} (h : Fours t up space i w j) : ∀ c ∈ w, Alnum c := by
  have run : ∀ {k g}, Run t up k g → ∀ c ∈ g, Alnum c := by
    intro k g hr c hc
    obtain ⟨m, hm⟩ := List.getElem?_of_mem hc
    obtain ⟨_, _, _, q⟩ := hr m c hm
    exact q
  induction h with
  | last _ h2 => exact run h2
  | more _ h2 _ _ ih => intro c hc; exact (List.mem_append.1 hc).elim (run h2 c) (ih c)

theorem refAlign_eq {w old : List Int} (hw : w.length ≤ 21) (ho : old.length = 22) : refAlign (w ++ old.drop w.length) w.length = List.replicate (21 - w.length) 48 ++ w ++ [0] := by
  have hlen : (w ++ old.drop w.length).length = 22 := by rw [List.length_append, List.length_drop, ho]; omega
  apply List.ext_getElem?
  intro n
  have ⟨_, m2⟩ := alignMove_eq 0 w.length 21 ((w ++ old.drop w.length).set 21 0) (by omega) (by omega) (by rw [List.length_set]; omega)
  have m3 := alignMove_length 0 w.length 21 ((w ++ old.drop w.length).set 21 0)
  show (alignFill 0 48 (21 - w.length) (alignMove 0 w.length 21 ((w ++ old.drop w.length).set 21 0)).1)[n]? = _
  rw [alignFill_eq _ _ _ _ (by rw [m3, List.length_set]; omega), m2 n]
  by_cases c1 : n < 21 - w.length
  · rw [if_pos ⟨Nat.zero_le _, c1⟩, List.append_assoc, List.getElem?_append_left (by simpa using c1), List.getElem?_replicate_of_lt c1]
  · rw [if_neg (by omega)]
    by_cases c2 : n < 21
    · rw [if_pos ⟨by omega, c2⟩, List.getElem?_set_ne (by omega), List.getElem?_append_left (by omega), List.getElem?_append_left (by simp; omega), List.getElem?_append_right (by simp; omega)]
      congr 1; simp
    · rw [if_neg (by omega)]
      by_cases c3 : n = 21
      · rw [c3, List.getElem?_set_self (by omega), List.getElem?_append_right (by simp; omega)]
        simp only [List.length_append, List.length_replicate]
        rw [show 21 - (21 - w.length + w.length) = 0 by omega]; rfl
      · rw [List.getElem?_eq_none (by rw [List.length_set]; omega), List.getElem?_eq_none (by simp; omega)]

theorem letters_append (a b : List Int) : letters (a ++ b) = letters a + letters b := List.countP_append

theorem letters_zeros (n : Nat) : letters (List.replicate n 48) = 0 := by
  unfold letters
  rw [List.countP_eq_zero]
  intro a ha
  rw [(List.mem_replicate.1 ha).2]
  decide

theorem idAt_spec {v : Env} {t : List Int} (h : v.Ok t) {upper : Int → Int} (hu : upper 0 = 0) {e : Nat} (he : e ≤ t.length) (hb : below v.fin e = true) {x : Int} (hx : x ≠ 0) :
    ∃ r, idAt v upper e x = some r ∧ (r = true ↔ ∃ c, t[e]? = some c ∧ upCase v upper c = x) := by
  have hc := cond_eq h.valid (i := e) (by rw [← h.text]; exact he)
  rw [← h.text] at hc
  unfold Str.cond at hc
  rw [if_pos hb] at hc
  unfold idAt
  cases hr : rd v.s e with
  | none => rw [hr] at hc; cases hc
  | some c =>
    rw [hr] at hc
    refine ⟨_, rfl, ?_⟩
    simp only [Option.map_some, Option.some.injEq] at hc
    rw [← hc]
    by_cases c0 : c = 0
    · rw [if_pos c0]
      have : upCase v upper c = 0 := by unfold upCase; rw [c0, hu]; split <;> rfl
      dsimp only
      rw [this]
      constructor
      · intro q; exact absurd (of_decide_eq_true q).symm hx
      · rintro ⟨_, q, _⟩; cases q
    · rw [if_neg c0]
      constructor
      · intro q; exact ⟨c, rfl, of_decide_eq_true q⟩
      · rintro ⟨c', q1, q2⟩; cases q1; exact decide_eq_true q2

theorem below_of_lt {v : Env} {t : List Int} (h : v.Ok t) {e : Nat} (he : e < t.length) : below v.fin e = true := by
  unfold below
  cases hf : v.fin with
  | none => rfl
  | some n =>
    have : t.length ≤ n := by
      rw [h.text, hf]
      unfold text
      dsimp only
      have := (List.takeWhile_prefix (fun c : Int => decide (c ≠ 0)) (l := v.s.take n)).length_le
      rw [List.length_take] at this
      omega
    simp; omega

/-- Before the check: what there is, and that there is enough of it. -/
theorem creditorRun_spec {v : Env} {t : List Int} (h : v.Ok t) {upper : Int → Int} (hu : upper 0 = 0) {space : Sub} (hs : Takes t.length space) {i : Nat} (hi : i ≤ t.length)
    {old : List Int} (ho : old.length = 22) :
    (∃ d0 d1 w j, CreditorAt t (upCase v upper) space i d0 d1 w j ∧ creditorRun v upper space i old =
      match isValid 47 (List.replicate (21 - w.length) 48 ++ w) [50, 55, 49, 53, d0, d1] with
      | none => none
      | some ok => some (some ⟨[d0, d1], List.replicate (21 - w.length) 48 ++ w, ok, some (i, j)⟩)) ∨
    ((∀ d0 d1 w j, ¬ CreditorAt t (upCase v upper) space i d0 d1 w j) ∧ creditorRun v upper space i old = some none) := by
  unfold creditorRun
  by_cases cb : below v.fin (i + 1)
  rotate_left
  · rw [if_neg cb]
    refine .inr ⟨fun d0 d1 w j q => ?_, rfl⟩
    obtain ⟨c, q1, _⟩ := q.letter1
    exact cb (below_of_lt h (lt_of_get q1))
  rw [if_pos cb]
  have cb0 : below v.fin i = true := by
    unfold below at cb ⊢
    cases hf : v.fin with
    | none => rfl
    | some n => rw [hf] at cb; simp at cb ⊢; omega
  obtain ⟨r0, a1, a2⟩ := idAt_spec h hu hi cb0 (x := 82) (by decide)
  rw [a1]
  cases r0 with
  | false => exact .inr ⟨(fun d0 d1 w j q => nomatch a2.2 q.letter0), rfl⟩
  | true =>
  dsimp only
  obtain ⟨x0, b1, b2⟩ := a2.1 rfl
  obtain ⟨r1, a3, a4⟩ := idAt_spec h hu (e := i + 1) (lt_of_get b1) cb (x := 70) (by decide)
  rw [a3]
  cases r1 with
  | false => exact .inr ⟨(fun d0 d1 w j q => nomatch a4.2 q.letter1), rfl⟩
  | true =>
  dsimp only
  obtain ⟨x1, b3, b4⟩ := a4.1 rfl
  unfold creditorTail
  rcases checkAt_spec h (lt_of_get b3) with ⟨d0, e1, e2, e3, e4⟩ | ⟨e1, e2⟩
  rotate_left
  · rw [e2]
    exact .inr ⟨fun d0 d1 w j q => e1 _ q.digit0.1 q.digit0.2, rfl⟩
  rw [e4]; dsimp only [andThen]
  rcases checkAt_spec h (lt_of_get e1) with ⟨d1, f1, f2, f3, f4⟩ | ⟨f1, f2⟩
  rotate_left
  · rw [f2]
    exact .inr ⟨fun d0 d1 w j q => f1 _ q.digit1.1 q.digit1.2, rfl⟩
  rw [f4]; dsimp only [andThen]
  have hi4 : i + 4 ≤ t.length := lt_of_get f1
  obtain ⟨w, j, hf⟩ := fours_exists (upCase v upper) hs (t.length + 1) (i + 4) hi4 (by omega)
  rw [refLoop_fours h upper hs hf (v.s.length + 2) [] hi4 (by
    have : t.length ≤ v.s.length := by rw [h.text]; exact text_length_le _ _
    omega) (Nat.zero_le _)]
  have other : ∀ {d0' d1' w' j'}, CreditorAt t (upCase v upper) space i d0' d1' w' j' → w' = w := fun q => (fours_unique h upper hs hi4 q.rest hf).1
  rw [List.length_nil, Nat.zero_add, List.nil_append]
  by_cases c21 : w.length ≤ 21
  · rw [if_pos c21]
    dsimp only
    by_cases c0 : w.length = 0
    · rw [if_pos c0]
      exact .inr ⟨fun d0 d1 w' j q => q.least (by rw [other q]; exact List.length_eq_zero_iff.1 c0), rfl⟩
    · rw [if_neg c0, refAlign_eq c21 ho]
      have ha : ∀ c ∈ List.replicate (21 - w.length) 48 ++ w, decide (c ≠ 0) = true := by
        intro c hc
        rcases List.mem_append.1 hc with q | q
        · rw [(List.mem_replicate.1 q).2]; decide
        · have := fours_alnum hf c q
          unfold Alnum at this
          simp; omega
      have tw : (List.replicate (21 - w.length) 48 ++ w ++ [0]).takeWhile (fun c => decide (c ≠ 0)) = List.replicate (21 - w.length) 48 ++ w := by
        rw [List.takeWhile_append_of_pos ha]
        rw [List.takeWhile_cons_of_neg (by decide), List.append_nil]
      rw [tw]
      exact .inl ⟨d0, d1, w, j, ⟨⟨x0, b1, b2⟩, ⟨x1, b3, b4⟩, ⟨e1, e2, e3⟩, ⟨f1, f2, f3⟩, hf, (fun q => c0 (by rw [q]; rfl)), c21⟩, rfl⟩
  · rw [if_neg c21]
    exact .inr ⟨fun d0 d1 w' j q => c21 (by rw [← other q]; exact q.most), rfl⟩

theorem creditor_unique {v : Env} {t : List Int} (h : v.Ok t) {upper : Int → Int} {space : Sub} (hs : Takes t.length space) {i j j' : Nat} {d0 d1 d0' d1' : Int} {w w' : List Int}
    (a : CreditorAt t (upCase v upper) space i d0 d1 w j) (b : CreditorAt t (upCase v upper) space i d0' d1' w' j') : d0 = d0' ∧ d1 = d1' ∧ w = w' ∧ j = j' := by
  have e0 := a.digit0.1
  have e1 := a.digit1.1
  have hl := lt_of_get e1
  rw [b.digit0.1] at e0; cases e0
  rw [b.digit1.1] at e1; cases e1
  have ⟨x, y⟩ := fours_unique h upper hs (show i + 4 ≤ t.length from hl) a.rest b.rest
  exact ⟨rfl, rfl, x, y⟩

/-- **C77** (creditor reference; partial: up to 19 letters) A match is RF, two digits and 1 to 21 characters in groups; `reference` is filled up with zeros on the left, and
`is_valid` tells whether the number that ISO 7064 forms leaves the remainder 1. Otherwise nothing matches. Missing: references with more letters, see `creditor_overflow`. -/
theorem creditor_partial {v : Env} {t : List Int} (h : v.Ok t) {upper : Int → Int} (hu : upper 0 = 0) {space : Sub} (hs : Takes t.length space) {i : Nat} (hi : i ≤ t.length)
    {old : List Int} (ho : old.length = 22) :
    (∀ d0 d1 w j, CreditorAt t (upCase v upper) space i d0 d1 w j → letters w ≤ 19 → creditor v upper space i old =
      some (true, ⟨[d0, d1], List.replicate (21 - w.length) 48 ++ w, decide (isoNumber (w ++ [82, 70, d0, d1]) 0 % 97 = 1), some (i, j)⟩)) ∧
    ((∀ d0 d1 w j, ¬ CreditorAt t (upCase v upper) space i d0 d1 w j) → creditor v upper space i old = some (false, ⟨[], [], false, none⟩)) := by
  unfold creditor
  rcases creditorRun_spec h hu hs hi ho with ⟨d0, d1, w, j, p, q⟩ | ⟨p, q⟩
  · rw [q]
    refine ⟨fun d0' d1' w' j' p' hl => ?_, fun n => absurd p (n _ _ _ _)⟩
    obtain ⟨rfl, rfl, rfl, rfl⟩ := creditor_unique h hs p p'
    have hw := fours_alnum p.rest
    have hm := p.most
    have hz : ∀ c ∈ List.replicate (21 - w.length) 48 ++ w, Alnum c := by
      intro c hc
      rcases List.mem_append.1 hc with q | q
      · rw [(List.mem_replicate.1 q).2]; unfold Alnum; omega
      · exact hw c q
    have d0h := p.digit0.2
    have d1h := p.digit1.2
    have hu4 : ∀ c ∈ [82, 70, d0, d1], Alnum c := by
      intro c hc
      simp only [List.mem_cons, List.not_mem_nil, or_false] at hc
      unfold Alnum
      rcases hc with rfl | rfl | rfl | rfl <;> omega
    have ht : [50, 55, 49, 53, d0, d1] = [82, 70, d0, d1].flatMap normChar := by
      simp only [List.flatMap_cons, List.flatMap_nil, List.append_nil]
      rw [← normDigit_eq d0h, ← normDigit_eq d1h]
      rfl
    rw [isValid_spec hz hu4 ht (by simp; omega) (by rw [letters_append, letters_zeros]; simp; omega)]
    have iz : ∀ (n : Nat) (u : List Int), isoNumber (List.replicate n 48 ++ u) 0 = isoNumber u 0 := by
      intro n u
      induction n with
      | zero => rfl
      | succ n ih => rw [List.replicate_succ, List.cons_append, isoNumber_cons]; exact ih
    rw [List.append_assoc, iz]
  · rw [q]
    exact ⟨fun d0 d1 w j p' => absurd p' (p _ _ _ _), fun _ => rfl⟩

/-- What C77 lacks: a reference with 20 or 21 letters overruns the local array `normalized` of 47 elements, whatever the rest of the text is. -/
theorem creditor_overflow {v : Env} {t : List Int} (h : v.Ok t) {upper : Int → Int} (hu : upper 0 = 0) {space : Sub} (hs : Takes t.length space) {i : Nat} (hi : i ≤ t.length)
    {old : List Int} (ho : old.length = 22) {d0 d1 : Int} {w : List Int} {j : Nat} (p : CreditorAt t (upCase v upper) space i d0 d1 w j) (hl : 20 ≤ letters w) :
    creditor v upper space i old = none := by
  unfold creditor
  rcases creditorRun_spec h hu hs hi ho with ⟨d0', d1', w', j', p', q⟩ | ⟨n, _⟩
  · obtain ⟨rfl, rfl, rfl, rfl⟩ := creditor_unique h hs p p'
    have hm := p.most
    have hz : ∀ c ∈ List.replicate (21 - w.length) 48 ++ w, Alnum c := by
      intro c hc
      rcases List.mem_append.1 hc with q | q
      · rw [(List.mem_replicate.1 q).2]; unfold Alnum; omega
      · exact fours_alnum p.rest c q
    rw [q]
    unfold isValid
    rw [if_neg]
    rw [List.length_append, norm_length hz, letters_append, letters_zeros]
    simp; omega
  · exact absurd p (n _ _ _ _)

/-- ASCII upper case. -/
def asciiUpper (c : Int) : Int := if 97 ≤ c ∧ c ≤ 122 then c - 32 else c

/-- `SI56 1910 0000 0123 438` -/
def ibanText : List Int := [83, 73, 53, 54, 32, 49, 57, 49, 48, 32, 48, 48, 48, 48, 32, 48, 49, 50, 51, 32, 52, 51, 56]
/-- `RF18 5390 0754 7034` -/
def rfText : List Int := [82, 70, 49, 56, 32, 53, 51, 57, 48, 32, 48, 55, 53, 52, 32, 55, 48, 51, 52]

example : (ipEnv ibanText).Ok ibanText ∧ Takes ibanText.length (charSub ibanText 32) ∧
    iban (ipEnv ibanText) asciiUpper (charSub ibanText 32) 0 ibanInvalid =
      some (true, ⟨[83, 73], [53, 54], [49, 57, 49, 48, 48, 48, 48, 48, 48, 49, 50, 51, 52, 51, 56], true, some (0, 23)⟩) :=
  ⟨⟨.inl (by decide), by decide, (fun n q => nomatch q), fun _ => Iff.rfl⟩, charSub_takes _ _, by decide +kernel⟩

example : asciiUpper 0 = 0 ∧ creditor (ipEnv rfText) asciiUpper (charSub rfText 32) 0 (List.replicate 22 7) =
      some (true, ⟨[49, 56], List.replicate 9 48 ++ [53, 51, 57, 48, 48, 55, 53, 52, 55, 48, 51, 52], true, some (0, 19)⟩) := by decide +kernel

/-- Twenty-one letters: `RF00AAAA…` -/
example : creditor (ipEnv ([82, 70, 48, 48] ++ List.replicate 21 65)) asciiUpper (fun _ => none) 0 (List.replicate 22 0) = none := by decide +kernel

end Verif.Parser
