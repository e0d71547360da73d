import Verif.Parser.Iban
/-
Parser of Slovenian payment references (include/stdex/parser.hpp 5071-5474). `m_space` is the function it computes
(`fun _ => none` if it is null); `ctype::toupper` is an arbitrary function.
-/
namespace Verif.Parser
open Verif.Str

/-- The loop of `basic_si_reference_part::do_match` 5086-5093: `interval.end`. -/
def partLoop (v : Env) : Nat → Nat → Option Nat
  | 0, _ => none
  | fuel + 1, e =>
    match Str.cond v.s v.fin e with
    | none => none
    | some none => some e
    | some (some c) => if 48 ≤ c ∧ c ≤ 57 then partLoop v fuel (e + 1) else some e

/-- `basic_si_reference_part::do_match` 5084-5099: the inner `none` is `false`. -/
def siPart (v : Env) (i : Nat) : Option (Option (Nat × Nat)) :=
  match partLoop v (v.s.length + 2) i with
  | none => none
  | some e => if i < e then some (some (i, e)) else some none

/-- `basic_si_reference_delimiter::do_match` 5130-5136: where it ends (a terminator is not '-'). -/
def siDelimiter (v : Env) (i : Nat) : Option (Option Nat) :=
  match Str.cond v.s v.fin i with
  | none => none
  | some none => some none
  | some (some c) => if c = 45 then some (some (i + 1)) else some none

/-- 5227-5231 where `k` more parts may follow: the intervals of the parts that match, which 5215-5217 have invalidated before. -/
def siParts (v : Env) : Nat → Nat → Option (List (Nat × Nat))
  | 0, _ => some []
  | k + 1, e =>
    match siPart v e with
    | none => none
    | some none => some []
    | some (some (a, b)) =>
      match k with
      | 0 => some [(a, b)]
      | k + 1 =>
        match siDelimiter v b with
        | none => none
        | some none => some [(a, b)]
        | some (some d) => (siParts v (k + 1) d).map ((a, b) :: ·)

/-- `for (size_t i = n; i--; ++ponder) nominator += (part[i] - '0') * ponder` over the characters in reverse: `nominator` and `ponder`, of 32 bits. -/
def ponderLoop : List Int → Nat × Nat → Nat × Nat
  | [], a => a
  | c :: r, (nom, ponder) => ponderLoop r ((nom + (c - 48).toNat * ponder) % 2 ^ 32, (ponder + 1) % 2 ^ 32)

/-- `check11` of one part 5421-5432. -/
def check11 (p : List Int) : Bool :=
  let nom := (ponderLoop p.dropLast.reverse (0, 2)).1
  let control := 11 - nom % 11
  let control := if control ≥ 10 then 0 else control
  decide ((control : Int) = p.getLastD 0 - 48)

/-- `check11` of two parts 5434-5449. -/
def check11of2 (p q : List Int) : Bool :=
  let nom := (ponderLoop p.reverse (ponderLoop q.dropLast.reverse (0, 2))).1
  let control := 11 - nom % 11
  let control := if control = 10 then 0 else control
  decide ((control : Int) = q.getLastD 0 - 48)

/-- `check11` of three parts 5451-5470; `x` is `part2[num_part3 - 1]`, a character of the text. -/
def check11of3 (p q r : List Int) (x : Int) : Bool :=
  let nom := (ponderLoop p.reverse (ponderLoop q.reverse (ponderLoop r.dropLast.reverse (0, 2)))).1
  let control := 11 - nom % 11
  let control := if control = 10 then 0 else control
  decide ((control : Int) = x - 48)

def fits1 (p : List Int) : Bool := p.length ≤ 12
def fits2 (p q : List Int) : Bool := p.length ≤ 12 && q.length ≤ 12 && p.length + q.length ≤ 20
def fits3 (p q r : List Int) : Bool := p.length ≤ 12 && q.length ≤ 12 && r.length ≤ 12 && p.length + q.length + r.length ≤ 20

/-- 5243-5413: `is_valid` of the model `m0`, `m1` and the texts of the parts that matched; `x` is the character read in 5469. -/
def siValid (m0 m1 : Int) (parts : List (List Int)) (x : Int) : Bool :=
  if m0 = 48 ∧ m1 = 48 then
    match parts with
    | [p, q, r] => fits3 p q r
    | [p, q] => fits2 p q
    | [p] => fits1 p
    | _ => false
  else if m0 = 48 ∧ m1 = 49 then
    match parts with
    | [p, q, r] => fits3 p q r && check11of3 p q r x
    | [p, q] => fits2 p q && check11of2 p q
    | [p] => fits1 p && check11 p
    | _ => false
  else if m0 = 48 ∧ m1 = 50 then
    match parts with
    | [p, q, r] => fits3 p q r && check11 q && check11 r
    | _ => false
  else if m0 = 48 ∧ m1 = 51 then
    match parts with
    | [p, q, r] => fits3 p q r && check11 p && check11 q && check11 r
    | _ => false
  else if m0 = 48 ∧ m1 = 52 then
    match parts with
    | [p, q, r] => fits3 p q r && check11 p && check11 r
    | _ => false
  else if (m0 = 48 ∨ m0 = 53) ∧ m1 = 53 then
    match parts with
    | [p, q, r] => fits3 p q r && check11 p
    | [p, q] => fits2 p q && check11 p
    | [p] => fits1 p && check11 p
    | _ => false
  else if m0 = 48 ∧ m1 = 54 then
    match parts with
    | [p, q, r] => fits3 p q r && check11of2 q r
    | [p, q] => fits2 p q && check11 q
    | _ => false
  else if m0 = 48 ∧ m1 = 55 then
    match parts with
    | [p, q, r] => fits3 p q r && check11 q
    | [p, q] => fits2 p q && check11 q
    | _ => false
  else if m0 = 48 ∧ m1 = 56 then
    match parts with
    | [p, q, r] => fits3 p q r && check11of2 p q && check11 r
    | _ => false
  else if m0 = 48 ∧ m1 = 57 then
    match parts with
    | [p, q, r] => fits3 p q r && check11of2 p q
    | [p, q] => fits2 p q && check11of2 p q
    | [p] => fits1 p && check11 p
    | _ => false
  else if m0 = 49 ∧ m1 = 48 then
    match parts with
    | [p, q, r] => fits3 p q r && check11 p && check11of2 q r
    | [p, q] => fits2 p q && check11 p && check11 q
    | _ => false
  else if (m0 = 49 ∧ (m1 = 49 ∨ m1 = 56 ∨ m1 = 57)) ∨ ((m0 = 50 ∨ m0 = 51) ∧ m1 = 56) ∨ (m0 = 52 ∧ (m1 = 48 ∨ m1 = 49 ∨ m1 = 56 ∨ m1 = 57)) ∨ (m0 = 53 ∧ (m1 = 49 ∨ m1 = 56)) then
    match parts with
    | [p, q, r] => fits3 p q r && check11 p && check11 q
    | [p, q] => fits2 p q && check11 p && check11 q
    | _ => false
  else if m0 = 49 ∧ m1 = 50 then
    match parts with
    | [p] => decide (p.length ≤ 13) && check11 p
    | _ => false
  else if (m0 = 50 ∨ m0 = 51) ∧ m1 = 49 then
    match parts with
    | [p, q] => fits2 p q && check11 p
    | _ => false
  else true

/-- `model`, the intervals of the parts, `is_valid`, and `interval`. -/
structure SiRef where
  model : List Int
  parts : List (Nat × Nat)
  valid : Bool
  interval : Option (Nat × Nat)
deriving DecidableEq

/-- The characters of a part. -/
def slice (s : List Int) (p : Nat × Nat) : List Int := (s.drop p.1).take (p.2 - p.1)

/-- The index of the character read in 5469, if there are three parts. -/
def strayIndex : List (Nat × Nat) → Nat
  | [_, q, r] => q.1 + (r.2 - r.1) - 1
  | _ => 0

/-- 5208-5414 -/
def siTail (v : Env) (space : Sub) (i : Nat) : Option (Option SiRef) :=
  andThen (checkAt v (i + 2)) fun m0 =>
  andThen (checkAt v (i + 3)) fun m1 =>
  if m0 = 57 ∧ m1 = 57 then some (some ⟨[m0, m1], [], true, some (i, i + 4)⟩)
  else
    match siParts v 3 ((space (i + 4)).getD (i + 4)) with
    | none => none
    | some ivs =>
      let e := match ivs.getLast? with | some p => p.2 | none => i + 4
      some (some ⟨[m0, m1], ivs, siValid m0 m1 (ivs.map (slice v.s)) (v.s.getD (strayIndex ivs) 0), some (i, e)⟩)

/-- `basic_si_reference::do_match` 5197-5418. -/
def siRef (v : Env) (upper : Int → Int) (space : Sub) (i : Nat) (_old : SiRef) : Option (Bool × SiRef) :=
  let r := if below v.fin (i + 1) then
      match idAt v upper i 83 with
      | none => none
      | some false => some none
      | some true =>
        match idAt v upper (i + 1) 73 with
        | none => none
        | some false => some none
        | some true => siTail v space i
    else some none
  match r with
  | none => none
  | some none => some (false, ⟨[], [], false, none⟩)
  | some (some x) => some (true, x)

/-! ### Specification -/

/-- The digits weighted by 2, 3, … from the right. -/
def weighted : List Int → Nat
  | [] => 0
  | c :: r => (c - 48).toNat * (r.length + 2) + weighted r

/-- A number passes if its last digit is the complement to 11 of the weighted sum of the others, where 10 and 11 are replaced by 0. -/
def Passes (p : List Int) : Prop := p.getLast? = some (if weighted p.dropLast % 11 ≤ 1 then 48 else 48 + (11 - (weighted p.dropLast % 11 : Nat) : Int))

instance (p : List Int) : Decidable (Passes p) := by unfold Passes; infer_instance

/-- What a model requires: nothing is known about it, the number of parts is not allowed, or which parts have to pass the check, those of an inner list together. -/
inductive Rule
  | unknown
  | bad
  | checks (groups : List (List Nat))
deriving DecidableEq

/-- The models, by the number of parts. -/
def rule (model parts : Nat) : Rule :=
  if model ∈ [0, 1, 2, 3, 4, 5, 55, 6, 7, 8, 9, 10, 11, 18, 19, 28, 38, 40, 41, 48, 49, 51, 58, 12, 21, 31] then
    match model, parts with
    | 0, 1 | 0, 2 | 0, 3 => .checks []
    | 1, 1 => .checks [[0]]
    | 1, 2 => .checks [[0, 1]]
    | 1, 3 => .checks [[0, 1, 2]]
    | 2, 3 => .checks [[1], [2]]
    | 3, 3 => .checks [[0], [1], [2]]
    | 4, 3 => .checks [[0], [2]]
    | 5, 1 | 5, 2 | 5, 3 | 55, 1 | 55, 2 | 55, 3 => .checks [[0]]
    | 6, 2 => .checks [[1]]
    | 6, 3 => .checks [[1, 2]]
    | 7, 2 | 7, 3 => .checks [[1]]
    | 8, 3 => .checks [[0, 1], [2]]
    | 9, 1 => .checks [[0]]
    | 9, 2 | 9, 3 => .checks [[0, 1]]
    | 10, 2 => .checks [[0], [1]]
    | 10, 3 => .checks [[0], [1, 2]]
    | 12, 1 => .checks [[0]]
    | 21, 2 | 31, 2 => .checks [[0]]
    | m, n => if m ∈ [11, 18, 19, 28, 38, 40, 41, 48, 49, 51, 58] ∧ (n = 2 ∨ n = 3) then .checks [[0], [1]] else .bad
  else .unknown

/-- The parts of a group. -/
def together (parts : List (List Int)) (g : List Nat) : List Int := g.flatMap fun k => parts.getD k []

/-- A reference is valid: the parts are not too long, and the groups pass. -/
def RefValid (model : Nat) (parts : List (List Int)) : Prop :=
  match rule model parts.length with
  | .unknown => True
  | .bad => False
  | .checks groups => (∀ p ∈ parts, p.length ≤ if model = 12 then 13 else 12) ∧ (parts.flatMap id).length ≤ 20 ∧ ∀ g ∈ groups, Passes (together parts g)

/-- Digits, as many as there are, from `i` to `j`. -/
def DigitsAt (t : List Int) (i j : Nat) : Prop :=
  i ≤ j ∧ (∀ k, i ≤ k → k < j → ∃ c, t[k]? = some c ∧ 48 ≤ c ∧ c ≤ 57) ∧ ∀ c, t[j]? = some c → ¬ (48 ≤ c ∧ c ≤ 57)

/-- Up to `k` numbers are written from `i` on with '-' in between, as many as there are. -/
inductive PartsAt (t : List Int) : Nat → Nat → List (Nat × Nat) → Prop
  | limit (i : Nat) : PartsAt t 0 i []
  | none {k i : Nat} : DigitsAt t i i → PartsAt t k i []
  | last {k i j : Nat} : i < j → DigitsAt t i j → k = 0 ∨ t[j]? ≠ some 45 → PartsAt t (k + 1) i [(i, j)]
  | more {k i j : Nat} {r : List (Nat × Nat)} : i < j → DigitsAt t i j → k ≠ 0 → t[j]? = some 45 → PartsAt t k (j + 1) r → PartsAt t (k + 1) i ((i, j) :: r)

/-- The number of two digits. -/
def modelNumber (m0 m1 : Int) : Nat := ((m0 - 48) * 10 + (m1 - 48)).toNat

/-! ### Proofs -/

theorem ponder_spec : ∀ (r : List Int), (∀ c ∈ r, Dec c) → ∀ (w : List Int), (∀ c ∈ w, Dec c) → r.length + w.length ≤ 24 →
    ponderLoop r (weighted w, w.length + 2) = (weighted (r.reverse ++ w), r.length + w.length + 2) := by
  have bound : ∀ (w : List Int), (∀ c ∈ w, Dec c) → w.length ≤ 24 → weighted w ≤ 9 * 26 * w.length := by
    intro w
    induction w with
    | nil => intro _ _; exact Nat.le_refl _
    | cons c w ih =>
      intro h hl
      have hc := h c List.mem_cons_self
      have := ih (fun x hx => h x (List.mem_cons_of_mem _ hx)) (by rw [List.length_cons] at hl; omega)
      unfold Dec at hc
      rw [weighted, List.length_cons]
      rw [List.length_cons] at hl
      have h9 : (c - 48).toNat ≤ 9 := by omega
      have : (c - 48).toNat * (w.length + 2) ≤ 9 * 26 := Nat.mul_le_mul h9 (by omega)
      omega
  intro r
  induction r with
  | nil => intro _ w _ _; simp [ponderLoop]
  | cons c r ih =>
    intro hr w hw hl
    rw [List.length_cons] at hl
    have hc := hr c List.mem_cons_self
    have hcw : ∀ x ∈ c :: w, Dec x := fun x hx => (List.mem_cons.1 hx).elim (fun e => e ▸ hc) (hw x)
    have hb := bound (c :: w) hcw (by rw [List.length_cons]; omega)
    rw [List.length_cons] at hb
    have e : weighted w + (c - 48).toNat * (w.length + 2) = weighted (c :: w) := by rw [weighted]; omega
    rw [ponderLoop, e, Nat.mod_eq_of_lt (by omega), Nat.mod_eq_of_lt (by omega)]
    have := ih (fun x hx => hr x (List.mem_cons_of_mem _ hx)) (c :: w) hcw (by rw [List.length_cons]; omega)
    rw [List.length_cons, show w.length + 1 + 2 = w.length + 2 + 1 by omega] at this
    rw [this, List.reverse_cons, List.append_assoc, List.length_cons]
    congr 1; omega

theorem weighted_zero : weighted [] = 0 := rfl

theorem getLastD_eq {p : List Int} (h : p ≠ []) : p.getLast? = some (p.getLastD 0) := by
  cases p with
  | nil => exact absurd rfl h
  | cons a p => rw [List.getLast?_eq_some_getLast (by simp)]; rfl

/-- The check of one part is right. -/
theorem check11_spec {p : List Int} (hp : ∀ c ∈ p, Dec c) (hn : p ≠ []) (hl : p.length ≤ 24) : check11 p = decide (Passes p) := by
  have e := ponder_spec p.dropLast.reverse (fun c hc => hp c (List.dropLast_subset _ (List.mem_reverse.1 hc))) [] (fun c q => nomatch q) (by simp; omega)
  rw [List.reverse_reverse, List.append_nil] at e
  unfold check11
  rw [show ((0 : Nat), (2 : Nat)) = (weighted [], ([] : List Int).length + 2) from rfl, e]
  dsimp only
  rw [decide_eq_decide]
  unfold Passes
  rw [getLastD_eq hn]
  have hm := Nat.mod_lt (weighted p.dropLast) (show 0 < 11 by omega)
  by_cases c : weighted p.dropLast % 11 ≤ 1
  · rw [if_pos c, if_pos (by omega)]
    constructor
    · intro q; congr 1; omega
    · intro q; injection q with q; omega
  · rw [if_neg c, if_neg (by omega)]
    constructor
    · intro q; congr 1; omega
    · intro q; injection q with q; omega

theorem dropLast_append {p q : List Int} (h : q ≠ []) : (p ++ q).dropLast = p ++ q.dropLast := List.dropLast_append_of_ne_nil h

/-- The check of two parts is right unless the weighted sum is divisible by 11; then nothing passes. -/
theorem check11of2_spec {p q : List Int} (hp : ∀ c ∈ p, Dec c) (hq : ∀ c ∈ q, Dec c) (hn : q ≠ []) (hl : p.length + q.length ≤ 24) :
    check11of2 p q = decide (Passes (p ++ q) ∧ weighted (p ++ q).dropLast % 11 ≠ 0) := by
  have e := ponder_spec q.dropLast.reverse (fun c hc => hq c (List.dropLast_subset _ (List.mem_reverse.1 hc))) [] (fun c q => nomatch q) (by simp; omega)
  rw [List.reverse_reverse, List.append_nil] at e
  have e2 := ponder_spec p.reverse (fun c hc => hp c (List.mem_reverse.1 hc)) q.dropLast (fun c hc => hq c (List.dropLast_subset _ hc)) (by simp; omega)
  rw [List.reverse_reverse, ← dropLast_append hn] at e2
  unfold check11of2
  rw [show ((0 : Nat), (2 : Nat)) = (weighted [], ([] : List Int).length + 2) from rfl, e]
  rw [show q.dropLast.reverse.length + ([] : List Int).length + 2 = q.dropLast.length + 2 by simp, e2]
  dsimp only
  rw [decide_eq_decide]
  unfold Passes
  have hg : (p ++ q).getLast? = some (q.getLastD 0) := by rw [List.getLast?_append, getLastD_eq hn]; rfl
  rw [hg]
  have hlast : Dec (q.getLastD 0) := by
    have := List.mem_of_getLast? (getLastD_eq hn)
    exact hq _ this
  unfold Dec at hlast
  have hm := Nat.mod_lt (weighted (p ++ q).dropLast) (show 0 < 11 by omega)
  generalize weighted (p ++ q).dropLast % 11 = x at *
  generalize q.getLastD 0 = y at *
  by_cases c : x ≤ 1
  · rw [if_pos c]
    by_cases c1 : 11 - x = 10
    · rw [if_pos c1]
      constructor
      · intro q; exact ⟨by congr 1; omega, by omega⟩
      · rintro ⟨q, _⟩; injection q with q; omega
    · rw [if_neg c1]
      constructor
      · intro q; omega
      · rintro ⟨_, q⟩; omega
  · rw [if_neg c, if_neg (by omega)]
    constructor
    · intro q; exact ⟨by congr 1; omega, by omega⟩
    · rintro ⟨q, _⟩; injection q with q; omega

/-- The lengths, as the code tests them. -/
def fitsAll (model : Nat) : List (List Int) → Bool
  | [p, q, r] => fits3 p q r
  | [p, q] => fits2 p q
  | [p] => if model = 12 then decide (p.length ≤ 13) else fits1 p
  | _ => false

/-- The check of a group, as the code does it. -/
def checkGroup (parts : List (List Int)) (x : Int) : List Nat → Bool
  | [a] => check11 (parts.getD a [])
  | [a, b] => check11of2 (parts.getD a []) (parts.getD b [])
  | [a, b, c] => check11of3 (parts.getD a []) (parts.getD b []) (parts.getD c []) x
  | _ => true

def evalRule (model : Nat) (parts : List (List Int)) (x : Int) : Rule → Bool
  | .unknown => true
  | .bad => false
  | .checks gs => gs.foldl (fun a g => a && checkGroup parts x g) (fitsAll model parts)

theorem digits10 {a : Nat} (h : a < 10) : a = 0 ∨ a = 1 ∨ a = 2 ∨ a = 3 ∨ a = 4 ∨ a = 5 ∨ a = 6 ∨ a = 7 ∨ a = 8 ∨ a = 9 := by omega

/-- The chain of models is the table. -/
theorem siValid_eval {a b : Nat} (ha : a < 10) (hb : b < 10) (parts : List (List Int)) (hl : parts.length ≤ 3) (x : Int) :
    siValid (48 + (a : Int)) (48 + (b : Int)) parts x = evalRule (10 * a + b) parts x (rule (10 * a + b) parts.length) := by
  have shape : parts = [] ∨ (∃ p, parts = [p]) ∨ (∃ p q, parts = [p, q]) ∨ ∃ p q r, parts = [p, q, r] := by
    match parts, hl with
    | [], _ => exact .inl rfl
    | [p], _ => exact .inr (.inl ⟨p, rfl⟩)
    | [p, q], _ => exact .inr (.inr (.inl ⟨p, q, rfl⟩))
    | [p, q, r], _ => exact .inr (.inr (.inr ⟨p, q, r, rfl⟩))
  rcases digits10 ha with rfl | rfl | rfl | rfl | rfl | rfl | rfl | rfl | rfl | rfl <;>
  rcases digits10 hb with rfl | rfl | rfl | rfl | rfl | rfl | rfl | rfl | rfl | rfl <;>
  rcases shape with rfl | ⟨p, rfl⟩ | ⟨p, q, rfl⟩ | ⟨p, q, r, rfl⟩ <;> rfl

theorem rule_groups {m n : Nat} (hm : m < 100) (hn : n ≤ 3) {gs : List (List Nat)} (h : rule m n = .checks gs) :
    1 ≤ n ∧ (m = 12 → n = 1) ∧ ∀ g ∈ gs, (∃ k, k < n ∧ g = [k]) ∨ (∃ k, k + 1 < n ∧ g = [k, k + 1]) ∨ (m = 1 ∧ n = 3) := by
  have key : ∀ m : Fin 100, ∀ n : Fin 4, (match rule m.val n.val with
      | .checks gs => decide (1 ≤ n.val ∧ (m.val = 12 → n.val = 1)) && gs.all fun g => (match g with
        | [k] => decide (k < n.val)
        | [k, l] => decide (l = k + 1 ∧ l < n.val)
        | _ => decide (m.val = 1 ∧ n.val = 3))
      | _ => true) = true := by decide +kernel
  have := key ⟨m, hm⟩ ⟨n, by omega⟩
  dsimp only at this
  rw [h] at this
  simp only [Bool.and_eq_true, decide_eq_true_eq, List.all_eq_true] at this
  refine ⟨this.1.1, this.1.2, fun g hg => ?_⟩
  have q := this.2 g hg
  match g, q with
  | [], q => exact .inr (.inr (by simpa using q))
  | [k], q => exact .inl ⟨k, by simpa using q, rfl⟩
  | [k, l], q =>
    have q : l = k + 1 ∧ l < n := by simpa using q
    exact .inr (.inl ⟨k, by omega, by rw [q.1]⟩)
  | _ :: _ :: _ :: _, q => exact .inr (.inr (by simpa using q))

theorem fitsAll_spec {m : Nat} {parts : List (List Int)} (h1 : 1 ≤ parts.length) (h3 : parts.length ≤ 3) (h12 : m = 12 → parts.length = 1) :
    fitsAll m parts = true ↔ (∀ p ∈ parts, p.length ≤ if m = 12 then 13 else 12) ∧ (parts.flatMap id).length ≤ 20 := by
  match parts, h1, h3 with
  | [p], _, _ =>
    show (if m = 12 then decide (p.length ≤ 13) else fits1 p) = true ↔ _
    by_cases c : m = 12
    · simp [c]; omega
    · simp [c, fits1]; omega
  | [p, q], _, _ =>
    have : m ≠ 12 := fun c => by have := h12 c; simp at this
    simp [fitsAll, this, fits2, and_assoc]
  | [p, q, r], _, _ =>
    have : m ≠ 12 := fun c => by have := h12 c; simp at this
    simp [fitsAll, this, fits3, and_assoc, Nat.add_assoc]

theorem foldl_and {α : Type} (f : α → Bool) : ∀ (l : List α) (b : Bool), l.foldl (fun a g => a && f g) b = true ↔ b = true ∧ ∀ g ∈ l, f g = true := by
  intro l
  induction l with
  | nil => intro b; simp
  | cons x l ih => intro b; rw [List.foldl_cons, ih]; simp [and_assoc]

theorem getD_mem {parts : List (List Int)} {k : Nat} (h : k < parts.length) : parts.getD k [] ∈ parts := by
  rw [List.getD_eq_getElem?_getD, List.getElem?_eq_getElem h]; exact List.getElem_mem h

/-- What `is_valid` tells: the reference is valid, and no weighted sum over two parts is divisible by 11. Model 01 with three parts is left out. -/
theorem siValid_spec {a b : Nat} (ha : a < 10) (hb : b < 10) {parts : List (List Int)} (hl : parts.length ≤ 3) (hd : ∀ p ∈ parts, p ≠ [] ∧ ∀ c ∈ p, Dec c) (x : Int)
    (h3 : ¬ (10 * a + b = 1 ∧ parts.length = 3)) :
    siValid (48 + (a : Int)) (48 + (b : Int)) parts x = true ↔ RefValid (10 * a + b) parts ∧
      ∀ gs, rule (10 * a + b) parts.length = .checks gs → ∀ g ∈ gs, 2 ≤ g.length → weighted (together parts g).dropLast % 11 ≠ 0 := by
  rw [siValid_eval ha hb parts hl x]
  unfold RefValid
  cases hr : rule (10 * a + b) parts.length with
  | unknown => exact ⟨fun _ => ⟨trivial, fun gs q => nomatch q⟩, fun _ => rfl⟩
  | bad => exact ⟨(fun q => nomatch q), fun q => q.1.elim⟩
  | checks gs =>
    obtain ⟨r1, r2, r3⟩ := rule_groups (by omega) hl hr
    show gs.foldl (fun a g => a && checkGroup parts x g) (fitsAll (10 * a + b) parts) = true ↔ _
    rw [foldl_and, fitsAll_spec r1 hl r2]
    have group : (∀ p ∈ parts, p.length ≤ if 10 * a + b = 12 then 13 else 12) → ∀ g ∈ gs,
        (checkGroup parts x g = true ↔ Passes (together parts g) ∧ (2 ≤ g.length → weighted (together parts g).dropLast % 11 ≠ 0)) := by
      intro hf g hg
      have h13 : ∀ p ∈ parts, p.length ≤ 13 := fun p hp => by have := hf p hp; split at this <;> omega
      rcases r3 g hg with ⟨k, hk, rfl⟩ | ⟨k, hk, rfl⟩ | q
      · have hm := getD_mem hk
        have ⟨hn, hdd⟩ := hd _ hm
        show check11 (parts.getD k []) = true ↔ _
        rw [check11_spec hdd hn (by have := h13 _ hm; omega), decide_eq_true_eq]
        have e : together parts [k] = parts.getD k [] := by simp [together]
        rw [e]
        exact ⟨fun q => ⟨q, fun q => absurd q (by simp)⟩, fun q => q.1⟩
      · have hm := getD_mem (show k < parts.length by omega)
        have hm' := getD_mem hk
        have ⟨_, hdd⟩ := hd _ hm
        have ⟨hn, hdd'⟩ := hd _ hm'
        show check11of2 (parts.getD k []) (parts.getD (k + 1) []) = true ↔ _
        have h12 : 10 * a + b ≠ 12 := fun c => by have := r2 c; omega
        have l1 := hf _ hm
        have l2 := hf _ hm'
        rw [if_neg h12] at l1 l2
        rw [check11of2_spec hdd hdd' hn (by omega), decide_eq_true_eq]
        have e : together parts [k, k + 1] = parts.getD k [] ++ parts.getD (k + 1) [] := by simp [together]
        rw [e]
        exact ⟨fun q => ⟨q.1, fun _ => q.2⟩, fun q => ⟨q.1, q.2 (by simp)⟩⟩
      · exact absurd q h3
    constructor
    · rintro ⟨⟨f1, f2⟩, c⟩
      exact ⟨⟨f1, f2, fun g hg => ((group f1 g hg).1 (c g hg)).1⟩, fun gs' e g hg => by cases e; exact ((group f1 g hg).1 (c g hg)).2⟩
    · rintro ⟨⟨f1, f2, c⟩, c'⟩
      exact ⟨⟨f1, f2⟩, fun g hg => (group f1 g hg).2 ⟨c g hg, c' gs rfl g hg⟩⟩

theorem partLoop_spec {v : Env} {t : List Int} (h : v.Ok t) {j : Nat} : ∀ (n i fuel : Nat), j = i + n → DigitsAt t i j → i ≤ t.length → n < fuel → partLoop v fuel i = some j := by
  intro n
  induction n with
  | zero =>
    intro i fuel hj hd hi hf
    cases fuel with
    | zero => omega
    | succ fuel =>
      rw [partLoop, cond_eq h.valid (by rw [← h.text]; exact hi), ← h.text]
      have hj : j = i := hj
      subst hj
      cases ht : t[j]? with
      | none => rfl
      | some c => exact if_neg (hd.2.2 c ht)
  | succ n ih =>
    intro i fuel hj hd hi hf
    cases fuel with
    | zero => omega
    | succ fuel =>
      rw [partLoop, cond_eq h.valid (by rw [← h.text]; exact hi), ← h.text]
      obtain ⟨c, e, hc⟩ := hd.2.1 i (Nat.le_refl _) (by omega)
      rw [e]
      refine (if_pos hc).trans ?_
      exact ih (i + 1) fuel (by omega) ⟨by omega, fun k a b => hd.2.1 k (by omega) b, hd.2.2⟩ (lt_of_get e) (by omega)

theorem digitsAt_le {t : List Int} {i j : Nat} (h : DigitsAt t i j) (hi : i ≤ t.length) : j ≤ t.length := by
  by_cases c : i = j
  · omega
  · obtain ⟨_, e, _⟩ := h.2.1 (j - 1) (by have := h.1; omega) (by have := h.1; omega)
    have := lt_of_get e; omega

theorem siPart_spec {v : Env} {t : List Int} (h : v.Ok t) {i j : Nat} (hi : i ≤ t.length) (hd : DigitsAt t i j) : siPart v i = if i < j then some (some (i, j)) else some none := by
  unfold siPart
  have hl : t.length ≤ v.s.length := by rw [h.text]; exact text_length_le _ _
  have hle := digitsAt_le hd hi
  rw [partLoop_spec h (j - i) i _ (by have := hd.1; omega) hd hi (by omega)]

theorem digits_exists (t : List Int) : ∀ (n i : Nat), t.length - i ≤ n → ∃ j, DigitsAt t i j := by
  intro n
  induction n with
  | zero => intro i hn; exact ⟨i, Nat.le_refl _, fun k a b => absurd b (by omega), fun c hc => by have := lt_of_get hc; omega⟩
  | succ n ih =>
    intro i hn
    by_cases c : ∃ c, t[i]? = some c ∧ 48 ≤ c ∧ c ≤ 57
    · obtain ⟨j, q1, q2, q3⟩ := ih (i + 1) (by omega)
      refine ⟨j, by omega, fun k a b => ?_, q3⟩
      by_cases e : k = i
      · exact e ▸ c
      · exact q2 k (by omega) b
    · exact ⟨i, Nat.le_refl _, fun k a b => absurd b (by omega), fun x hx q => c ⟨x, hx, q⟩⟩

theorem siDelimiter_spec {v : Env} {t : List Int} (h : v.Ok t) {i : Nat} (hi : i ≤ t.length) : siDelimiter v i = some (if t[i]? = some 45 then some (i + 1) else none) := by
  unfold siDelimiter
  rw [cond_eq h.valid (by rw [← h.text]; exact hi), ← h.text]
  cases ht : t[i]? with
  | none => rfl
  | some c =>
    dsimp only
    by_cases q : c = 45
    · rw [if_pos q, if_pos (by rw [q])]
    · rw [if_neg q, if_neg (fun e => q (by injection e))]

/-- The parts that are written are found. -/
theorem siParts_spec {v : Env} {t : List Int} (h : v.Ok t) {k i : Nat} {ivs : List (Nat × Nat)} (p : PartsAt t k i ivs) : i ≤ t.length → siParts v k i = some ivs := by
  induction p with
  | limit i => intro _; rfl
  | @none k i hd =>
    intro hi
    cases k with
    | zero => rfl
    | succ k =>
      rw [siParts, siPart_spec h hi hd, if_neg (by omega)]
  | @last k i j hij hd hk =>
    intro hi
    rw [siParts, siPart_spec h hi hd, if_pos hij]
    cases k with
    | zero => rfl
    | succ k =>
      dsimp only
      rw [siDelimiter_spec h (digitsAt_le hd hi), if_neg (hk.resolve_left (by omega))]
  | @more k i j r hij hd hk ht hr ih =>
    intro hi
    rw [siParts, siPart_spec h hi hd, if_pos hij]
    cases k with
    | zero => exact absurd rfl hk
    | succ k =>
      dsimp only
      rw [siDelimiter_spec h (digitsAt_le hd hi), if_pos ht]
      dsimp only
      rw [ih (lt_of_get ht)]
      rfl

theorem parts_exist (t : List Int) : ∀ k i : Nat, ∃ ivs, PartsAt t k i ivs := by
  intro k
  induction k with
  | zero => intro i; exact ⟨[], .limit i⟩
  | succ k ih =>
    intro i
    obtain ⟨j, hj⟩ := digits_exists t _ i (Nat.le_refl _)
    by_cases c : i < j
    · by_cases c2 : k = 0 ∨ t[j]? ≠ some 45
      · exact ⟨_, .last c hj c2⟩
      · obtain ⟨r, hr⟩ := ih (j + 1)
        exact ⟨_, .more c hj (fun q => c2 (.inl q)) (Classical.byContradiction fun q => c2 (.inr q)) hr⟩
    · have : i = j := by have := hj.1; omega
      exact ⟨[], .none (this ▸ hj)⟩

/-- What the parts are made of. -/
theorem parts_digits {t : List Int} {k i : Nat} {ivs : List (Nat × Nat)} (p : PartsAt t k i ivs) :
    ivs.length ≤ k ∧ ∀ q ∈ ivs, i ≤ q.1 ∧ q.1 < q.2 ∧ q.2 ≤ t.length ∧ DigitsAt t q.1 q.2 := by
  have one : ∀ {i j : Nat}, i < j → DigitsAt t i j → j ≤ t.length := by
    intro i j hij hd
    obtain ⟨_, e, _⟩ := hd.2.1 (j - 1) (by omega) (by omega)
    have := lt_of_get e; omega
  induction p with
  | limit i => exact ⟨Nat.le_refl _, fun q hq => nomatch hq⟩
  | none => exact ⟨Nat.zero_le _, fun q hq => nomatch hq⟩
  | last hij hd hk =>
    refine ⟨by simp, fun q hq => ?_⟩
    rw [List.mem_singleton.1 hq]
    exact ⟨Nat.le_refl _, hij, one hij hd, hd⟩
  | more hij hd hk ht hr ih =>
    refine ⟨by rw [List.length_cons]; have := ih.1; omega, fun q hq => ?_⟩
    rcases List.mem_cons.1 hq with rfl | hq
    · exact ⟨Nat.le_refl _, hij, one hij hd, hd⟩
    · have ⟨a, b⟩ := ih.2 q hq
      exact ⟨by omega, b⟩

theorem slice_digits {t : List Int} {q : Nat × Nat} (h1 : q.1 < q.2) (h2 : q.2 ≤ t.length) (hd : DigitsAt t q.1 q.2) : slice t q ≠ [] ∧ ∀ c ∈ slice t q, Dec c := by
  unfold slice
  constructor
  · intro e
    have := congrArg List.length e
    rw [List.length_take, List.length_drop, List.length_nil] at this
    omega
  · intro c hc
    obtain ⟨m, hm⟩ := List.getElem?_of_mem hc
    have hlt : m < q.2 - q.1 := by
      have := lt_of_get hm
      rw [List.length_take] at this; omega
    rw [List.getElem?_take_of_lt hlt, List.getElem?_drop] at hm
    obtain ⟨c', e, hc'⟩ := hd.2.1 (q.1 + m) (by omega) (by omega)
    rw [hm] at e; cases e
    exact hc'

theorem slice_text {v : Env} {t : List Int} (h : v.Ok t) {q : Nat × Nat} (h2 : q.2 ≤ t.length) : slice v.s q = slice t q := by
  have hp : t <+: v.s := by
    rw [h.text]; unfold text
    cases v.fin with
    | none => exact List.takeWhile_prefix _
    | some n => exact (List.takeWhile_prefix _).trans (List.take_prefix _ _)
  obtain ⟨u, hu⟩ := hp
  unfold slice
  rw [← hu]
  by_cases c : q.1 ≤ t.length
  · rw [List.drop_append_of_le_length c, List.take_append_of_le_length (by rw [List.length_drop]; omega)]
  · rw [show q.2 - q.1 = 0 by omega]; rfl

/-- The character that is compared by mistake is in the text. -/
theorem stray_inside {t : List Int} {k i : Nat} {ivs : List (Nat × Nat)} (p : PartsAt t k i ivs) (hl : ivs.length = 3) : strayIndex ivs < t.length := by
  have key : ∀ {k i : Nat} {q r : Nat × Nat}, PartsAt t k i [q, r] → q.2 < r.1 := by
    intro k i q r p
    cases p with
    | more hij hd hk ht hr => have := (parts_digits hr).2 r (List.mem_singleton.2 rfl); show _ < r.1; omega
  match ivs, hl with
  | [p1, q, r], _ =>
    have a := (parts_digits p).2 q (by simp)
    have b := (parts_digits p).2 r (by simp)
    have c : q.2 < r.1 := by
      cases p with
      | more hij hd hk ht hr => exact key hr
    show q.1 + (r.2 - r.1) - 1 < t.length
    omega

/-- SI and two digits. -/
structure SiAt (t : List Int) (up : Int → Int) (i : Nat) (d0 d1 : Int) : Prop where
  letter0 : ∃ c, t[i]? = some c ∧ up c = 83
  letter1 : ∃ c, t[i + 1]? = some c ∧ up c = 73
  digit0 : t[i + 2]? = some d0 ∧ 48 ≤ d0 ∧ d0 ≤ 57
  digit1 : t[i + 3]? = some d1 ∧ 48 ≤ d1 ∧ d1 ≤ 57

/-- Where a reference ends: after the last part, or after the model. -/
def siEnd (i : Nat) (ivs : List (Nat × Nat)) : Nat := (ivs.map (·.2)).getLastD (i + 4)

theorem siEnd_eq (i : Nat) (ivs : List (Nat × Nat)) : (match ivs.getLast? with | some p => p.2 | none => i + 4) = siEnd i ivs := by
  unfold siEnd
  rw [List.getLastD_eq_getLast?, List.getLast?_map]
  cases ivs.getLast? <;> rfl

/-- A run of the code, by whether a reference starts. -/
theorem siRef_run {v : Env} {t : List Int} (h : v.Ok t) {upper : Int → Int} (hu : upper 0 = 0) {space : Sub} (i : Nat) (hi : i ≤ t.length) (old : SiRef) :
    (∃ d0 d1, SiAt t (upCase v upper) i d0 d1 ∧ siRef v upper space i old = match (if d0 = 57 ∧ d1 = 57 then some (some ⟨[d0, d1], [], true, some (i, i + 4)⟩)
      else match siParts v 3 ((space (i + 4)).getD (i + 4)) with
        | none => none
        | some ivs => some (some ⟨[d0, d1], ivs, siValid d0 d1 (ivs.map (slice v.s)) (v.s.getD (strayIndex ivs) 0), some (i, siEnd i ivs)⟩) : Option (Option SiRef)) with
        | none => none
        | some none => some (false, ⟨[], [], false, none⟩)
        | some (some x) => some (true, x)) ∨
    ((∀ d0 d1, ¬ SiAt t (upCase v upper) i d0 d1) ∧ siRef v upper space i old = some (false, ⟨[], [], false, none⟩)) := by
  unfold siRef
  by_cases cb : below v.fin (i + 1)
  rotate_left
  · rw [if_neg cb]
    refine .inr ⟨fun d0 d1 q => ?_, rfl⟩
    obtain ⟨c, q1, _⟩ := q.letter1
    exact cb (below_of_lt h (lt_of_get q1))
  rw [if_pos cb]
  have cb0 : below v.fin i = true := by
    unfold below at cb ⊢
    cases hf : v.fin with
    | none => rfl
    | some n => rw [hf] at cb; simp at cb ⊢; omega
  obtain ⟨r0, a1, a2⟩ := idAt_spec h hu hi cb0 (x := 83) (by decide)
  rw [a1]
  cases r0 with
  | false => exact .inr ⟨(fun d0 d1 q => nomatch a2.2 q.letter0), rfl⟩
  | true =>
  dsimp only
  obtain ⟨x0, b1, b2⟩ := a2.1 rfl
  obtain ⟨r1, a3, a4⟩ := idAt_spec h hu (e := i + 1) (lt_of_get b1) cb (x := 73) (by decide)
  rw [a3]
  cases r1 with
  | false => exact .inr ⟨(fun d0 d1 q => nomatch a4.2 q.letter1), rfl⟩
  | true =>
  dsimp only
  obtain ⟨x1, b3, b4⟩ := a4.1 rfl
  unfold siTail
  rcases checkAt_spec h (lt_of_get b3) with ⟨d0, e1, e2, e3, e4⟩ | ⟨e1, e2⟩
  rotate_left
  · rw [e2]
    exact .inr ⟨fun d0 d1 q => e1 _ q.digit0.1 q.digit0.2, rfl⟩
  rw [e4]; dsimp only [andThen]
  rcases checkAt_spec h (lt_of_get e1) with ⟨d1, f1, f2, f3, f4⟩ | ⟨f1, f2⟩
  rotate_left
  · rw [f2]
    exact .inr ⟨fun d0 d1 q => f1 _ q.digit1.1 q.digit1.2, rfl⟩
  rw [f4]; dsimp only [andThen]
  refine .inl ⟨d0, d1, ⟨⟨x0, b1, b2⟩, ⟨x1, b3, b4⟩, ⟨e1, e2, e3⟩, ⟨f1, f2, f3⟩⟩, ?_⟩
  simp only [siEnd_eq]

theorem siAt_unique {t : List Int} {up : Int → Int} {i : Nat} {d0 d1 e0 e1 : Int} (a : SiAt t up i d0 d1) (b : SiAt t up i e0 e1) : d0 = e0 ∧ d1 = e1 := by
  have x := a.digit0.1
  have y := a.digit1.1
  rw [b.digit0.1] at x
  rw [b.digit1.1] at y
  cases x; cases y
  exact ⟨rfl, rfl⟩

/-- **C78** (partial) A match is SI, two digits (`model`), a blank and up to three numbers with '-' in between; model 99 takes no numbers. `is_valid` tells whether the parts
have the number and the lengths that the model requires and the check digits are right, unless model 01 has three parts or the weighted sum over two parts is divisible
by 11: then the latter is always refused, see `siRef_refuses`, and the former depends on an unrelated digit, see `siRef_stray`. Otherwise nothing matches. -/
theorem siRef_partial {v : Env} {t : List Int} (h : v.Ok t) {upper : Int → Int} (hu : upper 0 = 0) {space : Sub} (hs : Takes t.length space) {i : Nat} (hi : i ≤ t.length) (old : SiRef) :
    (∀ d0 d1, SiAt t (upCase v upper) i d0 d1 → modelNumber d0 d1 = 99 → siRef v upper space i old = some (true, ⟨[d0, d1], [], true, some (i, i + 4)⟩)) ∧
    (∀ d0 d1, SiAt t (upCase v upper) i d0 d1 → modelNumber d0 d1 ≠ 99 → ∃ ivs ok, PartsAt t 3 ((space (i + 4)).getD (i + 4)) ivs ∧
      siRef v upper space i old = some (true, ⟨[d0, d1], ivs, ok, some (i, siEnd i ivs)⟩) ∧
      (¬ (modelNumber d0 d1 = 1 ∧ ivs.length = 3) →
        (ok = true → RefValid (modelNumber d0 d1) (ivs.map (slice t))) ∧
        (RefValid (modelNumber d0 d1) (ivs.map (slice t)) →
          (∀ gs, rule (modelNumber d0 d1) ivs.length = .checks gs → ∀ g ∈ gs, 2 ≤ g.length → weighted (together (ivs.map (slice t)) g).dropLast % 11 ≠ 0) → ok = true))) ∧
    ((∀ d0 d1, ¬ SiAt t (upCase v upper) i d0 d1) → siRef v upper space i old = some (false, ⟨[], [], false, none⟩)) := by
  rcases siRef_run h hu (space := space) i hi old with ⟨d0, d1, p, q⟩ | ⟨p, q⟩
  rotate_left
  · exact ⟨fun d0 d1 a => absurd a (p d0 d1), fun d0 d1 a => absurd a (p d0 d1), fun _ => q⟩
  have hd0 := p.digit0.2
  have hd1 := p.digit1.2
  have m99 : modelNumber d0 d1 = 99 ↔ d0 = 57 ∧ d1 = 57 := by unfold modelNumber; omega
  refine ⟨fun e0 e1 p' m => ?_, fun e0 e1 p' m => ?_, fun n => absurd p (n _ _)⟩
  · obtain ⟨rfl, rfl⟩ := siAt_unique p p'
    rw [q, if_pos (m99.1 m)]
  · obtain ⟨rfl, rfl⟩ := siAt_unique p p'
    rw [if_neg (fun c => m (m99.2 c))] at q
    have hi4 : i + 4 ≤ t.length := lt_of_get p.digit1.1
    obtain ⟨ivs, hp⟩ := parts_exist t 3 ((space (i + 4)).getD (i + 4))
    rw [siParts_spec h hp (space_le hs hi4).1] at q
    refine ⟨ivs, _, hp, q, fun h3 => ?_⟩
    have ⟨pl, pd⟩ := parts_digits hp
    have esl : ivs.map (slice v.s) = ivs.map (slice t) := List.map_congr_left fun x hx => slice_text h (pd x hx).2.2.1
    obtain ⟨a, ha⟩ : ∃ a : Nat, d0 = 48 + (a : Int) := ⟨(d0 - 48).toNat, by omega⟩
    obtain ⟨b, hb⟩ : ∃ b : Nat, d1 = 48 + (b : Int) := ⟨(d1 - 48).toNat, by omega⟩
    have em : modelNumber d0 d1 = 10 * a + b := by unfold modelNumber; omega
    rw [em] at h3 ⊢
    rw [esl, ha, hb]
    have key := siValid_spec (a := a) (b := b) (by omega) (by omega) (parts := ivs.map (slice t)) (by rw [List.length_map]; exact pl)
      (by
        intro x hx
        obtain ⟨y, hy, rfl⟩ := List.mem_map.1 hx
        exact slice_digits (pd y hy).2.1 (pd y hy).2.2.1 (pd y hy).2.2.2)
      (v.s.getD (strayIndex ivs) 0) (by rw [List.length_map]; exact h3)
    rw [List.length_map] at key
    exact ⟨fun q => (key.1 q).1, fun q r => key.2 ⟨q, r⟩⟩

/-- The parts are determined. -/
theorem parts_unique {v : Env} {t : List Int} (h : v.Ok t) {k i : Nat} (hi : i ≤ t.length) {a b : List (Nat × Nat)} (ha : PartsAt t k i a) (hb : PartsAt t k i b) : a = b := by
  have := siParts_spec h ha hi
  rw [siParts_spec h hb hi] at this
  injection this with this
  exact this.symm

/-- What C78 lacks: a reference whose parts are to be checked together, with a weighted sum divisible by 11, is refused although it is valid. -/
theorem siRef_refuses {v : Env} {t : List Int} (h : v.Ok t) {upper : Int → Int} (hu : upper 0 = 0) {space : Sub} (hs : Takes t.length space) {i : Nat} (hi : i ≤ t.length) (old : SiRef)
    {d0 d1 : Int} (p : SiAt t (upCase v upper) i d0 d1) {ivs : List (Nat × Nat)} (hp : PartsAt t 3 ((space (i + 4)).getD (i + 4)) ivs)
    (h3 : ¬ (modelNumber d0 d1 = 1 ∧ ivs.length = 3)) {gs : List (List Nat)} (hg : rule (modelNumber d0 d1) ivs.length = .checks gs)
    (hz : ∃ g ∈ gs, 2 ≤ g.length ∧ weighted (together (ivs.map (slice t)) g).dropLast % 11 = 0) :
    siRef v upper space i old = some (true, ⟨[d0, d1], ivs, false, some (i, siEnd i ivs)⟩) := by
  rcases siRef_run h hu (space := space) i hi old with ⟨e0, e1, p', q⟩ | ⟨p', q⟩
  rotate_left
  · exact absurd p (p' _ _)
  obtain ⟨rfl, rfl⟩ := siAt_unique p p'
  have hd0 := p.digit0.2
  have hd1 := p.digit1.2
  rw [if_neg (by
    rintro ⟨rfl, rfl⟩
    rw [show modelNumber 57 57 = 99 from rfl] at hg
    have : ∀ n, rule 99 n = .unknown := fun n => rfl
    rw [this] at hg; cases hg)] at q
  have hi4 : i + 4 ≤ t.length := lt_of_get p.digit1.1
  rw [siParts_spec h hp (space_le hs hi4).1] at q
  rw [q]
  have ⟨pl, pd⟩ := parts_digits hp
  have esl : ivs.map (slice v.s) = ivs.map (slice t) := List.map_congr_left fun x hx => slice_text h (pd x hx).2.2.1
  obtain ⟨a, ha⟩ : ∃ a : Nat, d0 = 48 + (a : Int) := ⟨(d0 - 48).toNat, by omega⟩
  obtain ⟨b, hb⟩ : ∃ b : Nat, d1 = 48 + (b : Int) := ⟨(d1 - 48).toNat, by omega⟩
  have em : modelNumber d0 d1 = 10 * a + b := by unfold modelNumber; omega
  rw [em] at h3 hg
  have key := siValid_spec (a := a) (b := b) (by omega) (by omega) (parts := ivs.map (slice t)) (by rw [List.length_map]; exact pl)
    (by
      intro x hx
      obtain ⟨y, hy, rfl⟩ := List.mem_map.1 hx
      exact slice_digits (pd y hy).2.1 (pd y hy).2.2.1 (pd y hy).2.2.2)
    (v.s.getD (strayIndex ivs) 0) (by rw [List.length_map]; exact h3)
  rw [List.length_map] at key
  rw [← ha, ← hb] at key
  have : siValid d0 d1 (ivs.map (slice v.s)) (v.s.getD (strayIndex ivs) 0) = false := by
    rw [esl]
    cases hv : siValid d0 d1 (ivs.map (slice t)) (v.s.getD (strayIndex ivs) 0) with
    | false => rfl
    | true =>
      obtain ⟨g, g1, g2, g3⟩ := hz
      exact absurd g3 ((key.1 hv).2 gs hg g g1 g2)
  dsimp only
  rw [this]

/-- A text that starts with SI, the model, and a space. -/
def siText (model rest : List Int) : List Int := [83, 73] ++ model ++ [32] ++ rest

/-- Model 01 with three parts: `SI01 1-2-4` is valid, and `SI01 9-2-0` is not, but the code tells the opposite, as it compares the control digit with a digit of the second part. -/
theorem siRef_stray :
    (RefValid 1 [[49], [50], [52]] ∧ siRef (ipEnv (siText [48, 49] [49, 45, 50, 45, 52])) id (charSub (siText [48, 49] [49, 45, 50, 45, 52]) 32) 0 ⟨[], [], false, none⟩ =
      some (true, ⟨[48, 49], [(5, 6), (7, 8), (9, 10)], false, some (0, 10)⟩)) ∧
    (¬ RefValid 1 [[57], [50], [48]] ∧ siRef (ipEnv (siText [48, 49] [57, 45, 50, 45, 48])) id (charSub (siText [48, 49] [57, 45, 50, 45, 48]) 32) 0 ⟨[], [], false, none⟩ =
      some (true, ⟨[48, 49], [(5, 6), (7, 8), (9, 10)], true, some (0, 10)⟩)) := by
  refine ⟨⟨⟨by decide, by decide, by decide⟩, by decide +kernel⟩, ⟨fun q => ?_, by decide +kernel⟩⟩
  have q : _ ∧ _ ∧ _ := q
  exact absurd (q.2.2 [0, 1, 2] (by simp)) (by decide)

/-- `SI12 1234567890120` -/
example : (ipEnv (siText [49, 50] [49, 50, 51, 52, 53, 54, 55, 56, 57, 48, 49, 50, 48])).Ok (siText [49, 50] [49, 50, 51, 52, 53, 54, 55, 56, 57, 48, 49, 50, 48]) ∧
    RefValid 12 [[49, 50, 51, 52, 53, 54, 55, 56, 57, 48, 49, 50, 48]] ∧
    siRef (ipEnv (siText [49, 50] [49, 50, 51, 52, 53, 54, 55, 56, 57, 48, 49, 50, 48])) id (charSub (siText [49, 50] [49, 50, 51, 52, 53, 54, 55, 56, 57, 48, 49, 50, 48]) 32) 0 ⟨[], [], false, none⟩ =
      some (true, ⟨[49, 50], [(5, 18)], true, some (0, 18)⟩) :=
  ⟨⟨.inl (by decide), by decide, (fun n q => nomatch q), fun _ => Iff.rfl⟩, ⟨by decide, by decide, by decide⟩, by decide +kernel⟩

end Verif.Parser
