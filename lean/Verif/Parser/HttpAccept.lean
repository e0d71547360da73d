import Verif.Parser.HttpValues
import Verif.Parser.HttpLang
/-
Lists of weighted values from end to end (include/stdex/parser.hpp 6383-6605, 7152-7197), as in `Accept-Language` and `Accept-Encoding`: what is written is read, the most wanted first.
-/
namespace Verif.Parser
open Verif.Str Verif.Sgml Verif.Html

/-! ### The writer -/

/-- A value, or `*`; and its factor: digits, which may have a fraction -/
structure Choice where
  value : Option (List Int)
  factor : Option (List Int × Option (List Int))

def Choice.text (c : Choice) : List Int :=
  c.value.getD (asc "*") ++ match c.factor with
    | none => []
    | some (a, none) => asc ";q=" ++ a
    | some (a, some b) => asc ";q=" ++ a ++ asc "." ++ b

def writeMore : List Choice → List Int
  | [] => []
  | c :: r => asc ", " ++ c.text ++ writeMore r

def writeChoices : List Choice → List Int
  | [] => []
  | c :: r => c.text ++ writeMore r

/-! ### The reader -/

/-- A new `http_weighted_value`, with its end, as `http_value_collection::insert` 7171-7177 uses it -/
def choiceAt (v : Env) (val : Nat → Option (Option Nat)) (i : Nat) : Option (Option (Weighted × Nat)) :=
  (weightedValue v (asterisk v) val (none, oneWeight) i).map fun r => if r.1 then some (r.2, (r.2.interval.map Prod.snd).getD 0) else none

/-- `http_weighted_collection::insert`: the most wanted first; `le x y`: `y` is wanted as much as `x`, or more -/
def readChoices (v : Env) (val : Nat → Option (Option Nat)) (le : Weight → Weight → Prop) [DecidableRel le] (i : Nat) : Option (List Weighted) :=
  collect v (choiceAt v val) (insertBy le fun x => x.factor.2) (fuelOf v) i []

/-- `http_language` as a value -/
def langVal (v : Env) (i : Nat) : Option (Option Nat) := (language v i).map fun r => r.2.2.map Prod.snd

/-! ### Specification -/

/-- The number that was written: before the point, after it, and with as many tens. -/
def Choice.weight (c : Choice) : Weight :=
  match c.factor with
  | none => ⟨1, 0, 1⟩
  | some (a, none) => ⟨decimal a, 0, 1⟩
  | some (a, some b) => ⟨decimal a, decimal b, 10 ^ b.length⟩

def Digits (d : List Int) : Prop := (∀ c ∈ d, Decimal c) ∧ d.length ≤ 19

/-- Factors have at most 19 digits, and one where there is no point. -/
def Choice.FactorOk (c : Choice) : Prop := ∀ a b, c.factor = some (a, b) → Digits a ∧ (b = none → a ≠ []) ∧ ∀ d, b = some d → Digits d

/-- What `val` reads where it is written before a semicolon, a comma or the end: values that begin with no white space, asterisk or comma. -/
structure Values (t : List Int) (val : Nat → Option (Option Nat)) (P : List Int → Prop) : Prop where
  reads : ∀ pre w post, P w → t = pre ++ w ++ post → (∀ c, post.head? = some c → c = 44 ∨ c = 59) → val pre.length = some (some (pre.length + w.length))
  head : ∀ w, P w → ∃ c, w.head? = some c ∧ 32 < c ∧ c ≠ 42 ∧ c ≠ 44
  fin : val t.length = some none

/-! ### Proof -/

theorem white_run {t pre post : List Int} (ht : t = pre ++ post) (hp : ∀ c, post.head? = some c → 32 < c) : RunAt White t pre.length pre.length :=
  run_of (w := []) (post := post) (by rw [ht, List.append_nil]) (fun c hc => nomatch hc) (fun c hc => by have := hp c hc; unfold White; omega)

theorem scan_white {v : Env} {t pre post : List Int} (h : v.Ok t) (ht : t = pre ++ post) (hp : ∀ c, post.head? = some c → 32 < c) : scan v isspace (fuelOf v) pre.length = some pre.length := by
  obtain ⟨e, e1, e2, -⟩ := ws_to h (i := pre.length) (by rw [ht, List.length_append]; omega)
  rw [e1, runAt_one e2 (white_run ht hp)]

theorem scan_space {v : Env} {t pre post : List Int} (h : v.Ok t) (ht : t = pre ++ 32 :: post) (hp : ∀ c, post.head? = some c → 32 < c) : scan v isspace (fuelOf v) pre.length = some (pre.length + 1) := by
  obtain ⟨e, e1, e2, -⟩ := ws_to h (i := pre.length) (by rw [ht, List.length_append]; omega)
  have : RunAt White t pre.length (pre.length + [(32 : Int)].length) := run_of (w := [32]) (post := post) (by rw [ht]; simp) (fun c hc => by rw [List.mem_singleton.1 hc]; exact .inl rfl)
    (fun c hc => by have := hp c hc; unfold White; omega)
  rw [e1, runAt_one e2 this]
  rfl

theorem has_yes {v : Env} {t pre post : List Int} (h : v.Ok t) (ht : t = pre ++ post) {c : Int} (hc : post.head? = some c) : hasChar v c pre.length = some true := by
  rw [hasChar_eq h (by rw [ht, List.length_append]; omega), at_end ht]
  exact congrArg some (decide_eq_true hc)

theorem has_no {v : Env} {t pre post : List Int} (h : v.Ok t) (ht : t = pre ++ post) {c : Int} (hc : post.head? ≠ some c) : hasChar v c pre.length = some false := by
  rw [hasChar_eq h (by rw [ht, List.length_append]; omega), at_end ht]
  exact congrArg some (decide_eq_false hc)

theorem decimal_dark {c : Int} (h : Decimal c) : 32 < c := by unfold Decimal at h; omega

/-- A fraction as text -/
def fracText : Option (List Int) → List Int
  | none => []
  | some d => 46 :: d

theorem weight_at {t pre post a : List Int} {b : Option (List Int)} (ht : t = pre ++ (a ++ fracText b) ++ post) (hp : ∀ c, post.head? = some c → c = 44)
    (ha : Digits a) (h0 : b = none → a ≠ []) (hb : ∀ d, b = some d → Digits d) :
    WeightAt t pre.length (pre.length + (a ++ fracText b).length) (match b with | none => ⟨decimal a, 0, 1⟩ | some d => ⟨decimal a, decimal d, 10 ^ d.length⟩) ∧
      ShortWeight t pre.length := by
  have nd : ∀ c, post.head? = some c → ¬ Decimal c := fun c hc => by rw [hp c hc]; unfold Decimal; omega
  cases b with
  | none =>
    dsimp only [fracText] at ht ⊢
    rw [List.append_nil] at ht ⊢
    have r : RunAt Decimal t pre.length (pre.length + a.length) := run_of ht ha.1 nd
    have n46 : t[pre.length + a.length]? ≠ some 46 := by
      have := at_end (t := t) (pre := pre ++ a) (post := post) ht
      rw [List.length_append] at this
      rw [this]
      exact fun q => absurd (hp _ q) (by decide)
    have g := textAt_mid ht
    unfold textAt at g
    dsimp only at g
    refine ⟨?_, fun e he => ?_⟩
    · have := WeightAt.whole r (by have := List.length_pos_iff.2 (h0 rfl); omega) n46
      rwa [g] at this
    · have := runAt_one he r; subst this
      exact ⟨by have := ha.2; omega, fun f q => absurd q n46⟩
  | some d =>
    dsimp only [fracText] at ht ⊢
    have ht1 : t = pre ++ a ++ (46 :: d ++ post) := by rw [ht]; simp only [List.append_assoc]
    have ht2 : t = (pre ++ a ++ [46]) ++ d ++ post := by rw [ht]; simp only [List.append_assoc, List.cons_append, List.nil_append]
    have r : RunAt Decimal t pre.length (pre.length + a.length) := run_of ht1 ha.1 (fun c hc => by
      have : (46 : Int) = c := Option.some.inj hc
      rw [← this]; unfold Decimal; omega)
    have q : t[pre.length + a.length]? = some 46 := by
      have := at_end (t := t) (pre := pre ++ a) ht1
      rwa [List.length_append] at this
    have l : (pre ++ a ++ [46]).length = pre.length + a.length + 1 := by rw [List.length_append, List.length_append]; rfl
    have f : RunAt Decimal t (pre.length + a.length + 1) (pre.length + a.length + 1 + d.length) := by
      have := run_of ht2 (hb d rfl).1 nd
      rwa [l] at this
    have g := textAt_mid ht1
    have g2 := textAt_mid ht2
    rw [l] at g2
    unfold textAt at g g2
    dsimp only at g g2
    refine ⟨?_, fun e he => ?_⟩
    · have := WeightAt.part r q f
      rw [g, g2, show pre.length + a.length + 1 + d.length - (pre.length + a.length + 1) = d.length from by omega] at this
      have e : pre.length + (a ++ 46 :: d).length = pre.length + a.length + 1 + d.length := by rw [List.length_append, List.length_cons]; omega
      rw [e]
      exact this
    · have := runAt_one he r; subst this
      refine ⟨by have := ha.2; omega, fun f' _ hf => ?_⟩
      have := runAt_one hf f; subst this
      have := (hb d rfl).2
      omega

/-- The factor as text -/
def factorText (c : Choice) : List Int :=
  match c.factor with
  | none => []
  | some (a, b) => [59, 113, 61] ++ (a ++ fracText b)

theorem choice_text (c : Choice) : c.text = c.value.getD [42] ++ factorText c := by
  obtain ⟨w, f⟩ := c
  unfold Choice.text factorText
  rw [show asc "*" = [42] from by decide +kernel, show asc ";q=" = [59, 113, 61] from by decide +kernel, show asc "." = [46] from by decide +kernel]
  rcases f with _ | ⟨a, _ | b⟩
  · rfl
  · dsimp only [fracText]; rw [List.append_nil]
  · dsimp only [fracText]; simp only [List.append_assoc, List.cons_append, List.nil_append]

theorem factor_at {v : Env} {t pre post : List Int} (h : v.Ok t) {c : Choice} (hc : c.FactorOk) (ht : t = pre ++ factorText c ++ post) (hp : ∀ c, post.head? = some c → c = 44) (i : Nat) (mk : Iv × Weight → Iv → Weighted) :
    ∃ f, weightedEnd v (none, oneWeight) i pre.length mk = some (true, mk f (some (i, pre.length + (factorText c).length))) ∧ f.2 = c.weight := by
  obtain ⟨w, f⟩ := c
  have le : pre.length ≤ t.length := by rw [ht, List.length_append, List.length_append]; omega
  unfold weightedEnd
  rcases f with _ | ⟨a, b⟩
  · have ht : t = pre ++ post := by rw [ht]; simp [factorText]
    refine ⟨(none, oneWeight), ?_, rfl⟩
    rcases factor_reads h le (none, oneWeight) with ⟨q, x, ⟨s, _, _, _, x1, x2, -⟩, -⟩ | ⟨n, e, x⟩
    · exfalso
      rw [runAt_one x1 (white_run ht fun c hc => by rw [hp c hc]; decide), at_end ht] at x2
      exact absurd (hp _ x2) (by decide)
    · rcases x with x | x
      · rw [x]; rfl
      · rw [x]; rfl
  · obtain ⟨k1, k2, k3⟩ := hc a b rfl
    obtain ⟨d, hd⟩ : ∃ d, d = (a ++ fracText b) := ⟨_, rfl⟩
    have e : factorText ⟨w, some (a, b)⟩ = [59, 113, 61] ++ d := by rw [hd]; rfl
    rw [e] at ht ⊢
    have t1 : t = pre ++ ([59] ++ ([113, 61] ++ d ++ post)) := by rw [ht]; simp only [List.append_assoc, List.cons_append, List.nil_append]
    have t2 : t = (pre ++ [59]) ++ ([113] ++ ([61] ++ d ++ post)) := by rw [ht]; simp only [List.append_assoc, List.cons_append, List.nil_append]
    have t3 : t = (pre ++ [59, 113]) ++ ([61] ++ (d ++ post)) := by rw [ht]; simp only [List.append_assoc, List.cons_append, List.nil_append]
    have t4 : t = (pre ++ [59, 113, 61]) ++ d ++ post := by rw [ht]; simp only [List.append_assoc]
    have l2 : (pre ++ [59]).length = pre.length + 1 := List.length_append
    have l3 : (pre ++ [59, 113]).length = pre.length + 2 := List.length_append
    have l4 : (pre ++ [59, 113, 61]).length = pre.length + 3 := List.length_append
    have one : ∀ {x c : Int}, some x = some c → 32 < x → 32 < c := fun h1 h2 => by rw [← Option.some.inj h1]; exact h2
    have w1 := white_run t1 fun c hc => one hc (by decide)
    have w2 := white_run t2 fun c hc => one hc (by decide)
    have w3 := white_run t3 fun c hc => one hc (by decide)
    have w4 := white_run (by rw [t4, List.append_assoc] : t = (pre ++ [59, 113, 61]) ++ (d ++ post)) fun c hc => by
      rw [List.head?_append] at hc
      cases hd' : d.head? with
      | none => rw [hd'] at hc; rw [hp c hc]; decide
      | some y =>
        rw [hd'] at hc
        have : y = c := Option.some.inj hc
        rw [← this]
        cases a with
        | cons z a => rw [hd] at hd'; rw [← Option.some.inj hd']; exact decimal_dark (k1.1 z List.mem_cons_self)
        | nil =>
          cases b with
          | none => exact absurd rfl (k2 rfl)
          | some b => rw [hd] at hd'; rw [← Option.some.inj hd']; decide
    have c1 := at_end t1
    have c2 := at_end t2
    have c3 := at_end t3
    rw [hd] at t4
    obtain ⟨g1, g2⟩ := weight_at t4 hp k1 k2 k3
    rw [← hd] at g1 t4
    rw [l2] at w2 c2; rw [l3] at w3 c3; rw [l4] at w4 g1 g2
    have full : pre.length + (([59, 113, 61] : List Int) ++ d).length = pre.length + 3 + d.length := by rw [List.length_append]; show pre.length + (3 + d.length) = _; omega
    rw [full]
    rcases factor_reads h le (none, oneWeight) with ⟨q, x, ⟨s1, s2, s3, s4, x1, x2, x3, x4, x5, x6, x7, x8, x9⟩, -, -, y⟩ | ⟨n, -⟩
    · cases runAt_one x1 w1
      cases runAt_one x3 w2
      cases runAt_one x5 w3
      cases runAt_one x7 w4
      obtain ⟨y1, y2⟩ := weightAt_one x9 g1
      rw [y]
      refine ⟨(some q, x.wrap), by rw [← y1], ?_⟩
      rw [weight_short g2 x9, y2]
      cases b <;> rfl
    · exact absurd ⟨_, _, _, _, w1, c1, w2, .inl c2, w3, c3, w4, rfl, g1⟩ (n (pre.length + 3, pre.length + 3 + d.length) _)

theorem choice_at {v : Env} {t m pre post : List Int} (h : v.Ok t) (hm : t <+: m) {val : Nat → Option (Option Nat)} {P : List Int → Prop} (hv : Values t val P) {c : Choice} (hc : c.FactorOk) (hw : ∀ w, c.value = some w → P w)
    (ht : t = pre ++ c.text ++ post) (hp : ∀ c, post.head? = some c → c = 44) :
    ∃ r, choiceAt v val pre.length = some (some (r, pre.length + c.text.length)) ∧ r.interval = some (pre.length, pre.length + c.text.length) ∧ r.value.map (textAt m) = c.value ∧ r.asterisk.isSome = c.value.isNone ∧ r.factor.2 = c.weight := by
  rw [choice_text] at ht ⊢
  have le : pre.length ≤ t.length := by rw [ht, List.length_append, List.length_append]; omega
  have t2 : t = (pre ++ c.value.getD [42]) ++ factorText c ++ post := by rw [ht]; simp only [List.append_assoc]
  have stop : ∀ x, (factorText c ++ post).head? = some x → x = 44 ∨ x = 59 := by
    intro x hx
    unfold factorText at hx
    split at hx
    · exact .inl (hp x hx)
    · exact .inr (Option.some.inj hx).symm
  have e : pre.length + (c.value.getD [42] ++ factorText c).length = (pre ++ c.value.getD [42]).length + (factorText c).length := by simp only [List.length_append]; omega
  rw [e]
  unfold choiceAt weightedValue
  cases hcv : c.value with
  | none =>
    rw [hcv] at ht t2
    obtain ⟨f, f1, f2⟩ := factor_at h hc t2 hp pre.length fun f q => ⟨some (pre.length, (pre ++ [(42 : Int)]).length), none, f, q⟩
    have a := at_end (t := t) (pre := pre) (post := 42 :: (factorText c ++ post)) (by rw [ht]; simp)
    have a : t[pre.length]? = some 42 := a
    rcases (asterisk_reads h).cases pre.length le with ⟨x, ⟨-, rfl⟩, -, -, x4⟩ | ⟨n, -⟩
    · rw [x4]
      dsimp only
      have l : (pre ++ [(42 : Int)]).length = pre.length + 1 := List.length_append
      rw [show (pre ++ (none : Option (List Int)).getD [42]).length = pre.length + 1 from l] at f1 ⊢
      rw [l] at f1
      rw [f1]
      exact ⟨_, rfl, rfl, rfl, rfl, f2⟩
    · exact absurd ⟨a, rfl⟩ (n _)
  | some w =>
    rw [hcv] at ht t2
    obtain ⟨x, x1, -, x3, -⟩ := hv.head w (hw w hcv)
    obtain ⟨f, f1, f2⟩ := factor_at h hc t2 hp pre.length fun f q => ⟨none, some (pre.length, (pre ++ w).length), f, q⟩
    have a := at_end (t := t) (pre := pre) (post := w ++ (factorText c ++ post)) (by rw [ht]; simp)
    rw [List.head?_append, x1] at a
    have a : t[pre.length]? = some x := a
    rcases (asterisk_reads h).cases pre.length le with ⟨y, ⟨y1, -⟩, -⟩ | ⟨-, n⟩
    · rw [a] at y1; exact absurd (Option.some.inj y1) x3
    · rw [n, hv.reads pre w (factorText c ++ post) (hw w hcv) (by rw [ht]; simp) stop]
      dsimp only
      have l : (pre ++ w).length = pre.length + w.length := List.length_append
      rw [show (pre ++ (some w : Option (List Int)).getD [42]).length = pre.length + w.length from l] at f1 ⊢
      rw [l] at f1
      rw [f1]
      refine ⟨_, rfl, rfl, ?_, rfl, f2⟩
      obtain ⟨more, rfl⟩ := hm
      exact congrArg some (textAt_mid (post := factorText c ++ post ++ more) (by rw [ht]; simp))

theorem choice_dark {t : List Int} {val : Nat → Option (Option Nat)} {P : List Int → Prop} (hv : Values t val P) {c : Choice} (hw : ∀ w, c.value = some w → P w) (post : List Int) : ∃ x, (c.text ++ post).head? = some x ∧ 32 < x ∧ x ≠ 44 := by
  rw [choice_text]
  cases hcv : c.value with
  | none => exact ⟨42, rfl, by decide, by decide⟩
  | some w =>
    obtain ⟨x, x1, x2, -, x4⟩ := hv.head w (hw w hcv)
    refine ⟨x, ?_, x2, x4⟩
    rw [List.append_assoc, List.head?_append]
    show (w.head?.or _) = _
    rw [x1]; rfl

/-- What is seen of an element -/
def shown (m : List Int) (r : Weighted) : Option (List Int) × Bool × Weight := (r.value.map (textAt m), r.asterisk.isSome, r.factor.2)

theorem more_head : ∀ (l : List Choice) (c : Int), (writeMore l).head? = some c → c = 44
  | [], _, h => nomatch h
  | x :: r, c, h => by
    rw [writeMore, show asc ", " = [44, 32] from by decide +kernel] at h
    exact (Option.some.inj h).symm

theorem below_ok {v : Env} {t : List Int} (h : v.Ok t) {i : Nat} (hi : i < t.length) : below v.fin i = true := below_of_lt h hi

theorem collect_more {v : Env} {t : List Int} (h : v.Ok t) {val : Nat → Option (Option Nat)} {P : List Int → Prop} (hv : Values t val P) (ins : Weighted → List Weighted → List Weighted) :
    ∀ (l : List Choice) (pre : List Int) (acc : List Weighted) (fuel : Nat), (∀ c ∈ l, c.FactorOk ∧ ∀ w, c.value = some w → P w) → t = pre ++ writeMore l → l.length < fuel →
      ∃ xs : List Weighted, collect v (choiceAt v val) ins fuel pre.length acc = some (xs.foldl (fun l x => ins x l) acc) ∧ xs.map (shown v.s) = l.map fun c => (c.value, c.value.isNone, c.weight)
  | [], pre, acc, fuel, _, ht, hf => by
    obtain ⟨fuel, rfl⟩ : ∃ k, fuel = k + 1 := ⟨fuel - 1, by simp only [List.length_nil] at hf; omega⟩
    have ht : t = pre ++ [] := ht
    refine ⟨[], ?_, rfl⟩
    have e : pre.length = t.length := by rw [ht, List.append_nil]
    unfold collect
    split
    · rw [scan_white h ht (fun c hc => nomatch hc)]
      dsimp only
      rw [has_no h ht (fun q => nomatch q)]
      simp only [Bool.false_eq_true, if_false]
      have : choiceAt v val pre.length = some none := by
        unfold choiceAt weightedValue
        rcases (asterisk_reads h).cases pre.length (by omega) with ⟨y, ⟨y1, -⟩, -⟩ | ⟨-, n⟩
        · rw [at_end ht] at y1; cases y1
        · rw [n, e, hv.fin]
          rfl
      rw [this]
      rfl
    · rfl
  | c :: r, pre, acc, fuel, ho, ht, hf => by
    obtain ⟨fuel, rfl⟩ : ∃ k, fuel = k + 1 := ⟨fuel - 1, by omega⟩
    obtain ⟨ok, hw⟩ := ho c List.mem_cons_self
    rw [writeMore, show asc ", " = [44, 32] from by decide +kernel] at ht
    have t1 : t = pre ++ ([44] ++ ([32] ++ (c.text ++ writeMore r))) := by rw [ht]; simp only [List.append_assoc, List.cons_append, List.nil_append]
    have t2 : t = (pre ++ [44]) ++ 32 :: (c.text ++ writeMore r) := by rw [ht]; simp only [List.append_assoc, List.cons_append, List.nil_append]
    have t3 : t = (pre ++ [44, 32]) ++ c.text ++ writeMore r := by rw [ht]; simp only [List.append_assoc]
    have t4 : t = (pre ++ [44, 32] ++ c.text) ++ writeMore r := by rw [ht]; simp only [List.append_assoc]
    obtain ⟨x, x1, x2, x3⟩ := choice_dark hv hw (writeMore r)
    have s1 := scan_white h t1 (fun c hc => by have : (44 : Int) = c := Option.some.inj hc; omega)
    have s2 := scan_space h t2 (fun c hc => by rw [x1] at hc; rw [← Option.some.inj hc]; exact x2)
    have lt : pre.length < t.length := by rw [t1]; simp
    have l1 : (pre ++ [(44 : Int)]).length = pre.length + 1 := List.length_append
    have l2 : (pre ++ [(44 : Int), 32]).length = pre.length + 2 := List.length_append
    have l3 : (pre ++ [(44 : Int), 32] ++ c.text).length = pre.length + 2 + c.text.length := by rw [List.length_append, l2]
    obtain ⟨q, q1, q2, q3, q4, q5⟩ := choice_at h (by rw [h.text]; exact text_prefix _ _ : t <+: v.s) hv ok hw t3 (more_head r)
    obtain ⟨xs, y1, y2⟩ := collect_more h hv ins r _ (ins q acc) fuel (fun c hc => ho c (List.mem_cons_of_mem _ hc)) t4 (by simp only [List.length_cons] at hf; omega)
    rw [l1] at s2; rw [l2] at q1; rw [l3] at y1
    refine ⟨q :: xs, ?_, by rw [List.map_cons, List.map_cons, y2]; unfold shown; rw [q3, q4, q5]⟩
    unfold collect
    rw [if_pos (below_ok h lt), s1]
    dsimp only
    rw [has_yes h t1 rfl]
    simp only [if_true]
    rw [s2, show pre.length + 1 + 1 = pre.length + 2 from rfl]
    dsimp only
    rw [q1]
    dsimp only
    rw [y1]
    rfl

theorem collect_written {v : Env} {pre : List Int} {l : List Choice} (h : v.Ok (pre ++ writeChoices l)) {val : Nat → Option (Option Nat)} {P : List Int → Prop} (hv : Values (pre ++ writeChoices l) val P)
    (ins : Weighted → List Weighted → List Weighted) (ho : ∀ c ∈ l, c.FactorOk ∧ ∀ w, c.value = some w → P w) :
    ∃ xs : List Weighted, collect v (choiceAt v val) ins (fuelOf v) pre.length [] = some (xs.foldl (fun l x => ins x l) []) ∧ xs.map (shown v.s) = l.map fun c => (c.value, c.value.isNone, c.weight) := by
  cases l with
  | nil => exact collect_more h hv ins [] pre [] _ (fun c hc => nomatch hc) rfl (by unfold fuelOf; simp)
  | cons c r =>
    obtain ⟨t, hT⟩ : ∃ t, t = pre ++ writeChoices (c :: r) := ⟨_, rfl⟩
    rw [← hT] at h hv
    rw [writeChoices] at hT
    obtain ⟨ok, hw⟩ := ho c List.mem_cons_self
    have t3 : t = pre ++ c.text ++ writeMore r := by rw [hT, List.append_assoc]
    obtain ⟨x, x1, x2, x3⟩ := choice_dark hv hw (writeMore r)
    have s1 := scan_white h hT (fun c hc => by rw [x1] at hc; rw [← Option.some.inj hc]; exact x2)
    have a := at_end hT
    rw [x1] at a
    have lt := get_lt a
    obtain ⟨q, q1, q2, q3, q4, q5⟩ := choice_at h (by rw [h.text]; exact text_prefix _ _ : t <+: v.s) hv ok hw t3 (more_head r)
    have len : ∀ (r : List Choice), r.length ≤ (writeMore r).length := by
      intro r
      induction r with
      | nil => exact Nat.le_refl _
      | cons c r ih =>
        rw [writeMore, show asc ", " = [44, 32] from by decide +kernel]
        simp only [List.length_append, List.length_cons, List.length_nil]; omega
    obtain ⟨xs, y1, y2⟩ := collect_more h hv ins r _ (ins q []) (v.s.length + 1) (fun c hc => ho c (List.mem_cons_of_mem _ hc)) t3 (by
      have := len r
      have := ok_len h
      rw [t3, List.length_append] at this
      omega)
    rw [List.length_append] at y1
    refine ⟨q :: xs, ?_, by rw [List.map_cons, List.map_cons, y2]; unfold shown; rw [q3, q4, q5]⟩
    unfold fuelOf collect
    rw [if_pos (below_ok h lt), show scan v isspace (fuelOf v) pre.length = some pre.length from s1]
    dsimp only
    rw [has_no h hT (by rw [x1]; exact fun e => x3 (Option.some.inj e))]
    simp only [Bool.false_eq_true, if_false]
    rw [q1]
    dsimp only
    rw [y1]
    rfl

theorem sorted_fold {α β : Type} (le : β → β → Prop) [DecidableRel le] (total : ∀ a b, le a b ∨ le b a) (trans : ∀ a b c, le a b → le b c → le a c) (key : α → β) : ∀ (xs l : List α), Falling le key l →
    (xs.foldl (fun l x => insertBy le key x l) l).Perm (l ++ xs) ∧ Falling le key (xs.foldl (fun l x => insertBy le key x l) l) ∧
      ∀ p : α → Bool, (∀ y z, p y = true → p z = true → le (key y) (key z)) → (xs.foldl (fun l x => insertBy le key x l) l).filter p = l.filter p ++ xs.filter p := by
  intro xs
  induction xs with
  | nil => intro l hl; exact ⟨by simp, hl, by simp⟩
  | cons x xs ih =>
    intro l hl
    obtain ⟨a, b, c⟩ := ih _ (insertBy_falling le total trans key x l hl)
    refine ⟨?_, b, ?_⟩
    · refine a.trans (((insertBy_perm le key x l).append_right xs).trans ?_)
      rw [List.cons_append]
      exact List.perm_middle.symm
    · intro p hp
      rw [List.foldl_cons, c p hp, insertBy_filter le trans key x l hl p hp, List.filter_cons]
      cases p x <;> simp


/-! ### Values -/

/-- RFC 2616: `1*8ALPHA *( "-" 1*8ALPHA )`, of any length -/
inductive IsLang : List Int → Prop
  | last {w} : w ≠ [] → (∀ c ∈ w, Letter c) → IsLang w
  | more {w r} : w ≠ [] → (∀ c ∈ w, Letter c) → IsLang r → IsLang (w ++ 45 :: r)

theorem token_values {v : Env} {t : List Int} (h : v.Ok t) : Values t (httpToken v) fun w => IsToken w ∧ w.head? ≠ some 42 := by
  refine ⟨fun pre w post hw ht hp => ?_, fun w hw => ?_, ?_⟩
  · rw [token_spec h (by rw [ht, List.append_assoc, List.length_append]; omega), drop_mid (by rw [ht, List.append_assoc]), token_run hw.1 (Halts.token hp)]
    rfl
  · obtain ⟨⟨ne, hw⟩, n⟩ := hw
    cases w with
    | nil => exact absurd rfl ne
    | cons c w =>
      obtain ⟨k1, -, k3⟩ := hw c List.mem_cons_self
      refine ⟨c, rfl, ?_, fun e => n (by rw [e]; rfl), fun e => k3 (by rw [e]; unfold Separator; decide)⟩
      have : c ≠ 32 := fun e => k3 (by rw [e]; unfold Separator; decide)
      omega
  · rw [token_spec h (Nat.le_refl _), List.drop_length]
    rfl

theorem letter_head {w : List Int} (h : w ≠ []) (hw : ∀ c ∈ w, Letter c) (r : List Int) : ∃ c, (w ++ r).head? = some c ∧ Letter c := by
  cases w with
  | nil => exact absurd rfl h
  | cons c w => exact ⟨c, rfl, hw c List.mem_cons_self⟩

theorem lang_head {w : List Int} (h : IsLang w) (r : List Int) : ∃ c, (w ++ r).head? = some c ∧ Letter c := by
  cases h with
  | last h1 h2 => exact letter_head h1 h2 _
  | more h1 h2 _ => rw [List.append_assoc]; exact letter_head h1 h2 _

theorem lang_at {t : List Int} {w : List Int} (hw : IsLang w) : ∀ {pre post : List Int}, t = pre ++ w ++ post → (∀ c, post.head? = some c → c = 44 ∨ c = 59) →
    ∃ l, LangAt t pre.length l ∧ l.getLast?.map Prod.snd = some (pre.length + w.length) := by
  induction hw with
  | @last w ne hw =>
    intro pre post ht hp
    refine ⟨[(pre.length, pre.length + w.length)], .last (run_of ht hw fun c hc => by have := hp c hc; unfold Letter; omega) (by have := List.length_pos_iff.2 ne; omega) (fun q => ?_), rfl⟩
    have a := at_end (t := t) (pre := pre ++ w) ht
    rw [List.length_append, q] at a
    have := hp _ a.symm
    omega
  | @more w r ne hw hr ih =>
    intro pre post ht hp
    have t1 : t = pre ++ w ++ (45 :: (r ++ post)) := by rw [ht]; simp only [List.append_assoc, List.cons_append]
    have t2 : t = (pre ++ w ++ [45]) ++ r ++ post := by rw [ht]; simp only [List.append_assoc, List.cons_append, List.nil_append]
    obtain ⟨l, l1, l2⟩ := ih t2 hp
    have e : (pre ++ w ++ [(45 : Int)]).length = pre.length + w.length + 1 := by rw [List.length_append, List.length_append]; rfl
    rw [e] at l1 l2
    have a := at_end (t := t) (pre := pre ++ w) t1
    rw [List.length_append] at a
    refine ⟨_, .more (run_of t1 hw fun c hc => by
      have : (45 : Int) = c := Option.some.inj hc
      rw [← this]; unfold Letter; omega) (by have := List.length_pos_iff.2 ne; omega) a l1, ?_⟩
    cases l with
    | nil => cases l2
    | cons x l =>
      rw [List.getLast?_cons_cons, l2, List.length_append, List.length_cons]
      congr 1; omega

theorem lang_values {v : Env} {t : List Int} (h : v.Ok t) : Values t (langVal v) IsLang := by
  refine ⟨fun pre w post hw ht hp => ?_, fun w hw => ?_, ?_⟩
  · obtain ⟨l, l1, l2⟩ := lang_at hw ht hp
    unfold langVal
    rcases language_spec h (i := pre.length) (by rw [ht, List.append_assoc, List.length_append]; omega) with ⟨l', k, k1, k2, k3⟩ | ⟨n, -⟩
    · rw [langAt_one k1 l1] at k2
      rw [k2] at l2
      have l2 : k.2 = pre.length + w.length := Option.some.inj l2
      rw [k3, ← l2]
      rfl
    · exact absurd l1 (n _)
  · obtain ⟨c, c1, c2⟩ := lang_head hw []
    rw [List.append_nil] at c1
    unfold Letter at c2
    exact ⟨c, c1, by omega, by omega, by omega⟩
  · unfold langVal
    rcases language_spec h (Nat.le_refl t.length) with ⟨l', k, k1, -, -⟩ | ⟨-, k⟩
    · have no : ∀ {a b : Nat}, a = t.length → RunAt Letter t a b → a < b → False := by
        intro a b e r lt
        obtain ⟨c, c1, -⟩ := r.2.1 a (Nat.le_refl _) lt
        have := get_lt c1
        omega
      cases k1 with
      | last r lt _ => exact (no rfl r lt).elim
      | more r lt _ _ => exact (no rfl r lt).elim
    · rw [k]; rfl

/-! ### Theorems -/

/-- **C163** A list of weighted values that is written is read: every one of them, with its factor; those with larger factors before others, and those with the same one as they were written. -/
theorem choices_written {v : Env} {before : List Int} {l : List Choice} (h : v.Ok (before ++ writeChoices l)) {val : Nat → Option (Option Nat)} {P : List Int → Prop} (hv : Values (before ++ writeChoices l) val P)
    (hf : ∀ c ∈ l, c.FactorOk) (hw : ∀ c ∈ l, ∀ w, c.value = some w → P w) (le : Weight → Weight → Prop) [DecidableRel le] (total : ∀ a b, le a b ∨ le b a) (trans : ∀ a b c, le a b → le b c → le a c) :
    ∃ r, readChoices v val le before.length = some r ∧ (r.map (shown v.s)).Perm (l.map fun c => (c.value, c.value.isNone, c.weight)) ∧ r.Pairwise (fun a b => le b.factor.2 a.factor.2) ∧
      ∀ p : Weight → Bool, (∀ x y, p x = true → p y = true → le x y) → (r.map (shown v.s)).filter (fun s => p s.2.2) = (l.map fun c => (c.value, c.value.isNone, c.weight)).filter (fun s => p s.2.2) := by
  obtain ⟨xs, x1, x2⟩ := collect_written h hv (insertBy le fun x => x.factor.2) (fun c hc => ⟨hf c hc, hw c hc⟩)
  obtain ⟨a, b, c⟩ := sorted_fold le total trans (fun x : Weighted => x.factor.2) xs [] .nil
  have fall : ∀ {l : List Weighted}, Falling le (fun x : Weighted => x.factor.2) l → l.Pairwise (fun a b => le b.factor.2 a.factor.2) := by
    intro l q
    induction q with
    | nil => exact .nil
    | cons q _ ih => exact .cons q ih
  refine ⟨_, x1, ?_, fall b, fun p hp => ?_⟩
  · rw [← x2]
    have a : (xs.foldl (fun l x => insertBy le (fun x => x.factor.2) x l) []).Perm xs := by simpa using a
    exact a.map _
  · have k : ∀ (l : List Weighted), (l.map (shown v.s)).filter (fun s => p s.2.2) = (l.filter fun x => p x.factor.2).map (shown v.s) := by
      intro l; rw [List.filter_map]; rfl
    rw [k, c (fun x => p x.factor.2) (fun y z hy hz => hp _ _ hy hz), ← x2, k]
    rfl

/-- **C163** `Accept-Encoding`, `Accept-Charset`: tokens -/
theorem encodings_written {v : Env} {before : List Int} {l : List Choice} (h : v.Ok (before ++ writeChoices l)) (hf : ∀ c ∈ l, c.FactorOk) (hw : ∀ c ∈ l, ∀ w, c.value = some w → IsToken w ∧ w.head? ≠ some 42)
    (le : Weight → Weight → Prop) [DecidableRel le] (total : ∀ a b, le a b ∨ le b a) (trans : ∀ a b c, le a b → le b c → le a c) :
    ∃ r, readChoices v (httpToken v) le before.length = some r ∧ (r.map (shown v.s)).Perm (l.map fun c => (c.value, c.value.isNone, c.weight)) ∧ r.Pairwise (fun a b => le b.factor.2 a.factor.2) ∧
      ∀ p : Weight → Bool, (∀ x y, p x = true → p y = true → le x y) → (r.map (shown v.s)).filter (fun s => p s.2.2) = (l.map fun c => (c.value, c.value.isNone, c.weight)).filter (fun s => p s.2.2) :=
  choices_written h (token_values h) hf hw le total trans

/-- **C163** `Accept-Language`: languages -/
theorem languages_written {v : Env} {before : List Int} {l : List Choice} (h : v.Ok (before ++ writeChoices l)) (hf : ∀ c ∈ l, c.FactorOk) (hw : ∀ c ∈ l, ∀ w, c.value = some w → IsLang w)
    (le : Weight → Weight → Prop) [DecidableRel le] (total : ∀ a b, le a b ∨ le b a) (trans : ∀ a b c, le a b → le b c → le a c) :
    ∃ r, readChoices v (langVal v) le before.length = some r ∧ (r.map (shown v.s)).Perm (l.map fun c => (c.value, c.value.isNone, c.weight)) ∧ r.Pairwise (fun a b => le b.factor.2 a.factor.2) ∧
      ∀ p : Weight → Bool, (∀ x y, p x = true → p y = true → le x y) → (r.map (shown v.s)).filter (fun s => p s.2.2) = (l.map fun c => (c.value, c.value.isNone, c.weight)).filter (fun s => p s.2.2) :=
  choices_written h (lang_values h) hf hw le total trans

/-! ### Cases -/

/-- Factors by what they are scaled (exactly, with at most 19 digits) -/
def scaled (w : Weight) : Nat := w.whole * 10 ^ 19 + w.part * (10 ^ 19 / w.unit)

example : (∀ a b, scaled a ≤ scaled b ∨ scaled b ≤ scaled a) ∧ ∀ a b c, scaled a ≤ scaled b → scaled b ≤ scaled c → scaled a ≤ scaled c := ⟨fun _ _ => Nat.le_total _ _, fun _ _ _ => Nat.le_trans⟩

-- What is wanted most comes first.
example : writeChoices [⟨some (asc "en-US"), some (asc "0", some (asc "7"))⟩, ⟨some (asc "sl"), none⟩, ⟨none, some (asc "0", some (asc "10"))⟩] = asc "en-US;q=0.7, sl, *;q=0.10" := by decide +kernel
example : (readChoices (ipEnv (asc "en-US;q=0.7, sl, *;q=0.10")) (langVal (ipEnv (asc "en-US;q=0.7, sl, *;q=0.10"))) (fun a b => scaled a ≤ scaled b) 0).map (fun r => r.map (shown (asc "en-US;q=0.7, sl, *;q=0.10"))) =
    some [(some (asc "sl"), false, ⟨1, 0, 1⟩), (some (asc "en-US"), false, ⟨0, 7, 10⟩), (none, true, ⟨0, 10, 100⟩)] := by decide +kernel

/-- What C163 asks of tokens: `*x` is one, but it is read as an asterisk and another value, `x`. (What it asks of factors: see `weight_zero`.) -/
theorem choice_star : readChoices (ipEnv (asc "*x, y")) (httpToken (ipEnv (asc "*x, y"))) (fun a b => scaled a ≤ scaled b) 0 =
    some [⟨some (0, 1), none, (none, ⟨1, 0, 1⟩), some (0, 1)⟩, ⟨none, some (1, 2), (none, ⟨1, 0, 1⟩), some (1, 2)⟩, ⟨none, some (4, 5), (none, ⟨1, 0, 1⟩), some (4, 5)⟩] := by decide +kernel

example : ∀ c ∈ [(⟨some (asc "en-US"), some (asc "0", some (asc "7"))⟩ : Choice), ⟨none, some (asc "0", some (asc "10"))⟩], c.FactorOk ∧ ∀ w, c.value = some w → IsLang w := by
  have d : ∀ w ∈ [asc "0", asc "7", asc "10"], Digits w := by
    have : ∀ w ∈ [asc "0", asc "7", asc "10"], (∀ c ∈ w, 48 ≤ c ∧ c ≤ 57) ∧ w.length ≤ 19 := by decide +kernel
    exact this
  have l : IsLang (asc "en-US") := by
    have e : ∀ w ∈ [asc "en", asc "US"], w ≠ [] ∧ ∀ c ∈ w, (65 ≤ c ∧ c ≤ 90) ∨ (97 ≤ c ∧ c ≤ 122) := by decide +kernel
    rw [show asc "en-US" = asc "en" ++ 45 :: asc "US" from by decide +kernel]
    exact .more (e _ (by simp)).1 (e (asc "en") (by simp)).2 (.last (e _ (by simp)).1 (e (asc "US") (by simp)).2)
  intro c hc
  rcases List.mem_cons.1 hc with rfl | hc
  · exact ⟨fun a b q => by cases q; exact ⟨d _ (by simp), (fun q => nomatch q), fun x hx => by cases hx; exact d _ (by simp)⟩, fun w q => by cases q; exact l⟩
  · rw [List.mem_singleton.1 hc]
    exact ⟨fun a b q => by cases q; exact ⟨d _ (by simp), (fun q => nomatch q), fun x hx => by cases hx; exact d _ (by simp)⟩, fun w q => nomatch q⟩

end Verif.Parser
