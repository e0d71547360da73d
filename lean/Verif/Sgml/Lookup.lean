import Verif.Sgml.Table
import Verif.Str.Compare
import Verif.Str.Uuid
/-
The searches of include/stdex/sgml.hpp: entity name to Unicode text (26-57) and Unicode text to entity name (511-536), in the tables of
include/stdex/sgml_unicode.hpp. Only the variant with 32-bit wide characters is modelled. `stdex_assert` is taken as in a release build (no effect).
-/
namespace Verif.Sgml
open Verif.Str

/-! ### Model -/

/-- `for (; i < m && ...; m--);`, sgml.hpp 44, 530. -/
def back (g : Nat → Option Bool) (i : Nat) : Nat → Option Nat
  | 0 => some 0
  | m + 1 => if i < m + 1 then
      match g m with
      | none => none
      | some true => back g i m
      | some false => some (m + 1)
    else some (m + 1)

/-- The bisection of sgml.hpp 31-49 and 516-535: `f m` is the comparison of entry `m` with what is searched. `none`: undefined behaviour; `some none`: not
found. -/
def bisect (f : Nat → Option Int) (g : Nat → Option Bool) (i j : Nat) : Option (Option Nat) :=
  if h : i < j then
    match f ((i + j) / 2) with
    | none => none
    | some r =>
      if r < 0 then bisect f g ((i + j) / 2 + 1) j
      else if r > 0 then bisect f g i ((i + j) / 2)
      else (back g i ((i + j) / 2)).map some
  else some none
termination_by j - i

/-- As characters. -/
def castL (l : List Nat) : List Int := l.map fun n : Nat => (n : Int)

/-- The array `sgml[12]` of an entry, sgml_unicode.hpp 21. -/
def nameCells (e : List Nat × List Nat) : List Int := castL e.1 ++ List.replicate (12 - e.1.length) 0

/-- The array `unicode[3]` of an entry, sgml_unicode.hpp 22. -/
def uniCells (e : List Nat × List Nat) : List Int := castL e.2 ++ List.replicate (3 - e.2.length) 0

/-- Comparison of the first characters, then of the rest: sgml.hpp 33-38, 515-524. -/
def cmpHead (cells : List Int) (cap : Nat) (ent : List Int) (count : Nat) : Option Int :=
  match rd cells 0, rd ent 0 with
  | some a, some b =>
    if a < b then some (-1)
    else if a > b then some 1
    else strncmp2 id id (cells.drop 1) (some (cap - 1)) (ent.drop 1) (some ((count + 2 ^ 64 - 1) % 2 ^ 64))
  | _, _ => none

/-- The search of `sgml2uni`, sgml.hpp 31-49. -/
def findName (ent : List Int) (count : Nat) : Option (Option Nat) :=
  bisect (fun m => pairs[m]?.bind fun e => cmpHead (nameCells e) 12 ent count)
    (fun m => pairs[m]?.bind fun e => (strncmp2 id id (nameCells e) (some 12) ent (some count)).map fun r => r == 0) 0 1535

/-- `sgml2uni`, sgml.hpp 26-57: the text an entity stands for (32-bit characters up to a terminator). `ent` starts behind `&`.
`utf32_t` is the signed 32-bit `wchar_t`. -/
def sgml2uni (ent : List Int) (count : Nat) : Option (Option (List Int)) :=
  match rd ent 0 with
  | none => none
  | some c =>
    if count < 2 ∨ c ≠ 35 then
      (findName ent count).map fun r => r.map fun m => castL (pairs.getD m ([], [])).2
    else
      match rd ent 1 with
      | none => none
      | some x =>
        (if x = 120 ∨ x = 88 then strtouint (ent.drop 2) (some (count - 2)) 32 16 else strtouint (ent.drop 1) (some (count - 1)) 32 10).map fun r =>
          some ([Int.bmod (r.1 : Int) (2 ^ 32)].takeWhile fun c => decide (c ≠ 0))

/-- Entry `m` in the order of `unicode_sgml`. -/
def ordered (m : Nat) : Option (List Nat × List Nat) := order[m]?.bind fun k => pairs[k]?

/-- `chr2sgml` (UTF-32), sgml.hpp 511-536: the entity name of the first `count` characters. -/
def chr2sgml (ent : List Int) (count : Nat) : Option (Option (List Int)) :=
  (bisect (fun m => (ordered m).bind fun e => cmpHead (uniCells e) 3 ent count)
    (fun m => (ordered m).bind fun e => (cmpHead (uniCells e) 3 ent count).map fun r => r == 0) 0 1535).map fun r =>
      r.map fun m => castL ((ordered m).getD ([], [])).1

/-! ### Specification -/

/-- The text an entity name stands for: that of the first entry of the table with this name. -/
def uniOf (name : List Int) : Option (List Int) := (pairs.find? fun e => castL e.1 == name).map fun e => castL e.2

/-- The table in the order of `unicode_sgml`. -/
def byUni : List (List Nat × List Nat) := order.map fun k => pairs.getD k ([], [])

/-- The preferred entity of a text: the name of the first entry in that order with this text. -/
def nameOf (txt : List Int) : Option (List Int) := (byUni.find? fun e => castL e.2 == txt).map fun e => castL e.1

/-! ### Proofs: bisection -/

theorem back_spec {F : Nat → Int} {g : Nat → Option Bool} {n i : Nat} (hg : ∀ m, m < n → g m = some (F m == 0)) (hi : ∀ m, m < i → F m < 0) :
    ∀ m, m < n → i ≤ m → F m = 0 → ∃ k, back g i m = some k ∧ k ≤ m ∧ F k = 0 ∧ (k = i ∨ (i < k ∧ F (k - 1) ≠ 0)) := by
  intro m
  induction m with
  | zero =>
    intro hn him h0
    have : i = 0 := by omega
    exact ⟨0, rfl, Nat.le_refl _, h0, Or.inl this.symm⟩
  | succ m ih =>
    intro hn him h0
    rw [back]
    by_cases c : i < m + 1
    · rw [if_pos c, hg m (by omega)]
      by_cases q : F m = 0
      · have : (F m == 0) = true := by simp [q]
        rw [this]
        obtain ⟨k, e1, e2, e3, e4⟩ := ih (by omega) (by omega) q
        exact ⟨k, e1, by omega, e3, e4⟩
      · have : (F m == 0) = false := by simp [q]
        rw [this]
        exact ⟨m + 1, rfl, Nat.le_refl _, h0, Or.inr ⟨c, by rw [Nat.add_sub_cancel]; exact q⟩⟩
    · rw [if_neg c]
      exact ⟨m + 1, rfl, Nat.le_refl _, h0, Or.inl (by omega)⟩

/-- Entries are in order with respect to the searched one. -/
def Mono (F : Nat → Int) (n : Nat) : Prop := ∀ a b, a < b → b < n → (F a > 0 → F b > 0) ∧ (F b < 0 → F a < 0)

theorem bisect_spec {F : Nat → Int} {f : Nat → Option Int} {g : Nat → Option Bool} {n : Nat} (hf : ∀ m, m < n → f m = some (F m))
    (hg : ∀ m, m < n → g m = some (F m == 0)) (hm : Mono F n) : ∀ i j, j ≤ n → (∀ m, m < i → F m < 0) → (∀ m, j ≤ m → m < n → F m > 0) →
      (bisect f g i j = some none ∧ ∀ m, m < n → F m ≠ 0) ∨ (∃ k, bisect f g i j = some (some k) ∧ k < n ∧ F k = 0 ∧ ∀ m, m < k → F m ≠ 0) := by
  intro i j
  induction i, j using bisect.induct (f := f) with
  | case1 i j h e => intro hj; rw [hf _ (by omega)] at e; cases e
  | case2 i j h r e hr ih =>
    intro hj h1 h2
    rw [hf _ (by omega)] at e
    injection e with e
    rw [bisect, dif_pos h, hf _ (by omega)]
    dsimp only
    rw [if_pos (by omega)]
    refine ih hj ?_ h2
    intro m hmm
    by_cases c : m = (i + j) / 2
    · rw [c]; omega
    · exact (hm m ((i + j) / 2) (by omega) (by omega)).2 (by omega)
  | case3 i j h r e hr hr2 ih =>
    intro hj h1 h2
    rw [hf _ (by omega)] at e
    injection e with e
    rw [bisect, dif_pos h, hf _ (by omega)]
    dsimp only
    rw [if_neg (by omega), if_pos (by omega)]
    refine ih (by omega) h1 ?_
    intro m hmm hn
    by_cases c : m = (i + j) / 2
    · rw [c]; omega
    · exact (hm ((i + j) / 2) m (by omega) (by omega)).1 (by omega)
  | case4 i j h r e hr hr2 =>
    intro hj h1 h2
    rw [hf _ (by omega)] at e
    injection e with e
    right
    rw [bisect, dif_pos h, hf _ (by omega)]
    dsimp only
    rw [if_neg (by omega), if_neg (by omega)]
    obtain ⟨k, e1, e2, e3, e4⟩ := back_spec hg h1 ((i + j) / 2) (by omega) (by omega) (by omega)
    refine ⟨k, by rw [e1]; rfl, by omega, e3, ?_⟩
    intro m hmk
    rcases e4 with q | ⟨q1, q2⟩
    · have := h1 m (by omega); omega
    · by_cases c : m = k - 1
      · rw [c]; exact q2
      · intro h0
        have := hm m (k - 1) (by omega) (by omega)
        have h3 := hm (k - 1) k (by omega) (by omega)
        by_cases p : F (k - 1) > 0
        · have := h3.1 p; omega
        · have := this.2 (by omega); omega
  | case5 i j h =>
    intro hj h1 h2
    left
    rw [bisect, dif_neg h]
    refine ⟨rfl, ?_⟩
    intro m hn
    by_cases c : m < i
    · have := h1 m c; omega
    · have := h2 m (by omega) hn; omega

/-- Where nothing equals, nothing is found, whatever the order. -/
theorem bisect_none {F : Nat → Int} {f : Nat → Option Int} {g : Nat → Option Bool} {n : Nat} (hf : ∀ m, m < n → f m = some (F m))
    (h0 : ∀ m, m < n → F m ≠ 0) : ∀ i j, j ≤ n → bisect f g i j = some none := by
  intro i j
  induction i, j using bisect.induct (f := f) with
  | case1 i j h e => intro hj; rw [hf _ (by omega)] at e; cases e
  | case2 i j h r e hr ih =>
    intro hj
    rw [bisect, dif_pos h, e]
    dsimp only
    rw [if_pos hr]
    exact ih hj
  | case3 i j h r e hr hr2 ih =>
    intro hj
    rw [bisect, dif_pos h, e]
    dsimp only
    rw [if_neg hr, if_pos hr2]
    exact ih (by omega)
  | case4 i j h r e hr hr2 =>
    intro hj
    rw [hf _ (by omega)] at e
    injection e with e
    exact absurd (by omega) (h0 ((i + j) / 2) (by omega))
  | case5 i j h => intro hj; rw [bisect, dif_neg h]

/-! ### Proofs: the order of the tables -/

/-- Lexicographic order, computed. -/
def leL : List Nat → List Nat → Bool
  | [], _ => true
  | _ :: _, [] => false
  | a :: l, b :: m => if a < b then true else if b < a then false else leL l m

def sortedB : List (List Nat) → Bool
  | a :: b :: l => leL a b && sortedB (b :: l)
  | _ => true

theorem leL_trans : ∀ a b c : List Nat, leL a b = true → leL b c = true → leL a c = true
  | [], _, _, _, _ => rfl
  | _ :: _, [], _, h, _ => by cases h
  | _ :: _, _ :: _, [], _, h => by cases h
  | a :: x, b :: y, c :: z, h1, h2 => by
    rw [show leL (a :: x) (b :: y) = if a < b then true else if b < a then false else leL x y from rfl] at h1
    rw [show leL (b :: y) (c :: z) = if b < c then true else if c < b then false else leL y z from rfl] at h2
    rw [show leL (a :: x) (c :: z) = if a < c then true else if c < a then false else leL x z from rfl]
    by_cases p : a < c
    · rw [if_pos p]
    · rw [if_neg p]
      by_cases q : a < b
      · rw [if_neg (show ¬ b < c by omega), if_pos (by omega)] at h2; cases h2
      · rw [if_neg q] at h1
        by_cases q' : b < a
        · rw [if_pos q'] at h1; cases h1
        · rw [if_neg q'] at h1
          by_cases r : b < c
          · omega
          · rw [if_neg r] at h2
            by_cases r' : c < b
            · rw [if_pos r'] at h2; cases h2
            · rw [if_neg r'] at h2
              rw [if_neg (by omega)]
              exact leL_trans x y z h1 h2

theorem leL_refl : ∀ a : List Nat, leL a a = true
  | [] => rfl
  | a :: x => by
    rw [show leL (a :: x) (a :: x) = if a < a then true else if a < a then false else leL x x from rfl, if_neg (by omega), if_neg (by omega)]
    exact leL_refl x

theorem sorted_get : ∀ (l : List (List Nat)), sortedB l = true → ∀ (i j : Nat), i ≤ j → ∀ (a b : List Nat), l[i]? = some a → l[j]? = some b → leL a b = true := by
  intro l
  induction l with
  | nil => intro _ i j _ a b ha; simp at ha
  | cons x l ih =>
    intro h i j hij a b ha hb
    cases l with
    | nil =>
      have hj : j = 0 := by
        have := (List.getElem?_eq_some_iff.1 hb).1
        rw [List.length_singleton] at this; omega
      have hi : i = 0 := by omega
      subst hj hi
      rw [ha] at hb
      injection hb with hb
      rw [hb]; exact leL_refl _
    | cons y l =>
      rw [sortedB, Bool.and_eq_true] at h
      cases i with
      | succ i =>
        cases j with
        | zero => omega
        | succ j => exact ih h.2 i j (by omega) a b (by simpa using ha) (by simpa using hb)
      | zero =>
        rw [List.getElem?_cons_zero] at ha
        injection ha with ha
        subst ha
        cases j with
        | zero =>
          rw [List.getElem?_cons_zero] at hb
          injection hb with hb
          rw [hb]; exact leL_refl _
        | succ j =>
          exact leL_trans _ _ _ h.1 (ih h.2 0 j (by omega) y b rfl (by simpa using hb))

/-- Comparing with a fixed text is monotone. -/
theorem cmpR_mono (q : Bool) : ∀ (a b : List Nat) (k : List Int), leL a b = true → (∀ c ∈ a, 0 < c) → (∀ c ∈ b, 0 < c) →
    (cmpR true q (castL a) k > 0 → cmpR true q (castL b) k > 0) ∧ (cmpR true q (castL b) k < 0 → cmpR true q (castL a) k < 0)
  | [], [], k, _, _, _ => ⟨fun h => h, fun h => h⟩
  | [], b :: y, [], _, _, hb => by
    have := hb b List.mem_cons_self
    constructor
    · intro h
      simp only [castL, List.map_nil, cmpR] at h
      omega
    · intro h
      simp only [castL, List.map_cons, cmpR] at h
      rw [if_neg (by omega)] at h; omega
  | [], b :: y, k :: z, _, _, hb => by
    have := hb b List.mem_cons_self
    simp only [castL, List.map_cons, List.map_nil, cmpR, true_and]
    constructor
    · intro h
      by_cases c : (0 : Int) > k
      · rw [if_pos (by omega)]; omega
      · rw [if_neg c] at h; omega
    · intro h
      by_cases c : (0 : Int) > k
      · rw [if_pos (by omega)] at h; omega
      · rw [if_neg c]; omega
  | _ :: _, [], _, h, _, _ => by cases h
  | a :: x, b :: y, [], h, ha, hb => by
    have h1 := ha a List.mem_cons_self
    have h2 := hb b List.mem_cons_self
    simp only [castL, List.map_cons, cmpR]
    rw [if_neg (by omega), if_neg (by omega)]
    exact ⟨fun h => h, fun h => h⟩
  | a :: x, b :: y, k :: z, h, ha, hb => by
    rw [show leL (a :: x) (b :: y) = if a < b then true else if b < a then false else leL x y from rfl] at h
    have ih := cmpR_mono q x y z
    simp only [castL, List.map_cons, cmpR] at ih ⊢
    by_cases p : a < b
    · constructor
      · intro h1
        by_cases c : (a : Int) > k
        · rw [if_pos (by omega)]; omega
        · rw [if_neg c] at h1
          by_cases c2 : (a : Int) < k
          · rw [if_pos c2] at h1; omega
          · rw [if_pos (by omega)]; omega
      · intro h1
        by_cases c : (b : Int) > k
        · rw [if_pos c] at h1; omega
        · rw [if_neg (by omega), if_pos (by omega)]; omega
    · rw [if_neg p] at h
      by_cases p' : b < a
      · rw [if_pos p'] at h; cases h
      · rw [if_neg p'] at h
        have e : a = b := by omega
        subst e
        have ih := ih h (fun c hc => ha c (List.mem_cons_of_mem _ hc)) (fun c hc => hb c (List.mem_cons_of_mem _ hc))
        by_cases c : (a : Int) > k
        · rw [if_pos c, if_pos c]; exact ⟨fun h => h, fun h => h⟩
        · rw [if_neg c, if_neg c]
          by_cases c2 : (a : Int) < k
          · rw [if_pos c2, if_pos c2]; exact ⟨fun h => h, fun h => h⟩
          · rw [if_neg c2, if_neg c2]; exact ih

/-! ### Proofs: comparing an entry -/

theorem castL_pos {l : List Nat} (h : ∀ c ∈ l, 0 < c) : ∀ c ∈ castL l, (0 : Int) < c := by
  intro c hc
  obtain ⟨n, hn, rfl⟩ := List.mem_map.1 hc
  have := h n hn
  omega

theorem castL_inj {a b : List Nat} (h : castL a = castL b) : a = b := by
  induction a generalizing b with
  | nil => cases b with
    | nil => rfl
    | cons _ _ => simp [castL] at h
  | cons x a ih => cases b with
    | nil => simp [castL] at h
    | cons y b =>
      simp only [castL, List.map_cons, List.cons.injEq] at h
      rw [ih h.2, show x = y by omega]

/-- The cells of an entry hold its text, terminated. -/
theorem cells_text {l : List Nat} {cap : Nat} (hp : ∀ c ∈ l, 0 < c) (hl : l.length < cap) :
    Valid (castL l ++ List.replicate (cap - l.length) 0) (some cap) ∧ text (castL l ++ List.replicate (cap - l.length) 0) (some cap) = castL l ∧
      Terminated (castL l ++ List.replicate (cap - l.length) 0) (some cap) = true := by
  obtain ⟨d, hd⟩ : ∃ d, cap - l.length = d + 1 := ⟨cap - l.length - 1, by omega⟩
  have hlen : (castL l).length = l.length := List.length_map _
  have ht : text (castL l ++ List.replicate (cap - l.length) 0) (some cap) = castL l := by
    unfold text
    dsimp only
    rw [List.take_of_length_le (by rw [List.length_append, List.length_replicate, hlen]; omega), hd, List.replicate_succ]
    exact takeWhile_nz (fun x hx => by have := castL_pos hp x hx; omega) _
  refine ⟨Or.inr ⟨cap, rfl, by rw [List.length_append, List.length_replicate, hlen]; omega⟩, ht, ?_⟩
  unfold Terminated
  rw [ht, hlen]
  simp [below, hl]

theorem terminated_drop {s : List Int} {count i : Nat} (hi : i ≤ (text s (some count)).length) :
    Terminated (s.drop i) (some (count - i)) = Terminated s (some count) := by
  unfold Terminated
  rw [text_drop i s count hi, List.length_drop]
  have := text_length_take s count
  simp only [below]
  by_cases c : (text s (some count)).length < count
  · rw [decide_eq_true (by omega), decide_eq_true c]
  · rw [decide_eq_false (by omega), decide_eq_false c]

theorem text_head {s : List Int} {count : Nat} {b : Int} {y : List Int} (h : text s (some count) = b :: y) : ∃ r, s = b :: r := by
  have hpre : text s (some count) <+: s := (List.takeWhile_prefix _).trans (List.take_prefix _ _)
  obtain ⟨r, hr⟩ := hpre
  rw [h] at hr
  exact ⟨y ++ r, hr.symm⟩

theorem cmpHead_eq {l : List Nat} {cap : Nat} (hp : ∀ c ∈ l, 0 < c) (hl : l.length < cap) (hne : l ≠ []) {ent : List Int} {count : Nat}
    (hv : Valid ent (some count)) (hc : count < 2 ^ 64) (he : text ent (some count) ≠ []) :
    cmpHead (castL l ++ List.replicate (cap - l.length) 0) cap ent count =
      some (cmpR true (Terminated ent (some count)) (castL l) (text ent (some count))) := by
  cases l with
  | nil => exact absurd rfl hne
  | cons a x =>
    cases ht : text ent (some count) with
    | nil => exact absurd ht he
    | cons b y =>
      obtain ⟨r, hr⟩ := text_head ht
      have hcnt : 1 ≤ count := by
        have := text_length_take ent count
        rw [ht, List.length_cons] at this; omega
      unfold cmpHead
      have h0 : rd (castL (a :: x) ++ List.replicate (cap - (a :: x).length) 0) 0 = some (a : Int) := rfl
      have h1 : rd ent 0 = some b := by rw [hr]; rfl
      rw [h0, h1]
      dsimp only
      have hcast : castL (a :: x) = (a : Int) :: castL x := rfl
      rw [hcast, cmpR]
      by_cases c1 : (a : Int) < b
      · rw [if_pos c1, if_neg (show ¬ (a : Int) > b by omega), if_pos c1]
      · rw [if_neg c1]
        by_cases c2 : (a : Int) > b
        · rw [if_pos c2, if_pos c2]
        · rw [if_neg c2, if_neg c2, if_neg c1]
          have hl' : x.length < cap - 1 := by rw [List.length_cons] at hl; omega
          obtain ⟨v1, t1, z1⟩ := cells_text (cap := cap - 1) (fun c hc => hp c (List.mem_cons_of_mem _ hc)) hl'
          have hd : ((a : Int) :: castL x ++ List.replicate (cap - (a :: x).length) 0).drop 1 = castL x ++ List.replicate (cap - 1 - x.length) 0 := by
            rw [List.cons_append, List.drop_succ_cons, List.drop_zero, List.length_cons]
            congr 2
            omega
          rw [hd, show (count + 2 ^ 64 - 1) % 2 ^ 64 = count - 1 by omega]
          have hlen : 1 ≤ (text ent (some count)).length := by rw [ht, List.length_cons]; omega
          have td := text_drop 1 ent count hlen
          rw [ht, List.drop_succ_cons, List.drop_zero] at td
          have := strncmp2_from id id v1 (valid_drop hv hlen) (fun c hc => text_ne_zero hc) (fun c hc => text_ne_zero hc) rfl rfl 0 (Nat.zero_le _) (Nat.zero_le _)
          rw [this, z1, terminated_drop hlen, t1, td]
          simp

/-! ### Proofs: the tables -/

/-- What the proofs use about an entry. -/
def entryOk (e : List Nat × List Nat) : Bool :=
  decide (e.1 ≠ []) && decide (e.2 ≠ []) && decide (e.1.length < 12) && decide (e.2.length < 3) && e.1.all (fun c => decide (40 ≤ c ∧ c < 127 ∧ c ≠ 59)) &&
    e.2.all fun c => decide (0 < c)

theorem pairs_ok : pairs.all entryOk = true := by decide +kernel
theorem pairs_length : pairs.length = 1535 := by decide +kernel
theorem order_length : order.length = 1535 := by decide +kernel
theorem names_sorted : sortedB (pairs.map fun e => e.1) = true := by decide +kernel

/-- A faster way to find an element. -/
def chunkGet {α : Type} : List (List α) → Nat → Option α
  | [], _ => none
  | c :: cs, i => if i < 64 then c[i]? else chunkGet cs (i - 64)

/-- All chunks have 64 elements, except perhaps the last one. -/
def chunked {α : Type} : List (List α) → Bool
  | [] => true
  | [c] => decide (c.length ≤ 64)
  | c :: cs => decide (c.length = 64) && chunked cs

theorem chunkGet_eq {α : Type} : ∀ (cs : List (List α)), chunked cs = true → ∀ i, chunkGet cs i = cs.flatten[i]? := by
  intro cs
  induction cs with
  | nil => intro _ i; rfl
  | cons c cs ih =>
    intro h i
    rw [chunkGet, List.flatten_cons]
    cases cs with
    | nil =>
      simp only [chunked, decide_eq_true_iff] at h
      rw [List.flatten_nil, List.append_nil]
      by_cases q : i < 64
      · rw [if_pos q]
      · rw [if_neg q, chunkGet, List.getElem?_eq_none (by omega)]
    | cons d cs =>
      rw [chunked, Bool.and_eq_true, decide_eq_true_iff] at h
      · by_cases q : i < 64
        · rw [if_pos q, List.getElem?_append_left (by omega)]
        · rw [if_neg q, List.getElem?_append_right (by omega), h.1, ih h.2]
      · intro a; cases a

theorem pairs_get (i : Nat) : pairs[i]? = chunkGet pairChunks i := (chunkGet_eq pairChunks (by decide +kernel) i).symm

theorem order_in_range : order.all (fun k => decide (k < 1535)) = true := by decide +kernel

/-- `unicode_sgml` orders the table by Unicode text. -/
theorem unis_sorted : sortedB (byUni.map fun e => e.2) = true := by
  have h : byUni = order.map fun k => (chunkGet pairChunks k).getD ([], []) := by
    unfold byUni
    apply List.map_congr_left
    intro k _
    rw [List.getD_eq_getElem?_getD, pairs_get]
  rw [h]
  decide +kernel

theorem entry_ok {m : Nat} {e : List Nat × List Nat} (h : pairs[m]? = some e) : e.1 ≠ [] ∧ e.2 ≠ [] ∧ e.1.length < 12 ∧ e.2.length < 3 ∧
    (∀ c ∈ e.1, 40 ≤ c ∧ c < 127 ∧ c ≠ 59) ∧ ∀ c ∈ e.2, 0 < c := by
  have := List.all_eq_true.1 pairs_ok e (List.mem_of_getElem? h)
  simp only [entryOk, Bool.and_eq_true, decide_eq_true_iff, List.all_eq_true] at this
  exact ⟨this.1.1.1.1.1, this.1.1.1.1.2, this.1.1.1.2, this.1.1.2, this.1.2, this.2⟩

theorem ordered_eq (m : Nat) : ordered m = byUni[m]? := by
  unfold ordered byUni
  rw [List.getElem?_map]
  cases h : order[m]? with
  | none => rfl
  | some k =>
    have := List.all_eq_true.1 order_in_range k (List.mem_of_getElem? h)
    simp only [decide_eq_true_iff] at this
    have hk : k < pairs.length := by rw [pairs_length]; exact this
    rw [Option.bind_some, Option.map_some, List.getElem?_eq_getElem hk, List.getD_eq_getElem?_getD, List.getElem?_eq_getElem hk, Option.getD_some]

theorem byUni_length : byUni.length = 1535 := by unfold byUni; rw [List.length_map, order_length]

theorem byUni_mem {m : Nat} {e : List Nat × List Nat} (h : byUni[m]? = some e) : ∃ k : Nat, pairs[k]? = some e := by
  rw [← ordered_eq] at h
  unfold ordered at h
  cases ho : order[m]? with
  | none => rw [ho] at h; cases h
  | some k => rw [ho] at h; exact ⟨k, h⟩

/-- The first element with a property, by index. -/
theorem find_first {α : Type} {p : α → Bool} : ∀ {l : List α} {k : Nat} {e : α}, l[k]? = some e → p e = true → (∀ m x, m < k → l[m]? = some x → p x = false) →
    l.find? p = some e := by
  intro l
  induction l with
  | nil => intro k e h; simp at h
  | cons y l ih =>
    intro k e h hp hm
    cases k with
    | zero =>
      rw [List.getElem?_cons_zero] at h
      injection h with h
      rw [h, List.find?_cons_of_pos hp]
    | succ k =>
      rw [List.find?_cons_of_neg (by rw [hm 0 y (by omega) rfl]; decide)]
      exact ih (by simpa using h) hp fun m x hmk hx => hm (m + 1) x (by omega) (by simpa using hx)

theorem find_none {α : Type} {p : α → Bool} {l : List α} (h : ∀ (m : Nat) (x : α), l[m]? = some x → p x = false) : l.find? p = none := by
  rw [List.find?_eq_none]
  intro x hx
  obtain ⟨m, hm⟩ := List.mem_iff_getElem?.1 hx
  rw [h m x hm]; decide

/-- **The name search finds the first entry with the name, or nothing if there is none.** -/
theorem findName_spec {ent : List Int} {count : Nat} (hv : Valid ent (some count)) (hc : count < 2 ^ 64) (he : text ent (some count) ≠ []) :
    (findName ent count).map (fun r => r.map fun m => castL (pairs.getD m ([], [])).2) = some (uniOf (text ent (some count))) := by
  obtain ⟨F, hF⟩ : ∃ F : Nat → Int, F = fun m => cmpR true (Terminated ent (some count)) (castL (pairs.getD m ([], [])).1) (text ent (some count)) := ⟨_, rfl⟩
  have hget : ∀ m, m < 1535 → ∃ e, pairs[m]? = some e ∧ pairs.getD m ([], []) = e := by
    intro m hm
    have hlt : m < pairs.length := by rw [pairs_length]; exact hm
    exact ⟨pairs[m], List.getElem?_eq_getElem hlt, by rw [List.getD_eq_getElem?_getD, List.getElem?_eq_getElem hlt]; rfl⟩
  have hpos : ∀ {m : Nat} {e : List Nat × List Nat}, pairs[m]? = some e → ∀ c ∈ e.1, 0 < c := by
    intro m e h c hc
    have := (entry_ok h).2.2.2.2.1 c hc
    omega
  have hf : ∀ m, m < 1535 → (pairs[m]?.bind fun e => cmpHead (nameCells e) 12 ent count) = some (F m) := by
    intro m hm
    obtain ⟨e, h1, h2⟩ := hget m hm
    rw [h1, Option.bind_some, nameCells, cmpHead_eq (hpos h1) (entry_ok h1).2.2.1 (entry_ok h1).1 hv hc he, hF]
    simp only [h2]
  have hg : ∀ m, m < 1535 → (pairs[m]?.bind fun e => (strncmp2 id id (nameCells e) (some 12) ent (some count)).map fun r => r == 0) = some (F m == 0) := by
    intro m hm
    obtain ⟨e, h1, h2⟩ := hget m hm
    obtain ⟨v1, t1, z1⟩ := cells_text (cap := 12) (hpos h1) (entry_ok h1).2.2.1
    rw [h1, Option.bind_some, nameCells, strncmp2_from id id v1 hv (fun c hc => text_ne_zero hc) (fun c hc => text_ne_zero hc) rfl rfl 0 (Nat.zero_le _) (Nat.zero_le _), z1, t1, hF]
    simp only [h2, List.drop_zero, List.map_id, Option.map_some]
  have hm : Mono F 1535 := by
    intro a b hab hb
    obtain ⟨ea, a1, a2⟩ := hget a (by omega)
    obtain ⟨eb, b1, b2⟩ := hget b hb
    rw [hF]
    simp only [a2, b2]
    refine cmpR_mono _ _ _ _ ?_ (hpos a1) (hpos b1)
    exact sorted_get _ names_sorted a b (by omega) _ _ (by rw [List.getElem?_map, a1]; rfl) (by rw [List.getElem?_map, b1]; rfl)
  have hz : ∀ {m : Nat} {e : List Nat × List Nat}, pairs[m]? = some e → pairs.getD m ([], []) = e → (F m = 0 ↔ castL e.1 = text ent (some count)) := by
    intro m e h1 h2
    rw [hF]
    simp only [h2, cmpR_zero]
  unfold findName uniOf
  rcases bisect_spec hf hg hm 0 1535 (Nat.le_refl _) (fun m h => by omega) (fun m h1 h2 => by omega) with ⟨e1, e2⟩ | ⟨k, e1, e2, e3, e4⟩
  · rw [e1, Option.map_some, find_none]
    · rfl
    · intro m x hx
      have hlt : m < 1535 := by rw [← pairs_length]; exact (List.getElem?_eq_some_iff.1 hx).1
      have := e2 m hlt
      rw [ne_eq, hz hx (by rw [List.getD_eq_getElem?_getD, hx]; rfl)] at this
      simpa using this
  · obtain ⟨e, h1, h2⟩ := hget k e2
    rw [e1, Option.map_some, Option.map_some, h2]
    rw [find_first h1 (by simpa using (hz h1 h2).1 e3)]
    · rfl
    · intro m x hmk hx
      have := e4 m hmk
      rw [ne_eq, hz hx (by rw [List.getD_eq_getElem?_getD, hx]; rfl)] at this
      simpa using this

/-- **The text search finds the first entry (in the order of `unicode_sgml`) with the text, or nothing if there is none.** -/
theorem chr2sgml_spec {ent : List Int} {count : Nat} (hv : Valid ent (some count)) (hc : count < 2 ^ 64) (he : text ent (some count) ≠ []) :
    chr2sgml ent count = some (nameOf (text ent (some count))) := by
  obtain ⟨F, hF⟩ : ∃ F : Nat → Int, F = fun m => cmpR true (Terminated ent (some count)) (castL (byUni.getD m ([], [])).2) (text ent (some count)) := ⟨_, rfl⟩
  have hget : ∀ m, m < 1535 → ∃ e, byUni[m]? = some e ∧ byUni.getD m ([], []) = e := by
    intro m hm
    have hlt : m < byUni.length := by rw [byUni_length]; exact hm
    exact ⟨byUni[m], List.getElem?_eq_getElem hlt, by rw [List.getD_eq_getElem?_getD, List.getElem?_eq_getElem hlt]; rfl⟩
  have hok : ∀ {m : Nat} {e : List Nat × List Nat}, byUni[m]? = some e → e.2 ≠ [] ∧ e.2.length < 3 ∧ ∀ c ∈ e.2, 0 < c := by
    intro m e h
    obtain ⟨k, hk⟩ := byUni_mem h
    have := entry_ok hk
    exact ⟨this.2.1, this.2.2.2.1, this.2.2.2.2.2⟩
  have hf : ∀ m, m < 1535 → ((ordered m).bind fun e => cmpHead (uniCells e) 3 ent count) = some (F m) := by
    intro m hm
    obtain ⟨e, h1, h2⟩ := hget m hm
    obtain ⟨o1, o2, o3⟩ := hok h1
    rw [ordered_eq, h1, Option.bind_some, uniCells, cmpHead_eq o3 o2 o1 hv hc he, hF]
    simp only [h2]
  have hg : ∀ m, m < 1535 → ((ordered m).bind fun e => (cmpHead (uniCells e) 3 ent count).map fun r => r == 0) = some (F m == 0) := by
    intro m hm
    obtain ⟨e, h1, h2⟩ := hget m hm
    obtain ⟨o1, o2, o3⟩ := hok h1
    rw [ordered_eq, h1, Option.bind_some, uniCells, cmpHead_eq o3 o2 o1 hv hc he, hF]
    simp only [h2, Option.map_some]
  have hm : Mono F 1535 := by
    intro a b hab hb
    obtain ⟨ea, a1, a2⟩ := hget a (by omega)
    obtain ⟨eb, b1, b2⟩ := hget b hb
    rw [hF]
    simp only [a2, b2]
    refine cmpR_mono _ _ _ _ ?_ (hok a1).2.2 (hok b1).2.2
    exact sorted_get _ unis_sorted a b (by omega) _ _ (by rw [List.getElem?_map, a1]; rfl) (by rw [List.getElem?_map, b1]; rfl)
  have hz : ∀ {m : Nat} {e : List Nat × List Nat}, byUni[m]? = some e → byUni.getD m ([], []) = e → (F m = 0 ↔ castL e.2 = text ent (some count)) := by
    intro m e h1 h2
    rw [hF]
    simp only [h2, cmpR_zero]
  unfold chr2sgml nameOf
  rcases bisect_spec hf hg hm 0 1535 (Nat.le_refl _) (fun m h => by omega) (fun m h1 h2 => by omega) with ⟨e1, e2⟩ | ⟨k, e1, e2, e3, e4⟩
  · rw [e1, Option.map_some, find_none]
    · rfl
    · intro m x hx
      have hlt : m < 1535 := by rw [← byUni_length]; exact (List.getElem?_eq_some_iff.1 hx).1
      have := e2 m hlt
      rw [ne_eq, hz hx (by rw [List.getD_eq_getElem?_getD, hx]; rfl)] at this
      simpa using this
  · obtain ⟨e, h1, h2⟩ := hget k e2
    rw [e1, Option.map_some, Option.map_some, ordered_eq, h1, Option.getD_some]
    rw [find_first h1 (by simpa using (hz h1 h2).1 e3)]
    · rfl
    · intro m x hmk hx
      have := e4 m hmk
      rw [ne_eq, hz hx (by rw [List.getD_eq_getElem?_getD, hx]; rfl)] at this
      simpa using this

end Verif.Sgml
