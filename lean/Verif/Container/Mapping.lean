/-
Model of `stdex::mapping<T>` and of the four position converters `dst2src` / `src2dst`
(include/stdex/mapping.hpp 17-252).

`T` is `size_t`, modelled as `BitVec 64` with its wrap-around arithmetic and unsigned order
(the instantiation used by the library, string.hpp and sgml.hpp).  Vector indices are natural
numbers: a `std::vector` has fewer than 2^59 sixteen-byte elements, so `l + r`, `m + 1` cannot wrap.
A vector access outside of the bounds is undefined behaviour and is modelled by `none`.
-/
namespace Verif.Mapping

/-- `size_t`. -/
abbrev W := BitVec 64

/-- mapping.hpp 18-20. -/
structure Mp where
  frm : W
  to : W
deriving DecidableEq, Repr

/-- `operator==`, mapping.hpp 49. -/
def Mp.beq (a b : Mp) : Bool := a.frm == b.frm && a.to == b.to

/-- `operator!=`, mapping.hpp 58. -/
def Mp.bne (a b : Mp) : Bool := !a.beq b

/-- `operator+`, mapping.hpp 67-70. -/
def Mp.add (a b : Mp) : Mp := ⟨a.frm + b.frm, a.to + b.to⟩

/-- `invert`, mapping.hpp 75-80. -/
def Mp.invert (a : Mp) : Mp := ⟨a.to, a.frm⟩

/-- `std::min<T>`. -/
def minW (a b : W) : W := if b < a then b else a

/-! ### The bisection loop

`dst2src` (100-116, 151-167) and `src2dst` (184-200, 235-251) are the same text with the fields
`from` and `to` exchanged; the fields are the parameters `key` (compared) and `val` (returned).
The result is the pair (position, index of the element used last, i.e. the hint `m`). -/
def bisect (key val : Mp → W) (v : List Mp) (x : W) (l r m : Nat) : Option (W × Nat) :=
  if h : l < r then
    let mid := (l + r) / 2
    match v[mid]? with
    | none => none
    | some el =>
      if x < key el then bisect key val v x l mid mid
      else if key el < x then bisect key val v x (mid + 1) r mid
      else some (val el, mid)
  else if l ≠ 0 then
    match v[l - 1]? with
    | none => none
    | some el => some (val el + (x - key el), l - 1)
  else
    match v[0]? with
    | none => none
    | some el => some (minW x (val el), 0)
termination_by r - l
decreasing_by all_goals omega

/-- `dst2src` without hint, mapping.hpp 95-117. -/
def dst2src (v : List Mp) (x : W) : Option W :=
  if v.isEmpty then some x
  else (bisect Mp.to Mp.frm v x 0 v.length 0).map Prod.fst

/-- `src2dst` without hint, mapping.hpp 179-201. -/
def src2dst (v : List Mp) (x : W) : Option W :=
  if v.isEmpty then some x
  else (bisect Mp.frm Mp.to v x 0 v.length 0).map Prod.fst

/-- The part of the hinted converters in front of the loop and the loop, mapping.hpp 134-167 and
218-251, with `key`/`val` as in `bisect`. -/
def hinted (key val : Mp → W) (v : List Mp) (x : W) (m : Nat) : Option (W × Nat) :=
  match v[m]? with
  | none => none
  | some el =>
    if x < key el then bisect key val v x 0 m m
    else if key el < x then
      if v.length - 1 ≤ m then some (val el + (x - key el), m)
      else match v[m + 1]? with
        | none => none
        | some el' =>
          if x < key el' then some (val el + (x - key el), m)
          else bisect key val v x (m + 1) v.length m
    else some (val el, m)

/-- `dst2src` with hint, mapping.hpp 129-168: (position, updated hint). -/
def dst2srcH (v : List Mp) (x : W) (m : Nat) : Option (W × Nat) :=
  if v.isEmpty then some (x, m) else hinted Mp.to Mp.frm v x m

/-- `src2dst` with hint, mapping.hpp 213-252. -/
def src2dstH (v : List Mp) (x : W) (m : Nat) : Option (W × Nat) :=
  if v.isEmpty then some (x, m) else hinted Mp.frm Mp.to v x m

/-! ### Specification -/

/-- `r` is the image of position `x` under the anchors `v`, looked up by `key`, valued by `val`:
no anchors: the position itself; an anchor at the position: its partner; anchors before the
position: the partner of the closest one plus the distance from it; otherwise: the
smaller of the position and the first anchor's partner. -/
def Image (key val : Mp → W) (v : List Mp) (x r : W) : Prop :=
  (v = [] ∧ r = x) ∨
  (∃ a ∈ v, key a = x ∧ r = val a) ∨
  ((∀ a ∈ v, key a ≠ x) ∧
    ∃ a ∈ v, key a < x ∧ (∀ b ∈ v, key b < x → key b ≤ key a) ∧ r = val a + (x - key a)) ∨
  ((∀ a ∈ v, x < key a) ∧ ∃ a, v.head? = some a ∧ r.toNat = min x.toNat (val a).toNat)

/-- The anchors are in strictly increasing order of `key`. -/
def Sorted (key : Mp → W) (v : List Mp) : Prop := v.Pairwise (fun a b => key a < key b)

/-! ### Proofs -/

theorem Sorted.lt {key : Mp → W} {v : List Mp} (h : Sorted key v) {i j : Nat} {a b : Mp}
    (hij : i < j) (ha : v[i]? = some a) (hb : v[j]? = some b) : key a < key b := by
  obtain ⟨hi, rfl⟩ := List.getElem?_eq_some_iff.1 ha
  obtain ⟨hj, rfl⟩ := List.getElem?_eq_some_iff.1 hb
  exact List.pairwise_iff_getElem.1 h i j hi hj hij

theorem minW_toNat (a b : W) : (minW a b).toNat = min a.toNat b.toNat := by
  unfold minW
  split
  · rename_i h; rw [BitVec.lt_def] at h; omega
  · rename_i h; rw [BitVec.lt_def] at h; omega

/-- The image is unique. -/
theorem Image.unique {key val : Mp → W} {v : List Mp} (hs : Sorted key v) {x r r' : W}
    (h : Image key val v x r) (h' : Image key val v x r') : r = r' := by
  have inj : ∀ a ∈ v, ∀ b ∈ v, key a = key b → a = b := by
    intro a ha b hb hk
    obtain ⟨i, hi, rfl⟩ := List.mem_iff_getElem.1 ha
    obtain ⟨j, hj, rfl⟩ := List.mem_iff_getElem.1 hb
    rcases Nat.lt_trichotomy i j with h | h | h
    · have := List.pairwise_iff_getElem.1 hs i j hi hj h
      rw [hk, BitVec.lt_def] at this; omega
    · subst h; rfl
    · have := List.pairwise_iff_getElem.1 hs j i hj hi h
      rw [hk, BitVec.lt_def] at this; omega
  have head : ∀ a, v.head? = some a → a ∈ v := fun a h => List.mem_of_mem_head? h
  rcases h with ⟨h1, h2⟩ | ⟨a, h1, h2, h3⟩ | ⟨h0, a, h1, h2, h3, h4⟩ | ⟨h1, a, h2, h3⟩
  · subst h1
    rcases h' with ⟨_, h2'⟩ | ⟨a, h1, _⟩ | ⟨_, a, h1, _⟩ | ⟨_, a, h2', _⟩
    · rw [h2, h2']
    · simp at h1
    · simp at h1
    · simp at h2'
  · rcases h' with ⟨h1', _⟩ | ⟨a', h1', h2', h3'⟩ | ⟨h0', _⟩ | ⟨h1', _⟩
    · subst h1'; simp at h1
    · have := inj a h1 a' h1' (h2.trans h2'.symm); subst this; rw [h3, h3']
    · exact absurd h2 (h0' a h1)
    · have := h1' a h1; rw [h2, BitVec.lt_def] at this; omega
  · rcases h' with ⟨h1', _⟩ | ⟨a', h1', h2', h3'⟩ | ⟨h0', a', h1', h2', h3', h4'⟩ | ⟨h1', _⟩
    · subst h1'; simp at h1
    · exact absurd h2' (h0 a' h1')
    · have e1 := h3 a' h1' h2'
      have e2 := h3' a h1 h2
      have : a = a' := inj a h1 a' h1' (by
        apply BitVec.eq_of_toNat_eq
        rw [BitVec.le_def] at e1 e2; omega)
      subst this; rw [h4, h4']
    · have := h1' a h1; rw [BitVec.lt_def] at *; omega
  · rcases h' with ⟨h1', _⟩ | ⟨a', h1', h2', h3'⟩ | ⟨h0', a', h1', h2', h3', h4'⟩ | ⟨h1', a', h2', h3'⟩
    · subst h1'; simp at h2
    · have := h1 a' h1'; rw [h2', BitVec.lt_def] at this; omega
    · have := h1 a' h1'; rw [BitVec.lt_def] at *; omega
    · rw [h2] at h2'; cases h2'
      exact BitVec.eq_of_toNat_eq (h3.trans h3'.symm)

/-- The anchors are in increasing order of `key`, not necessarily strictly. -/
def Weak (key : Mp → W) (v : List Mp) : Prop := v.Pairwise (fun a b => key a ≤ key b)

theorem Weak.le {key : Mp → W} {v : List Mp} (h : Weak key v) {i j : Nat} {a b : Mp}
    (hij : i < j) (ha : v[i]? = some a) (hb : v[j]? = some b) : key a ≤ key b := by
  obtain ⟨hi, rfl⟩ := List.getElem?_eq_some_iff.1 ha
  obtain ⟨hj, rfl⟩ := List.getElem?_eq_some_iff.1 hb
  exact List.pairwise_iff_getElem.1 h i j hi hj hij

/-- The loop with its invariant: everything below `l` is smaller, everything from `r` is greater. -/
theorem bisect_weak {key val : Mp → W} {v : List Mp} (hs : Weak key v) (x : W) :
    ∀ (l r m : Nat), l ≤ r → r ≤ v.length → 0 < v.length →
      (∀ i a, i < l → v[i]? = some a → key a < x) →
      (∀ i a, r ≤ i → v[i]? = some a → x < key a) →
      ∃ p k, bisect key val v x l r m = some (p, k) ∧ k < v.length ∧ Image key val v x p := by
  intro l r m
  induction l, r, m using bisect.induct (key := key) (v := v) (x := x) with
  | case1 l r m h mid hn =>
    intro _ hr
    exact absurd hn (by
      rw [List.getElem?_eq_none_iff]; show ¬ v.length ≤ (l + r) / 2; omega)
  | case2 l r m h mid el hel hlt ih =>
    intro _ hr h0 hl hrr
    rw [bisect]
    simp only [h, dif_pos]
    rw [show v[(l + r) / 2]? = some el from hel]
    simp only [hlt, if_true]
    apply ih
    · show l ≤ (l + r) / 2; omega
    · show (l + r) / 2 ≤ v.length; omega
    · exact h0
    · exact hl
    · intro i a hi ha
      rcases Nat.eq_or_lt_of_le hi with e | e
      · subst e; rw [hel] at ha; cases ha; exact hlt
      · have := hs.le e hel ha
        simp only [BitVec.lt_def, BitVec.le_def] at *; omega
  | case3 l r m h mid el hel hnlt hlt ih =>
    intro _ hr h0 hl hrr
    rw [bisect]
    simp only [h, dif_pos]
    rw [show v[(l + r) / 2]? = some el from hel]
    simp only [hnlt, hlt, if_true, if_false]
    apply ih
    · show (l + r) / 2 + 1 ≤ r; omega
    · exact hr
    · exact h0
    · intro i a hi ha
      rcases Nat.eq_or_lt_of_le (Nat.le_of_lt_succ hi) with e | e
      · subst e; rw [hel] at ha; cases ha; exact hlt
      · have := hs.le e ha hel
        simp only [BitVec.lt_def, BitVec.le_def] at *; omega
    · exact hrr
  | case4 l r m h mid el hel hnlt hnlt' =>
    intro _ hr h0 hl hrr
    rw [bisect]
    simp only [h, dif_pos]
    rw [show v[(l + r) / 2]? = some el from hel]
    simp only [hnlt, hnlt', if_false]
    refine ⟨_, _, rfl, by omega, Or.inr (Or.inl ⟨el, List.mem_of_getElem? hel, ?_, rfl⟩)⟩
    apply BitVec.eq_of_toNat_eq
    rw [BitVec.lt_def] at *; omega
  | case5 l r m h hl0 hn =>
    intro hle hr
    exact absurd hn (by rw [List.getElem?_eq_none_iff]; omega)
  | case6 l r m h hl0 el hel =>
    intro hle hr h0 hl hrr
    rw [bisect]
    simp only [h, dif_neg, not_false_eq_true, hl0, ne_eq, if_true]
    rw [hel]
    refine ⟨_, _, rfl, by omega, Or.inr (Or.inr (Or.inl ⟨?_, el, List.mem_of_getElem? hel, ?_, ?_, rfl⟩))⟩
    · intro a ha e
      obtain ⟨i, hi⟩ := List.mem_iff_getElem?.1 ha
      rcases Nat.lt_or_ge i l with c | c
      · have := hl i a c hi; rw [e, BitVec.lt_def] at this; omega
      · have := hrr i a (by omega) hi; rw [e, BitVec.lt_def] at this; omega
    · exact hl _ _ (by omega) hel
    · intro b hb hbx
      obtain ⟨i, hi⟩ := List.mem_iff_getElem?.1 hb
      rcases Nat.lt_trichotomy i (l - 1) with c | c | c
      · exact hs.le c hi hel
      · subst c; rw [hel] at hi; cases hi; rw [BitVec.le_def]; omega
      · have := hrr i b (by omega) hi; rw [BitVec.lt_def] at *; omega
  | case7 l r m h hl0 hn =>
    intro hle hr h0
    exact absurd hn (by rw [List.getElem?_eq_none_iff]; omega)
  | case8 l r m h hl0 el hel =>
    intro hle hr h0 hl hrr
    rw [bisect]
    simp only [h, dif_neg, not_false_eq_true, hl0, if_false]
    rw [hel]
    refine ⟨_, _, rfl, h0, Or.inr (Or.inr (Or.inr ⟨?_, el, ?_, minW_toNat _ _⟩))⟩
    · intro a ha
      obtain ⟨i, hi⟩ := List.mem_iff_getElem?.1 ha
      have hl0 : l = 0 := Classical.not_not.1 hl0
      exact hrr i a (by omega) hi
    · rw [List.head?_eq_getElem?]; exact hel

theorem bisect_spec {key val : Mp → W} {v : List Mp} (hs : Sorted key v) (x : W) :
    ∀ (l r m : Nat), l ≤ r → r ≤ v.length → 0 < v.length →
      (∀ i a, i < l → v[i]? = some a → key a < x) →
      (∀ i a, r ≤ i → v[i]? = some a → x < key a) →
      ∃ p k, bisect key val v x l r m = some (p, k) ∧ k < v.length ∧ Image key val v x p :=
  bisect_weak (hs.imp fun {a b} h => by rw [BitVec.lt_def] at h; rw [BitVec.le_def]; omega) x

theorem full_spec {key val : Mp → W} {v : List Mp} (hs : Sorted key v) (hv : v ≠ []) (x : W) :
    ∃ p k, bisect key val v x 0 v.length 0 = some (p, k) ∧ k < v.length ∧ Image key val v x p := by
  have h0 : 0 < v.length := List.length_pos_iff.2 hv
  apply bisect_spec hs x 0 v.length 0 (Nat.zero_le _) (Nat.le_refl _) h0
  · intro i a hi; omega
  · intro i a hi ha
    have := (List.getElem?_eq_some_iff.1 ha).1; omega

theorem hinted_spec {key val : Mp → W} {v : List Mp} (hs : Sorted key v) (x : W) {m : Nat}
    (hm : m < v.length) :
    ∃ p k, hinted key val v x m = some (p, k) ∧ k < v.length ∧ Image key val v x p := by
  have h0 : 0 < v.length := by omega
  obtain ⟨el, hel⟩ : ∃ el, v[m]? = some el := ⟨v[m], List.getElem?_eq_getElem hm⟩
  unfold hinted
  rw [hel]
  simp only []
  by_cases h1 : x < key el
  · simp only [h1, if_true]
    apply bisect_spec hs x 0 m m (Nat.zero_le _) (by omega) h0
    · intro i a hi; omega
    · intro i a hi ha
      rcases Nat.eq_or_lt_of_le hi with e | e
      · subst e; rw [hel] at ha; cases ha; exact h1
      · have := hs.lt e hel ha
        rw [BitVec.lt_def] at *; omega
  · simp only [h1, if_false]
    by_cases h2 : key el < x
    · simp only [h2, if_true]
      -- the anchor before the hint is the closest one if all later ones are greater
      have close : (∀ i a, m < i → v[i]? = some a → x < key a) →
          Image key val v x (val el + (x - key el)) := by
        intro hrr
        refine Or.inr (Or.inr (Or.inl ⟨?_, el, List.mem_of_getElem? hel, h2, ?_, rfl⟩))
        · intro a ha e
          obtain ⟨i, hi⟩ := List.mem_iff_getElem?.1 ha
          rcases Nat.lt_trichotomy i m with c | c | c
          · have := hs.lt c hi hel; rw [BitVec.lt_def] at *; rw [e] at this; omega
          · subst c; rw [hel] at hi; cases hi; rw [e, BitVec.lt_def] at h2; omega
          · have := hrr i a c hi; rw [e, BitVec.lt_def] at this; omega
        · intro b hb hbx
          obtain ⟨i, hi⟩ := List.mem_iff_getElem?.1 hb
          rcases Nat.lt_trichotomy i m with c | c | c
          · have := hs.lt c hi hel; rw [BitVec.le_def, BitVec.lt_def] at *; omega
          · subst c; rw [hel] at hi; cases hi; rw [BitVec.le_def]; omega
          · have := hrr i b c hi; rw [BitVec.lt_def] at *; omega
      by_cases h3 : v.length - 1 ≤ m
      · simp only [h3, if_true]
        refine ⟨_, _, rfl, hm, close ?_⟩
        intro i a hi ha
        have := (List.getElem?_eq_some_iff.1 ha).1; omega
      · simp only [h3, if_false]
        obtain ⟨el', hel'⟩ : ∃ el', v[m + 1]? = some el' :=
          ⟨v[m + 1]'(by omega), List.getElem?_eq_getElem (by omega)⟩
        rw [hel']
        simp only []
        by_cases h4 : x < key el'
        · simp only [h4, if_true]
          refine ⟨_, _, rfl, hm, close ?_⟩
          intro i a hi ha
          rcases Nat.eq_or_lt_of_le (Nat.succ_le_of_lt hi) with e | e
          · subst e; rw [hel'] at ha; cases ha; exact h4
          · have := hs.lt e hel' ha
            rw [BitVec.lt_def] at *; omega
        · simp only [h4, if_false]
          apply bisect_spec hs x (m + 1) v.length m (by omega) (Nat.le_refl _) h0
          · intro i a hi ha
            rcases Nat.eq_or_lt_of_le (Nat.le_of_lt_succ hi) with e | e
            · subst e; rw [hel] at ha; cases ha; exact h2
            · have := hs.lt e ha hel
              rw [BitVec.lt_def] at *; omega
          · intro i a hi ha
            have := (List.getElem?_eq_some_iff.1 ha).1; omega
    · simp only [h2, if_false]
      refine ⟨_, _, rfl, hm, Or.inr (Or.inl ⟨el, List.mem_of_getElem? hel, ?_, rfl⟩)⟩
      apply BitVec.eq_of_toNat_eq
      rw [BitVec.lt_def] at *; omega

/-! ### C23: the converters compute the image -/

/-- C23.  `dst2src` performs no out-of-bounds access and returns the image. -/
theorem dst2src_correct (v : List Mp) (hs : Sorted Mp.to v) (x : W) :
    ∃ p, dst2src v x = some p ∧ Image Mp.to Mp.frm v x p := by
  unfold dst2src
  cases v with
  | nil => exact ⟨x, rfl, Or.inl ⟨rfl, rfl⟩⟩
  | cons a v =>
    obtain ⟨p, k, h1, _, h3⟩ := full_spec (val := Mp.frm) hs (List.cons_ne_nil a v) x
    refine ⟨p, ?_, h3⟩
    rw [List.isEmpty_cons, if_neg (by decide), h1]; rfl

/-- C23.  Likewise `src2dst`. -/
theorem src2dst_correct (v : List Mp) (hs : Sorted Mp.frm v) (x : W) :
    ∃ p, src2dst v x = some p ∧ Image Mp.frm Mp.to v x p := by
  unfold src2dst
  cases v with
  | nil => exact ⟨x, rfl, Or.inl ⟨rfl, rfl⟩⟩
  | cons a v =>
    obtain ⟨p, k, h1, _, h3⟩ := full_spec (val := Mp.to) hs (List.cons_ne_nil a v) x
    refine ⟨p, ?_, h3⟩
    rw [List.isEmpty_cons, if_neg (by decide), h1]; rfl

/-- C23.  Also if anchors are repeated, the converters return an image. -/
theorem dst2src_weak (v : List Mp) (hs : Weak Mp.to v) (x : W) : ∃ p, dst2src v x = some p ∧ Image Mp.to Mp.frm v x p := by
  unfold dst2src
  cases v with
  | nil => exact ⟨x, rfl, Or.inl ⟨rfl, rfl⟩⟩
  | cons a v =>
    obtain ⟨p, k, h1, _, h3⟩ := bisect_weak (val := Mp.frm) hs x 0 (a :: v).length 0 (Nat.zero_le _) (Nat.le_refl _) (by simp) (fun i a hi => by omega)
      (fun i b hi hb => by have := (List.getElem?_eq_some_iff.1 hb).1; omega)
    exact ⟨p, by rw [List.isEmpty_cons, if_neg (by decide), h1]; rfl, h3⟩

@[inherit_doc dst2src_weak] theorem src2dst_weak (v : List Mp) (hs : Weak Mp.frm v) (x : W) : ∃ p, src2dst v x = some p ∧ Image Mp.frm Mp.to v x p := by
  unfold src2dst
  cases v with
  | nil => exact ⟨x, rfl, Or.inl ⟨rfl, rfl⟩⟩
  | cons a v =>
    obtain ⟨p, k, h1, _, h3⟩ := bisect_weak (val := Mp.to) hs x 0 (a :: v).length 0 (Nat.zero_le _) (Nat.le_refl _) (by simp) (fun i a hi => by omega)
      (fun i b hi hb => by have := (List.getElem?_eq_some_iff.1 hb).1; omega)
    exact ⟨p, by rw [List.isEmpty_cons, if_neg (by decide), h1]; rfl, h3⟩

/-- C23.  The specification determines the result: being an image and being returned are the same. -/
theorem dst2src_iff (v : List Mp) (hs : Sorted Mp.to v) (x p : W) :
    dst2src v x = some p ↔ Image Mp.to Mp.frm v x p := by
  obtain ⟨q, h1, h2⟩ := dst2src_correct v hs x
  constructor
  · intro h; rw [h1] at h; cases h; exact h2
  · intro h; rw [h1, Image.unique hs h h2]

theorem src2dst_iff (v : List Mp) (hs : Sorted Mp.frm v) (x p : W) :
    src2dst v x = some p ↔ Image Mp.frm Mp.to v x p := by
  obtain ⟨q, h1, h2⟩ := src2dst_correct v hs x
  constructor
  · intro h; rw [h1] at h; cases h; exact h2
  · intro h; rw [h1, Image.unique hs h h2]

/-- Anchors are mapped to each other: going to the destination and back is the identity on anchors. -/
theorem anchors_round_trip (v : List Mp) (hf : Sorted Mp.frm v) (ht : Sorted Mp.to v)
    (a : Mp) (ha : a ∈ v) : src2dst v a.frm = some a.to ∧ dst2src v a.to = some a.frm :=
  ⟨(src2dst_iff v hf _ _).2 (Or.inr (Or.inl ⟨a, ha, rfl, rfl⟩)),
   (dst2src_iff v ht _ _).2 (Or.inr (Or.inl ⟨a, ha, rfl, rfl⟩))⟩

/-! ### C24: hints -/

/-- C24.  One call with any valid hint gives the position of the un-hinted converter and
a valid hint for the next call. -/
theorem dst2srcH_eq (v : List Mp) (hs : Sorted Mp.to v) (x : W) (m : Nat) (hm : v = [] ∨ m < v.length) :
    ∃ k, (dst2srcH v x m).map Prod.fst = dst2src v x ∧ (dst2srcH v x m).map Prod.snd = some k ∧
      (v = [] ∨ k < v.length) := by
  cases v with
  | nil => exact ⟨m, rfl, rfl, Or.inl rfl⟩
  | cons a v =>
    have hm : m < (a :: v).length := by rcases hm with h | h; (cases h); exact h
    obtain ⟨p, k, h1, h2, h3⟩ := hinted_spec (val := Mp.frm) hs x hm
    refine ⟨k, ?_, ?_, Or.inr h2⟩
    · rw [(dst2src_iff _ hs x p).2 h3]
      unfold dst2srcH
      rw [List.isEmpty_cons, if_neg (by decide), h1]; rfl
    · unfold dst2srcH
      rw [List.isEmpty_cons, if_neg (by decide), h1]; rfl

theorem src2dstH_eq (v : List Mp) (hs : Sorted Mp.frm v) (x : W) (m : Nat) (hm : v = [] ∨ m < v.length) :
    ∃ k, (src2dstH v x m).map Prod.fst = src2dst v x ∧ (src2dstH v x m).map Prod.snd = some k ∧
      (v = [] ∨ k < v.length) := by
  cases v with
  | nil => exact ⟨m, rfl, rfl, Or.inl rfl⟩
  | cons a v =>
    have hm : m < (a :: v).length := by rcases hm with h | h; (cases h); exact h
    obtain ⟨p, k, h1, h2, h3⟩ := hinted_spec (val := Mp.to) hs x hm
    refine ⟨k, ?_, ?_, Or.inr h2⟩
    · rw [(src2dst_iff _ hs x p).2 h3]
      unfold src2dstH
      rw [List.isEmpty_cons, if_neg (by decide), h1]; rfl
    · unfold src2dstH
      rw [List.isEmpty_cons, if_neg (by decide), h1]; rfl

/-- A history of hinted calls sharing one hint variable: each query is a direction
(`true`: dst2src) and a position. -/
def runH (v : List Mp) : List (Bool × W) → Nat → Option (List W)
  | [], _ => some []
  | (d, x) :: qs, m =>
    match (if d then dst2srcH v x m else src2dstH v x m) with
    | none => none
    | some (p, m') => (runH v qs m').map (p :: ·)

/-- The same queries without hint. -/
def runU (v : List Mp) : List (Bool × W) → Option (List W)
  | [] => some []
  | (d, x) :: qs =>
    match (if d then dst2src v x else src2dst v x) with
    | none => none
    | some p => (runU v qs).map (p :: ·)

/-- C24.  Whole histories, both directions mixed, starting from any valid hint: the
same positions and no out-of-bounds access. -/
theorem hinted_history (v : List Mp) (hf : Sorted Mp.frm v) (ht : Sorted Mp.to v)
    (qs : List (Bool × W)) : ∀ (m : Nat), (v = [] ∨ m < v.length) →
      runH v qs m = runU v qs ∧ (runH v qs m).isSome := by
  induction qs with
  | nil => intro m _; exact ⟨rfl, rfl⟩
  | cons q qs ih =>
    intro m hm
    obtain ⟨d, x⟩ := q
    have key : ∃ p k, (if d then dst2srcH v x m else src2dstH v x m) = some (p, k) ∧
        (if d then dst2src v x else src2dst v x) = some p ∧ (v = [] ∨ k < v.length) := by
      cases d with
      | true =>
        obtain ⟨k, h1, h2, h3⟩ := dst2srcH_eq v ht x m hm
        simp only [if_true]
        cases e : dst2srcH v x m with
        | none => rw [e] at h2; cases h2
        | some pk =>
          rw [e] at h1 h2
          cases h2
          exact ⟨pk.1, pk.2, rfl, h1.symm, h3⟩
      | false =>
        obtain ⟨k, h1, h2, h3⟩ := src2dstH_eq v hf x m hm
        simp only [Bool.false_eq_true, if_false]
        cases e : src2dstH v x m with
        | none => rw [e] at h2; cases h2
        | some pk =>
          rw [e] at h1 h2
          cases h2
          exact ⟨pk.1, pk.2, rfl, h1.symm, h3⟩
    obtain ⟨p, k, h1, h2, h3⟩ := key
    obtain ⟨i1, i2⟩ := ih k h3
    constructor
    · rw [runH, runU, h1, h2]
      simp only []
      rw [i1]
    · rw [runH, h1]
      simp only [Option.isSome_map]
      exact i2

/-! ### C25: inversion -/

/-- C25.  Inversion is an involution and exchanges the two positions. -/
theorem invert_invert (a : Mp) : a.invert.invert = a := rfl

theorem invert_fields (a : Mp) : a.invert.frm = a.to ∧ a.invert.to = a.frm := ⟨rfl, rfl⟩

theorem bisect_invert (v : List Mp) (x : W) (l r m : Nat) :
    bisect Mp.to Mp.frm (v.map Mp.invert) x l r m = bisect Mp.frm Mp.to v x l r m := by
  induction l, r, m using bisect.induct (key := Mp.frm) (v := v) (x := x) with
  | case1 l r m h mid hn =>
    rw [bisect, bisect]
    simp only [h, dif_pos, List.getElem?_map]
    rw [show v[(l + r) / 2]? = none from hn]; rfl
  | case2 l r m h mid el hel hlt ih =>
    rw [bisect, bisect]
    simp only [h, dif_pos, List.getElem?_map]
    rw [show v[(l + r) / 2]? = some el from hel]
    simp only [Option.map_some, Mp.invert, hlt, if_true]
    exact ih
  | case3 l r m h mid el hel hnlt hlt ih =>
    rw [bisect, bisect]
    simp only [h, dif_pos, List.getElem?_map]
    rw [show v[(l + r) / 2]? = some el from hel]
    simp only [Option.map_some, Mp.invert, hlt, hnlt, if_true, if_false]
    exact ih
  | case4 l r m h mid el hel hnlt hnlt' =>
    rw [bisect, bisect]
    simp only [h, dif_pos, List.getElem?_map]
    rw [show v[(l + r) / 2]? = some el from hel]
    simp only [Option.map_some, Mp.invert, hnlt', hnlt, if_false]
  | case5 l r m h hl0 hn =>
    rw [bisect, bisect]
    simp only [h, dif_neg, not_false_eq_true, hl0, ne_eq, if_true, List.getElem?_map, hn, Option.map_none]
  | case6 l r m h hl0 el hel =>
    rw [bisect, bisect]
    simp only [h, dif_neg, not_false_eq_true, hl0, ne_eq, if_true, List.getElem?_map, hel, Option.map_some, Mp.invert]
  | case7 l r m h hl0 hn =>
    rw [bisect, bisect]
    simp only [h, dif_neg, not_false_eq_true, hl0, if_false, List.getElem?_map, hn, Option.map_none]
  | case8 l r m h hl0 el hel =>
    rw [bisect, bisect]
    simp only [h, dif_neg, not_false_eq_true, hl0, if_false, List.getElem?_map, hel, Option.map_some, Mp.invert]

/-- C25.  Inverting all anchors exchanges the two converters (for any vector, sorted or not). -/
theorem dst2src_invert (v : List Mp) (x : W) : dst2src (v.map Mp.invert) x = src2dst v x := by
  unfold dst2src src2dst
  rw [List.isEmpty_map, List.length_map, bisect_invert]

theorem src2dst_invert (v : List Mp) (x : W) : src2dst (v.map Mp.invert) x = dst2src v x := by
  rw [← dst2src_invert, List.map_map]
  congr 1
  exact (List.map_congr_left (fun a _ => rfl)).trans (List.map_id v)

/-- The comparison operators compare both positions. -/
theorem beq_iff (a b : Mp) : (a.beq b = true ↔ a = b) ∧ (a.bne b = true ↔ a ≠ b) := by
  obtain ⟨a1, a2⟩ := a
  obtain ⟨b1, b2⟩ := b
  constructor
  · simp [Mp.beq]
  · simp only [Mp.bne, Mp.beq, Mp.mk.injEq, ne_eq, Bool.not_eq_true', Bool.and_eq_false_iff]
    simp only [beq_eq_false_iff_ne, ne_eq]
    constructor
    · rintro (h | h) ⟨e1, e2⟩ <;> contradiction
    · intro h
      by_cases e : a1 = b1
      · exact Or.inr (fun e2 => h ⟨e, e2⟩)
      · exact Or.inl e

/-! ### Non-vacuity -/

/-- Three anchors, strictly increasing on both sides. -/
def sample : List Mp := [⟨5, 3⟩, ⟨10, 20⟩, ⟨30, 22⟩]

example : Sorted Mp.to sample ∧ Sorted Mp.frm sample := by
  constructor <;> (unfold Sorted sample; simp only [List.pairwise_cons]; decide)

example : dst2src sample 21 = some 11 := by decide +kernel
example : dst2src sample 1 = some 1 := by decide +kernel
example : dst2src sample 22 = some 30 := by decide +kernel
example : runH sample [(true, 21), (false, 2), (false, 31), (true, 4)] 1 = some [11, 2, 23, 6] := by
  decide +kernel

/-- An out-of-range hint is undefined behaviour (the documentation's precondition matters). -/
theorem hint_out_of_range : dst2srcH sample 21 3 = none := by decide +kernel

end Verif.Mapping
