import Verif.Str.Copy
/-
Trimming (include/stdex/string.hpp 3109-3363). `sp` is the test for a space: `isspace`, or that of a locale. SIZE_MAX as the
count is no count. Conventions as in `Verif.Str.Find`.
-/
namespace Verif.Str

/-- `strncpy(str, str + k, count)` (1678-1683) and `strcpy(str, str + k)` (1633-1636), within one buffer. -/
def moveGo (d : List Int) (k : Nat) (cs : Option Nat) (i : Nat) : Option (List Int × Nat) :=
  if below cs i then
    match h : rd d (k + i) with
    | none => none
    | some c => if c = 0 then some (d.set i c, i) else moveGo (d.set i c) k cs (i + 1)
  else some (d, i)
termination_by d.length - (k + i)
decreasing_by have := (List.getElem?_eq_some_iff.1 h).1; simp only [List.length_set]; omega

/-- `count - i` -/
def less (count : Option Nat) (i : Nat) : Option Nat := count.map (· - i)

/-- `str[n] = 0; return n;` -/
def endAt (d : List Int) (n : Nat) : Option (List Int × Nat) := (wr d n 0).map fun d' => (d', n)

/-- `ltrim`, 3110-3164. -/
def ltrim (sp : Int → Bool) (d : List Int) (count : Option Nat) (i : Nat := 0) : Option (List Int × Nat) :=
  if below count i then
    match h : rd d i with
    | none => none
    | some c =>
      if c = 0 then endAt d 0
      else if sp c then ltrim sp d count (i + 1)
      else if i = 0 then (strnlen d count).map fun n => (d, n)
      else (moveGo d i (less count i) 0).bind fun r => endAt r.1 r.2
  else if count = some 0 then some (d, 0) else endAt d 0
termination_by d.length - i
decreasing_by have := (List.getElem?_eq_some_iff.1 h).1; omega

/-- `rtrim`, 3209-3249. -/
def rtrim (sp : Int → Bool) (d : List Int) (count : Option Nat) (i : Nat := 0) (j : Nat := 0) : Option (List Int × Nat) :=
  match h : cond d count i with
  | none => none
  | some none => if below count j then endAt d j else some (d, j)
  | some (some c) => rtrim sp d count (i + 1) (if sp c then j else i + 1)
termination_by d.length - i
decreasing_by all_goals (have := cond_lt h; omega)

/-- `trim`, 3294-3315. -/
def trim (sp : Int → Bool) (d : List Int) (count : Option Nat) : Option (List Int × Nat) :=
  (rtrim sp d count).bind fun r => ltrim sp r.1 (some r.2)

/-- `ltrim` of a `std::basic_string`, 3172-3198. -/
def ltrimS (sp : Int → Bool) (s : List Int) : List Int := s.drop (s.findIdx fun c => !sp c)

/-- `rtrim` of a `std::basic_string`, 3257-3283. -/
def rtrimS (sp : Int → Bool) (s : List Int) : List Int := s.take (s.length - s.reverse.findIdx fun c => !sp c)

/-- `trim` of a `std::basic_string`, 3323-3363. -/
def trimS (sp : Int → Bool) (s : List Int) : List Int := rtrimS sp (ltrimS sp s)

/-! ### Specification -/

/-- `r` is `t` without its leading spaces. -/
def LTrimmed (sp : Int → Bool) (t r : List Int) : Prop :=
  ∃ pre, t = pre ++ r ∧ (∀ c ∈ pre, sp c = true) ∧ ∀ c, r.head? = some c → sp c = false

/-- `r` is `t` without its trailing spaces. -/
def RTrimmed (sp : Int → Bool) (t r : List Int) : Prop :=
  ∃ post, t = r ++ post ∧ (∀ c ∈ post, sp c = true) ∧ ∀ c, r.getLast? = some c → sp c = false

/-- `r` is `t` without its leading and trailing spaces. -/
def Trimmed (sp : Int → Bool) (t r : List Int) : Prop :=
  ∃ pre post, t = pre ++ r ++ post ∧ (∀ c ∈ pre, sp c = true) ∧ (∀ c ∈ post, sp c = true) ∧
    (∀ c, r.head? = some c → sp c = false) ∧ ∀ c, r.getLast? = some c → sp c = false

/-! ### Proofs -/

theorem ltrimmed_drop (sp : Int → Bool) (t : List Int) : LTrimmed sp t (t.dropWhile sp) := by
  refine ⟨t.takeWhile sp, (List.takeWhile_append_dropWhile ..).symm, ?_, ?_⟩
  · induction t with
    | nil => intro c hc; cases hc
    | cons x xs ih =>
      intro c hc
      by_cases h : sp x = true
      · rw [List.takeWhile_cons_of_pos h] at hc
        rcases List.mem_cons.1 hc with q | q
        · rw [q]; exact h
        · exact ih c q
      · rw [List.takeWhile_cons_of_neg h] at hc; cases hc
  · intro c hc
    have := List.head?_dropWhile_not sp t
    rw [hc] at this
    simpa using this

/-- The result is determined: maximal stripping. -/
theorem ltrimmed_unique (sp : Int → Bool) {t r : List Int} (h : LTrimmed sp t r) : r = t.dropWhile sp := by
  obtain ⟨pre, rfl, h1, h2⟩ := h
  rw [List.dropWhile_append_of_pos h1]
  cases r with
  | nil => rfl
  | cons x xs =>
    rw [List.dropWhile_cons_of_neg]
    rw [h2 x rfl]; exact Bool.false_ne_true

theorem rtrimmed_iff (sp : Int → Bool) (t r : List Int) : RTrimmed sp t r ↔ LTrimmed sp t.reverse r.reverse := by
  constructor
  · rintro ⟨post, rfl, h1, h2⟩
    refine ⟨post.reverse, by simp, by simpa using h1, ?_⟩
    intro c hc
    rw [List.head?_reverse] at hc
    exact h2 c hc
  · rintro ⟨pre, h0, h1, h2⟩
    refine ⟨pre.reverse, ?_, by simpa using h1, ?_⟩
    · have := congrArg List.reverse h0
      simpa using this
    · intro c hc
      exact h2 c (by rw [List.head?_reverse]; exact hc)

theorem rtrimmed_unique (sp : Int → Bool) {t r r' : List Int} (h : RTrimmed sp t r) (h' : RTrimmed sp t r') : r = r' := by
  have a := ltrimmed_unique sp ((rtrimmed_iff sp t r).1 h)
  have b := ltrimmed_unique sp ((rtrimmed_iff sp t r').1 h')
  rw [← b] at a
  have := congrArg List.reverse a
  simpa using this

theorem trimmed_of (sp : Int → Bool) {t m r : List Int} (h1 : RTrimmed sp t m) (h2 : LTrimmed sp m r) : Trimmed sp t r := by
  obtain ⟨post, rfl, a1, a2⟩ := h1
  obtain ⟨pre, rfl, b1, b2⟩ := h2
  refine ⟨pre, post, rfl, b1, a1, b2, fun c hc => a2 c ?_⟩
  rw [List.getLast?_append, hc]; rfl

theorem trimmed_of' (sp : Int → Bool) {t m r : List Int} (h1 : LTrimmed sp t m) (h2 : RTrimmed sp m r) : Trimmed sp t r := by
  obtain ⟨pre, rfl, a1, a2⟩ := h1
  obtain ⟨post, rfl, b1, b2⟩ := h2
  refine ⟨pre, post, by simp, a1, b1, fun c hc => a2 c ?_, b2⟩
  rw [List.head?_append, hc]; rfl

/-- Trimming determines the result. -/
theorem trimmed_unique (sp : Int → Bool) {t r r' : List Int} (h : Trimmed sp t r) (h' : Trimmed sp t r') : r = r' := by
  have key : ∀ {r}, Trimmed sp t r → RTrimmed sp (t.dropWhile sp) r := by
    rintro r ⟨pre, post, rfl, h1, h2, h3, h4⟩
    rw [List.append_assoc, List.dropWhile_append_of_pos h1]
    cases r with
    | nil =>
      refine ⟨post.dropWhile sp, by simp, fun c hc => h2 c ((List.dropWhile_suffix sp).mem hc), h4⟩
    | cons x xs =>
      rw [List.cons_append, List.dropWhile_cons_of_neg (by rw [h3 x rfl]; exact Bool.false_ne_true)]
      exact ⟨post, rfl, h2, h4⟩
  exact rtrimmed_unique sp (key h) (key h')

theorem text_eq_of {s : List Int} {count : Option Nat} {r : List Int} (h0 : ∀ c ∈ r, c ≠ 0) (h1 : r <+: s)
    (h2 : s[r.length]? = some 0 ∨ count = some r.length) (h3 : ∀ n, count = some n → r.length ≤ n) : text s count = r := by
  obtain ⟨t, rfl⟩ := h1
  have tw : ∀ x, (r ++ x).takeWhile (fun c => decide (c ≠ 0)) = r ++ x.takeWhile (fun c => decide (c ≠ 0)) := by
    intro x
    exact List.takeWhile_append_of_pos (fun c hc => by simpa using h0 c hc)
  rcases h2 with h2 | h2
  · rw [List.getElem?_append_right (Nat.le_refl _), Nat.sub_self] at h2
    cases t with
    | nil => cases h2
    | cons y ys =>
      simp only [List.getElem?_cons_zero, Option.some.injEq] at h2
      subst h2
      cases count with
      | none =>
        show (r ++ 0 :: ys).takeWhile _ = r
        rw [tw]; simp
      | some n =>
        show ((r ++ 0 :: ys).take n).takeWhile _ = r
        have := h3 n rfl
        rw [List.take_append, List.take_of_length_le this, tw]
        cases n - r.length <;> simp
  · subst h2
    show ((r ++ t).take r.length).takeWhile _ = r
    rw [List.take_left]
    have := tw []
    simpa using this

theorem text_prefix (s : List Int) (count : Option Nat) : text s count <+: s := by
  cases count with
  | none => exact List.takeWhile_prefix _
  | some n => exact (List.takeWhile_prefix _).trans (List.take_prefix _ _)

theorem text_count_le {s : List Int} {n : Nat} {count : Option Nat} (h : count = some n) : (text s count).length ≤ n := by
  subst h; exact text_length_take s n

/-- Moving the text at `k` to the front. `e` is where the text ends. -/
theorem move_from (d : List Int) (k : Nat) (cs : Option Nat) (i : Nat) (hk : 0 < k) {count : Option Nat} (hcs : cs = less count k)
    (T : List Int) (hT0 : ∀ c ∈ T, c ≠ 0) (hi : i ≤ T.length)
    (hget : ∀ j, i ≤ j → j < T.length → d[k + j]? = T[j]?) (htake : d.take i = T.take i)
    (hend : d[k + T.length]? = some 0 ∧ below count (k + T.length) = true ∨ count = some (k + T.length))
    (hle : ∀ n, count = some n → k + T.length ≤ n) (hlen : k + T.length ≤ d.length) :
    ∃ d', moveGo d k cs i = some (d', T.length) ∧ d'.length = d.length ∧ d'.take T.length = T ∧
      ∀ j, T.length < j → d'[j]? = d[j]? := by
  unfold moveGo
  by_cases hit : i < T.length
  · have hb : below cs i = true := by
      subst hcs
      cases count with
      | none => rfl
      | some n => have := hle n rfl; simp only [less, below, Option.map_some, decide_eq_true_eq]; omega
    rw [if_pos hb]
    have hr : rd d (k + i) = some T[i] := by unfold rd; rw [hget i (Nat.le_refl _) hit]; exact List.getElem?_eq_getElem hit
    split
    · rename_i q; rw [hr] at q; cases q
    · rename_i c q
      rw [hr] at q
      cases q
      rw [if_neg (hT0 _ (List.getElem_mem hit))]
      obtain ⟨d', e1, e2, e3, e4⟩ := move_from (d.set i T[i]) k cs (i + 1) hk hcs T hT0 hit
        (fun j hj hj2 => by rw [List.getElem?_set_ne (by omega)]; exact hget j (by omega) hj2)
        (by
          rw [List.take_succ_eq_append_getElem hit, List.take_succ_eq_append_getElem (by simp only [List.length_set]; omega), List.take_set_of_le (Nat.le_refl _), htake]
          simp)
        (by rw [List.getElem?_set_ne (by omega)]; exact hend) hle (by simpa using hlen)
      refine ⟨d', e1, by simpa using e2, e3, fun j hj => ?_⟩
      rw [e4 j hj, List.getElem?_set_ne (by omega)]
  · have hi' : i = T.length := by omega
    subst hi'
    by_cases hb : below cs T.length = true
    · rw [if_pos hb]
      have hz : d[k + T.length]? = some 0 := by
        rcases hend with h | h
        · exact h.1
        · subst h; subst hcs
          simp only [less, below, Option.map_some, decide_eq_true_eq] at hb
          omega
      have hr : rd d (k + T.length) = some 0 := hz
      split
      · rename_i q; rw [hr] at q; cases q
      · rename_i c q
        rw [hr] at q
        cases q
        rw [if_pos rfl]
        refine ⟨_, rfl, by simp, ?_, fun j hj => ?_⟩
        · rw [List.take_set_of_le (Nat.le_refl _), htake, List.take_length]
        · rw [List.getElem?_set_ne (by omega)]
    · rw [if_neg hb]
      exact ⟨d, rfl, rfl, by rw [htake, List.take_length], fun _ _ => rfl⟩
termination_by d.length - (k + i)
decreasing_by simp only [List.length_set]; omega

/-- What a trimming function leaves: the memory has the same size, the text is now `r`, and `r.length` is returned. -/
def Leaves (d : List Int) (count : Option Nat) (res : Option (List Int × Nat)) (r : List Int) : Prop :=
  ∃ d', res = some (d', r.length) ∧ d'.length = d.length ∧ text d' count = r ∧ r <+: d' ∧
    ∀ n, count = some n → d'.drop n = d.drop n

theorem drop_eq_of_get {a b : List Int} {n : Nat} (h : ∀ j, n ≤ j → a[j]? = b[j]?) : a.drop n = b.drop n := by
  apply List.ext_getElem?
  intro i
  rw [List.getElem?_drop, List.getElem?_drop]
  exact h _ (by omega)

theorem endAt_leaves {d d0 : List Int} {count : Option Nat} {r : List Int} (h0 : ∀ c ∈ r, c ≠ 0) (hp : d.take r.length = r)
    (hl : r.length < d.length) (hlen : d.length = d0.length) (hb : below count r.length = true)
    (hr : ∀ j n, count = some n → n ≤ j → d[j]? = d0[j]?) : Leaves d0 count (endAt d r.length) r := by
  unfold endAt wr
  rw [if_pos hl]
  have hpre : r <+: d.set r.length 0 := by
    have : (d.set r.length 0).take r.length = r := by rw [List.take_set_of_le (Nat.le_refl _), hp]
    exact List.prefix_iff_eq_take.2 this.symm
  have hcle : ∀ n, count = some n → r.length < n := by
    intro n hn; subst hn; simpa [below] using hb
  refine ⟨d.set r.length 0, rfl, by rw [List.length_set, hlen], ?_, hpre, ?_⟩
  · refine text_eq_of h0 hpre (Or.inl ?_) (fun n hn => Nat.le_of_lt (hcle n hn))
    rw [List.getElem?_set_self hl]
  · intro n hn
    refine drop_eq_of_get fun j hj => ?_
    have := hcle n hn
    rw [List.getElem?_set_ne (by omega)]
    exact hr j n hn hj

theorem dropWhile_at (sp : Int → Bool) : ∀ (t : List Int) (i : Nat) (c : Int), (∀ (j : Nat) (x : Int), j < i → t[j]? = some x → sp x = true) →
    t[i]? = some c → sp c = false → t.dropWhile sp = t.drop i := by
  intro t
  induction t with
  | nil => intro i c _ h; cases h
  | cons x xs ih =>
    intro i c h1 h2 h3
    cases i with
    | zero =>
      simp only [List.getElem?_cons_zero, Option.some.injEq] at h2
      subst h2
      rw [List.dropWhile_cons_of_neg (by rw [h3]; exact Bool.false_ne_true), List.drop_zero]
    | succ i =>
      rw [List.dropWhile_cons_of_pos (h1 0 x (by omega) rfl), List.drop_succ_cons]
      exact ih i c (fun j y hj hy => h1 (j + 1) y (by omega) hy) h2 h3

theorem dropWhile_all (p : Int → Bool) : ∀ t : List Int, (∀ c ∈ t, p c = true) → t.dropWhile p = []
  | [], _ => rfl
  | x :: xs, h => by
    rw [List.dropWhile_cons_of_pos (h x (List.mem_cons_self ..))]
    exact dropWhile_all p xs fun c hc => h c (List.mem_cons_of_mem _ hc)

theorem takeWhile_self (p : Int → Bool) : ∀ t : List Int, (∀ c ∈ t, p c = true) → t.takeWhile p = t
  | [], _ => rfl
  | x :: xs, h => by
    rw [List.takeWhile_cons_of_pos (h x (List.mem_cons_self ..)), takeWhile_self p xs fun c hc => h c (List.mem_cons_of_mem _ hc)]

theorem ltrim_from (sp : Int → Bool) {d : List Int} {count : Option Nat} (hv : Valid d count) (i : Nat)
    (hi : i ≤ (text d count).length) (hsp : ∀ (j : Nat) (c : Int), j < i → (text d count)[j]? = some c → sp c = true) :
    Leaves d count (ltrim sp d count i) ((text d count).dropWhile sp) := by
  have hT0 : ∀ c ∈ text d count, c ≠ 0 := fun c hc => text_ne_zero hc
  have hall : i = (text d count).length → (text d count).dropWhile sp = [] := by
    intro e
    refine dropWhile_all sp _ fun c hc => ?_
    obtain ⟨j, hj⟩ := List.getElem?_of_mem hc
    exact hsp j c (by have := (List.getElem?_eq_some_iff.1 hj).1; omega) hj
  unfold ltrim
  by_cases hb : below count i = true
  · rw [if_pos hb]
    have hc := cond_eq hv hi
    unfold cond at hc
    rw [if_pos hb] at hc
    split
    · rename_i q; rw [q] at hc; cases hc
    · rename_i c q
      rw [q] at hc
      have hid : i < d.length := (List.getElem?_eq_some_iff.1 q).1
      simp only [Option.map_some, Option.some.injEq] at hc
      by_cases hz : c = 0
      · rw [if_pos hz] at hc ⊢
        have e : i = (text d count).length := by have := List.getElem?_eq_none_iff.1 hc.symm; omega
        rw [hall e]
        have hb0 : below count 0 = true := by
          cases count with
          | none => rfl
          | some n => simp only [below, decide_eq_true_eq] at hb ⊢; omega
        exact endAt_leaves (r := []) (fun c hc => nomatch hc) rfl (by simp only [List.length_nil]; omega) rfl hb0 (fun _ _ _ _ => rfl)
      · rw [if_neg hz] at hc ⊢
        have hlt := (List.getElem?_eq_some_iff.1 hc.symm).1
        by_cases hs : sp c = true
        · rw [if_pos hs]
          refine ltrim_from sp hv (i + 1) hlt fun j c' hj hc' => ?_
          by_cases q : j = i
          · subst q; rw [← hc] at hc'; cases hc'; exact hs
          · exact hsp j c' (by omega) hc'
        · rw [if_neg hs]
          have edw := dropWhile_at sp (text d count) i c hsp hc.symm (by simpa using hs)
          rw [edw]
          by_cases hi0 : i = 0
          · subst hi0
            rw [if_pos rfl, strnlen_spec hv, List.drop_zero]
            exact ⟨d, rfl, rfl, rfl, text_prefix d count, fun _ _ => rfl⟩
          · rw [if_neg hi0]
            have hTl : ((text d count).drop i).length = (text d count).length - i := List.length_drop
            have hle : ∀ n, count = some n → (text d count).length ≤ n := fun n hn => text_count_le hn
            have hpre := text_prefix d count
            have hend := cond_eq hv (Nat.le_refl (text d count).length)
            rw [List.getElem?_eq_none_iff.2 (Nat.le_refl _)] at hend
            obtain ⟨d', e1, e2, e3, e4⟩ := move_from d i (less count i) 0 (by omega) (count := count) rfl ((text d count).drop i)
              (fun c hc => hT0 c (List.mem_of_mem_drop hc)) (Nat.zero_le _)
              (fun j _ hj => by
                rw [hTl] at hj
                rw [List.getElem?_drop]
                obtain ⟨t, ht⟩ := hpre
                rw [show d[i + j]? = (text d count ++ t)[i + j]? by rw [ht], List.getElem?_append_left (by omega)])
              rfl
              (by
                rw [hTl, show i + ((text d count).length - i) = (text d count).length by omega]
                unfold cond at hend
                by_cases hb2 : below count (text d count).length = true
                · rw [if_pos hb2] at hend
                  refine Or.inl ⟨?_, hb2⟩
                  cases hr : rd d (text d count).length with
                  | none => rw [hr] at hend; cases hend
                  | some x =>
                    rw [hr] at hend
                    simp only [Option.map_some, Option.some.injEq] at hend
                    have : x = 0 := by
                      by_cases q : x = 0
                      · exact q
                      · rw [if_neg q] at hend; cases hend
                    subst this
                    exact hr
                · cases count with
                  | none => exact absurd rfl hb2
                  | some n =>
                    have := hle n rfl
                    simp only [below, decide_eq_true_eq] at hb2
                    exact Or.inr (congrArg some (by omega)))
              (fun n hn => by rw [hTl]; have := hle n hn; omega)
              (by rw [hTl]; have := text_length_le d count; omega)
            rw [e1]
            show Leaves d count (endAt d' ((text d count).drop i).length) _
            refine endAt_leaves (fun c hc => hT0 c (List.mem_of_mem_drop hc)) e3 (by have := text_length_le d count; omega) e2 ?_ ?_
            · cases count with
              | none => rfl
              | some n => have := hle n rfl; simp only [below, decide_eq_true_eq, hTl]; omega
            · intro j n hn hj
              have := hle n hn
              exact e4 j (by rw [hTl]; omega)
  · rw [if_neg hb]
    cases count with
    | none => exact absurd rfl hb
    | some n =>
      simp only [below, decide_eq_true_eq] at hb
      have hl := text_length_take d n
      have e : i = (text d (some n)).length := by omega
      rw [hall e]
      by_cases h0 : n = 0
      · subst h0
        rw [if_pos rfl]
        exact ⟨d, rfl, rfl, (by simp [text]), List.nil_prefix, fun _ _ => rfl⟩
      · rw [if_neg (fun q => h0 (Option.some.inj q))]
        have hdl := text_length_le d (some n)
        exact endAt_leaves (r := []) (fun c hc => nomatch hc) rfl (by simp only [List.length_nil]; omega) rfl
          (by simp only [below, decide_eq_true_eq, List.length_nil]; omega) (fun _ _ _ _ => rfl)
termination_by d.length - i
decreasing_by omega

theorem rtrim_from (sp : Int → Bool) {d : List Int} {count : Option Nat} (hv : Valid d count) (i j : Nat)
    (hi : i ≤ (text d count).length) (hj : RTrimmed sp ((text d count).take i) ((text d count).take j)) (hji : j ≤ i) :
    ∃ r, RTrimmed sp (text d count) r ∧ Leaves d count (rtrim sp d count i j) r := by
  have hT0 : ∀ c ∈ text d count, c ≠ 0 := fun c hc => text_ne_zero hc
  unfold rtrim
  split <;> rename_i h <;> rw [cond_eq hv hi] at h
  · cases h
  · simp only [Option.some.injEq, List.getElem?_eq_none_iff] at h
    have e : i = (text d count).length := by omega
    rw [e, List.take_length] at hj
    have hjl : ((text d count).take j).length = j := by rw [List.length_take]; omega
    refine ⟨_, hj, ?_⟩
    have hpre := text_prefix d count
    have hdt : d.take j = (text d count).take j := by
      obtain ⟨t, ht⟩ := hpre
      rw [show d.take j = (text d count ++ t).take j by rw [ht], List.take_append_of_le_length (by omega)]
    by_cases hb : below count j = true
    · rw [if_pos hb]
      have hjd : j < d.length := by
        cases count with
        | none =>
          have hz : 0 ∈ d := hv.elim id fun ⟨n, q, _⟩ => nomatch q
          have : (text d none).length < d.length := takeWhile_zero d hz
          omega
        | some n =>
          simp only [below, decide_eq_true_eq] at hb
          rcases hv with hz | ⟨m, q, hm⟩
          · by_cases hn : n ≤ d.length
            · omega
            · have e2 : text d (some n) = text d none := by
                show (d.take n).takeWhile _ = d.takeWhile _
                rw [List.take_of_length_le (by omega)]
              have : (text d none).length < d.length := takeWhile_zero d hz
              rw [e2] at e
              omega
          · cases q; omega
      have := endAt_leaves (d := d) (d0 := d) (count := count) (r := (text d count).take j) (fun c hc => hT0 c (List.mem_of_mem_take hc))
        (by rw [hjl]; exact hdt) (by rw [hjl]; exact hjd) rfl (by rw [hjl]; exact hb) (fun _ _ _ _ => rfl)
      rw [hjl] at this
      exact this
    · rw [if_neg hb]
      cases count with
      | none => exact absurd rfl hb
      | some n =>
        simp only [below, decide_eq_true_eq] at hb
        have hl := text_length_take d n
        have ej : j = (text d (some n)).length := by omega
        refine ⟨d, by rw [hjl], rfl, ?_, ?_, fun _ _ => rfl⟩
        · rw [ej, List.take_length]
        · exact (List.take_prefix _ _).trans hpre
  · rename_i c
    simp only [Option.some.injEq] at h
    obtain ⟨hlt, hc⟩ := List.getElem?_eq_some_iff.1 h
    have et : (text d count).take (i + 1) = (text d count).take i ++ [c] := by
      rw [List.take_succ_eq_append_getElem hlt, hc]
    by_cases hs : sp c = true
    · rw [if_pos hs]
      refine rtrim_from sp hv (i + 1) j hlt ?_ (by omega)
      obtain ⟨post, h1, h2, h3⟩ := hj
      refine ⟨post ++ [c], by rw [et, h1, List.append_assoc], ?_, h3⟩
      intro x hx
      rcases List.mem_append.1 hx with q | q
      · exact h2 x q
      · rw [List.mem_singleton] at q; rw [q]; exact hs
    · rw [if_neg hs]
      refine rtrim_from sp hv (i + 1) (i + 1) hlt ⟨[], by simp, (fun c hc => nomatch hc), ?_⟩ (Nat.le_refl _)
      intro x hx
      rw [et, List.getLast?_append] at hx
      simp only [List.getLast?_singleton, Option.some_or, Option.some.injEq] at hx
      rw [← hx]; simpa using hs
termination_by d.length - i
decreasing_by all_goals (have := text_length_le d count; omega)

/-! ### Properties -/

/-- **C47** `ltrim` leaves the text without its leading spaces, returns its length, and does not read or write outside the
string. -/
theorem ltrim_spec (sp : Int → Bool) {d : List Int} {count : Option Nat} (hv : Valid d count) :
    ∃ r, LTrimmed sp (text d count) r ∧ Leaves d count (ltrim sp d count) r :=
  ⟨_, ltrimmed_drop sp _, ltrim_from sp hv 0 (Nat.zero_le _) fun _ _ hj => nomatch hj⟩

/-- **C47** `rtrim` leaves the text without its trailing spaces. -/
theorem rtrim_spec (sp : Int → Bool) {d : List Int} {count : Option Nat} (hv : Valid d count) :
    ∃ r, RTrimmed sp (text d count) r ∧ Leaves d count (rtrim sp d count) r :=
  rtrim_from sp hv 0 0 (Nat.zero_le _) ⟨[], by simp, (fun c hc => nomatch hc), (fun c hc => by simp at hc)⟩ (Nat.le_refl _)

/-- **C47** `trim` leaves the text without its leading and trailing spaces. -/
theorem trim_spec (sp : Int → Bool) {d : List Int} {count : Option Nat} (hv : Valid d count) :
    ∃ r, Trimmed sp (text d count) r ∧ Leaves d count (trim sp d count) r := by
  obtain ⟨m, hm, d1, e1, e2, e3, e4, e5⟩ := rtrim_spec sp hv
  have hm0 : ∀ c ∈ m, c ≠ 0 := by rw [← e3]; exact fun c hc => text_ne_zero hc
  have hml : m.length ≤ d1.length := e4.length_le
  have hm1 : text d1 (some m.length) = m := text_eq_of hm0 e4 (Or.inr rfl) (fun n hn => by cases hn; exact Nat.le_refl _)
  obtain ⟨r, hr, d2, f1, f2, f3, f4, f5⟩ := ltrim_spec sp (d := d1) (count := some m.length) (Or.inr ⟨_, rfl, hml⟩)
  rw [hm1] at hr
  have hr0 : ∀ c ∈ r, c ≠ 0 := by rw [← f3]; exact fun c hc => text_ne_zero hc
  refine ⟨r, trimmed_of sp hm hr, d2, ?_, by rw [f2, e2], ?_, f4, ?_⟩
  · unfold trim; rw [e1]; exact f1
  · have hmc : ∀ n, count = some n → m.length ≤ n := by
      intro n hn; rw [← e3]; exact text_count_le hn
    have hrm : r.length ≤ m.length := by
      obtain ⟨pre, q, _⟩ := hr
      rw [q, List.length_append]; omega
    refine text_eq_of hr0 f4 ?_ (fun n hn => Nat.le_trans hrm (hmc n hn))
    have f6 := f5 m.length rfl
    have ev : Valid d2 (some m.length) := Or.inr ⟨_, rfl, by omega⟩
    by_cases c : r.length < m.length
    · have hcnd := cond_eq ev (i := r.length) (by rw [f3]; exact Nat.le_refl _)
      rw [f3, List.getElem?_eq_none_iff.2 (Nat.le_refl _)] at hcnd
      unfold cond at hcnd
      rw [if_pos (by simpa [below] using c)] at hcnd
      cases hx : rd d2 r.length with
      | none => rw [hx] at hcnd; cases hcnd
      | some x =>
        rw [hx] at hcnd
        simp only [Option.map_some, Option.some.injEq] at hcnd
        have : x = 0 := by
          by_cases q : x = 0
          · exact q
          · rw [if_neg q] at hcnd; cases hcnd
        subst this
        exact Or.inl hx
    · have er : r.length = m.length := by omega
      by_cases hb : below count m.length = true
      · left
        have hcnd := cond_eq (s := d1) (count := count) (i := m.length)
          (by
            rcases hv with hz | ⟨n, q, hn⟩
            · by_cases hz1 : 0 ∈ d1
              · exact Or.inl hz1
              · have hmlt : m.length < d1.length ∨ m.length = d1.length := by omega
                cases count with
                | none =>
                  exfalso
                  have : text d1 none = d1 := by
                    show d1.takeWhile _ = d1
                    refine takeWhile_self _ _ ?_
                    intro x hx
                    simp only [decide_eq_true_eq]
                    intro q; subst q; exact hz1 hx
                  rw [e3] at this
                  obtain ⟨post, q, _⟩ := hm
                  have hl : (text d none).length < d.length := takeWhile_zero d hz
                  rw [q, List.length_append] at hl
                  rw [this] at hl
                  omega
                | some n =>
                  by_cases hn : n ≤ d1.length
                  · exact Or.inr ⟨n, rfl, hn⟩
                  · exfalso
                    have h1 : text d1 (some n) = d1 := by
                      show (d1.take n).takeWhile _ = d1
                      rw [List.take_of_length_le (by omega)]
                      refine takeWhile_self _ _ ?_
                      intro x hx
                      simp only [decide_eq_true_eq]
                      intro q; subst q; exact hz1 hx
                    rw [e3] at h1
                    have h2 : text d (some n) = text d none := by
                      show (d.take n).takeWhile _ = d.takeWhile _
                      rw [List.take_of_length_le (by omega)]
                    obtain ⟨post, q, _⟩ := hm
                    have hl : (text d none).length < d.length := takeWhile_zero d hz
                    rw [← h2, q, List.length_append, h1] at hl
                    omega
            · exact Or.inr ⟨n, q, by omega⟩)
          (by rw [e3]; exact Nat.le_refl _)
        rw [e3, List.getElem?_eq_none_iff.2 (Nat.le_refl _)] at hcnd
        unfold cond at hcnd
        rw [if_pos hb] at hcnd
        have hx2 : d2[m.length]? = d1[m.length]? := by
          have := congrArg (fun l => l[0]?) f6
          simpa using this
        rw [er, hx2]
        cases hx : rd d1 m.length with
        | none => rw [hx] at hcnd; cases hcnd
        | some x =>
          rw [hx] at hcnd
          simp only [Option.map_some, Option.some.injEq] at hcnd
          have : x = 0 := by
            by_cases q : x = 0
            · exact q
            · rw [if_neg q] at hcnd; cases hcnd
          subst this
          exact hx
      · right
        cases count with
        | none => exact absurd rfl hb
        | some n =>
          have := hmc n rfl
          simp only [below, decide_eq_true_eq] at hb
          exact congrArg some (by omega)
  · intro n hn
    have hmn : m.length ≤ n := by rw [← e3]; exact text_count_le hn
    rw [← e5 n hn]
    have h := congrArg (List.drop (n - m.length)) (f5 m.length rfl)
    rw [List.drop_drop, List.drop_drop, show m.length + (n - m.length) = n by omega] at h
    exact h

theorem findIdx_drop (sp : Int → Bool) (s : List Int) : s.drop (s.findIdx fun c => !sp c) = s.dropWhile sp := by
  induction s with
  | nil => rfl
  | cons x xs ih =>
    rw [List.findIdx_cons]
    cases h : sp x with
    | true => rw [List.dropWhile_cons_of_pos h]; simpa using ih
    | false => rw [List.dropWhile_cons_of_neg (by simp [h])]; simp

/-- **C47** The functions on `std::basic_string`. -/
theorem trimS_spec (sp : Int → Bool) (s : List Int) :
    LTrimmed sp s (ltrimS sp s) ∧ RTrimmed sp s (rtrimS sp s) ∧ Trimmed sp s (trimS sp s) := by
  have l : ∀ s, LTrimmed sp s (ltrimS sp s) := by
    intro s; unfold ltrimS; rw [findIdx_drop]; exact ltrimmed_drop sp s
  have r : ∀ s, RTrimmed sp s (rtrimS sp s) := by
    intro s
    rw [rtrimmed_iff]
    have : (rtrimS sp s).reverse = s.reverse.dropWhile sp := by
      rw [← findIdx_drop, rtrimS, List.reverse_take]
      congr 1
      have := List.findIdx_le_length (p := fun c => !sp c) (xs := s.reverse)
      simp only [List.length_reverse] at this
      omega
    rw [this]
    exact ltrimmed_drop sp _
  exact ⟨l s, r s, trimmed_of' sp (l s) (r _)⟩

/-- **C47** Trimming is idempotent. -/
theorem trimmed_idem (sp : Int → Bool) {t r r' : List Int} (h : Trimmed sp t r) (h' : Trimmed sp r r') : r' = r := by
  obtain ⟨_, _, _, _, _, h3, h4⟩ := h
  exact trimmed_unique sp h' ⟨[], [], by simp, (fun c hc => nomatch hc), (fun c hc => nomatch hc), h3, h4⟩

/-- Non-vacuity. -/
example : ltrim isspace [32, 9, 97, 32, 98, 32, 0, 7] none = some ([97, 32, 98, 32, 0, 32, 0, 7], 4) ∧
    rtrim isspace [32, 97, 32, 32] (some 4) = some ([32, 97, 0, 32], 2) ∧
    trim isspace [32, 97, 32, 32] (some 4) = some ([97, 0, 0, 32], 1) ∧ trimS isspace [32, 97, 32, 98, 32] = [97, 32, 98] := by decide +kernel

end Verif.Str
