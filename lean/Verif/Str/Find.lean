import Verif.Str.Char
/-
Length and search functions (include/stdex/string.hpp 315-718, 766-875, 1401-1616).

* A pointer to characters is the list of the characters from it to the end of the accessible memory; a read past the
  end is undefined behaviour, and makes the result `none`.
* The functions come in two forms, with and without a count. `count = none` is the latter: the same loop without the
  test of the index.
* The case-insensitive functions differ from the others by applying `tolower`, of a character type or of a locale, to
  the characters compared. The model takes the functions applied as arguments; they are arbitrary.
* An index that is not found (`npos`) is `none`.
-/
namespace Verif.Str

/-- `str[i]` -/
def rd (s : List Int) (i : Nat) : Option Int := s[i]?

/-- The index passes the test `i < count`, where there is one. -/
def below (count : Option Nat) (i : Nat) : Bool :=
  match count with
  | none => true
  | some n => decide (i < n)

/-- The loop condition `i < count && str[i]`: undefined, false, or true with the character. -/
def cond (s : List Int) (count : Option Nat) (i : Nat) : Option (Option Int) :=
  if below count i then (rd s i).map fun c => if c = 0 then none else some c else some none

theorem cond_lt {s : List Int} {count : Option Nat} {i : Nat} {c : Int} (h : cond s count i = some (some c)) : i < s.length := by
  unfold cond at h
  split at h
  · unfold rd at h
    cases hc : s[i]? with
    | none => rw [hc] at h; cases h
    | some x => exact (List.getElem?_eq_some_iff.1 hc).1
  · cases h

/-- `strlen` 316-322, `strnlen` 333-339. -/
def strnlen (s : List Int) (count : Option Nat) (i : Nat := 0) : Option Nat :=
  match h : cond s count i with
  | none => none
  | some none => some i
  | some (some _) => strnlen s count (i + 1)
termination_by s.length - i
decreasing_by have := cond_lt h; omega

/-- `strchr` 365-371, `strnchr` 383-392, `strichr` 477-509, `strnichr` 521-556; `chr` as passed to the comparison. -/
def strnchr (f : Int → Int) (s : List Int) (count : Option Nat) (chr : Int) (i : Nat := 0) : Option (Option Nat) :=
  match h : cond s count i with
  | none => none
  | some none => some none
  | some (some c) => if f c = chr then some (some i) else strnchr f s count chr (i + 1)
termination_by s.length - i
decreasing_by have := cond_lt h; omega

/-- `strrchr` 419-428, `strrnchr` 440-450, `strrichr` 601-635, `strrnichr` 647-684. -/
def strrnchr (f : Int → Int) (s : List Int) (count : Option Nat) (chr : Int) (i : Nat := 0) (z : Option Nat := none) : Option (Option Nat) :=
  match h : cond s count i with
  | none => none
  | some none => some z
  | some (some c) => strrnchr f s count chr (i + 1) (if f c = chr then some i else z)
termination_by s.length - i
decreasing_by all_goals (have := cond_lt h; omega)

/-- `isblank` 767-798, `is7bit` 855-862: `p` is the test of a character. -/
def isall (p : Int → Bool) (s : List Int) (count : Option Nat) (i : Nat := 0) : Option Bool :=
  match h : cond s count i with
  | none => none
  | some none => some true
  | some (some c) => if p c then isall p s count (i + 1) else some false
termination_by s.length - i
decreasing_by have := cond_lt h; omega

/-- What the inner loop of a substring search does. -/
inductive Inner where
  | found | ended | differs

/-- The inner loop of `strstr`, 1409-1416, with `i = offset + j`. -/
def strstrInner (f g : Int → Int) (s : List Int) (count : Option Nat) (p : List Int) (offset j : Nat) : Option Inner :=
  match h : cond p none j with
  | none => none
  | some none => some .found
  | some (some b) =>
    match cond s count (offset + j) with
    | none => none
    | some none => some .ended
    | some (some a) => if f a = g b then strstrInner f g s count p offset (j + 1) else some .differs
termination_by p.length - j
decreasing_by have := cond_lt h; omega

/-- The outer loop of `strstr` 1402-1418, `strnstr` 1430-1446, `stristr` 1473-1520, `strnistr` 1532-1582. The loop has
no condition of its own; `fuel` bounds its iterations, and running out of it is reported as undefined. -/
def strstrOuter (f g : Int → Int) (s : List Int) (count : Option Nat) (p : List Int) : Nat → Nat → Option (Option Nat)
  | 0, _ => none
  | fuel + 1, offset =>
    match strstrInner f g s count p offset 0 with
    | none => none
    | some .found => some (some offset)
    | some .ended => some none
    | some .differs => strstrOuter f g s count p fuel (offset + 1)

/-- One iteration more than there are characters is enough, see `strstr_spec`. -/
def strnstr (f g : Int → Int) (s : List Int) (count : Option Nat) (p : List Int) : Option (Option Nat) :=
  strstrOuter f g s count p (s.length + 1) 0

/-! ### Specification -/

/-- The text of a string: the characters before the terminator and before `count`. -/
def text (s : List Int) (count : Option Nat) : List Int :=
  (match count with | none => s | some n => s.take n).takeWhile (fun c => decide (c ≠ 0))

/-- What a caller has to provide: a terminator, or `count` characters. -/
def Valid (s : List Int) (count : Option Nat) : Prop := 0 ∈ s ∨ ∃ n, count = some n ∧ n ≤ s.length

theorem takeWhile_get (p : Int → Bool) : ∀ (l : List Int) (i : Nat), i ≤ (l.takeWhile p).length →
    (l.takeWhile p)[i]? = match l[i]? with | none => none | some c => if p c then some c else none := by
  intro l
  induction l with
  | nil => intro i _; rfl
  | cons x xs ih =>
    intro i hi
    by_cases hx : p x = true
    · rw [List.takeWhile_cons_of_pos hx] at hi ⊢
      cases i with
      | zero => simp [hx]
      | succ i => simpa using ih i (by simpa using hi)
    · rw [List.takeWhile_cons_of_neg hx] at hi ⊢
      simp only [List.length_nil, Nat.le_zero] at hi
      subst hi
      simp [hx]

theorem takeWhile_zero (l : List Int) (h : 0 ∈ l) : (l.takeWhile (fun c => decide (c ≠ 0))).length < l.length := by
  induction l with
  | nil => cases h
  | cons x xs ih =>
    by_cases hx : x = 0
    · subst hx; simp
    · have h' : 0 ∈ xs := by
        rcases List.mem_cons.1 h with q | q
        · exact absurd q.symm hx
        · exact q
      rw [List.takeWhile_cons_of_pos (by simp [hx])]
      have := ih h'
      simp only [List.length_cons]; omega

theorem text_length_take (s : List Int) (n : Nat) : (text s (some n)).length ≤ n := by
  have := (List.takeWhile_prefix (fun c : Int => decide (c ≠ 0)) (l := s.take n)).length_le
  have h2 := List.length_take_le n s
  show (List.takeWhile _ (s.take n)).length ≤ n
  omega

theorem text_length_le (s : List Int) (count : Option Nat) : (text s count).length ≤ s.length := by
  cases count with
  | none => exact (List.takeWhile_prefix (fun c : Int => decide (c ≠ 0)) (l := s)).length_le
  | some n =>
    have := (List.takeWhile_prefix (fun c : Int => decide (c ≠ 0)) (l := s.take n)).length_le
    have h2 : (s.take n).length ≤ s.length := by rw [List.length_take]; omega
    show (List.takeWhile _ (s.take n)).length ≤ s.length
    omega

theorem text_ne_zero {s : List Int} {count : Option Nat} {c : Int} (h : c ∈ text s count) : c ≠ 0 := by
  have key : ∀ l : List Int, c ∈ l.takeWhile (fun c => decide (c ≠ 0)) → c ≠ 0 := by
    intro l
    induction l with
    | nil => intro q; cases q
    | cons x xs ih =>
      intro q
      by_cases hx : x = 0
      · rw [List.takeWhile_cons_of_neg (by simp [hx])] at q; cases q
      · rw [List.takeWhile_cons_of_pos (by simp [hx])] at q
        rcases List.mem_cons.1 q with q | q
        · rw [q]; exact hx
        · exact ih q
  exact key _ h

/-- The loop condition sees the text: no undefined read up to its end, and false exactly there. -/
theorem cond_eq {s : List Int} {count : Option Nat} (hv : Valid s count) {i : Nat} (hi : i ≤ (text s count).length) :
    cond s count i = some ((text s count)[i]?) := by
  unfold cond
  cases count with
  | none =>
    have hz : 0 ∈ s := hv.elim id fun ⟨n, q, _⟩ => nomatch q
    have hl : (text s none).length < s.length := takeWhile_zero s hz
    have hlt : i < s.length := by omega
    have e := takeWhile_get (fun c => decide (c ≠ 0)) s i hi
    show (if true = true then _ else _) = some ((s.takeWhile (fun c => decide (c ≠ 0)))[i]?)
    rw [e, if_pos rfl]
    unfold rd
    rw [List.getElem?_eq_getElem hlt]
    by_cases c : s[i] = 0 <;> simp [c]
  | some n =>
    have e := takeWhile_get (fun c => decide (c ≠ 0)) (s.take n) i hi
    show (if decide (i < n) = true then _ else _) = some (((s.take n).takeWhile (fun c => decide (c ≠ 0)))[i]?)
    rw [e]
    by_cases c : i < n
    · rw [if_pos (by simpa using c)]
      have hlt : i < s.length := by
        rcases hv with h | ⟨m, q, h⟩
        · by_cases hn : n ≤ s.length
          · omega
          · have : (text s (some n)) = text s none := by
              show (s.take n).takeWhile _ = s.takeWhile _
              rw [List.take_of_length_le (by omega)]
            rw [this] at hi
            have hl : (text s none).length < s.length := takeWhile_zero s h
            omega
        · cases q; omega
      unfold rd
      rw [List.getElem?_take_of_lt c, List.getElem?_eq_getElem hlt]
      by_cases c : s[i] = 0 <;> simp [c]
    · rw [if_neg (by simpa using c)]
      have : (s.take n)[i]? = none := List.getElem?_take_eq_none (by omega)
      rw [this]

/-! ### Properties -/

theorem strnlen_from {s : List Int} {count : Option Nat} (hv : Valid s count) (i : Nat) (hi : i ≤ (text s count).length) :
    strnlen s count i = some (text s count).length := by
  unfold strnlen
  split <;> rename_i h <;> rw [cond_eq hv hi] at h
  · cases h
  · simp only [Option.some.injEq, List.getElem?_eq_none_iff] at h
    exact congrArg some (by omega)
  · simp only [Option.some.injEq] at h
    have := (List.getElem?_eq_some_iff.1 h).1
    exact strnlen_from hv (i + 1) this
termination_by s.length - i
decreasing_by have := text_length_le s count; omega

/-- **C45** The length is that of the text, and nothing past the terminator or `count` is read. -/
theorem strnlen_spec {s : List Int} {count : Option Nat} (hv : Valid s count) :
    strnlen s count = some (text s count).length := strnlen_from hv 0 (Nat.zero_le _)

theorem strnchr_from (f : Int → Int) {s : List Int} {count : Option Nat} (hv : Valid s count) (chr : Int) (i : Nat) (hi : i ≤ (text s count).length)
    (hno : ∀ (j : Nat) (c : Int), j < i → (text s count)[j]? = some c → f c ≠ chr) :
    ∃ r, strnchr f s count chr i = some r ∧ match r with
      | some k => (∃ c, (text s count)[k]? = some c ∧ f c = chr) ∧ ∀ (j : Nat) (c : Int), j < k → (text s count)[j]? = some c → f c ≠ chr
      | none => ∀ c ∈ text s count, f c ≠ chr := by
  unfold strnchr
  split <;> rename_i h <;> rw [cond_eq hv hi] at h
  · cases h
  · simp only [Option.some.injEq, List.getElem?_eq_none_iff] at h
    refine ⟨none, rfl, fun c hc => ?_⟩
    obtain ⟨j, hj⟩ := List.getElem?_of_mem hc
    exact hno j c (by have := (List.getElem?_eq_some_iff.1 hj).1; omega) hj
  · rename_i c
    simp only [Option.some.injEq] at h
    have hlt := (List.getElem?_eq_some_iff.1 h).1
    by_cases hc : f c = chr
    · rw [if_pos hc]
      exact ⟨some i, rfl, ⟨c, h, hc⟩, hno⟩
    · rw [if_neg hc]
      refine strnchr_from f hv chr (i + 1) hlt fun j c' hj hc' => ?_
      by_cases q : j = i
      · subst q; rw [h] at hc'; cases hc'; exact hc
      · exact hno j c' (by omega) hc'
termination_by s.length - i
decreasing_by have := text_length_le s count; omega

/-- **C45** (first) The result is the least index whose character equals `chr` under the mapping, and npos iff there is
none. With `f` the identity this is `strchr`/`strnchr`; with `f` a `tolower` and `chr` mapped, the case-insensitive
functions. -/
theorem strnchr_spec (f : Int → Int) {s : List Int} {count : Option Nat} (hv : Valid s count) (chr : Int) :
    ∃ r, strnchr f s count chr = some r ∧ match r with
      | some k => (∃ c, (text s count)[k]? = some c ∧ f c = chr) ∧ ∀ (j : Nat) (c : Int), j < k → (text s count)[j]? = some c → f c ≠ chr
      | none => ∀ c ∈ text s count, f c ≠ chr :=
  strnchr_from f hv chr 0 (Nat.zero_le _) fun _ _ hj => nomatch hj

theorem strrnchr_from (f : Int → Int) {s : List Int} {count : Option Nat} (hv : Valid s count) (chr : Int) (i : Nat) (z : Option Nat)
    (hi : i ≤ (text s count).length)
    (hz : match z with
      | some k => k < i ∧ (∃ c, (text s count)[k]? = some c ∧ f c = chr) ∧ ∀ (j : Nat) (c : Int), k < j → j < i → (text s count)[j]? = some c → f c ≠ chr
      | none => ∀ (j : Nat) (c : Int), j < i → (text s count)[j]? = some c → f c ≠ chr) :
    ∃ r, strrnchr f s count chr i z = some r ∧ match r with
      | some k => (∃ c, (text s count)[k]? = some c ∧ f c = chr) ∧ ∀ (j : Nat) (c : Int), k < j → (text s count)[j]? = some c → f c ≠ chr
      | none => ∀ c ∈ text s count, f c ≠ chr := by
  unfold strrnchr
  split <;> rename_i h <;> rw [cond_eq hv hi] at h
  · cases h
  · simp only [Option.some.injEq, List.getElem?_eq_none_iff] at h
    refine ⟨z, rfl, ?_⟩
    cases z with
    | none =>
      intro c hc
      obtain ⟨j, hj⟩ := List.getElem?_of_mem hc
      exact hz j c (by have := (List.getElem?_eq_some_iff.1 hj).1; omega) hj
    | some k =>
      exact ⟨hz.2.1, fun j c hj hc => hz.2.2 j c hj (by have := (List.getElem?_eq_some_iff.1 hc).1; omega) hc⟩
  · rename_i c
    simp only [Option.some.injEq] at h
    have hlt := (List.getElem?_eq_some_iff.1 h).1
    refine strrnchr_from f hv chr (i + 1) _ hlt ?_
    by_cases hc : f c = chr
    · rw [if_pos hc]
      exact ⟨by omega, ⟨c, h, hc⟩, fun j c' h1 h2 => by omega⟩
    · rw [if_neg hc]
      cases z with
      | none =>
        intro j c' hj hc'
        by_cases q : j = i
        · subst q; rw [h] at hc'; cases hc'; exact hc
        · exact hz j c' (by omega) hc'
      | some k =>
        refine ⟨by have := hz.1; omega, hz.2.1, fun j c' h1 h2 hc' => ?_⟩
        by_cases q : j = i
        · subst q; rw [h] at hc'; cases hc'; exact hc
        · exact hz.2.2 j c' h1 (by omega) hc'
termination_by s.length - i
decreasing_by have := text_length_le s count; omega

/-- **C45** (last) The result is the greatest index whose character equals `chr` under the mapping, and npos iff there
is none. -/
theorem strrnchr_spec (f : Int → Int) {s : List Int} {count : Option Nat} (hv : Valid s count) (chr : Int) :
    ∃ r, strrnchr f s count chr = some r ∧ match r with
      | some k => (∃ c, (text s count)[k]? = some c ∧ f c = chr) ∧ ∀ (j : Nat) (c : Int), k < j → (text s count)[j]? = some c → f c ≠ chr
      | none => ∀ c ∈ text s count, f c ≠ chr :=
  strrnchr_from f hv chr 0 none (Nat.zero_le _) fun _ _ hj => nomatch hj

theorem isall_from (p : Int → Bool) {s : List Int} {count : Option Nat} (hv : Valid s count) (i : Nat) (hi : i ≤ (text s count).length) :
    isall p s count i = some (((text s count).drop i).all p) := by
  unfold isall
  split <;> rename_i h <;> rw [cond_eq hv hi] at h
  · cases h
  · simp only [Option.some.injEq, List.getElem?_eq_none_iff] at h
    rw [List.drop_of_length_le h]; rfl
  · rename_i c
    simp only [Option.some.injEq] at h
    obtain ⟨hlt, hc⟩ := List.getElem?_eq_some_iff.1 h
    rw [List.drop_eq_getElem_cons hlt, hc, List.all_cons]
    by_cases q : p c = true
    · rw [if_pos q, isall_from p hv (i + 1) hlt, q]; rfl
    · rw [if_neg q]; simp [q]
termination_by s.length - i
decreasing_by have := text_length_le s count; omega

/-- **C45** `isblank` (all characters are spaces) and `is7bit` (all are ASCII) say what they say of the text. -/
theorem isall_spec (p : Int → Bool) {s : List Int} {count : Option Nat} (hv : Valid s count) :
    isall p s count = some ((text s count).all p) := by
  have := isall_from p hv 0 (Nat.zero_le _)
  rwa [List.drop_zero] at this

/-- The pattern `p` occurs in `t` at `k`, under the mappings. -/
def Occurs (f g : Int → Int) (t p : List Int) (k : Nat) : Prop := p.map g <+: (t.drop k).map f

theorem occurs_iff (f g : Int → Int) (t p : List Int) (k : Nat) :
    Occurs f g t p k ↔ ∀ (j : Nat) (b : Int), p[j]? = some b → ∃ a, t[k + j]? = some a ∧ f a = g b := by
  unfold Occurs
  rw [List.prefix_iff_getElem?]
  simp only [List.length_map, List.getElem?_map, List.getElem?_drop, List.getElem_map]
  constructor
  · intro h j b hb
    obtain ⟨hj, e⟩ := List.getElem?_eq_some_iff.1 hb
    have := h j hj
    rw [Option.map_eq_some_iff, e] at this
    exact this
  · intro h j hj
    rw [Option.map_eq_some_iff]
    exact h j _ (List.getElem?_eq_getElem hj)

theorem inner_from (f g : Int → Int) {s p : List Int} {count : Option Nat} (hv : Valid s count) (hp : 0 ∈ p) (offset j : Nat)
    (hj : j ≤ (text p none).length) (ho : offset + j ≤ (text s count).length)
    (hm : ∀ (l : Nat) (b : Int), l < j → (text p none)[l]? = some b → ∃ a, (text s count)[offset + l]? = some a ∧ f a = g b) :
    ∃ r, strstrInner f g s count p offset j = some r ∧ match r with
      | .found => Occurs f g (text s count) (text p none) offset
      | .ended => (text s count).length < offset + (text p none).length
      | .differs => ¬ Occurs f g (text s count) (text p none) offset ∧ offset < (text s count).length := by
  unfold strstrInner
  have e1 := cond_eq (Or.inl hp : Valid p none) hj
  split <;> rename_i h <;> rw [e1] at h
  · cases h
  · simp only [Option.some.injEq, List.getElem?_eq_none_iff] at h
    refine ⟨.found, rfl, (occurs_iff _ _ _ _ _).2 fun l b hl => ?_⟩
    exact hm l b (by have := (List.getElem?_eq_some_iff.1 hl).1; omega) hl
  · rename_i b
    simp only [Option.some.injEq] at h
    have hlt := (List.getElem?_eq_some_iff.1 h).1
    rw [cond_eq hv ho]
    cases ha : (text s count)[offset + j]? with
    | none =>
      simp only [List.getElem?_eq_none_iff] at ha
      exact ⟨.ended, rfl, (by simp only; omega)⟩
    | some a =>
      have hlt2 := (List.getElem?_eq_some_iff.1 ha).1
      simp only
      by_cases c : f a = g b
      · rw [if_pos c]
        refine inner_from f g hv hp offset (j + 1) hlt (by omega) fun l b' hl hb => ?_
        by_cases q : l = j
        · subst q; rw [h] at hb; cases hb; exact ⟨a, ha, c⟩
        · exact hm l b' (by omega) hb
      · rw [if_neg c]
        refine ⟨.differs, rfl, fun q => ?_, by omega⟩
        obtain ⟨a', ha', q⟩ := (occurs_iff _ _ _ _ _).1 q j b h
        rw [ha] at ha'; cases ha'
        exact c q
termination_by p.length - j
decreasing_by have := text_length_le p none; omega

theorem outer_from (f g : Int → Int) {s p : List Int} {count : Option Nat} (hv : Valid s count) (hp : 0 ∈ p) :
    ∀ (fuel offset : Nat), offset ≤ (text s count).length → (text s count).length < offset + fuel →
    (∀ j, j < offset → ¬ Occurs f g (text s count) (text p none) j) →
    ∃ r, strstrOuter f g s count p fuel offset = some r ∧ match r with
      | some k => Occurs f g (text s count) (text p none) k ∧ ∀ j, j < k → ¬ Occurs f g (text s count) (text p none) j
      | none => ∀ k, ¬ Occurs f g (text s count) (text p none) k
  | 0, offset, h1, h2, _ => by omega
  | fuel + 1, offset, h1, h2, hno => by
    unfold strstrOuter
    obtain ⟨r, e, hr⟩ := inner_from f g hv hp offset 0 (Nat.zero_le _) (by omega) (fun l b hl => nomatch hl)
    rw [e]
    cases r with
    | found => exact ⟨_, rfl, hr, hno⟩
    | ended =>
      refine ⟨_, rfl, fun k q => ?_⟩
      by_cases c : k < offset
      · exact hno k c q
      · have := List.IsPrefix.length_le q
        simp only [List.length_map, List.length_drop] at this
        simp only at hr
        omega
    | differs =>
      refine outer_from f g hv hp fuel (offset + 1) hr.2 (by omega) fun j hj => ?_
      by_cases q : j = offset
      · subst q; exact hr.1
      · exact hno j (by omega)

/-- **C44** `strstr` and its variants return the least index at which the pattern occurs in the text, and npos iff it
does not occur; nothing past the end of either string is read. -/
theorem strnstr_spec (f g : Int → Int) {s p : List Int} {count : Option Nat} (hv : Valid s count) (hp : 0 ∈ p) :
    ∃ r, strnstr f g s count p = some r ∧ match r with
      | some k => Occurs f g (text s count) (text p none) k ∧ ∀ j, j < k → ¬ Occurs f g (text s count) (text p none) j
      | none => ∀ k, ¬ Occurs f g (text s count) (text p none) k :=
  outer_from f g hv hp _ 0 (Nat.zero_le _) (by have := text_length_le s count; omega) fun _ hj => nomatch hj

example : strnstr id id [97, 97, 98, 0] none [97, 98, 0, 5] = some (some 1) := by decide +kernel
example : strnstr id id [97, 97, 98] (some 2) [97, 98, 0] = some none := by decide +kernel
example : strnchr id [97, 98, 98, 0] none 98 = some (some 1) ∧ strrnchr id [97, 98, 98, 0] none 98 = some (some 2) ∧
    strrnchr id [97, 98, 98, 0] (some 2) 98 = some (some 1) := by decide +kernel

end Verif.Str
