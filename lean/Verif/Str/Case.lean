import Verif.Str.Find
import Verif.Str.Char
/-
Strings to lower and upper case in place, include/stdex/string.hpp 2921-3099.
-/
namespace Verif.Str

/-! ### Model -/

/-- The loop of `strlwr` and `strupr`, 2925-2926, 2941-2942, 3032-3033, 3048-3049. `f` maps a character: `tolower`, `toupper`, or the ones of a locale's `ctype`.
`none`: memory outside of `s` is touched. -/
def caseLoop (f : Int → Int) (s : List Int) (count i : Nat) : Option (List Int) :=
  if i < count then
    match rd s i with
    | none => none
    | some c => if c = 0 then some s else caseLoop f (s.set i (f c)) count (i + 1)
  else some s
termination_by count - i

/-- `strlwr(str, count)`, 2921-2927; of an array, 2950-2954, with its size. -/
def strlwr (t : CT) (s : List Int) (count : Nat) : Option (List Int) := caseLoop (tolower t) s count 0

/-- `strlwr(str, count, locale)`, 2936-2943, 2962-2966; `ctype` is `ctype.tolower`. -/
def strlwrLoc (ctype : Int → Int) (s : List Int) (count : Nat) : Option (List Int) := caseLoop ctype s count 0

/-- `strupr(str, count)`, 3028-3034, 3057-3061. -/
def strupr (t : CT) (s : List Int) (count : Nat) : Option (List Int) := caseLoop (toupper t) s count 0

/-- `strupr(str, count, locale)`, 3043-3050, 3069-3073; `ctype` is `ctype.toupper`. -/
def struprLoc (ctype : Int → Int) (s : List Int) (count : Nat) : Option (List Int) := caseLoop ctype s count 0

/-- `strlwr(std::basic_string&)`, 2973-2978: the loop over its characters. -/
def strlwrStr (t : CT) : List Int → List Int
  | [] => []
  | c :: s => tolower t c :: strlwrStr t s

/-- `strupr(std::basic_string&)`, 3080-3085. -/
def struprStr (t : CT) : List Int → List Int
  | [] => []
  | c :: s => toupper t c :: struprStr t s

/-! ### Proofs -/

theorem text_cons (c : Int) (s : List Int) (n : Nat) : text (c :: s) (some (n + 1)) = if c = 0 then [] else c :: text s (some n) := by
  unfold text
  simp only [List.take_succ_cons, List.takeWhile_cons]
  by_cases h : c = 0 <;> simp [h]

theorem caseLoop_from (f : Int → Int) : ∀ (r p : List Int) (n : Nat), (0 ∈ r ∨ n ≤ r.length) →
    caseLoop f (p ++ r) (p.length + n) p.length = some (p ++ ((text r (some n)).map f ++ r.drop (text r (some n)).length)) := by
  intro r
  induction r with
  | nil =>
    intro p n h
    have hn : n = 0 := by
      rcases h with h | h
      · cases h
      · exact Nat.le_zero.1 h
    subst hn
    rw [caseLoop, if_neg (by omega)]
    simp [text]
  | cons c r ih =>
    intro p n h
    cases n with
    | zero =>
      rw [caseLoop, if_neg (by omega)]
      simp [text]
    | succ n =>
      rw [caseLoop, if_pos (by omega)]
      have hr : rd (p ++ c :: r) p.length = some c := by unfold rd; simp
      rw [hr]
      simp only []
      rw [text_cons]
      by_cases hc : c = 0
      · rw [if_pos hc, if_pos hc]
        simp
      · rw [if_neg hc, if_neg hc]
        have e : (p ++ c :: r).set p.length (f c) = (p ++ [f c]) ++ r := by simp
        have := ih (p ++ [f c]) n (by
          rcases h with h | h
          · rcases List.mem_cons.1 h with q | q
            · exact absurd q.symm hc
            · exact Or.inl q
          · exact Or.inr (by simpa using h))
        rw [e]
        rw [show (p ++ [f c]).length = p.length + 1 by simp] at this
        rw [show p.length + (n + 1) = p.length + 1 + n by omega, this]
        simp

theorem caseLoop_spec (f : Int → Int) {s : List Int} {count : Nat} (hv : Valid s (some count)) :
    caseLoop f s count 0 = some ((text s (some count)).map f ++ s.drop (text s (some count)).length) := by
  have := caseLoop_from f s [] count (by
    rcases hv with h | ⟨n, e, h⟩
    · exact Or.inl h
    · cases e; exact Or.inr h)
  simpa using this

/-! ### Properties -/

/-- `strlwr` replaces the upper-case ASCII letters of the text, up to its terminator or `count` characters, by their lower-case counterparts and changes nothing else;
nothing outside is touched. -/
theorem strlwr_spec (t : CT) (hb : 8 ≤ t.bits) {s : List Int} {count : Nat} (hv : Valid s (some count)) :
    strlwr t s count = some ((text s (some count)).map lowerSpec ++ s.drop (text s (some count)).length) := by
  unfold strlwr
  rw [caseLoop_spec _ hv]
  congr 2
  exact List.map_congr_left (fun c _ => tolower_spec t hb c)

/-- With a locale, `strlwr` and `strupr` map every character of the text as the locale has it, and change nothing else. -/
theorem strcase_locale (ctype : Int → Int) {s : List Int} {count : Nat} (hv : Valid s (some count)) :
    strlwrLoc ctype s count = some ((text s (some count)).map ctype ++ s.drop (text s (some count)).length) ∧
    struprLoc ctype s count = some ((text s (some count)).map ctype ++ s.drop (text s (some count)).length) :=
  ⟨caseLoop_spec _ hv, caseLoop_spec _ hv⟩

/-- Strings: every character, also behind a zero. -/
theorem strlwr_string (t : CT) (hb : 8 ≤ t.bits) : ∀ s : List Int, strlwrStr t s = s.map lowerSpec
  | [] => rfl
  | c :: s => by rw [strlwrStr, tolower_spec t hb, strlwr_string t hb s]; rfl

/-- Doing it again changes nothing. -/
theorem strlwr_again (t : CT) (hb : 8 ≤ t.bits) (s : List Int) : strlwrStr t (strlwrStr t s) = strlwrStr t s := by
  rw [strlwr_string t hb, strlwr_string t hb, List.map_map]
  refine List.map_congr_left (fun c _ => ?_)
  show lowerSpec (lowerSpec c) = lowerSpec c
  unfold lowerSpec
  by_cases h : 0x41 ≤ c ∧ c ≤ 0x5a
  · rw [if_pos h, if_neg (by omega)]
  · rw [if_neg h, if_neg h]

/-- `strupr` leaves a text without lower-case letters as it is. -/
theorem strupr_partial (t : CT) {s : List Int} {count : Nat} (hv : Valid s (some count)) (hn : ∀ c ∈ text s (some count), ¬(0x61 ≤ c ∧ c ≤ 0x7a)) : strupr t s count = some s := by
  unfold strupr
  rw [caseLoop_spec _ hv]
  have e : (text s (some count)).map (toupper t) = text s (some count) := by
    conv => rhs; rw [← List.map_id (text s (some count))]
    exact List.map_congr_left (fun c hc => toupper_other_partial t c (hn c hc))
  rw [e]
  congr 1
  have hp : text s (some count) <+: s := by
    unfold text
    exact (List.takeWhile_prefix _).trans (List.take_prefix _ _)
  obtain ⟨r, hr⟩ := hp
  conv => lhs; arg 2; arg 2; rw [← hr]
  rw [List.drop_left]
  exact hr

example : strlwr ⟨8, true⟩ [0x41, 0x62, 0x5a, 0, 0x41] 10 = some [0x61, 0x62, 0x7a, 0, 0x41] := by
  rw [strlwr_spec _ (by decide) (Or.inl (by decide))]; decide

/-- (defect) `strupr` turns every lower-case letter into the all-ones character. -/
theorem strupr_wrong (t : CT) {s : List Int} {count : Nat} (hv : Valid s (some count)) :
    strupr t s count = some ((text s (some count)).map (fun c => if 0x61 ≤ c ∧ c ≤ 0x7a then t.wrap (-1) else c) ++ s.drop (text s (some count)).length) := by
  unfold strupr
  rw [caseLoop_spec _ hv]
  congr 2
  refine List.map_congr_left (fun c _ => ?_)
  split
  · next h => exact toupper_wrong t c h
  · next h => exact toupper_other_partial t c h

end Verif.Str
