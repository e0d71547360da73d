/-
Calendar dates (include/stdex/chrono.hpp 21-209). A day is its `time_since_epoch().count()`. Signed overflow is undefined:
`none`. `long` is taken to have 32 bits, as on Windows; where it has more, less is undefined.
-/
namespace Verif.Time

/-- The value of an `int32_t` expression. -/
def i32 (x : Int) : Option Int := if -(2 ^ 31) ≤ x ∧ x < 2 ^ 31 then some x else none

/-- 151-158: `mtmp` and `ytmp`. -/
def fromMarch (month year : Int) : Option (Int × Int) :=
  if month > 2 then some (month - 3, year) else (i32 (year - 1)).map fun y => (month + 9, y)

/-- `aosn_date::from_dmy`, 148-165. `/` truncates. -/
def fromDmy (day month year : Int) : Option Int := do
  let (mtmp, ytmp) ← fromMarch month year
  let ctmp := ytmp.tdiv 100
  let dtmp := ytmp - 100 * ctmp
  let p ← i32 (146097 * ctmp)
  let result1 := p.tdiv 4
  let result2 := (1461 * dtmp).tdiv 4
  let result3 := (153 * mtmp + 2).tdiv 5
  i32 (result1 + day + result2 + 1721119 + result3)

/-- 183-191. -/
def toJanuary (da mo yr : Int) : Option (Int × Int × Int) :=
  if mo < 10 then some (da % 256, (mo + 3) % 256, yr)
  else (i32 (yr + 1)).map fun yr => (da % 256, (mo - 9) % 256, yr)

/-- `aosn_date::to_dmy`, 170-192: day, month, year. -/
def toDmy (tp : Int) : Option (Int × Int × Int) := do
  let mtmp ← i32 (tp - 1721119)
  let p ← i32 (4 * mtmp)
  let p ← i32 (p - 1)
  let yr := p.tdiv 146097
  let mtmp ← i32 (p - 146097 * yr)
  let da := mtmp.tdiv 4
  let mtmp := (4 * da + 3).tdiv 1461
  let da := 4 * da + 3 - 1461 * mtmp
  let da := (da + 4).tdiv 4
  let mo := (5 * da - 3).tdiv 153
  let da := 5 * da - 3 - 153 * mo
  let da := (da + 5).tdiv 5
  let yr ← i32 (100 * yr + mtmp)
  toJanuary da mo yr

/-- `aosn_date::day_of_week`, 197-200. -/
def dayOfWeek (tp : Int) : Int := (tp.tmod 7) % 256

/-- `aosn_date::to_time_t`, 51-54. -/
def dateToTimeT (tp : Int) : Int := tp * 86400 - 210866803200

/-- `aosn_date::from_time_t`, 59-62, where the result is a `rep`. -/
def dateFromTimeT (t : Int) : Option Int := i32 ((t + 210866803200).tdiv 86400)

/-! ### Specification: the Gregorian calendar -/

structure Date where
  day : Int
  month : Int
  year : Int
deriving DecidableEq

/-- The Gregorian rule. -/
def leap (y : Int) : Prop := y % 4 = 0 ∧ (y % 100 ≠ 0 ∨ y % 400 = 0)

instance (y : Int) : Decidable (leap y) := inferInstanceAs (Decidable (_ ∧ _))

/-- Thirty days hath September, ... -/
def monthDays (m y : Int) : Int :=
  if m = 2 then (if leap y then 29 else 28)
  else if m = 4 ∨ m = 6 ∨ m = 9 ∨ m = 11 then 30 else 31

def Date.Valid (d : Date) : Prop := 1 ≤ d.month ∧ d.month ≤ 12 ∧ 1 ≤ d.day ∧ d.day ≤ monthDays d.month d.year

/-- The day after. -/
def Date.next (d : Date) : Date :=
  if d.day < monthDays d.month d.year then ⟨d.day + 1, d.month, d.year⟩
  else if d.month < 12 then ⟨1, d.month + 1, d.year⟩ else ⟨1, 1, d.year + 1⟩

/-- Earlier than: by year, then month, then day. -/
def Date.before (a b : Date) : Prop :=
  a.year < b.year ∨ (a.year = b.year ∧ (a.month < b.month ∨ (a.month = b.month ∧ a.day < b.day)))

/-- From 1 March of the year 0 to February 1469900. -/
def Date.InRange (d : Date) : Prop :=
  (0 < d.year ∨ (d.year = 0 ∧ 3 ≤ d.month)) ∧ (d.year < 1469900 ∨ (d.year = 1469900 ∧ d.month < 3))

/-! ### Proofs -/

theorem i32_some {x : Int} (h1 : -(2 ^ 31) ≤ x) (h2 : x < 2 ^ 31) : i32 x = some x := if_pos ⟨h1, h2⟩

/-- The month counted from March, and the year that starts in March. -/
def Date.m3 (d : Date) : Int := if d.month > 2 then d.month - 3 else d.month + 9
def Date.y3 (d : Date) : Int := if d.month > 2 then d.year else d.year - 1

/-- The day number without truncation. -/
def Date.num (d : Date) : Int := 146097 * (d.y3 / 100) / 4 + 1461 * (d.y3 % 100) / 4 + (153 * d.m3 + 2) / 5 + d.day + 1721119

theorem range_y3 {d : Date} (hv : d.Valid) (hr : d.InRange) : 0 ≤ d.y3 ∧ d.y3 ≤ 1469899 := by
  obtain ⟨h1, h2, -, -⟩ := hv
  obtain ⟨h3, h4⟩ := hr
  unfold Date.y3
  split <;> omega

theorem m3_range {d : Date} (hv : d.Valid) : 0 ≤ d.m3 ∧ d.m3 ≤ 11 := by
  obtain ⟨h1, h2, -, -⟩ := hv
  unfold Date.m3
  split <;> omega

theorem day_le {d : Date} (hv : d.Valid) : 1 ≤ d.day ∧ d.day ≤ 31 := by
  obtain ⟨_, _, h1, h2⟩ := hv
  refine ⟨h1, Int.le_trans h2 ?_⟩
  unfold monthDays
  repeat' split
  all_goals omega

theorem fromDmy_eq {d : Date} (hv : d.Valid) (hr : d.InRange) : fromDmy d.day d.month d.year = some d.num := by
  have hy := range_y3 hv hr
  have hm := m3_range hv
  have hd := day_le hv
  have e : fromMarch d.month d.year = some (d.m3, d.y3) := by
    unfold fromMarch Date.m3 Date.y3 at *
    split
    · rfl
    · rename_i h
      rw [if_neg h] at hy
      rw [i32_some (by omega) (by omega)]
      rfl
  unfold fromDmy Date.num
  rw [e]
  generalize d.y3 = y at *
  generalize d.m3 = m at *
  generalize d.day = k at *
  simp only [Option.bind_eq_bind, Option.bind_some]
  rw [Int.tdiv_eq_ediv_of_nonneg hy.1]
  have h2 : y - 100 * (y / 100) = y % 100 := by omega
  rw [h2, i32_some (by omega) (by omega), Option.bind_some, Int.tdiv_eq_ediv_of_nonneg (by omega), Int.tdiv_eq_ediv_of_nonneg (by omega),
    Int.tdiv_eq_ediv_of_nonneg (by omega), i32_some (by omega) (by omega)]
  exact congrArg some (by omega)

/-- The last day of the year that starts in March depends on the leap rule. -/
theorem day_bound {d : Date} (hv : d.Valid) :
    (d.m3 = 0 ∧ d.day ≤ 31) ∨ (d.m3 = 1 ∧ d.day ≤ 30) ∨ (d.m3 = 2 ∧ d.day ≤ 31) ∨ (d.m3 = 3 ∧ d.day ≤ 30) ∨ (d.m3 = 4 ∧ d.day ≤ 31) ∨
    (d.m3 = 5 ∧ d.day ≤ 31) ∨ (d.m3 = 6 ∧ d.day ≤ 30) ∨ (d.m3 = 7 ∧ d.day ≤ 31) ∨ (d.m3 = 8 ∧ d.day ≤ 30) ∨ (d.m3 = 9 ∧ d.day ≤ 31) ∨
    (d.m3 = 10 ∧ d.day ≤ 31) ∨ (d.m3 = 11 ∧ (d.day ≤ 28 ∨ (d.day = 29 ∧ (d.y3 + 1) % 4 = 0 ∧ ((d.y3 + 1) % 100 ≠ 0 ∨ (d.y3 + 1) % 400 = 0)))) := by
  obtain ⟨h1, h2, h3, h4⟩ := hv
  unfold Date.m3 Date.y3
  unfold monthDays at h4
  split at h4
  · rename_i e
    rw [if_neg (by omega), if_neg (by omega)]
    have : d.year - 1 + 1 = d.year := by omega
    rw [this]
    split at h4
    · rename_i hl; unfold leap at hl; omega
    · omega
  · by_cases h : d.month > 2
    · rw [if_pos h]
      split at h4 <;> omega
    · rw [if_neg h]
      split at h4 <;> omega

/-- Days before month `m3` of a year that starts in March. -/
def before3 (m : Int) : Int := (153 * m + 2) / 5

theorem month_inv {m k : Int} (k0 : 1 ≤ k) (k1 : k ≤ before3 (m + 1) - before3 m) :
    (5 * (before3 m + k) - 3) / 153 = m ∧ (5 * (before3 m + k) - 3 - 153 * m + 5) / 5 = k := by
  unfold before3 at *
  omega


theorem year_inv {y r : Int} (r0 : 1 ≤ r) (r1 : r ≤ 366) (r2 : r = 366 → y % 4 = 3) :
    (4 * (1461 * y / 4 + r - 1) + 3) / 1461 = y ∧ (4 * (1461 * y / 4 + r - 1) + 3 - 1461 * y + 4) / 4 = r := by
  omega

theorem century_inv {c r : Int} (r0 : 1 ≤ r) (r1 : r ≤ 36525) (r2 : r = 36525 → c % 4 = 3) :
    (4 * (146097 * c / 4 + r) - 1) / 146097 = c ∧ (4 * (146097 * c / 4 + r) - 1 - 146097 * c) / 4 = r - 1 := by
  omega

/-- The parts of a date, all within bounds. -/
theorem parts {d : Date} (hv : d.Valid) : (1 ≤ d.day ∧ d.day ≤ before3 (d.m3 + 1) - before3 d.m3) ∧
    (1 ≤ before3 d.m3 + d.day ∧ before3 d.m3 + d.day ≤ 366 ∧
      (before3 d.m3 + d.day = 366 → (d.y3 + 1) % 4 = 0 ∧ ((d.y3 + 1) % 100 ≠ 0 ∨ (d.y3 + 1) % 400 = 0))) := by
  have h := day_bound hv
  have hd := day_le hv
  unfold before3
  generalize d.m3 = m at *
  generalize d.day = k at *
  rcases h with ⟨rfl, h⟩ | ⟨rfl, h⟩ | ⟨rfl, h⟩ | ⟨rfl, h⟩ | ⟨rfl, h⟩ | ⟨rfl, h⟩ | ⟨rfl, h⟩ | ⟨rfl, h⟩ | ⟨rfl, h⟩ | ⟨rfl, h⟩ | ⟨rfl, h⟩ | ⟨rfl, h⟩ <;>
    omega

theorem toDmy_num {d : Date} (hv : d.Valid) (hr : d.InRange) : toDmy d.num = some (d.day, d.month, d.year) := by
  have hy := range_y3 hv hr
  have hm := m3_range hv
  obtain ⟨⟨k0, k1⟩, q0, q1, q2⟩ := parts hv
  have im := month_inv k0 k1
  have iy := year_inv (y := d.y3 % 100) q0 q1 (fun e => by have := (q2 e).1; omega)
  have ic := century_inv (c := d.y3 / 100) (r := 1461 * (d.y3 % 100) / 4 + (before3 d.m3 + d.day)) (by omega) (by omega)
    (fun e => by
      have : d.y3 % 100 = 99 ∧ before3 d.m3 + d.day = 366 := by omega
      have := (q2 this.2).2
      omega)
  have en : d.num = 146097 * (d.y3 / 100) / 4 + (1461 * (d.y3 % 100) / 4 + (before3 d.m3 + d.day)) + 1721119 := by
    unfold Date.num before3; omega
  have ej : toJanuary d.day d.m3 d.y3 = some (d.day, d.month, d.year) := by
    have hd := day_le hv
    obtain ⟨h1, h2, -, -⟩ := hv
    unfold toJanuary Date.m3 Date.y3 at *
    by_cases h : d.month > 2
    · simp only [if_pos h]
      rw [if_pos (by omega), Int.emod_eq_of_lt (by omega) (by omega), Int.emod_eq_of_lt (by omega) (by omega),
        show d.month - 3 + 3 = d.month by omega]
    · simp only [if_neg h] at hy ⊢
      rw [if_neg (by omega), i32_some (by omega) (by omega), Int.emod_eq_of_lt (by omega) (by omega), Int.emod_eq_of_lt (by omega) (by omega),
        Option.map_some, show d.month + 9 - 9 = d.month by omega, show d.year - 1 + 1 = d.year by omega]
  unfold toDmy
  rw [en]
  rw [show ∀ x : Int, x + 1721119 - 1721119 = x by intro x; omega]
  have hr0 : 1 ≤ 1461 * (d.y3 % 100) / 4 + (before3 d.m3 + d.day) := by omega
  have hr1 : 1461 * (d.y3 % 100) / 4 + (before3 d.m3 + d.day) ≤ 36525 := by omega
  have hq : d.y3 = 100 * (d.y3 / 100) + d.y3 % 100 := by omega
  have hc0 : 0 ≤ d.y3 / 100 := by omega
  have hc1 : d.y3 / 100 ≤ 14698 := by omega
  have hy0 : 0 ≤ d.y3 % 100 := by omega
  have hy1 : d.y3 % 100 ≤ 99 := by omega
  generalize he : 1461 * (d.y3 % 100) / 4 + (before3 d.m3 + d.day) = r at ic hr0 hr1 ⊢
  generalize hec : d.y3 / 100 = c at *
  rw [i32_some (by omega) (by omega)]
  simp only [Option.bind_eq_bind, Option.bind_some]
  have ic1 := (Int.tdiv_eq_ediv_of_nonneg (b := 146097) (show 0 ≤ 4 * (146097 * c / 4 + r) - 1 by omega)).trans ic.1
  have ic2 := (Int.tdiv_eq_ediv_of_nonneg (b := 4) (show 0 ≤ 4 * (146097 * c / 4 + r) - 1 - 146097 * c by omega)).trans ic.2
  rw [he] at iy
  have iy1 := (Int.tdiv_eq_ediv_of_nonneg (b := 1461) (show 0 ≤ 4 * (r - 1) + 3 by omega)).trans iy.1
  have iy2 := (Int.tdiv_eq_ediv_of_nonneg (b := 4) (show 0 ≤ 4 * (r - 1) + 3 - 1461 * (d.y3 % 100) + 4 by omega)).trans iy.2
  have im1 := (Int.tdiv_eq_ediv_of_nonneg (b := 153) (show 0 ≤ 5 * (before3 d.m3 + d.day) - 3 by omega)).trans im.1
  have im2 := (Int.tdiv_eq_ediv_of_nonneg (b := 5) (show 0 ≤ 5 * (before3 d.m3 + d.day) - 3 - 153 * d.m3 + 5 by omega)).trans im.2
  rw [i32_some (by omega) (by omega), Option.bind_some, i32_some (by omega) (by omega), Option.bind_some, ic1, i32_some (by omega) (by omega),
    Option.bind_some, ic2, iy1, iy2, im1, im2, i32_some (by omega) (by omega), Option.bind_some, ← hq]
  exact ej

theorem monthDays_pos (m y : Int) : 28 ≤ monthDays m y ∧ monthDays m y ≤ 31 := by
  unfold monthDays
  repeat' split
  all_goals omega

theorem next_valid {d : Date} (h : d.Valid) : d.next.Valid := by
  have hp := monthDays_pos
  obtain ⟨h1, h2, h3, h4⟩ := h
  unfold Date.next
  split
  · refine ⟨h1, h2, ?_, ?_⟩ <;> simp only <;> omega
  · split
    · have := hp (d.month + 1) d.year
      refine ⟨?_, ?_, ?_, ?_⟩ <;> simp only <;> omega
    · have := hp 1 (d.year + 1)
      refine ⟨?_, ?_, ?_, ?_⟩ <;> simp only <;> omega

theorem next_eq (d : Date) : (d.day < monthDays d.month d.year ∧ d.next = ⟨d.day + 1, d.month, d.year⟩) ∨
    (¬ d.day < monthDays d.month d.year ∧ d.month < 12 ∧ d.next = ⟨1, d.month + 1, d.year⟩) ∨
    (¬ d.day < monthDays d.month d.year ∧ ¬ d.month < 12 ∧ d.next = ⟨1, 1, d.year + 1⟩) := by
  unfold Date.next
  by_cases h1 : d.day < monthDays d.month d.year
  · exact Or.inl ⟨h1, if_pos h1⟩
  · rw [if_neg h1]
    by_cases h2 : d.month < 12
    · exact Or.inr (Or.inl ⟨h1, h2, if_pos h2⟩)
    · exact Or.inr (Or.inr ⟨h1, h2, if_neg h2⟩)

theorem next_before (d : Date) : d.before d.next := by
  rcases next_eq d with ⟨_, e⟩ | ⟨_, _, e⟩ | ⟨_, _, e⟩ <;> rw [e]
  · exact Or.inr ⟨rfl, Or.inr ⟨rfl, by simp only; omega⟩⟩
  · exact Or.inr ⟨rfl, Or.inl (by simp only; omega)⟩
  · exact Or.inl (by simp only; omega)

theorem quarter_year (y : Int) : 1461 * y / 4 = 1461 * (y - 1) / 4 + (if y % 4 = 0 then 366 else 365) := by
  have : y % 4 = 0 ∨ y % 4 = 1 ∨ y % 4 = 2 ∨ y % 4 = 3 := by omega
  rcases this with h | h | h | h <;> split <;> omega

theorem quarter_century (c : Int) : 146097 * c / 4 = 146097 * (c - 1) / 4 + (if c % 4 = 0 then 36525 else 36524) := by
  have : c % 4 = 0 ∨ c % 4 = 1 ∨ c % 4 = 2 ∨ c % 4 = 3 := by omega
  rcases this with h | h | h | h <;> split <;> omega

theorem february (y : Int) : 146097 * (y / 100) / 4 + 1461 * (y % 100) / 4 + (153 * (2 + 1 - 3) + 2) / 5 + 1 + 1721119 =
    146097 * ((y - 1) / 100) / 4 + 1461 * ((y - 1) % 100) / 4 + (153 * (2 + 9) + 2) / 5 + (if leap y then 29 else 28) + 1721119 + 1 := by
  have h4 : y % 100 % 4 = y % 4 := by omega
  by_cases h : y % 100 = 0
  · have c1 : (y - 1) / 100 = y / 100 - 1 := by omega
    have c2 : (y - 1) % 100 = 99 := by omega
    rw [c1, c2, h, quarter_century]
    by_cases hc : (y / 100) % 4 = 0
    · rw [if_pos hc, if_pos (show leap y from ⟨by omega, Or.inr (by omega)⟩)]; omega
    · rw [if_neg hc, if_neg (show ¬ leap y from fun q => by unfold leap at q; omega)]; omega
  · have c1 : (y - 1) / 100 = y / 100 := by omega
    have c2 : (y - 1) % 100 = y % 100 - 1 := by omega
    rw [c1, c2, quarter_year (y % 100)]
    by_cases hc : y % 4 = 0
    · rw [if_pos (by omega), if_pos (show leap y from ⟨by omega, Or.inl h⟩)]; omega
    · rw [if_neg (by omega), if_neg (show ¬ leap y from fun q => hc q.1)]; omega

/-- The next day has the next number. -/
theorem num_next {d : Date} (h : d.Valid) : d.next.num = d.num + 1 := by
  obtain ⟨h1, h2, h3, h4⟩ := h
  rcases next_eq d with ⟨_, e⟩ | ⟨q, h5, e⟩ | ⟨q, h5, e⟩ <;> rw [e]
  · unfold Date.num Date.m3 Date.y3
    simp only
    omega
  · have hd : d.day = monthDays d.month d.year := by omega
    have hm : d.month = 1 ∨ d.month = 2 ∨ d.month = 3 ∨ d.month = 4 ∨ d.month = 5 ∨ d.month = 6 ∨ d.month = 7 ∨ d.month = 8 ∨ d.month = 9 ∨
      d.month = 10 ∨ d.month = 11 := by omega
    rcases hm with e | e | e | e | e | e | e | e | e | e | e
    case inr.inl =>
      unfold Date.num Date.m3 Date.y3
      rw [hd]
      simp (config := { decide := true }) only [monthDays, e, if_true, if_false]
      exact february d.year
    all_goals
      unfold Date.num Date.m3 Date.y3
      rw [hd]
      simp (config := { decide := true }) only [monthDays, e, if_true, if_false]
      omega
  · have hd : d.day = monthDays d.month d.year := by omega
    have e : d.month = 12 := by omega
    unfold Date.num Date.m3 Date.y3
    rw [hd]
    simp (config := { decide := true }) only [monthDays, e, if_true, if_false]
    rw [show d.year + 1 - 1 = d.year by omega]
    omega

/-! ### Properties -/

/-- The date `n` days later. -/
def Date.later (d : Date) : Nat → Date
  | 0 => d
  | n + 1 => (d.later n).next

/-- The first date of the range. -/
def origin : Date := ⟨1, 3, 0⟩

theorem later_valid (d : Date) (h : d.Valid) (n : Nat) : (d.later n).Valid ∧ (d.later n).num = d.num + n := by
  induction n with
  | zero => exact ⟨h, by simp [Date.later]⟩
  | succ n ih => exact ⟨next_valid ih.1, by unfold Date.later; rw [num_next ih.1, ih.2]; push_cast; omega⟩

theorem before_trans {a b c : Date} (h1 : a.before b) (h2 : b.before c) : a.before c := by
  unfold Date.before at *; omega

theorem before_irrefl (a : Date) : ¬ a.before a := by unfold Date.before; omega

theorem before_total (a b : Date) : a.before b ∨ a = b ∨ b.before a := by
  obtain ⟨x, y, z⟩ := a
  obtain ⟨x', y', z'⟩ := b
  unfold Date.before
  simp only [Date.mk.injEq]
  omega

theorem later_before (d : Date) (n : Nat) : d.before (d.later (n + 1)) := by
  induction n with
  | zero => exact next_before d
  | succ n ih => exact before_trans ih (next_before _)

/-- **C52** Converting a valid date to a day number and back is the identity. -/
theorem dmy_roundtrip {d : Date} (hv : d.Valid) (hr : d.InRange) :
    (fromDmy d.day d.month d.year).bind toDmy = some (d.day, d.month, d.year) := by
  rw [fromDmy_eq hv hr, Option.bind_some, toDmy_num hv hr]

/-- **C52** Consecutive days have consecutive numbers. -/
theorem dmy_next {d : Date} (hv : d.Valid) (hr : d.InRange) (hr' : d.next.InRange) :
    ∃ n, fromDmy d.day d.month d.year = some n ∧ fromDmy d.next.day d.next.month d.next.year = some (n + 1) :=
  ⟨d.num, fromDmy_eq hv hr, by rw [fromDmy_eq (next_valid hv) hr', num_next hv]⟩

theorem origin_valid : origin.Valid ∧ origin.num = 1721120 := by
  unfold origin Date.Valid Date.num Date.m3 Date.y3 monthDays
  decide

theorem later_range (n : Nat) (h : n ≤ 536869949) : (origin.later n).InRange := by
  refine ⟨?_, ?_⟩
  · have : n = 0 ∨ origin.before (origin.later n) := by
      cases n with
      | zero => exact Or.inl rfl
      | succ n => exact Or.inr (later_before origin n)
    rcases this with rfl | h
    · exact Or.inr ⟨rfl, Int.le_refl _⟩
    · have e1 : origin.year = 0 := rfl
      have e2 : origin.month = 3 := rfl
      have e3 : origin.day = 1 := rfl
      unfold Date.before at h
      omega
  · have hv := later_valid origin origin_valid.1 n
    have hn := hv.2
    rw [origin_valid.2] at hn
    apply Classical.byContradiction
    intro hc
    have hd := day_le hv.1
    have hm := m3_range hv.1
    have hy : 1469900 ≤ (origin.later n).y3 := by
      obtain ⟨h1, h2, -, -⟩ := hv.1
      unfold Date.y3
      split <;> omega
    unfold Date.num at hn
    generalize (origin.later n).y3 = y at *
    have h14 : 14699 ≤ y / 100 := by omega
    have : 0 ≤ y % 100 := by omega
    omega

/-- **C52** Every day number from 1721120 (1 March of the year 0) up is that of a valid date, and converting it to that date and
back is the identity. -/
theorem num_roundtrip {n : Int} (h0 : 1721120 ≤ n) (h1 : n ≤ 538591069) :
    ∃ d : Date, d.Valid ∧ d.InRange ∧ toDmy n = some (d.day, d.month, d.year) ∧ fromDmy d.day d.month d.year = some n := by
  obtain ⟨hv, hn⟩ := later_valid origin origin_valid.1 (n - 1721120).toNat
  have hr := later_range (n - 1721120).toNat (by omega)
  have e : (origin.later (n - 1721120).toNat).num = n := by rw [hn, origin_valid.2]; omega
  exact ⟨_, hv, hr, by have := toDmy_num hv hr; rw [e] at this; exact this, by rw [fromDmy_eq hv hr, e]⟩

theorem num_injective {a b : Date} (ha : a.Valid) (hb : b.Valid) (hra : a.InRange) (hrb : b.InRange) (h : a.num = b.num) : a = b := by
  have h1 := toDmy_num ha hra
  rw [h, toDmy_num hb hrb] at h1
  injection h1 with h1
  injection h1 with e1 h1
  injection h1 with e2 e3
  obtain ⟨x, y, z⟩ := a
  simp only at e1 e2 e3
  rw [← e1, ← e2, ← e3]

theorem num_bounds {d : Date} (hv : d.Valid) (hr : d.InRange) : 1721120 ≤ d.num ∧ d.num ≤ 538591069 := by
  have hy := range_y3 hv hr
  have hm := m3_range hv
  obtain ⟨-, q0, q1, q2⟩ := parts hv
  have en : d.num = 146097 * (d.y3 / 100) / 4 + (1461 * (d.y3 % 100) / 4 + (before3 d.m3 + d.day)) + 1721119 := by
    unfold Date.num before3; omega
  rw [en]
  generalize before3 d.m3 + d.day = r at *
  generalize d.y3 = y at *
  have h1 : y / 100 ≤ 14698 := by omega
  have h2 : y / 100 = 14698 → r = 366 → y % 100 = 99 → False := by
    intro a b c
    have := (q2 b).2
    omega
  have h3 : 0 ≤ y / 100 := by omega
  have h4 : 0 ≤ y % 100 := by omega
  have h5 : y % 100 ≤ 99 := by omega
  generalize y / 100 = c at *
  generalize y % 100 = k at *
  constructor
  · have h6 : 0 ≤ 146097 * c / 4 := by omega
    have h7 : 0 ≤ 1461 * k / 4 := by omega
    omega
  · by_cases hc : c = 14698
    · subst hc
      by_cases hk : k = 99
      · subst hk
        have h6 : r ≠ 366 := fun e => h2 rfl e rfl
        omega
      · omega
    · have h6 : 146097 * c / 4 ≤ 146097 * 14697 / 4 := by omega
      omega

/-- **C52** Day numbers are ordered as the dates are. -/
theorem dmy_order {a b : Date} (ha : a.Valid) (hb : b.Valid) (hra : a.InRange) (hrb : b.InRange) :
    ∃ m n, fromDmy a.day a.month a.year = some m ∧ fromDmy b.day b.month b.year = some n ∧ (a.before b ↔ m < n) := by
  refine ⟨a.num, b.num, fromDmy_eq ha hra, fromDmy_eq hb hrb, ?_⟩
  have key : ∀ {a b : Date}, a.Valid → b.Valid → a.InRange → b.InRange → a.num < b.num → a.before b := by
    intro a b ha hb hra hrb h
    obtain ⟨hv, hn⟩ := later_valid a ha (b.num - a.num).toNat
    have hbn := num_bounds hb hrb
    -- both are days after the origin
    obtain ⟨hva, hna⟩ := later_valid origin origin_valid.1 (a.num - 1721120).toNat
    have hba := num_bounds ha hra
    rw [origin_valid.2] at hna
    have ea : a = origin.later (a.num - 1721120).toNat :=
      num_injective ha hva hra (later_range _ (by omega)) (by omega)
    obtain ⟨hvb, hnb⟩ := later_valid origin origin_valid.1 (b.num - 1721120).toNat
    rw [origin_valid.2] at hnb
    have eb : b = origin.later (b.num - 1721120).toNat :=
      num_injective hb hvb hrb (later_range _ (by omega)) (by omega)
    have mono : ∀ (i k : Nat), (origin.later i).before (origin.later (i + k + 1)) := by
      intro i k
      induction k with
      | zero => exact next_before _
      | succ k ih => exact before_trans ih (next_before _)
    have := mono (a.num - 1721120).toNat ((b.num - a.num).toNat - 1)
    rw [← ea, show (a.num - 1721120).toNat + ((b.num - a.num).toNat - 1) + 1 = (b.num - 1721120).toNat by omega, ← eb] at this
    exact this
  constructor
  · intro h
    rcases Int.lt_trichotomy a.num b.num with q | q | q
    · exact q
    · rw [num_injective ha hb hra hrb q] at h; exact absurd h (before_irrefl b)
    · exact absurd (before_trans h (key hb ha hrb hra q)) (before_irrefl a)
  · exact key ha hb hra hrb

/-- **C52** The day of the week advances by one, modulo 7; 1 January 1970 was a Thursday (Monday is 0). -/
theorem dayOfWeek_spec {d : Date} (hv : d.Valid) (hr : d.InRange) (hr' : d.next.InRange) :
    ∃ m n, fromDmy d.day d.month d.year = some m ∧ fromDmy d.next.day d.next.month d.next.year = some n ∧
      dayOfWeek n = (dayOfWeek m + 1) % 7 ∧ 0 ≤ dayOfWeek m ∧ dayOfWeek m < 7 := by
  refine ⟨d.num, d.num + 1, fromDmy_eq hv hr, by rw [fromDmy_eq (next_valid hv) hr', num_next hv], ?_⟩
  have := num_bounds hv hr
  unfold dayOfWeek
  rw [Int.tmod_eq_emod_of_nonneg (by omega), Int.tmod_eq_emod_of_nonneg (by omega)]
  omega

theorem thursday : (fromDmy 1 1 1970).map dayOfWeek = some 3 := by decide +kernel

/-- **C52** (outside the range) Before 1 March of the year 0 the conversion is not injective: division truncates. -/
theorem dmy_collision : fromDmy 29 2 0 = fromDmy 1 3 0 ∧ (⟨29, 2, 0⟩ : Date).Valid ∧ (⟨1, 3, 0⟩ : Date).Valid := by
  unfold Date.Valid monthDays leap
  decide +kernel

/-- Non-vacuity: known dates. -/
example : fromDmy 1 1 1970 = some 2440588 ∧ toDmy 2440588 = some (1, 1, 1970) ∧ fromDmy 29 2 2000 = some 2451604 ∧ fromDmy 1 1 1601 = some 2305814 := by
  decide +kernel
example : (⟨29, 2, 2000⟩ : Date).Valid ∧ (⟨29, 2, 2000⟩ : Date).InRange ∧ ¬ (⟨29, 2, 1900⟩ : Date).Valid ∧ (⟨28, 2, 1469900⟩ : Date).InRange ∧
    (⟨28, 2, 1900⟩ : Date).next = ⟨1, 3, 1900⟩ ∧ (⟨31, 12, 1999⟩ : Date).next = ⟨1, 1, 2000⟩ := by
  unfold Date.Valid Date.InRange Date.next monthDays leap
  decide +kernel

end Verif.Time
