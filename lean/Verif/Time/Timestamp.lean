import Verif.Time.Date
/-
Time stamps (include/stdex/chrono.hpp 211-413). A time stamp is its `time_since_epoch().count()`, in milliseconds. Signed
overflow is undefined: `none`. `std::time_t` has 64 bits.
-/
namespace Verif.Time

/-- The value of an `int64_t` expression. -/
def i64 (x : Int) : Option Int := if -(2 ^ 63) ≤ x ∧ x < 2 ^ 63 then some x else none

/-- `aosn_timestamp::to_time_t`, 253-256. -/
def toTimeT (tp : Int) : Option Int := i64 (tp.tdiv 1000 - 210866803200)

/-- `aosn_timestamp::from_time_t`, 261-264. -/
def fromTimeT (t : Int) : Option Int := do
  let s ← i64 (t + 210866803200)
  i64 (s * 1000)

/-- `aosn_timestamp::from_system(const struct timespec&)`, 300-303, as written: `tv_nsec / 1000`. -/
def fromTimespec (sec nsec : Int) : Option Int := do
  let t ← fromTimeT sec
  i64 (t + nsec.tdiv 1000)

/-- `aosn_timestamp::from_system(const FILETIME&)`, 280-284; `x` is the 64-bit number. -/
def fromFiletime (x : Int) : Option Int := i64 ((x / 10000 + 199222329600000) % 2 ^ 64)

/-- `aosn_timestamp::to_system(..., FILETIME&)`, 350-355: the 64-bit number. -/
def toFiletime (tp : Int) : Option Int := do
  let p ← i64 (tp - 199222329600000)
  let p ← i64 (p * 10000)
  some (p % 2 ^ 64)

/-- `aosn_timestamp::to_date`, 372-375. -/
def toDate (tp : Int) : Option Int := i32 (tp.tdiv 86400000)

/-- `aosn_timestamp::from_date`, 380-383. -/
def fromDate (date : Int) : Int := date * 86400000

/-- `aosn_timestamp::from_dmy`, 388-395. -/
def tsFromDmy (day month year hour minute second millisecond : Int) : Option Int := do
  let d ← fromDmy day month year
  i64 (d * 86400000 + (hour * 3600000 + minute * 60000 + second * 1000 + millisecond))

structure Clock where
  hour : Int
  minute : Int
  second : Int
  ms : Int
deriving DecidableEq

/-- `aosn_timestamp::to_dmy`, 400-413. -/
def tsToDmy (tp : Int) : Option ((Int × Int × Int) × Clock) := do
  let date ← toDate tp
  let dmy ← toDmy date
  let u := tp.tmod 86400000
  let ms := (u.tmod 1000) % 2 ^ 16
  let u := u.tdiv 1000
  let second := (u.tmod 60) % 256
  let u := u.tdiv 60
  let minute := (u.tmod 60) % 256
  let u := u.tdiv 60
  some (dmy, ⟨u % 256, minute, second, ms⟩)

/-- `aosn_timestamp::to_system(..., struct tm&)`, 306-321: mday, mon, year, wday, hour, min, sec. -/
def toTm (tp : Int) : Option (Int × Int × Int × Int × Int × Int × Int) := do
  let r ← tsToDmy tp
  let date ← toDate tp
  some (r.1.1, r.1.2.1 - 1, r.1.2.2 - 1900, (dayOfWeek date + 1) % 7, r.2.hour, r.2.minute, r.2.second)

/-! ### Specification -/

/-- A time of the day. -/
def Clock.Valid (c : Clock) : Prop :=
  0 ≤ c.hour ∧ c.hour < 24 ∧ 0 ≤ c.minute ∧ c.minute < 60 ∧ 0 ≤ c.second ∧ c.second < 60 ∧ 0 ≤ c.ms ∧ c.ms < 1000

/-- Milliseconds since midnight. -/
def Clock.since (c : Clock) : Int := ((c.hour * 60 + c.minute) * 60 + c.second) * 1000 + c.ms

/-- Earlier within a day. -/
def Clock.before (a b : Clock) : Prop :=
  a.hour < b.hour ∨ (a.hour = b.hour ∧ (a.minute < b.minute ∨ (a.minute = b.minute ∧ (a.second < b.second ∨ (a.second = b.second ∧ a.ms < b.ms)))))

/-! ### Proofs -/

theorem i64_some {x : Int} (h1 : -(2 ^ 63) ≤ x) (h2 : x < 2 ^ 63) : i64 x = some x := if_pos ⟨h1, h2⟩

theorem i64_eq {x y : Int} (h : i64 x = some y) : y = x ∧ -(2 ^ 63) ≤ x ∧ x < 2 ^ 63 := by
  unfold i64 at h
  split at h
  · injection h with h; exact ⟨h.symm, by assumption⟩
  · cases h

theorem fromTimeT_eq {t r : Int} (h : fromTimeT t = some r) : r = (t + 210866803200) * 1000 ∧ -(2 ^ 63) ≤ r ∧ r < 2 ^ 63 := by
  unfold fromTimeT at h
  simp only [Option.bind_eq_bind] at h
  cases h1 : i64 (t + 210866803200) with
  | none => rw [h1] at h; cases h
  | some s =>
    rw [h1, Option.bind_some] at h
    obtain ⟨rfl, -, -⟩ := i64_eq h1
    obtain ⟨rfl, a, b⟩ := i64_eq h
    exact ⟨rfl, a, b⟩

theorem since_range {c : Clock} (h : c.Valid) : 0 ≤ c.since ∧ c.since < 86400000 := by
  unfold Clock.Valid at h; unfold Clock.since; omega

theorem tsFromDmy_eq {d : Date} (hv : d.Valid) (hr : d.InRange) {c : Clock} (hc : c.Valid) :
    tsFromDmy d.day d.month d.year c.hour c.minute c.second c.ms = some (d.num * 86400000 + c.since) := by
  have hn := num_bounds hv hr
  have hs := since_range hc
  have e : c.hour * 3600000 + c.minute * 60000 + c.second * 1000 + c.ms = c.since := by unfold Clock.since; omega
  unfold tsFromDmy
  rw [fromDmy_eq hv hr, e]
  simp only [Option.bind_eq_bind, Option.bind_some]
  rw [i64_some (by omega) (by omega)]

theorem toDate_eq {d : Int} {s : Int} (h0 : 0 ≤ d) (h1 : d < 2 ^ 31) (s0 : 0 ≤ s) (s1 : s < 86400000) : toDate (d * 86400000 + s) = some d := by
  unfold toDate
  rw [Int.tdiv_eq_ediv_of_nonneg (by omega), show (d * 86400000 + s) / 86400000 = d by omega, i32_some (by omega) (by omega)]

theorem tsToDmy_eq {d : Date} (hv : d.Valid) (hr : d.InRange) {c : Clock} (hc : c.Valid) :
    tsToDmy (d.num * 86400000 + c.since) = some ((d.day, d.month, d.year), c) := by
  have hn := num_bounds hv hr
  have hs := since_range hc
  unfold tsToDmy
  rw [toDate_eq (by omega) (by omega) hs.1 hs.2]
  simp only [Option.bind_eq_bind, Option.bind_some]
  rw [toDmy_num hv hr, Option.bind_some, Int.tmod_eq_emod_of_nonneg (by omega), show (d.num * 86400000 + c.since) % 86400000 = c.since by omega]
  have e1 : c.since.tmod 1000 = c.ms := by rw [Int.tmod_eq_emod_of_nonneg hs.1]; unfold Clock.Valid at hc; unfold Clock.since; omega
  have e2 : c.since.tdiv 1000 = (c.hour * 60 + c.minute) * 60 + c.second := by
    rw [Int.tdiv_eq_ediv_of_nonneg hs.1]; unfold Clock.Valid at hc; unfold Clock.since; omega
  unfold Clock.Valid at hc
  have e3 : ((c.hour * 60 + c.minute) * 60 + c.second).tmod 60 = c.second := by rw [Int.tmod_eq_emod_of_nonneg (by omega)]; omega
  have e4 : ((c.hour * 60 + c.minute) * 60 + c.second).tdiv 60 = c.hour * 60 + c.minute := by rw [Int.tdiv_eq_ediv_of_nonneg (by omega)]; omega
  have e5 : (c.hour * 60 + c.minute).tmod 60 = c.minute := by rw [Int.tmod_eq_emod_of_nonneg (by omega)]; omega
  have e6 : (c.hour * 60 + c.minute).tdiv 60 = c.hour := by rw [Int.tdiv_eq_ediv_of_nonneg (by omega)]; omega
  rw [e1, e2, e3, e4, e5, e6, Int.emod_eq_of_lt (by omega) (by omega), Int.emod_eq_of_lt (by omega) (by omega), Int.emod_eq_of_lt (by omega) (by omega),
    Int.emod_eq_of_lt (by omega) (by omega)]

/-! ### Properties -/

/-- **C53** Date and time of day to a time stamp and back is the identity. -/
theorem ts_roundtrip {d : Date} (hv : d.Valid) (hr : d.InRange) {c : Clock} (hc : c.Valid) :
    (tsFromDmy d.day d.month d.year c.hour c.minute c.second c.ms).bind tsToDmy = some ((d.day, d.month, d.year), c) := by
  rw [tsFromDmy_eq hv hr hc, Option.bind_some, tsToDmy_eq hv hr hc]

/-- **C53** Every time stamp from 1 March of the year 0 up is that of a valid date and time of day, and converting it to them
and back is the identity. -/
theorem ts_roundtrip' {tp : Int} (h0 : 1721120 * 86400000 ≤ tp) (h1 : tp < 538591070 * 86400000) :
    ∃ (d : Date) (c : Clock), d.Valid ∧ d.InRange ∧ c.Valid ∧ tsToDmy tp = some ((d.day, d.month, d.year), c) ∧
      tsFromDmy d.day d.month d.year c.hour c.minute c.second c.ms = some tp := by
  obtain ⟨d, hv, hr, -, e⟩ := num_roundtrip (n := tp / 86400000) (by omega) (by omega)
  rw [fromDmy_eq hv hr] at e
  injection e with e
  let s := tp % 86400000
  have hs : 0 ≤ s ∧ s < 86400000 := by omega
  have hc : (⟨s / 3600000, s / 60000 % 60, s / 1000 % 60, s % 1000⟩ : Clock).Valid := by unfold Clock.Valid; simp only; omega
  have es : (⟨s / 3600000, s / 60000 % 60, s / 1000 % 60, s % 1000⟩ : Clock).since = s := by unfold Clock.since; simp only; omega
  have et : d.num * 86400000 + (⟨s / 3600000, s / 60000 % 60, s / 1000 % 60, s % 1000⟩ : Clock).since = tp := by rw [es, e]; omega
  refine ⟨d, _, hv, hr, hc, ?_, ?_⟩
  · rw [← et] ; exact tsToDmy_eq hv hr hc
  · rw [← et] ; exact tsFromDmy_eq hv hr hc

/-- **C53** Time stamps are ordered as date and time of day are. -/
theorem ts_order {d d' : Date} (hv : d.Valid) (hr : d.InRange) (hv' : d'.Valid) (hr' : d'.InRange) {c c' : Clock} (hc : c.Valid) (hc' : c'.Valid) :
    ∃ a b, tsFromDmy d.day d.month d.year c.hour c.minute c.second c.ms = some a ∧
      tsFromDmy d'.day d'.month d'.year c'.hour c'.minute c'.second c'.ms = some b ∧
      (a < b ↔ d.before d' ∨ (d = d' ∧ c.before c')) := by
  refine ⟨_, _, tsFromDmy_eq hv hr hc, tsFromDmy_eq hv' hr' hc', ?_⟩
  have hs := since_range hc
  have hs' := since_range hc'
  have hcb : c.since < c'.since ↔ c.before c' := by
    unfold Clock.Valid at hc hc'; unfold Clock.since Clock.before; omega
  obtain ⟨m, n, e1, e2, ho⟩ := dmy_order hv hv' hr hr'
  rw [fromDmy_eq hv hr] at e1
  rw [fromDmy_eq hv' hr'] at e2
  injection e1 with e1
  injection e2 with e2
  subst e1 e2
  constructor
  · intro h
    rcases Int.lt_trichotomy d.num d'.num with q | q | q
    · exact Or.inl (ho.2 q)
    · exact Or.inr ⟨num_injective hv hv' hr hr' q, hcb.1 (by omega)⟩
    · omega
  · rintro (h | ⟨h, q⟩)
    · have := ho.1 h; omega
    · have := hcb.2 q; rw [h]; omega

/-- **C53** `time_t` to a time stamp and back is the identity, and order preserving. -/
theorem timeT_roundtrip {t r : Int} (h : fromTimeT t = some r) : toTimeT r = some t := by
  obtain ⟨rfl, h1, h2⟩ := fromTimeT_eq h
  unfold toTimeT
  rw [Int.mul_tdiv_cancel _ (by decide), i64_some (by omega) (by omega)]
  exact congrArg some (by omega)

theorem timeT_order {t t' r r' : Int} (h : fromTimeT t = some r) (h' : fromTimeT t' = some r') : t < t' ↔ r < r' := by
  obtain ⟨rfl, -, -⟩ := fromTimeT_eq h
  obtain ⟨rfl, -, -⟩ := fromTimeT_eq h'
  omega

/-- **C53** A time stamp to `time_t` and back loses the milliseconds only. -/
theorem timeT_back {tp : Int} (h0 : 0 ≤ tp) (h1 : tp < 2 ^ 63) : (toTimeT tp).bind fromTimeT = some (tp - tp % 1000) := by
  unfold toTimeT
  rw [Int.tdiv_eq_ediv_of_nonneg h0, i64_some (by omega) (by omega), Option.bind_some]
  unfold fromTimeT
  rw [i64_some (by omega) (by omega)]
  simp only [Option.bind_eq_bind, Option.bind_some]
  rw [i64_some (by omega) (by omega)]
  exact congrArg some (by omega)

/-- **C53** The epoch of `time_t` is midnight of 1 January 1970. -/
theorem timeT_epoch : fromTimeT 0 = tsFromDmy 1 1 1970 0 0 0 0 := by decide +kernel

/-- **C53** Dates: a date to a time stamp and back; a time stamp to its date, and the midnight before it; the same through `time_t`. -/
theorem date_roundtrip {d : Int} (h0 : 0 ≤ d) (h1 : d < 2 ^ 31) :
    toDate (fromDate d) = some d ∧ dateFromTimeT (dateToTimeT d) = some d ∧ fromTimeT (dateToTimeT d) = some (fromDate d) := by
  refine ⟨?_, ?_, ?_⟩
  · have := toDate_eq h0 h1 (Int.le_refl 0) (by decide)
    simpa [fromDate] using this
  · unfold dateFromTimeT dateToTimeT
    rw [show d * 86400 - 210866803200 + 210866803200 = d * 86400 by omega, Int.mul_tdiv_cancel _ (by decide), i32_some (by omega) (by omega)]
  · unfold fromTimeT dateToTimeT fromDate
    rw [show d * 86400 - 210866803200 + 210866803200 = d * 86400 by omega, i64_some (by omega) (by omega)]
    simp only [Option.bind_eq_bind, Option.bind_some]
    rw [i64_some (by omega) (by omega)]
    exact congrArg some (by omega)

theorem date_floor {tp : Int} (h0 : 0 ≤ tp) (h1 : tp < 2 ^ 31 * 86400000) :
    ∃ d, toDate tp = some d ∧ fromDate d ≤ tp ∧ tp < fromDate (d + 1) ∧ (toTimeT tp).bind dateFromTimeT = some d := by
  refine ⟨tp / 86400000, ?_, ?_, ?_, ?_⟩
  · have := toDate_eq (d := tp / 86400000) (s := tp % 86400000) (by omega) (by omega) (by omega) (by omega)
    rwa [show tp / 86400000 * 86400000 + tp % 86400000 = tp by omega] at this
  · unfold fromDate; omega
  · unfold fromDate; omega
  · unfold toTimeT
    rw [Int.tdiv_eq_ediv_of_nonneg h0, i64_some (by omega) (by omega), Option.bind_some]
    unfold dateFromTimeT
    rw [Int.tdiv_eq_ediv_of_nonneg (by omega), i32_some (by omega) (by omega)]
    exact congrArg some (by omega)

/-- **C53** FILETIME: to a time stamp and back loses what is below a millisecond; a time stamp and back is the identity; the unit is
100 ns, and the epoch is midnight of 1 January 1601. -/
theorem filetime_roundtrip {x : Int} (h0 : 0 ≤ x) (h1 : x < 2 ^ 63) :
    fromFiletime x = some (x / 10000 + 199222329600000) ∧ (fromFiletime x).bind toFiletime = some (x - x % 10000) := by
  have e : fromFiletime x = some (x / 10000 + 199222329600000) := by
    unfold fromFiletime
    rw [Int.emod_eq_of_lt (by omega) (by omega), i64_some (by omega) (by omega)]
  refine ⟨e, ?_⟩
  rw [e, Option.bind_some]
  unfold toFiletime
  rw [show ∀ y : Int, y + 199222329600000 - 199222329600000 = y by intro y; omega, i64_some (by omega) (by omega)]
  simp only [Option.bind_eq_bind, Option.bind_some]
  rw [i64_some (by omega) (by omega), Option.bind_some, Int.emod_eq_of_lt (by omega) (by omega)]
  exact congrArg some (by omega)

theorem filetime_back {tp : Int} (h0 : 199222329600000 ≤ tp) (h1 : tp < 922337203685477 + 199222329600000) :
    (toFiletime tp).bind fromFiletime = some tp := by
  have e : toFiletime tp = some ((tp - 199222329600000) * 10000) := by
    unfold toFiletime
    rw [i64_some (by omega) (by omega)]
    simp only [Option.bind_eq_bind, Option.bind_some]
    rw [i64_some (by omega) (by omega), Option.bind_some, Int.emod_eq_of_lt (by omega) (by omega)]
  rw [e, Option.bind_some, (filetime_roundtrip (by omega) (by omega)).1]
  exact congrArg some (by omega)

theorem filetime_epoch : fromFiletime 0 = tsFromDmy 1 1 1601 0 0 0 0 := by decide +kernel

/-- **C53** FILETIME and `time_t` agree: 11644473600 seconds are between their epochs. -/
theorem filetime_timeT {t : Int} (h0 : -11644473600 ≤ t) (h1 : t < 900000000000) : fromFiletime ((t + 11644473600) * 10000000) = fromTimeT t := by
  rw [(filetime_roundtrip (by omega) (by omega)).1]
  unfold fromTimeT
  rw [i64_some (by omega) (by omega)]
  simp only [Option.bind_eq_bind, Option.bind_some]
  rw [i64_some (by omega) (by omega)]
  exact congrArg some (by omega)

/-- **C53** The fields of `struct tm`: day of the month, month from 0, years since 1900, the time of day; Sunday is 0. -/
theorem tm_spec {d : Date} (hv : d.Valid) (hr : d.InRange) {c : Clock} (hc : c.Valid) :
    ∃ tp n, tsFromDmy d.day d.month d.year c.hour c.minute c.second c.ms = some tp ∧ fromDmy d.day d.month d.year = some n ∧
      toTm tp = some (d.day, d.month - 1, d.year - 1900, (dayOfWeek n + 1) % 7, c.hour, c.minute, c.second) := by
  have hn := num_bounds hv hr
  have hs := since_range hc
  refine ⟨_, _, tsFromDmy_eq hv hr hc, fromDmy_eq hv hr, ?_⟩
  unfold toTm
  rw [tsToDmy_eq hv hr hc, toDate_eq (by omega) (by omega) hs.1 hs.2]
  rfl

/-- **C53** (partial: whole seconds) Conversion from `timespec` keeps the time. Missing: its nanoseconds, see `timespec_wrong`. -/
theorem timespec_partial {s r : Int} (h : fromTimeT s = some r) : fromTimespec s 0 = some r := by
  obtain ⟨-, h1, h2⟩ := fromTimeT_eq h
  unfold fromTimespec
  rw [h]
  simp only [Option.bind_eq_bind, Option.bind_some]
  rw [show (0 : Int).tdiv 1000 = 0 from rfl, Int.add_zero, i64_some h1 h2]

/-- **C53** (defect) It adds microseconds as if they were milliseconds: the result is late by 999 times the fraction of the second;
half a second becomes more than eight minutes. -/
theorem timespec_wrong {s n r : Int} (h : fromTimespec s n = some r) (h0 : 0 ≤ n) : r = (s + 210866803200) * 1000 + n / 1000 := by
  unfold fromTimespec at h
  simp only [Option.bind_eq_bind] at h
  cases h1 : fromTimeT s with
  | none => rw [h1] at h; cases h
  | some t =>
    rw [h1, Option.bind_some] at h
    obtain ⟨rfl, -, -⟩ := i64_eq h
    obtain ⟨rfl, -, -⟩ := fromTimeT_eq h1
    rw [Int.tdiv_eq_ediv_of_nonneg h0]

theorem timespec_example : (fromTimespec 0 500000000).bind toTimeT = some 500 := by decide +kernel

/-- Non-vacuity. -/
example : tsFromDmy 29 2 2024 23 59 58 999 = some 212576054398999 ∧
    tsToDmy 212576054398999 = some ((29, 2, 2024), ⟨23, 59, 58, 999⟩) ∧ toTm 212576054398999 = some (29, 1, 124, 4, 23, 59, 58) ∧
    (⟨23, 59, 58, 999⟩ : Clock).Valid :=
  ⟨by decide +kernel, by decide +kernel, by rfl, by unfold Clock.Valid; decide⟩

end Verif.Time
