import Verif.Parser.Iban
import Verif.Parser.Numeral
/-
Parsers of date, time and angle (include/stdex/parser.hpp 3993-4468). The elements are the functions they compute, as in Parser/Number:
integers give their end and value, the separator its end and `hit_offset`, white space (with `match_multiline` removed) its end. Day, month
and year are not null; `format_mask` is a number without sign.
-/
namespace Verif.Parser
open Verif.Str

/-- An element that gives its end and a value. -/
abbrev SubV := Nat → Option (Nat × Nat)

/-- An integer after a match: start, end, and value. -/
abbrev Field := Nat × Nat × Nat

/-! ### Date 3993-4243 -/

/-- `date_format_t` 3978-3987 -/
inductive Format
  | dmy | mdy | ymd | ym | my | dm | md
deriving DecidableEq

/-- The flag of a format 3980-3986. -/
def Format.flag : Format → Nat
  | .dmy => 0x1
  | .mdy => 0x2
  | .ymd => 0x4
  | .ym => 0x8
  | .my => 0x10
  | .dm => 0x20
  | .md => 0x40

structure DateParts where
  day : SubV
  month : SubV
  year : SubV
  sep : SubV
  space : Sub

/-- `format`, `day`, `month`, `year` and `interval`; `none` stands for `date_format_none` and for an invalid interval. -/
structure Date where
  format : Option Format
  day : Option Field
  month : Option Field
  year : Option Field
  interval : Iv
deriving DecidableEq

/-- The static `is_valid` 4208-4238 on 64 bits. -/
def isValidDay (day month : Nat) : Bool :=
  let month := if month = 2 ^ 64 - 1 then 1 else month
  let day := if day = 2 ^ 64 - 1 then 1 else day
  match month with
  | 1 | 3 | 5 | 7 | 8 | 10 | 12 => decide (1 ≤ day ∧ day ≤ 31)
  | 2 => decide (1 ≤ day ∧ day ≤ 29)
  | 4 | 6 | 9 | 11 => decide (1 ≤ day ∧ day ≤ 30)
  | _ => false

/-- An integer at `e`; a failure is the inner `none`. -/
def fieldAt (d : SubV) (e : Nat) : Option (Option Field) := some ((d e).map fun (j, x) => (e, j, x))

/-- White space, the separator, and white space, as in 4040-4043: where it ends, and `hit_offset`; `want` is what it has to be, 4047. -/
def gap (c : DateParts) (n : Nat) (want : Option Nat) (e : Nat) : Option (Option (Nat × Nat)) :=
  match spaces c.space (n + 1) e with
  | none => none
  | some e1 =>
    match c.sep e1 with
    | none => some none
    | some (e2, h) =>
      if want = none ∨ want = some h then
        match spaces c.space (n + 1) e2 with
        | none => none
        | some e3 => some (some (e3, h))
      else some none

/-- Three integers, as in 4039-4051, up to the test of validity. -/
def three (c : DateParts) (n : Nat) (x y z : SubV) (i : Nat) : Option (Option (Field × Field × Field)) :=
  andThen (fieldAt x i) fun a =>
  andThen (gap c n none a.2.1) fun (e1, h) =>
  andThen (fieldAt y e1) fun b =>
  andThen (gap c n (some h) b.2.1) fun (e2, _) =>
  andThen (fieldAt z e2) fun d =>
  some (some (a, b, d))

/-- Two integers, as in 4117-4121, with `hit_offset`. -/
def two (c : DateParts) (n : Nat) (x y : SubV) (i : Nat) : Option (Option (Field × Field × Nat)) :=
  andThen (fieldAt x i) fun a =>
  andThen (gap c n none a.2.1) fun (e1, h) =>
  andThen (fieldAt y e1) fun b =>
  some (some (a, b, h))

/-- The separator at the end 4163-4168, 4187-4192: `interval.end`. -/
def trailing (c : DateParts) (n h e : Nat) : Option Nat :=
  match spaces c.space (n + 1) e with
  | none => none
  | some e1 =>
    match c.sep e1 with
    | none => some e
    | some (e2, h') => if h' = h then some e2 else some e

/-- 4038-4062 -/
def runDmy (c : DateParts) (n i : Nat) : Option (Option Date) :=
  andThen (three c n c.day c.month c.year i) fun (d, m, y) =>
  if isValidDay d.2.2 m.2.2 then some (some ⟨some .dmy, some d, some m, some y, some (i, y.2.1)⟩) else some none

/-- 4064-4088 -/
def runMdy (c : DateParts) (n i : Nat) : Option (Option Date) :=
  andThen (three c n c.month c.day c.year i) fun (m, d, y) =>
  if isValidDay d.2.2 m.2.2 then some (some ⟨some .mdy, some d, some m, some y, some (i, y.2.1)⟩) else some none

/-- 4090-4114 -/
def runYmd (c : DateParts) (n i : Nat) : Option (Option Date) :=
  andThen (three c n c.year c.month c.day i) fun (y, m, d) =>
  if isValidDay d.2.2 m.2.2 then some (some ⟨some .ymd, some d, some m, some y, some (i, d.2.1)⟩) else some none

/-- 4116-4132 -/
def runYm (c : DateParts) (n i : Nat) : Option (Option Date) :=
  andThen (two c n c.year c.month i) fun (y, m, _) =>
  if isValidDay (2 ^ 64 - 1) m.2.2 then some (some ⟨some .ym, none, some m, some y, some (i, m.2.1)⟩) else some none

/-- 4134-4150 -/
def runMy (c : DateParts) (n i : Nat) : Option (Option Date) :=
  andThen (two c n c.month c.year i) fun (m, y, _) =>
  if isValidDay (2 ^ 64 - 1) m.2.2 then some (some ⟨some .my, none, some m, some y, some (i, y.2.1)⟩) else some none

/-- 4152-4174 -/
def runDm (c : DateParts) (n i : Nat) : Option (Option Date) :=
  andThen (two c n c.day c.month i) fun (d, m, h) =>
  if isValidDay d.2.2 m.2.2 then
    match trailing c n h m.2.1 with
    | none => none
    | some e => some (some ⟨some .dm, some d, some m, none, some (i, e)⟩)
  else some none

/-- 4176-4198 -/
def runMd (c : DateParts) (n i : Nat) : Option (Option Date) :=
  andThen (two c n c.month c.day i) fun (m, d, h) =>
  if isValidDay d.2.2 m.2.2 then
    match trailing c n h d.2.1 with
    | none => none
    | some e => some (some ⟨some .md, some d, some m, none, some (i, e)⟩)
  else some none

/-- `if ((m_format_mask & format) == format)`, and what follows if that does not return. -/
def attempt (mask : Nat) (f : Format) (r : Option (Option Date)) (next : Option (Bool × Date)) : Option (Bool × Date) :=
  if mask &&& f.flag = f.flag then
    match r with
    | none => none
    | some none => next
    | some (some d) => some (true, d)
  else next

/-- `basic_date::do_match` 4029-4206 on a text of `n` code units; `none` is an endless loop. -/
def date (c : DateParts) (mask n i : Nat) (_old : Date) : Option (Bool × Date) :=
  attempt mask .dmy (runDmy c n i) <|
  attempt mask .mdy (runMdy c n i) <|
  attempt mask .ymd (runYmd c n i) <|
  attempt mask .ym (runYm c n i) <|
  attempt mask .my (runMy c n i) <|
  attempt mask .dm (runDm c n i) <|
  attempt mask .md (runMd c n i) <|
  some (false, ⟨none, none, none, none, none⟩)

/-! ### Time 4258-4345 -/

structure TimeParts where
  hour : SubV
  minute : SubV
  second : Option SubV
  ms : Option SubV
  sep : SubV
  msSep : Option Sub

/-- `hour`, `minute`, `second`, `millisecond` and `interval`. -/
structure Time where
  hour : Option Field
  minute : Option Field
  second : Option Field
  ms : Option Field
  interval : Iv
deriving DecidableEq

/-- 4314-4324: `millisecond`, and `interval.end`. -/
def timeMs (c : TimeParts) (e : Nat) : Option Field × Nat :=
  match opt c.msSep e with
  | none => (none, e)
  | some e1 =>
    match optV c.ms e1 with
    | none => (none, e)
    | some (e2, x) => if x < 1000 then (some (e1, e2, x), e2) else (none, e)

/-- 4307-4330: `second`, `millisecond`, and `interval.end`. -/
def timeSec (c : TimeParts) (h e : Nat) : Option Field × Option Field × Nat :=
  match c.sep e with
  | none => (none, none, e)
  | some (e1, h') =>
    if h' = h then
      match optV c.second e1 with
      | none => (none, none, e)
      | some (e2, x) => if x < 60 then (some (e1, e2, x), timeMs c e2) else (none, none, e)
    else (none, none, e)

/-- `basic_time::do_match` 4293-4341. -/
def time (c : TimeParts) (i : Nat) (_old : Time) : Bool × Time :=
  match c.hour i with
  | none => (false, ⟨none, none, none, none, none⟩)
  | some (e1, x) =>
    match c.sep e1 with
    | none => (false, ⟨none, none, none, none, none⟩)
    | some (e2, h) =>
      match c.minute e2 with
      | none => (false, ⟨none, none, none, none, none⟩)
      | some (e3, y) =>
        if y < 60 then
          let (s, ms, e) := timeSec c h e3
          (true, ⟨some (i, e1, x), some (e2, e3, y), s, ms, some (i, e)⟩)
        else (false, ⟨none, none, none, none, none⟩)

/-! ### Angle 4360-4468 -/

structure AngleParts where
  degree : SubV
  degreeSep : Sub
  minute : SubV
  minuteSep : Sub
  second : Option SubV
  secondSep : Option Sub
  decimal : Option Sub

structure Angle where
  degree : Option Field
  degreeSep : Iv
  minute : Option Field
  minuteSep : Iv
  second : Option Field
  secondSep : Iv
  decimal : Iv
  interval : Iv
deriving DecidableEq

/-- 4413-4422: `degree`, `degree_separator`, and `interval.end`. -/
def angleDegree (c : AngleParts) (e : Nat) : Option Field × Iv × Nat :=
  match c.degree e with
  | none => (none, none, e)
  | some (e1, x) =>
    match c.degreeSep e1 with
    | none => (none, none, e)
    | some e2 => (some (e, e1, x), some (e1, e2), e2)

/-- 4424-4434: `minute`, `minute_separator`, and `interval.end`. -/
def angleMinute (c : AngleParts) (e : Nat) : Option Field × Iv × Nat :=
  match c.minute e with
  | none => (none, none, e)
  | some (e1, x) =>
    if x < 60 then
      match c.minuteSep e1 with
      | none => (none, none, e)
      | some e2 => (some (e, e1, x), some (e1, e2), e2)
    else (none, none, e)

/-- 4436-4449: `second`, `second_separator`, and `interval.end`. -/
def angleSecond (c : AngleParts) (e : Nat) : Option Field × Iv × Nat :=
  match optV c.second e with
  | none => (none, none, e)
  | some (e1, x) =>
    if x < 60 then
      match opt c.secondSep e1 with
      | none => (some (e, e1, x), none, e1)
      | some e2 => (some (e, e1, x), some (e1, e2), e2)
    else (none, none, e)

/-- `interval.start < interval.end` -/
def taken : Option Field → Bool
  | none => false
  | some (a, b, _) => decide (a < b)

/-- `basic_angle::do_match` 4403-4467. -/
def angle (c : AngleParts) (i : Nat) (_old : Angle) : Bool × Angle :=
  let (d, ds, e1) := angleDegree c i
  let (m, msep, e2) := angleMinute c e1
  let (s, ss, e3) := angleSecond c e2
  if taken d || taken m || taken s then
    match opt c.decimal e3 with
    | some e4 => (true, ⟨d, ds, m, msep, s, ss, some (e3, e4), some (i, e4)⟩)
    | none => (true, ⟨d, ds, m, msep, s, ss, none, some (i, e3)⟩)
  else (false, ⟨d, ds, m, msep, s, ss, none, none⟩)

/-! ### Specification -/

/-- A day of a month in some year. -/
def CalendarDay (day month : Nat) : Prop := ∃ last, 1 ≤ month ∧ [31, 29, 31, 30, 31, 30, 31, 31, 30, 31, 30, 31][month - 1]? = some last ∧ 1 ≤ day ∧ day ≤ last

/-- A separator with blanks around it is written from `p` to `q`. -/
def SepAt (c : DateParts) (p h q : Nat) : Prop := ∃ a b, Blanks c.space p a ∧ c.sep a = some (b, h) ∧ Blanks c.space b q

/-- The integer `f` is written. -/
def Holds (d : SubV) (f : Field) : Prop := d f.1 = some (f.2.1, f.2.2)

/-- Two integers are written from `i` on. -/
def TwoAt (c : DateParts) (x y : SubV) (i : Nat) (f g : Field) (h : Nat) : Prop := f.1 = i ∧ Holds x f ∧ SepAt c f.2.1 h g.1 ∧ Holds y g

/-- Three integers are written from `i` on, with the same separator twice. -/
def ThreeAt (c : DateParts) (x y z : SubV) (i : Nat) (f g k : Field) : Prop := ∃ h, TwoAt c x y i f g h ∧ SepAt c g.2.1 h k.1 ∧ Holds z k

/-- The same separator may follow at `e`, after blanks; `j` is where the date ends. -/
def TailAt (c : DateParts) (h e j : Nat) : Prop := ∃ a, Blanks c.space e a ∧ ((∃ b, c.sep a = some (b, h) ∧ j = b) ∨ ((∀ b, c.sep a ≠ some (b, h)) ∧ j = e))

/-- A date in this format is written at `i`. -/
inductive DateAt (c : DateParts) (i : Nat) : Format → Date → Prop
  | dmy {d m y : Field} : ThreeAt c c.day c.month c.year i d m y → CalendarDay d.2.2 m.2.2 → DateAt c i .dmy ⟨some .dmy, some d, some m, some y, some (i, y.2.1)⟩
  | mdy {d m y : Field} : ThreeAt c c.month c.day c.year i m d y → CalendarDay d.2.2 m.2.2 → DateAt c i .mdy ⟨some .mdy, some d, some m, some y, some (i, y.2.1)⟩
  | ymd {d m y : Field} : ThreeAt c c.year c.month c.day i y m d → CalendarDay d.2.2 m.2.2 → DateAt c i .ymd ⟨some .ymd, some d, some m, some y, some (i, d.2.1)⟩
  | ym {m y : Field} {h : Nat} : TwoAt c c.year c.month i y m h → 1 ≤ m.2.2 ∧ m.2.2 ≤ 12 → DateAt c i .ym ⟨some .ym, none, some m, some y, some (i, m.2.1)⟩
  | my {m y : Field} {h : Nat} : TwoAt c c.month c.year i m y h → 1 ≤ m.2.2 ∧ m.2.2 ≤ 12 → DateAt c i .my ⟨some .my, none, some m, some y, some (i, y.2.1)⟩
  | dm {d m : Field} {h j : Nat} : TwoAt c c.day c.month i d m h → CalendarDay d.2.2 m.2.2 → TailAt c h m.2.1 j → DateAt c i .dm ⟨some .dm, some d, some m, none, some (i, j)⟩
  | md {d m : Field} {h j : Nat} : TwoAt c c.month c.day i m d h → CalendarDay d.2.2 m.2.2 → TailAt c h d.2.1 j → DateAt c i .md ⟨some .md, some d, some m, none, some (i, j)⟩

/-- The formats by priority. -/
def formats : List Format := [.dmy, .mdy, .ymd, .ym, .my, .dm, .md]

/-- The formats that a mask allows: bit `k` is for format `k`. -/
def allowed (mask : Nat) : List Format := formats.filter fun f => mask.testBit (formats.idxOf f)

/-! ### Proofs -/

theorem isValidDay_spec {d m : Nat} (hd : d ≠ 2 ^ 64 - 1) (hm : m ≠ 2 ^ 64 - 1) : isValidDay d m = true ↔ CalendarDay d m := by
  unfold isValidDay CalendarDay
  rw [if_neg hd, if_neg hm]
  dsimp only
  by_cases c : m < 13
  · rcases (by omega : m = 0 ∨ m = 1 ∨ m = 2 ∨ m = 3 ∨ m = 4 ∨ m = 5 ∨ m = 6 ∨ m = 7 ∨ m = 8 ∨ m = 9 ∨ m = 10 ∨ m = 11 ∨ m = 12) with
      rfl | rfl | rfl | rfl | rfl | rfl | rfl | rfl | rfl | rfl | rfl | rfl | rfl <;> simp
  · have : [31, 29, 31, 30, 31, 30, 31, 31, 30, 31, 30, 31][m - 1]? = none := List.getElem?_eq_none (by simp; omega)
    simp only [this]
    constructor
    · intro q
      split at q <;> first | omega | cases q
    · rintro ⟨_, _, q, _⟩; cases q

theorem isValidMonth_spec {m : Nat} (hm : m ≠ 2 ^ 64 - 1) : isValidDay (2 ^ 64 - 1) m = true ↔ 1 ≤ m ∧ m ≤ 12 := by
  have e : isValidDay (2 ^ 64 - 1) m = isValidDay 1 m := rfl
  rw [e, isValidDay_spec (by decide) hm]
  unfold CalendarDay
  constructor
  · rintro ⟨_, a, b, _⟩
    have := (List.getElem?_eq_some_iff.1 b).1
    simp at this; omega
  · intro q
    rcases (by omega : m = 1 ∨ m = 2 ∨ m = 3 ∨ m = 4 ∨ m = 5 ∨ m = 6 ∨ m = 7 ∨ m = 8 ∨ m = 9 ∨ m = 10 ∨ m = 11 ∨ m = 12) with
      rfl | rfl | rfl | rfl | rfl | rfl | rfl | rfl | rfl | rfl | rfl | rfl <;> simp

theorem sepAt_unique {c : DateParts} {p h q h' q' : Nat} (a : SepAt c p h q) (b : SepAt c p h' q') : h = h' ∧ q = q' := by
  obtain ⟨x, y, a1, a2, a3⟩ := a
  obtain ⟨x', y', b1, b2, b3⟩ := b
  cases blanks_unique a1 b1
  rw [a2] at b2; cases b2
  exact ⟨rfl, blanks_unique a3 b3⟩

theorem holds_unique {d : SubV} {f g : Field} (a : Holds d f) (b : Holds d g) (h : f.1 = g.1) : f = g := by
  obtain ⟨f1, f2, f3⟩ := f
  obtain ⟨g1, g2, g3⟩ := g
  unfold Holds at a b
  cases h
  rw [a] at b
  cases b; rfl

theorem two_unique {c : DateParts} {x y : SubV} {i : Nat} {f g f' g' : Field} {h h' : Nat} (a : TwoAt c x y i f g h) (b : TwoAt c x y i f' g' h') : f = f' ∧ g = g' ∧ h = h' := by
  obtain ⟨a1, a2, a3, a4⟩ := a
  obtain ⟨b1, b2, b3, b4⟩ := b
  cases holds_unique a2 b2 (by omega)
  have ⟨q1, q2⟩ := sepAt_unique a3 b3
  exact ⟨rfl, holds_unique a4 b4 q2, q1⟩

theorem three_unique {c : DateParts} {x y z : SubV} {i : Nat} {f g k f' g' k' : Field} (a : ThreeAt c x y z i f g k) (b : ThreeAt c x y z i f' g' k') : f = f' ∧ g = g' ∧ k = k' := by
  obtain ⟨h, a1, a2, a3⟩ := a
  obtain ⟨h', b1, b2, b3⟩ := b
  obtain ⟨rfl, rfl, rfl⟩ := two_unique a1 b1
  exact ⟨rfl, rfl, holds_unique a3 b3 (sepAt_unique a2 b2).2⟩

/-- Elements take something, within `n`. -/
structure DateParts.Ok (c : DateParts) (n : Nat) : Prop where
  day : TakesV n c.day
  month : TakesV n c.month
  year : TakesV n c.year
  sep : TakesV n c.sep
  space : Takes n c.space

theorem gap_spec {c : DateParts} {n : Nat} (hc : c.Ok n) (want : Option Nat) {e : Nat} (he : e ≤ n) :
    (∃ h q, SepAt c e h q ∧ (want = none ∨ want = some h) ∧ q ≤ n ∧ gap c n want e = some (some (q, h))) ∨
    ((∀ h q, SepAt c e h q → ¬ (want = none ∨ want = some h)) ∧ gap c n want e = some none) := by
  unfold gap
  obtain ⟨a, s1, s2, s3, s4⟩ := spaces_spec hc.space (n + 1) e he (by omega)
  rw [s1]
  dsimp only
  cases hs : c.sep a with
  | none =>
    refine .inr ⟨fun h q x => ?_, rfl⟩
    obtain ⟨a', b, x1, x2, _⟩ := x
    cases blanks_unique s2 x1
    rw [hs] at x2; cases x2
  | some r =>
    obtain ⟨b, h⟩ := r
    dsimp only
    have hb := hc.sep a s4 b h hs
    obtain ⟨q, t1, t2, t3, t4⟩ := spaces_spec hc.space (n + 1) b hb.2 (by omega)
    by_cases w : want = none ∨ want = some h
    · rw [if_pos w, t1]
      exact .inl ⟨h, q, ⟨a, b, s2, hs, t2⟩, w, t4, rfl⟩
    · rw [if_neg w]
      refine .inr ⟨fun h' q' x => ?_, rfl⟩
      rw [← (sepAt_unique ⟨a, b, s2, hs, t2⟩ x).1]
      exact w

theorem field_spec {n : Nat} {d : SubV} (hd : TakesV n d) {e : Nat} (he : e ≤ n) :
    (∃ f : Field, f.1 = e ∧ Holds d f ∧ f.2.1 ≤ n ∧ fieldAt d e = some (some f)) ∨ ((∀ f : Field, f.1 = e → ¬ Holds d f) ∧ fieldAt d e = some none) := by
  unfold fieldAt
  cases h : d e with
  | none =>
    refine .inr ⟨fun f q x => ?_, rfl⟩
    unfold Holds at x
    rw [q, h] at x; cases x
  | some r =>
    obtain ⟨j, x⟩ := r
    exact .inl ⟨(e, j, x), rfl, h, (hd e he j x h).2, rfl⟩

theorem two_spec {c : DateParts} {n : Nat} (hc : c.Ok n) {x y : SubV} (hx : TakesV n x) (hy : TakesV n y) {i : Nat} (hi : i ≤ n) :
    (∃ f g h, TwoAt c x y i f g h ∧ g.2.1 ≤ n ∧ two c n x y i = some (some (f, g, h))) ∨ ((∀ f g h, ¬ TwoAt c x y i f g h) ∧ two c n x y i = some none) := by
  unfold two
  rcases field_spec hx hi with ⟨f, f1, f2, f3, f4⟩ | ⟨f1, f2⟩
  rotate_left
  · rw [f2]; exact .inr ⟨fun f g h q => f1 f q.1 q.2.1, rfl⟩
  rw [f4]; dsimp only [andThen]
  rcases gap_spec hc none f3 with ⟨h, q, g1, _, g3, g4⟩ | ⟨g1, g2⟩
  rotate_left
  · rw [g2]
    refine .inr ⟨fun f' g h q => ?_, rfl⟩
    cases holds_unique f2 q.2.1 (by rw [f1, q.1])
    exact g1 _ _ q.2.2.1 (.inl rfl)
  rw [g4]; dsimp only [andThen]
  rcases field_spec hy g3 with ⟨g, k1, k2, k3, k4⟩ | ⟨k1, k2⟩
  rotate_left
  · rw [k2]
    refine .inr ⟨fun f' g' h' q' => ?_, rfl⟩
    cases holds_unique f2 q'.2.1 (by rw [f1, q'.1])
    exact k1 g' (sepAt_unique q'.2.2.1 g1).2 q'.2.2.2
  rw [k4]
  exact .inl ⟨f, g, h, ⟨f1, f2, by rw [k1]; exact g1, k2⟩, k3, rfl⟩

theorem three_eq (c : DateParts) (n : Nat) (x y z : SubV) (i : Nat) : three c n x y z i =
    andThen (two c n x y i) fun (f, g, h) => andThen (gap c n (some h) g.2.1) fun (e2, _) => andThen (fieldAt z e2) fun d => some (some (f, g, d)) := by
  unfold three two
  cases fieldAt x i with
  | none => rfl
  | some a =>
    cases a with
    | none => rfl
    | some a =>
      dsimp only [andThen]
      cases gap c n none a.2.1 with
      | none => rfl
      | some b =>
        cases b with
        | none => rfl
        | some b =>
          dsimp only [andThen]
          cases fieldAt y b.1 with
          | none => rfl
          | some d => cases d <;> rfl

theorem three_spec {c : DateParts} {n : Nat} (hc : c.Ok n) {x y z : SubV} (hx : TakesV n x) (hy : TakesV n y) (hz : TakesV n z) {i : Nat} (hi : i ≤ n) :
    (∃ f g k, ThreeAt c x y z i f g k ∧ three c n x y z i = some (some (f, g, k))) ∨ ((∀ f g k, ¬ ThreeAt c x y z i f g k) ∧ three c n x y z i = some none) := by
  rw [three_eq]
  rcases two_spec hc hx hy hi with ⟨f, g, h, t1, t2, t3⟩ | ⟨t1, t2⟩
  rotate_left
  · rw [t2]; exact .inr ⟨fun f g k ⟨h, q⟩ => t1 f g h q.1, rfl⟩
  rw [t3]; dsimp only [andThen]
  rcases gap_spec hc (some h) t2 with ⟨h', q, g1, g2, g3, g4⟩ | ⟨g1, g2⟩
  rotate_left
  · rw [g2]
    refine .inr ⟨fun f' g' k' ⟨h', q1, q2, _⟩ => ?_, rfl⟩
    obtain ⟨rfl, rfl, rfl⟩ := two_unique t1 q1
    exact g1 _ _ q2 (.inr rfl)
  rw [g4]; dsimp only [andThen]
  have e : h = h' := by
    rcases g2 with g2 | g2
    · cases g2
    · injection g2
  subst e
  rcases field_spec hz g3 with ⟨k, k1, k2, k3, k4⟩ | ⟨k1, k2⟩
  rotate_left
  · rw [k2]
    refine .inr ⟨fun f' g' k' ⟨h', q1, q2, q3⟩ => ?_, rfl⟩
    obtain ⟨rfl, rfl, rfl⟩ := two_unique t1 q1
    exact k1 k' (sepAt_unique q2 g1).2 q3
  rw [k4]
  exact .inl ⟨f, g, k, ⟨h, t1, by rw [k1]; exact g1, k2⟩, rfl⟩

theorem trailing_spec {c : DateParts} {n : Nat} (hc : c.Ok n) (h : Nat) {e : Nat} (he : e ≤ n) : ∃ j, trailing c n h e = some j ∧ TailAt c h e j ∧ ∀ j', TailAt c h e j' → j' = j := by
  unfold trailing
  obtain ⟨a, s1, s2, s3, s4⟩ := spaces_spec hc.space (n + 1) e he (by omega)
  rw [s1]
  dsimp only
  have uniq : ∀ {x y}, TailAt c h e x → TailAt c h e y → y = x := by
    rintro x y ⟨a1, p1, p2⟩ ⟨a2, q1, q2⟩
    cases blanks_unique p1 q1
    rcases p2 with ⟨b, p2, rfl⟩ | ⟨p2, rfl⟩ <;> rcases q2 with ⟨b', q2, rfl⟩ | ⟨q2, rfl⟩
    · rw [p2] at q2; cases q2; rfl
    · exact absurd p2 (q2 _)
    · exact absurd q2 (p2 _)
    · rfl
  have fin : ∀ {j}, TailAt c h e j → ∃ j', some j = some j' ∧ TailAt c h e j' ∧ ∀ x, TailAt c h e x → x = j' := fun {j} q => ⟨j, rfl, q, fun x hx => uniq q hx⟩
  cases hs : c.sep a with
  | none => exact fin ⟨a, s2, .inr ⟨fun b q => (by rw [hs] at q; cases q), rfl⟩⟩
  | some r =>
    obtain ⟨b, h'⟩ := r
    dsimp only
    by_cases q : h' = h
    · rw [if_pos q]; exact fin ⟨a, s2, .inl ⟨b, by rw [hs, q], rfl⟩⟩
    · rw [if_neg q]; exact fin ⟨a, s2, .inr ⟨fun b' x => by rw [hs] at x; cases x; exact q rfl, rfl⟩⟩

/-- The outcome of one format. -/
def Outcome (c : DateParts) (i : Nat) (f : Format) (r : Option (Option Date)) : Prop :=
  (∃ o, r = some (some o) ∧ DateAt c i f o ∧ ∀ o', DateAt c i f o' → o' = o) ∨ (r = some none ∧ ∀ o, ¬ DateAt c i f o)

/-- No value is the greatest one. -/
def Small (d : SubV) : Prop := ∀ i j x, d i = some (j, x) → x ≠ 2 ^ 64 - 1

theorem holds_small {d : SubV} (h : Small d) {f : Field} (q : Holds d f) : f.2.2 ≠ 2 ^ 64 - 1 := h _ _ _ q

section
variable {c : DateParts} {n : Nat} (hc : c.Ok n) (hd : Small c.day) (hm : Small c.month) {i : Nat} (hi : i ≤ n)
include hc hm hi

theorem runYm_spec : Outcome c i .ym (runYm c n i) := by
  unfold runYm
  rcases two_spec hc hc.year hc.month hi with ⟨f, g, h, t1, t2, t3⟩ | ⟨t1, t2⟩
  rotate_left
  · rw [t2]; refine .inr ⟨rfl, fun o q => ?_⟩; cases q with | ym q _ => exact t1 _ _ _ q
  rw [t3]; dsimp only [andThen]
  have hv := isValidMonth_spec (holds_small hm t1.2.2.2)
  by_cases v : 1 ≤ g.2.2 ∧ g.2.2 ≤ 12
  · rw [if_pos (hv.2 v)]
    refine .inl ⟨_, rfl, .ym t1 v, fun o q => ?_⟩
    cases q with | ym q _ => obtain ⟨rfl, rfl, rfl⟩ := two_unique t1 q; rfl
  · rw [if_neg (fun q => v (hv.1 q))]
    refine .inr ⟨rfl, fun o q => ?_⟩
    cases q with | ym q q' => obtain ⟨rfl, rfl, rfl⟩ := two_unique t1 q; exact v q'

theorem runMy_spec : Outcome c i .my (runMy c n i) := by
  unfold runMy
  rcases two_spec hc hc.month hc.year hi with ⟨f, g, h, t1, t2, t3⟩ | ⟨t1, t2⟩
  rotate_left
  · rw [t2]; refine .inr ⟨rfl, fun o q => ?_⟩; cases q with | my q _ => exact t1 _ _ _ q
  rw [t3]; dsimp only [andThen]
  have hv := isValidMonth_spec (holds_small hm t1.2.1)
  by_cases v : 1 ≤ f.2.2 ∧ f.2.2 ≤ 12
  · rw [if_pos (hv.2 v)]
    refine .inl ⟨_, rfl, .my t1 v, fun o q => ?_⟩
    cases q with | my q _ => obtain ⟨rfl, rfl, rfl⟩ := two_unique t1 q; rfl
  · rw [if_neg (fun q => v (hv.1 q))]
    refine .inr ⟨rfl, fun o q => ?_⟩
    cases q with | my q q' => obtain ⟨rfl, rfl, rfl⟩ := two_unique t1 q; exact v q'

include hd

theorem runDmy_spec : Outcome c i .dmy (runDmy c n i) := by
  unfold runDmy
  rcases three_spec hc hc.day hc.month hc.year hi with ⟨f, g, k, t1, t3⟩ | ⟨t1, t2⟩
  rotate_left
  · rw [t2]; refine .inr ⟨rfl, fun o q => ?_⟩; cases q with | dmy q _ => exact t1 _ _ _ q
  rw [t3]; dsimp only [andThen]
  have ⟨_, w, _⟩ := t1
  have hv := isValidDay_spec (holds_small hd w.2.1) (holds_small hm w.2.2.2)
  by_cases v : CalendarDay f.2.2 g.2.2
  · rw [if_pos (hv.2 v)]
    refine .inl ⟨_, rfl, .dmy t1 v, fun o q => ?_⟩
    cases q with | dmy q _ => obtain ⟨rfl, rfl, rfl⟩ := three_unique t1 q; rfl
  · rw [if_neg (fun q => v (hv.1 q))]
    refine .inr ⟨rfl, fun o q => ?_⟩
    cases q with | dmy q q' => obtain ⟨rfl, rfl, rfl⟩ := three_unique t1 q; exact v q'

theorem runMdy_spec : Outcome c i .mdy (runMdy c n i) := by
  unfold runMdy
  rcases three_spec hc hc.month hc.day hc.year hi with ⟨f, g, k, t1, t3⟩ | ⟨t1, t2⟩
  rotate_left
  · rw [t2]; refine .inr ⟨rfl, fun o q => ?_⟩; cases q with | mdy q _ => exact t1 _ _ _ q
  rw [t3]; dsimp only [andThen]
  have ⟨_, w, _⟩ := t1
  have hv := isValidDay_spec (holds_small hd w.2.2.2) (holds_small hm w.2.1)
  by_cases v : CalendarDay g.2.2 f.2.2
  · rw [if_pos (hv.2 v)]
    refine .inl ⟨_, rfl, .mdy t1 v, fun o q => ?_⟩
    cases q with | mdy q _ => obtain ⟨rfl, rfl, rfl⟩ := three_unique t1 q; rfl
  · rw [if_neg (fun q => v (hv.1 q))]
    refine .inr ⟨rfl, fun o q => ?_⟩
    cases q with | mdy q q' => obtain ⟨rfl, rfl, rfl⟩ := three_unique t1 q; exact v q'

theorem runYmd_spec : Outcome c i .ymd (runYmd c n i) := by
  unfold runYmd
  rcases three_spec hc hc.year hc.month hc.day hi with ⟨f, g, k, t1, t3⟩ | ⟨t1, t2⟩
  rotate_left
  · rw [t2]; refine .inr ⟨rfl, fun o q => ?_⟩; cases q with | ymd q _ => exact t1 _ _ _ q
  rw [t3]; dsimp only [andThen]
  have ⟨_, w, _, w'⟩ := t1
  have hv := isValidDay_spec (holds_small hd w') (holds_small hm w.2.2.2)
  by_cases v : CalendarDay k.2.2 g.2.2
  · rw [if_pos (hv.2 v)]
    refine .inl ⟨_, rfl, .ymd t1 v, fun o q => ?_⟩
    cases q with | ymd q _ => obtain ⟨rfl, rfl, rfl⟩ := three_unique t1 q; rfl
  · rw [if_neg (fun q => v (hv.1 q))]
    refine .inr ⟨rfl, fun o q => ?_⟩
    cases q with | ymd q q' => obtain ⟨rfl, rfl, rfl⟩ := three_unique t1 q; exact v q'

theorem runDm_spec : Outcome c i .dm (runDm c n i) := by
  unfold runDm
  rcases two_spec hc hc.day hc.month hi with ⟨f, g, h, t1, t2, t3⟩ | ⟨t1, t2⟩
  rotate_left
  · rw [t2]; refine .inr ⟨rfl, fun o q => ?_⟩; cases q with | dm q _ => exact t1 _ _ _ q
  rw [t3]; dsimp only [andThen]
  have hv := isValidDay_spec (holds_small hd t1.2.1) (holds_small hm t1.2.2.2)
  obtain ⟨j, u1, u2, u3⟩ := trailing_spec hc h t2
  by_cases v : CalendarDay f.2.2 g.2.2
  · rw [if_pos (hv.2 v), u1]
    refine .inl ⟨_, rfl, .dm t1 v u2, fun o q => ?_⟩
    cases q with | dm q _ r => obtain ⟨rfl, rfl, rfl⟩ := two_unique t1 q; rw [u3 _ r]
  · rw [if_neg (fun q => v (hv.1 q))]
    refine .inr ⟨rfl, fun o q => ?_⟩
    cases q with | dm q q' => obtain ⟨rfl, rfl, rfl⟩ := two_unique t1 q; exact v q'

theorem runMd_spec : Outcome c i .md (runMd c n i) := by
  unfold runMd
  rcases two_spec hc hc.month hc.day hi with ⟨f, g, h, t1, t2, t3⟩ | ⟨t1, t2⟩
  rotate_left
  · rw [t2]; refine .inr ⟨rfl, fun o q => ?_⟩; cases q with | md q _ => exact t1 _ _ _ q
  rw [t3]; dsimp only [andThen]
  have hv := isValidDay_spec (holds_small hd t1.2.2.2) (holds_small hm t1.2.1)
  obtain ⟨j, u1, u2, u3⟩ := trailing_spec hc h t2
  by_cases v : CalendarDay g.2.2 f.2.2
  · rw [if_pos (hv.2 v), u1]
    refine .inl ⟨_, rfl, .md t1 v u2, fun o q => ?_⟩
    cases q with | md q _ r => obtain ⟨rfl, rfl, rfl⟩ := two_unique t1 q; rw [u3 _ r]
  · rw [if_neg (fun q => v (hv.1 q))]
    refine .inr ⟨rfl, fun o q => ?_⟩
    cases q with | md q q' => obtain ⟨rfl, rfl, rfl⟩ := two_unique t1 q; exact v q'

end

theorem flag_eq (f : Format) : f.flag = 2 ^ formats.idxOf f := by cases f <;> rfl

theorem and_pow (mask k : Nat) : mask &&& 2 ^ k = 2 ^ k ↔ mask.testBit k = true := by
  constructor
  · intro h
    have := congrArg (fun x => x.testBit k) h
    simpa [Nat.testBit_and, Nat.testBit_two_pow] using this
  · intro h
    apply Nat.eq_of_testBit_eq
    intro j
    rw [Nat.testBit_and, Nat.testBit_two_pow]
    by_cases e : k = j
    · subst e; rw [h]; rfl
    · rw [decide_eq_false e, Bool.and_false]

theorem mask_iff (mask : Nat) (f : Format) : mask &&& f.flag = f.flag ↔ f ∈ allowed mask := by
  rw [flag_eq, and_pow]
  unfold allowed
  rw [List.mem_filter]
  have : f ∈ formats := by cases f <;> decide
  exact ⟨fun h => ⟨this, h⟩, fun h => h.2⟩

/-- What a chain of attempts gives: the first format that is allowed and written. -/
def First (c : DateParts) (i : Nat) (fs : List Format) (r : Option (Bool × Date)) : Prop :=
  (∃ f o pre post, fs = pre ++ f :: post ∧ DateAt c i f o ∧ (∀ g ∈ pre, ∀ o', ¬ DateAt c i g o') ∧ r = some (true, o)) ∨
  ((∀ f ∈ fs, ∀ o, ¬ DateAt c i f o) ∧ r = some (false, ⟨none, none, none, none, none⟩))

theorem attempt_first {c : DateParts} {i mask : Nat} {f : Format} {r : Option (Option Date)} {next : Option (Bool × Date)} {fs : List Format} (h : Outcome c i f r)
    (hn : First c i (fs.filter (· ∈ allowed mask)) next) : First c i ((f :: fs).filter (· ∈ allowed mask)) (attempt mask f r next) := by
  unfold attempt
  by_cases q : mask &&& f.flag = f.flag
  · rw [if_pos q, List.filter_cons_of_pos (p := (· ∈ allowed mask)) (a := f) (decide_eq_true ((mask_iff _ _).1 q))]
    rcases h with ⟨o, rfl, h1, _⟩ | ⟨rfl, h1⟩
    · exact .inl ⟨f, o, [], _, rfl, h1, (fun g q => nomatch q), rfl⟩
    · dsimp only
      rcases hn with ⟨f', o, pre, post, e, a, b, d⟩ | ⟨a, b⟩
      · exact .inl ⟨f', o, f :: pre, post, by rw [e]; rfl, a, fun g hg => (List.mem_cons.1 hg).elim (fun e => e ▸ h1) (b g), d⟩
      · exact .inr ⟨fun g hg => (List.mem_cons.1 hg).elim (fun e => e ▸ h1) (a g), b⟩
  · rw [if_neg q, List.filter_cons_of_neg (by simpa using fun x => q ((mask_iff _ _).2 x))]
    exact hn

/-- **C79** (date; partial: no day or month has the value 2^64 - 1) The first format, of those that the mask allows, in which a date is written at `i` is matched, with `format`, the
integers that belong to it and the interval; if there is none, nothing matches and everything is invalid. Missing: see `date_greatest`. -/
theorem date_partial {c : DateParts} {n : Nat} (hc : c.Ok n) (hd : Small c.day) (hm : Small c.month) {i : Nat} (hi : i ≤ n) (mask : Nat) (old : Date) :
    First c i (allowed mask) (date c mask n i old) := by
  have e : allowed mask = formats.filter (· ∈ allowed mask) := by
    conv => lhs; unfold allowed
    apply List.filter_congr
    intro f hf
    unfold allowed
    rw [Bool.eq_iff_iff]
    simp [hf]
  rw [e]
  unfold date formats
  refine attempt_first (runDmy_spec hc hd hm hi) <| attempt_first (runMdy_spec hc hd hm hi) <| attempt_first (runYmd_spec hc hd hm hi) <| attempt_first (runYm_spec hc hm hi) <|
    attempt_first (runMy_spec hc hm hi) <| attempt_first (runDm_spec hc hd hm hi) <| attempt_first (runMd_spec hc hd hm hi) <| .inr ⟨?_, rfl⟩
  intro f hf
  cases hf

/-! ### Time and angle -/

/-- Seconds are written after the minutes, with the separator `h`. -/
def SecondsAt (c : TimeParts) (h e : Nat) (f : Field) : Prop := c.sep e = some (f.1, h) ∧ (∃ d, c.second = some d ∧ Holds d f) ∧ f.2.2 < 60

/-- Milliseconds are written after the seconds. -/
def MillisAt (c : TimeParts) (e : Nat) (f : Field) : Prop := (∃ d, c.msSep = some d ∧ d e = some f.1) ∧ (∃ d, c.ms = some d ∧ Holds d f) ∧ f.2.2 < 1000

/-- A time of the day starts at `i`. -/
def MinutesAt (c : TimeParts) (i : Nat) (f g : Field) (h : Nat) : Prop := f.1 = i ∧ Holds c.hour f ∧ c.sep f.2.1 = some (g.1, h) ∧ Holds c.minute g ∧ g.2.2 < 60

/-- The rest of the time: where it ends. -/
inductive Rest (c : TimeParts) (h e : Nat) : Option Field → Option Field → Nat → Prop
  | none : (∀ f, ¬ SecondsAt c h e f) → Rest c h e .none .none e
  | seconds {f : Field} : SecondsAt c h e f → (∀ g, ¬ MillisAt c f.2.1 g) → Rest c h e (some f) .none f.2.1
  | millis {f g : Field} : SecondsAt c h e f → MillisAt c f.2.1 g → Rest c h e (some f) (some g) g.2.1

theorem optV_holds {d : Option SubV} {f : Field} (h : ∃ d', d = some d' ∧ Holds d' f) : optV d f.1 = some (f.2.1, f.2.2) := by
  obtain ⟨d', rfl, h⟩ := h; exact h

theorem optV_some {d : Option SubV} {e j x : Nat} (h : optV d e = some (j, x)) : ∃ d', d = some d' ∧ Holds d' (e, j, x) := by
  cases d with
  | none => cases h
  | some d => exact ⟨d, rfl, h⟩

theorem opt_some {d : Option Sub} {e j : Nat} : opt d e = some j ↔ ∃ d', d = some d' ∧ d' e = some j := by
  cases d with
  | none => exact ⟨(fun q => nomatch q), fun ⟨_, q, _⟩ => nomatch q⟩
  | some d => exact ⟨fun q => ⟨d, rfl, q⟩, fun ⟨_, q, r⟩ => by cases q; exact r⟩

theorem timeMs_spec (c : TimeParts) (e : Nat) : (∃ g, MillisAt c e g ∧ timeMs c e = (some g, g.2.1)) ∨ ((∀ g, ¬ MillisAt c e g) ∧ timeMs c e = (none, e)) := by
  unfold timeMs
  cases h1 : opt c.msSep e with
  | none => exact .inr ⟨(fun g q => by rw [opt_some.2 q.1] at h1; cases h1), rfl⟩
  | some e1 =>
    dsimp only
    have first : ∀ {g}, MillisAt c e g → g.1 = e1 := fun q => by have := opt_some.2 q.1; rw [h1] at this; injection this with this; exact this.symm
    cases h2 : optV c.ms e1 with
    | none => exact .inr ⟨(fun g q => by rw [← first q, optV_holds q.2.1] at h2; cases h2), rfl⟩
    | some r =>
      obtain ⟨e2, x⟩ := r
      dsimp only
      by_cases q : x < 1000
      · rw [if_pos q]; exact .inl ⟨(e1, e2, x), ⟨opt_some.1 h1, optV_some h2, q⟩, rfl⟩
      · rw [if_neg q]
        refine .inr ⟨fun g r => q ?_, rfl⟩
        rw [← first r, optV_holds r.2.1] at h2
        have := r.2.2
        injection h2 with h2; injection h2 with _ h2; omega

theorem timeSec_spec (c : TimeParts) (h e : Nat) : ∃ s ms j, timeSec c h e = (s, ms, j) ∧ Rest c h e s ms j := by
  unfold timeSec
  cases h1 : c.sep e with
  | none => exact ⟨_, _, _, rfl, .none fun f q => by rw [q.1] at h1; cases h1⟩
  | some r =>
    obtain ⟨e1, h'⟩ := r
    dsimp only
    by_cases q : h' = h
    rotate_left
    · rw [if_neg q]; exact ⟨_, _, _, rfl, .none fun f r => by rw [r.1] at h1; cases h1; exact q rfl⟩
    rw [if_pos q]
    have first : ∀ {f}, SecondsAt c h e f → f.1 = e1 := fun q => by have := q.1; rw [h1] at this; cases this; rfl
    cases h2 : optV c.second e1 with
    | none => exact ⟨_, _, _, rfl, .none fun f r => by rw [← first r, optV_holds r.2.1] at h2; cases h2⟩
    | some r =>
      obtain ⟨e2, x⟩ := r
      dsimp only
      by_cases w : x < 60
      · rw [if_pos w]
        have sec : SecondsAt c h e (e1, e2, x) := ⟨by rw [h1, q], optV_some h2, w⟩
        rcases timeMs_spec c e2 with ⟨g, m1, m2⟩ | ⟨m1, m2⟩
        · rw [m2]; exact ⟨_, _, _, rfl, .millis sec m1⟩
        · rw [m2]; exact ⟨_, _, _, rfl, .seconds sec m1⟩
      · rw [if_neg w]
        refine ⟨_, _, _, rfl, .none fun f r => w ?_⟩
        rw [← first r, optV_holds r.2.1] at h2
        have := r.2.2
        injection h2 with h2; injection h2 with _ h2; omega

/-- **C80** (time) Hours, a separator and minutes below 60 are matched, with seconds below 60 after the same separator and milliseconds below 1000, as far as they are written. Otherwise
nothing matches and everything is invalid. -/
theorem time_spec (c : TimeParts) (i : Nat) (old : Time) :
    (∀ f g h, MinutesAt c i f g h → ∃ s ms j, Rest c h g.2.1 s ms j ∧ time c i old = (true, ⟨some f, some g, s, ms, some (i, j)⟩)) ∧
    ((∀ f g h, ¬ MinutesAt c i f g h) → time c i old = (false, ⟨none, none, none, none, none⟩)) := by
  unfold time
  constructor
  · rintro ⟨f1, f2, f3⟩ ⟨g1, g2, g3⟩ h ⟨a1, a2, a3, a4, a5⟩
    have a1 : f1 = i := a1
    subst a1
    have a2 : c.hour f1 = some (f2, f3) := a2
    have a3 : c.sep f2 = some (g1, h) := a3
    have a4 : c.minute g1 = some (g2, g3) := a4
    obtain ⟨s, ms, j, r1, r2⟩ := timeSec_spec c h g2
    refine ⟨s, ms, j, r2, ?_⟩
    rw [a2]; dsimp only
    rw [a3]; dsimp only
    rw [a4]; dsimp only
    rw [if_pos a5, r1]
  · intro no
    cases h1 : c.hour i with
    | none => rfl
    | some r =>
      obtain ⟨e1, x⟩ := r
      dsimp only
      cases h2 : c.sep e1 with
      | none => rfl
      | some r =>
        obtain ⟨e2, h⟩ := r
        dsimp only
        cases h3 : c.minute e2 with
        | none => rfl
        | some r =>
          obtain ⟨e3, y⟩ := r
          dsimp only
          by_cases q : y < 60
          · exact absurd ⟨rfl, h1, h2, h3, q⟩ (no (i, e1, x) (e2, e3, y) h)
          · rw [if_neg q]

/-- A part that is there or not: the integer, the separator, and where it ends. -/
inductive Maybe (P : Field → Iv → Nat → Prop) (e : Nat) : Option Field → Iv → Nat → Prop
  | yes {f : Field} {s : Iv} {j : Nat} : P f s j → Maybe P e (some f) s j
  | no : (∀ f s j, ¬ P f s j) → Maybe P e none none e

/-- Degrees with their separator. -/
def DegreesAt (c : AngleParts) (e : Nat) (f : Field) (s : Iv) (j : Nat) : Prop := f.1 = e ∧ Holds c.degree f ∧ c.degreeSep f.2.1 = some j ∧ s = some (f.2.1, j)

/-- Minutes of arc with their separator. -/
def ArcMinutesAt (c : AngleParts) (e : Nat) (f : Field) (s : Iv) (j : Nat) : Prop := f.1 = e ∧ Holds c.minute f ∧ f.2.2 < 60 ∧ c.minuteSep f.2.1 = some j ∧ s = some (f.2.1, j)

/-- Seconds of arc, with their separator if it is there. -/
def ArcSecondsAt (c : AngleParts) (e : Nat) (f : Field) (s : Iv) (j : Nat) : Prop :=
  f.1 = e ∧ (∃ d, c.second = some d ∧ Holds d f) ∧ f.2.2 < 60 ∧ ((opt c.secondSep f.2.1 = some j ∧ s = some (f.2.1, j)) ∨ (opt c.secondSep f.2.1 = none ∧ s = none ∧ j = f.2.1))

theorem angleDegree_spec (c : AngleParts) (e : Nat) : ∃ f s j, angleDegree c e = (f, s, j) ∧ Maybe (DegreesAt c e) e f s j := by
  unfold angleDegree
  have key : ∀ {f s j}, DegreesAt c e f s j → c.degree e = some (f.2.1, f.2.2) ∧ c.degreeSep f.2.1 = some j := fun q => ⟨by have := q.2.1; unfold Holds at this; rw [← q.1]; exact this, q.2.2.1⟩
  cases h1 : c.degree e with
  | none => exact ⟨_, _, _, rfl, .no fun f s j q => by rw [(key q).1] at h1; cases h1⟩
  | some r =>
    obtain ⟨e1, x⟩ := r
    dsimp only
    cases h2 : c.degreeSep e1 with
    | none =>
      refine ⟨_, _, _, rfl, .no fun f s j q => ?_⟩
      have := key q
      rw [h1] at this
      have ⟨a, b⟩ := this
      injection a with a; injection a with a _
      rw [← a, h2] at b; cases b
    | some e2 => exact ⟨_, _, _, rfl, .yes ⟨rfl, h1, h2, rfl⟩⟩

theorem angleMinute_spec (c : AngleParts) (e : Nat) : ∃ f s j, angleMinute c e = (f, s, j) ∧ Maybe (ArcMinutesAt c e) e f s j := by
  unfold angleMinute
  have key : ∀ {f s j}, ArcMinutesAt c e f s j → c.minute e = some (f.2.1, f.2.2) ∧ c.minuteSep f.2.1 = some j ∧ f.2.2 < 60 :=
    fun q => ⟨by have := q.2.1; unfold Holds at this; rw [← q.1]; exact this, q.2.2.2.1, q.2.2.1⟩
  cases h1 : c.minute e with
  | none => exact ⟨_, _, _, rfl, .no fun f s j q => by rw [(key q).1] at h1; cases h1⟩
  | some r =>
    obtain ⟨e1, x⟩ := r
    dsimp only
    have key' : ∀ {f s j}, ArcMinutesAt c e f s j → c.minuteSep e1 = some j ∧ x < 60 := by
      intro f s j q
      obtain ⟨a, b, d⟩ := key q
      rw [h1] at a
      injection a with a; injection a with a a'
      exact ⟨by rw [a]; exact b, by omega⟩
    by_cases w : x < 60
    · rw [if_pos w]
      cases h2 : c.minuteSep e1 with
      | none => exact ⟨_, _, _, rfl, .no fun f s j q => by have := (key' q).1; rw [h2] at this; cases this⟩
      | some e2 => exact ⟨_, _, _, rfl, .yes ⟨rfl, h1, w, h2, rfl⟩⟩
    · rw [if_neg w]; exact ⟨_, _, _, rfl, .no fun f s j q => w (key' q).2⟩

theorem angleSecond_spec (c : AngleParts) (e : Nat) : ∃ f s j, angleSecond c e = (f, s, j) ∧ Maybe (ArcSecondsAt c e) e f s j := by
  unfold angleSecond
  have key : ∀ {f s j}, ArcSecondsAt c e f s j → optV c.second e = some (f.2.1, f.2.2) ∧ f.2.2 < 60 := fun q => ⟨by rw [← q.1]; exact optV_holds q.2.1, q.2.2.1⟩
  cases h1 : optV c.second e with
  | none => exact ⟨_, _, _, rfl, .no fun f s j q => by rw [(key q).1] at h1; cases h1⟩
  | some r =>
    obtain ⟨e1, x⟩ := r
    dsimp only
    by_cases w : x < 60
    · rw [if_pos w]
      cases h2 : opt c.secondSep e1 with
      | none => exact ⟨_, _, _, rfl, .yes ⟨rfl, optV_some h1, w, .inr ⟨h2, rfl, rfl⟩⟩⟩
      | some e2 => exact ⟨_, _, _, rfl, .yes ⟨rfl, optV_some h1, w, .inl ⟨h2, rfl⟩⟩⟩
    · rw [if_neg w]
      refine ⟨_, _, _, rfl, .no fun f s j q => w ?_⟩
      have ⟨a, b⟩ := key q
      rw [h1] at a
      injection a with a; injection a with _ a
      omega

theorem opt_takesV {n : Nat} {d : Option SubV} (h : ∀ d', d = some d' → TakesV n d') {f : Field} (q : ∃ d', d = some d' ∧ Holds d' f) (hf : f.1 ≤ n) : f.1 < f.2.1 ∧ f.2.1 ≤ n := by
  obtain ⟨d', e, q⟩ := q
  exact h d' e f.1 hf f.2.1 f.2.2 q

/-- **C80** (angle) Degrees, minutes below 60 and seconds below 60, each with its separator and each only if it is written, are matched one after another, with a decimal part if it follows;
an angle matches if at least one of the three is there, and otherwise everything is invalid. -/
theorem angle_spec {c : AngleParts} {n : Nat} (h1 : TakesV n c.degree) (h2 : Takes n c.degreeSep) (h3 : TakesV n c.minute) (h4 : Takes n c.minuteSep)
    (h5 : ∀ d, c.second = some d → TakesV n d) {i : Nat} (hi : i ≤ n) (old : Angle) :
    ∃ d ds e1 m ms e2 s ss e3, Maybe (DegreesAt c i) i d ds e1 ∧ Maybe (ArcMinutesAt c e1) e1 m ms e2 ∧ Maybe (ArcSecondsAt c e2) e2 s ss e3 ∧
      ((d ≠ none ∨ m ≠ none ∨ s ≠ none) → angle c i old = (true, ⟨d, ds, m, ms, s, ss, (opt c.decimal e3).map fun e4 => (e3, e4), some (i, (opt c.decimal e3).getD e3)⟩)) ∧
      (d = none ∧ m = none ∧ s = none → angle c i old = (false, ⟨none, none, none, none, none, none, none, none⟩)) := by
  obtain ⟨d, ds, e1, a1, a2⟩ := angleDegree_spec c i
  obtain ⟨m, ms, e2, b1, b2⟩ := angleMinute_spec c e1
  obtain ⟨s, ss, e3, c1, c2⟩ := angleSecond_spec c e2
  refine ⟨d, ds, e1, m, ms, e2, s, ss, e3, a2, b2, c2, ?_⟩
  have l1 : e1 ≤ n ∧ (d ≠ none → taken d = true) := by
    cases a2 with
    | no => exact ⟨hi, fun q => absurd rfl q⟩
    | @yes f _ _ q =>
      have w := q.2.1
      unfold Holds at w
      have w := h1 f.1 (by rw [q.1]; exact hi) _ _ w
      exact ⟨(h2 _ w.2 _ q.2.2.1).2, fun _ => decide_eq_true w.1⟩
  have l2 : e2 ≤ n ∧ (m ≠ none → taken m = true) := by
    cases b2 with
    | no => exact ⟨l1.1, fun q => absurd rfl q⟩
    | @yes f _ _ q =>
      have w := q.2.1
      unfold Holds at w
      have w := h3 f.1 (by rw [q.1]; exact l1.1) _ _ w
      exact ⟨(h4 _ w.2 _ q.2.2.2.1).2, fun _ => decide_eq_true w.1⟩
  have l3 : s ≠ none → taken s = true := by
    cases c2 with
    | no => exact fun q => absurd rfl q
    | @yes f _ _ q => exact fun _ => decide_eq_true (opt_takesV h5 q.2.1 (by rw [q.1]; exact l2.1)).1
  unfold angle
  rw [a1]; dsimp only
  rw [b1]; dsimp only
  rw [c1]; dsimp only
  constructor
  · intro q
    have : (taken d || taken m || taken s) = true := by
      rcases q with q | q | q
      · rw [l1.2 q]; simp
      · rw [l2.2 q]; simp
      · rw [l3 q]; simp
    rw [if_pos this]
    cases opt c.decimal e3 <;> rfl
  · rintro ⟨rfl, rfl, rfl⟩
    cases a2; cases b2; cases c2
    rfl

/-! ### Examples -/

/-- Decimal digits of a text. -/
def asciiInt (t : List Int) : SubV := fun i => (integer (ipEnv t) 10 (ascii10 t) i).getD none

/-- '/' and ':' as separators with the hit offsets 0 and 1. -/
def asciiSep (t : List Int) : SubV := fun i => match t[i]? with
  | some 47 => some (i + 1, 0)
  | some 58 => some (i + 1, 1)
  | _ => none

def asciiDate (t : List Int) : DateParts := ⟨asciiInt t, asciiInt t, asciiInt t, asciiSep t, charSub t 32⟩

/-- `29/ 2/2023` -/
def dateText : List Int := [50, 57, 47, 32, 50, 47, 50, 48, 50, 51]

theorem asciiSep_takes (t : List Int) : TakesV t.length (asciiSep t) := by
  intro i hi j x h
  unfold asciiSep at h
  split at h
  · rename_i e; have := lt_of_get e; cases h; omega
  · rename_i e; have := lt_of_get e; cases h; omega
  · cases h

theorem asciiInt_takes {t : List Int} (h : (ipEnv t).Ok t) : TakesV t.length (asciiInt t) := ascii_takesV h

/-- 2023 has no 29 February, but some years have. In the order month, day, year it is not a date. -/
example : (ipEnv dateText).Ok dateText ∧ date (asciiDate dateText) 3 10 0 ⟨none, none, none, none, none⟩ = some (true, ⟨some .dmy, some (0, 2, 29), some (4, 5, 2), some (6, 10, 2023), some (0, 10)⟩) ∧
    date (asciiDate dateText) 2 10 0 ⟨none, none, none, none, none⟩ = some (false, ⟨none, none, none, none, none⟩) ∧ (asciiDate dateText).Ok dateText.length := by
  have h : (ipEnv dateText).Ok dateText := ⟨.inl (by decide), by decide, (fun n q => nomatch q), fun _ => Iff.rfl⟩
  exact ⟨h, by decide +kernel, by decide +kernel, asciiInt_takes h, asciiInt_takes h, asciiInt_takes h, asciiSep_takes _, charSub_takes _ _⟩

/-- Values that do not depend on the text: 31 is written at 0, and 2^64 - 1 at 3. -/
def greatest : DateParts := ⟨fun i => if i = 0 then some (2, 31) else none, fun i => if i = 3 then some (4, 2 ^ 64 - 1) else none, fun i => if i = 5 then some (6, 2023) else none,
  fun i => if i = 2 ∨ i = 4 then some (i + 1, 0) else none, fun _ => none⟩

/-- What C79 lacks: a month of 2^64 - 1 counts as January (4210). -/
theorem date_greatest : greatest.Ok 6 ∧ (∀ f o, ¬ DateAt greatest 0 f o) ∧
    date greatest 1 6 0 ⟨none, none, none, none, none⟩ = some (true, ⟨some .dmy, some (0, 2, 31), some (3, 4, 2 ^ 64 - 1), some (5, 6, 2023), some (0, 6)⟩) := by
  have none_one : ∀ {d : SubV} {f : Field}, (d = greatest.day ∨ d = greatest.month ∨ d = greatest.year) → Holds d f → f.1 = 0 → d = greatest.day := by
    rintro d f (rfl | rfl | rfl) h e
    · rfl
    · unfold Holds greatest at h; rw [e] at h; cases h
    · unfold Holds greatest at h; rw [e] at h; cases h
  have mval : ∀ {f : Field}, Holds greatest.month f → f.2.2 = 2 ^ 64 - 1 := by
    intro f h
    unfold Holds greatest at h
    dsimp only at h
    split at h
    · injection h with h; injection h with _ h; exact h.symm
    · cases h
  have bad : ∀ {d : Nat}, ¬ CalendarDay d (2 ^ 64 - 1) := by
    rintro d ⟨l, _, q, _⟩
    have := (List.getElem?_eq_some_iff.1 q).1
    simp at this
  refine ⟨⟨?_, ?_, ?_, ?_, fun i _ j q => nomatch q⟩, ?_, by decide +kernel⟩
  · intro i _ j x h; simp only [greatest] at h; split at h <;> cases h; omega
  · intro i _ j x h; simp only [greatest] at h; split at h <;> cases h; omega
  · intro i _ j x h; simp only [greatest] at h; split at h <;> cases h; omega
  · intro i _ j x h; simp only [greatest] at h; split at h <;> cases h; omega
  · intro f o h
    cases h with
    | dmy q r => obtain ⟨_, w, _⟩ := q; rw [mval w.2.2.2] at r; exact bad r
    | mdy q r => obtain ⟨_, w, _⟩ := q; rw [mval w.2.1] at r; exact bad r
    | ymd q r => obtain ⟨_, w, _⟩ := q; rw [mval w.2.2.2] at r; exact bad r
    | ym q r => rw [mval q.2.2.2] at r; omega
    | my q r => rw [mval q.2.1] at r; omega
    | dm q r => rw [mval q.2.2.2] at r; exact bad r
    | md q r => rw [mval q.2.1] at r; exact bad r

/-- `23:59:60` is `23:59` only. -/
example : time ⟨asciiInt [50, 51, 58, 53, 57, 58, 54, 48], asciiInt [50, 51, 58, 53, 57, 58, 54, 48], some (asciiInt [50, 51, 58, 53, 57, 58, 54, 48]), none, asciiSep [50, 51, 58, 53, 57, 58, 54, 48], none⟩ 0
    ⟨none, none, none, none, none⟩ = (true, ⟨some (0, 2, 23), some (3, 5, 59), none, none, some (0, 5)⟩) := by decide +kernel

/-- `46d30m` -/
example : angle ⟨asciiInt [52, 54, 100, 51, 48, 109], charSub [52, 54, 100, 51, 48, 109] 100, asciiInt [52, 54, 100, 51, 48, 109], charSub [52, 54, 100, 51, 48, 109] 109, none, none, none⟩ 0
    ⟨none, none, none, none, none, none, none, none⟩ = (true, ⟨some (0, 2, 46), some (2, 3), some (3, 5, 30), some (5, 6), none, none, none, some (0, 6)⟩) := by decide +kernel

end Verif.Parser
