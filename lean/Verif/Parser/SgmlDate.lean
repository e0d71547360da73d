import Verif.Parser.SgmlNum
import Verif.Parser.DateTime
import Verif.Parser.Emoticon
import Verif.Parser.Phone
import Verif.Parser.Iban
/-
Dates, times, angles, emoticons, chemical formulas and phone numbers in SGML text (include/stdex/parser.hpp 3866-4627, 5490-5564 with `sgml_…` elements).
-/
namespace Verif.Parser
open Verif.Str Verif.Sgml

/-! ### Specification -/

def fieldf (f : Nat → Nat) (x : Field) : Field := (f x.1, f x.2.1, x.2.2)
def datef (f : Nat → Nat) (x : Date) : Date := ⟨x.format, x.day.map (fieldf f), x.month.map (fieldf f), x.year.map (fieldf f), ivf f x.interval⟩
def timef (f : Nat → Nat) (x : Time) : Time := ⟨x.hour.map (fieldf f), x.minute.map (fieldf f), x.second.map (fieldf f), x.ms.map (fieldf f), ivf f x.interval⟩
def anglef (f : Nat → Nat) (x : Angle) : Angle :=
  ⟨x.degree.map (fieldf f), ivf f x.degreeSep, x.minute.map (fieldf f), ivf f x.minuteSep, x.second.map (fieldf f), ivf f x.secondSep, ivf f x.decimal, ivf f x.interval⟩
def emof (f : Nat → Nat) (x : Emo) : Emo := ⟨ivf f x.whole, ivf f x.apex, ivf f x.eyes, ivf f x.nose, ivf f x.mouth, ivf f x.interval⟩

/-- The elements correspond, and white space takes something. -/
structure DateMirrors (f : Nat → Nat) (n : Nat) (c' c : DateParts) : Prop where
  day : MirrorsV f n c'.day c.day
  month : MirrorsV f n c'.month c.month
  year : MirrorsV f n c'.year c.year
  sep : MirrorsV f n c'.sep c.sep
  space : Mirrors f n c'.space c.space
  takes : Takes n c.space

structure TimeMirrors (f : Nat → Nat) (n : Nat) (c' c : TimeParts) : Prop where
  hour : MirrorsV f n c'.hour c.hour
  minute : MirrorsV f n c'.minute c.minute
  second : OptMirrorsV f n c'.second c.second
  ms : OptMirrorsV f n c'.ms c.ms
  sep : MirrorsV f n c'.sep c.sep
  msSep : OptMirrors f n c'.msSep c.msSep

structure AngleMirrors (f : Nat → Nat) (n : Nat) (c' c : AngleParts) : Prop where
  degree : MirrorsV f n c'.degree c.degree
  degreeSep : Mirrors f n c'.degreeSep c.degreeSep
  minute : MirrorsV f n c'.minute c.minute
  minuteSep : Mirrors f n c'.minuteSep c.minuteSep
  second : OptMirrorsV f n c'.second c.second
  secondSep : OptMirrors f n c'.secondSep c.secondSep
  decimal : OptMirrors f n c'.decimal c.decimal

structure EmoMirrors (f : Nat → Nat) (n : Nat) (c' c : EmoParts) : Prop where
  whole : OptMirrors f n c'.whole c.whole
  apex : OptMirrors f n c'.apex c.apex
  eyes : Mirrors f n c'.eyes c.eyes
  nose : OptMirrors f n c'.nose c.nose
  mouth : MirrorsV f n c'.mouth c.mouth
  takes : TakesV n c.mouth

structure ChemMirrors (f : Nat → Nat) (n : Nat) (c' c : ChemParts) : Prop where
  element : Mirrors f n (c'.element false) (c.element false)
  digit : Mirrors f n c'.digit c.digit
  sign : Mirrors f n c'.sign c.sign
  takes : Takes n (c.element false)
  takes2 : Takes n c.digit

/-! ### Dates -/

/-- Both terminate, with corresponding results. -/
def Corr {α α' : Type} (g : α → α') (P : α → Prop) (x' : Option (Option α')) (x : Option (Option α)) : Prop := ∃ r, x = some r ∧ x' = some (r.map g) ∧ ∀ a, r = some a → P a

theorem corr_andThen {α α' β β' : Type} {g : α → α'} {P : α → Prop} {x' : Option (Option α')} {x : Option (Option α)} (h : Corr g P x' x) {g2 : β → β'} {Q : β → Prop} {k' : α' → Option (Option β')}
    {k : α → Option (Option β)} (hk : ∀ a, P a → Corr g2 Q (k' (g a)) (k a)) : Corr g2 Q (andThen x' k') (andThen x k) := by
  obtain ⟨r, rfl, rfl, p⟩ := h
  cases r with
  | none => exact ⟨none, rfl, rfl, fun a q => by cases q⟩
  | some a => exact hk a (p a rfl)

def InField (n : Nat) (x : Field) : Prop := x.1 ≤ n ∧ x.2.1 ≤ n

theorem fieldAt_corr {f : Nat → Nat} {n : Nat} {d' d : SubV} (h : MirrorsV f n d' d) {k : Nat} (hk : k ≤ n) : Corr (fieldf f) (InField n) (fieldAt d' (f k)) (fieldAt d k) := by
  have ⟨a, b⟩ := h k hk
  unfold fieldAt
  rw [a]
  cases q : d k with
  | none => exact ⟨none, rfl, rfl, fun a q => by cases q⟩
  | some p => exact ⟨some (k, p.1, p.2), rfl, rfl, fun a q2 => by cases q2; exact ⟨hk, b p q⟩⟩

theorem gap_corr {f : Nat → Nat} {n n' : Nat} (hn : n ≤ n') {c' c : DateParts} (h : DateMirrors f n c' c) (want : Option Nat) {k : Nat} (hk : k ≤ n) :
    Corr (fun p : Nat × Nat => (f p.1, p.2)) (fun p => p.1 ≤ n) (gap c' n' want (f k)) (gap c n want k) := by
  obtain ⟨e1, a1, a2, _, a4⟩ := spaces_mirrors h.space h.takes _ k (n' + 1) (n + 1) rfl hk (by omega) (by omega)
  have ⟨b1, b2⟩ := h.sep e1 a4
  unfold gap
  rw [a1, a2]
  dsimp only
  rw [b1]
  cases q : c.sep e1 with
  | none => exact ⟨none, rfl, rfl, fun a q => by cases q⟩
  | some p =>
    obtain ⟨e2, hit⟩ := p
    simp only [Option.map_some]
    by_cases w : want = none ∨ want = some hit
    · rw [if_pos w, if_pos w]
      have l2 : e2 ≤ n := b2 _ q
      obtain ⟨e3, d1, d2, _, d4⟩ := spaces_mirrors h.space h.takes _ e2 (n' + 1) (n + 1) rfl l2 (by omega) (by omega)
      rw [d1, d2]
      exact ⟨some (e3, hit), rfl, rfl, fun a q => by cases q; exact d4⟩
    · rw [if_neg w, if_neg w]; exact ⟨none, rfl, rfl, fun a q => by cases q⟩

theorem three_corr {f : Nat → Nat} {n n' : Nat} (hn : n ≤ n') {c' c : DateParts} (h : DateMirrors f n c' c) {x' x y' y z' z : SubV} (hx : MirrorsV f n x' x) (hy : MirrorsV f n y' y) (hz : MirrorsV f n z' z)
    {k : Nat} (hk : k ≤ n) :
    Corr (fun p : Field × Field × Field => (fieldf f p.1, fieldf f p.2.1, fieldf f p.2.2)) (fun p => InField n p.1 ∧ InField n p.2.1 ∧ InField n p.2.2) (three c' n' x' y' z' (f k)) (three c n x y z k) := by
  unfold three
  refine corr_andThen (fieldAt_corr hx hk) fun a pa => ?_
  refine corr_andThen (gap_corr hn h none pa.2) fun p1 pp => ?_
  refine corr_andThen (fieldAt_corr hy pp) fun b pb => ?_
  refine corr_andThen (gap_corr hn h (some p1.2) pb.2) fun p2 pp2 => ?_
  refine corr_andThen (fieldAt_corr hz pp2) fun d pd => ?_
  exact ⟨some (a, b, d), rfl, rfl, fun z q => by cases q; exact ⟨pa, pb, pd⟩⟩

theorem two_corr {f : Nat → Nat} {n n' : Nat} (hn : n ≤ n') {c' c : DateParts} (h : DateMirrors f n c' c) {x' x y' y : SubV} (hx : MirrorsV f n x' x) (hy : MirrorsV f n y' y)
    {k : Nat} (hk : k ≤ n) :
    Corr (fun p : Field × Field × Nat => (fieldf f p.1, fieldf f p.2.1, p.2.2)) (fun p => InField n p.1 ∧ InField n p.2.1) (two c' n' x' y' (f k)) (two c n x y k) := by
  unfold two
  refine corr_andThen (fieldAt_corr hx hk) fun a pa => ?_
  refine corr_andThen (gap_corr hn h none pa.2) fun p1 pp => ?_
  refine corr_andThen (fieldAt_corr hy pp) fun b pb => ?_
  exact ⟨some (a, b, p1.2), rfl, rfl, fun z q => by cases q; exact ⟨pa, pb⟩⟩

theorem trailing_mirrors {f : Nat → Nat} {n n' : Nat} (hn : n ≤ n') {c' c : DateParts} (h : DateMirrors f n c' c) (hit : Nat) {k : Nat} (hk : k ≤ n) :
    ∃ e, trailing c n hit k = some e ∧ trailing c' n' hit (f k) = some (f e) := by
  obtain ⟨e1, a1, a2, _, a4⟩ := spaces_mirrors h.space h.takes _ k (n' + 1) (n + 1) rfl hk (by omega) (by omega)
  have ⟨b1, b2⟩ := h.sep e1 a4
  unfold trailing
  rw [a1, a2]
  dsimp only
  rw [b1]
  cases q : c.sep e1 with
  | none => exact ⟨_, rfl, rfl⟩
  | some p =>
    simp only [Option.map_some]
    by_cases w : p.2 = hit
    · rw [if_pos w, if_pos w]; exact ⟨_, rfl, rfl⟩
    · rw [if_neg w, if_neg w]; exact ⟨_, rfl, rfl⟩

theorem attempt_mirrors {f : Nat → Nat} {mask : Nat} {fm : Format} {r' r : Option (Option Date)} (h : Corr (datef f) (fun _ => True) r' r) {n' n : Option (Bool × Date)}
    (hn : ∃ b x, n = some (b, x) ∧ n' = some (b, datef f x)) : ∃ b x, attempt mask fm r n = some (b, x) ∧ attempt mask fm r' n' = some (b, datef f x) := by
  obtain ⟨a, rfl, rfl, _⟩ := h
  unfold attempt
  by_cases q : mask &&& fm.flag = fm.flag
  · rw [if_pos q, if_pos q]
    cases a with
    | none => exact hn
    | some d => exact ⟨_, _, rfl, rfl⟩
  · rw [if_neg q, if_neg q]; exact hn

theorem ite_corr {f : Nat → Nat} {b : Bool} {y' : Date} {y : Date} (h : y' = datef f y) : Corr (datef f) (fun _ => True) (if b then some (some y') else some none) (if b then some (some y) else some none) := by
  cases b with
  | false => exact ⟨none, rfl, rfl, fun a q => trivial⟩
  | true => exact ⟨some y, rfl, by rw [h]; rfl, fun a q => trivial⟩

/-- **C145** (dates) `sgml_date` finds the date of the decoded text, in every format. -/
theorem date_mirrors {f : Nat → Nat} {n n' : Nat} (hn : n ≤ n') {c' c : DateParts} (h : DateMirrors f n c' c) (mask : Nat) (o' o : Date) {k : Nat} (hk : k ≤ n) :
    ∃ b x, date c mask n k o = some (b, x) ∧ date c' mask n' (f k) o' = some (b, datef f x) := by
  unfold date
  have one : ∀ {p : Field × Field × Nat} {fm : Format} {D M : Field} {e : Nat}, e ≤ n →
      Corr (datef f) (fun _ => True)
        (if isValidDay D.2.2 M.2.2 then match trailing c' n' p.2.2 (f e) with
          | none => none
          | some e => some (some ⟨some fm, some (fieldf f D), some (fieldf f M), none, some (f k, e)⟩)
        else some none)
        (if isValidDay D.2.2 M.2.2 then match trailing c n p.2.2 e with
          | none => none
          | some e => some (some ⟨some fm, some D, some M, none, some (k, e)⟩)
        else some none) := by
    intro p fm D M e he
    obtain ⟨e2, t1, t2⟩ := trailing_mirrors hn h p.2.2 he
    rw [t1, t2]
    exact ite_corr (y := ⟨some fm, some D, some M, none, some (k, e2)⟩) rfl
  refine attempt_mirrors (corr_andThen (three_corr hn h h.day h.month h.year hk) fun p pp => ?_) ?_
  · exact ite_corr (y := ⟨some .dmy, some p.1, some p.2.1, some p.2.2, some (k, p.2.2.2.1)⟩) rfl
  refine attempt_mirrors (corr_andThen (three_corr hn h h.month h.day h.year hk) fun p pp => ?_) ?_
  · exact ite_corr (y := ⟨some .mdy, some p.2.1, some p.1, some p.2.2, some (k, p.2.2.2.1)⟩) rfl
  refine attempt_mirrors (corr_andThen (three_corr hn h h.year h.month h.day hk) fun p pp => ?_) ?_
  · exact ite_corr (y := ⟨some .ymd, some p.2.2, some p.2.1, some p.1, some (k, p.2.2.2.1)⟩) rfl
  refine attempt_mirrors (corr_andThen (two_corr hn h h.year h.month hk) fun p pp => ?_) ?_
  · exact ite_corr (y := ⟨some .ym, none, some p.2.1, some p.1, some (k, p.2.1.2.1)⟩) rfl
  refine attempt_mirrors (corr_andThen (two_corr hn h h.month h.year hk) fun p pp => ?_) ?_
  · exact ite_corr (y := ⟨some .my, none, some p.1, some p.2.1, some (k, p.2.1.2.1)⟩) rfl
  refine attempt_mirrors (corr_andThen (two_corr hn h h.day h.month hk) fun p pp => ?_) ?_
  · exact one (p := p) (D := p.1) (M := p.2.1) pp.2.2
  refine attempt_mirrors (corr_andThen (two_corr hn h h.month h.day hk) fun p pp => ?_) ?_
  · exact one (p := p) (D := p.2.1) (M := p.1) pp.2.2
  exact ⟨_, _, rfl, rfl⟩

/-! ### Times -/

theorem timeMs_mirrors {f : Nat → Nat} {n : Nat} {c' c : TimeParts} (h : TimeMirrors f n c' c) {k : Nat} (hk : k ≤ n) :
    timeMs c' (f k) = ((timeMs c k).1.map (fieldf f), f (timeMs c k).2) := by
  have ⟨a1, a2⟩ := opt'_mirrors h.msSep k hk
  unfold timeMs
  rw [a1]
  cases q1 : opt c.msSep k with
  | none => rfl
  | some e1 =>
    have ⟨b1, b2⟩ := optV_mirrors h.ms e1 (a2 e1 q1)
    simp only [Option.map_some]
    rw [b1]
    cases q2 : optV c.ms e1 with
    | none => rfl
    | some p =>
      simp only [Option.map_some]
      by_cases l : p.2 < 1000
      · rw [if_pos l, if_pos l]; rfl
      · rw [if_neg l, if_neg l]; rfl

theorem timeSec_mirrors {f : Nat → Nat} {n : Nat} {c' c : TimeParts} (h : TimeMirrors f n c' c) (hit : Nat) {k : Nat} (hk : k ≤ n) :
    timeSec c' hit (f k) = ((timeSec c hit k).1.map (fieldf f), (timeSec c hit k).2.1.map (fieldf f), f (timeSec c hit k).2.2) := by
  have ⟨a1, a2⟩ := h.sep k hk
  unfold timeSec
  rw [a1]
  cases q1 : c.sep k with
  | none => rfl
  | some p =>
    have ⟨b1, b2⟩ := optV_mirrors h.second p.1 (a2 p q1)
    simp only [Option.map_some]
    by_cases e : p.2 = hit
    · rw [if_pos e, if_pos e, b1]
      cases q2 : optV c.second p.1 with
      | none => rfl
      | some p2 =>
        simp only [Option.map_some]
        by_cases l : p2.2 < 60
        · rw [if_pos l, if_pos l, timeMs_mirrors h (b2 p2 q2)]; rfl
        · rw [if_neg l, if_neg l]; rfl
    · rw [if_neg e, if_neg e]; rfl

/-- **C145** (times) -/
theorem time_mirrors {f : Nat → Nat} {n : Nat} {c' c : TimeParts} (h : TimeMirrors f n c' c) (o' o : Time) {k : Nat} (hk : k ≤ n) :
    time c' (f k) o' = ((time c k o).1, timef f (time c k o).2) := by
  have ⟨a1, a2⟩ := h.hour k hk
  unfold time
  rw [a1]
  cases q1 : c.hour k with
  | none => rfl
  | some p =>
    have ⟨b1, b2⟩ := h.sep p.1 (a2 p q1)
    simp only [Option.map_some]
    rw [b1]
    cases q2 : c.sep p.1 with
    | none => rfl
    | some p2 =>
      have ⟨c1, c2⟩ := h.minute p2.1 (b2 p2 q2)
      simp only [Option.map_some]
      rw [c1]
      cases q3 : c.minute p2.1 with
      | none => rfl
      | some p3 =>
        simp only [Option.map_some]
        by_cases l : p3.2 < 60
        · rw [if_pos l, if_pos l, timeSec_mirrors h p2.2 (c2 p3 q3)]; rfl
        · rw [if_neg l, if_neg l]; rfl

/-! ### Angles -/

def stepf (f : Nat → Nat) (x : Option Field × Iv × Nat) : Option Field × Iv × Nat := (x.1.map (fieldf f), ivf f x.2.1, f x.2.2)

def StepIn (n : Nat) (x : Option Field × Iv × Nat) : Prop := x.2.2 ≤ n ∧ ∀ a, x.1 = some a → InField n a

theorem angleDegree_mirrors {f : Nat → Nat} {n : Nat} {c' c : AngleParts} (h : AngleMirrors f n c' c) {k : Nat} (hk : k ≤ n) : angleDegree c' (f k) = stepf f (angleDegree c k) ∧ StepIn n (angleDegree c k) := by
  have ⟨a1, a2⟩ := h.degree k hk
  unfold angleDegree
  rw [a1]
  cases q1 : c.degree k with
  | none => exact ⟨rfl, hk, fun a q => by cases q⟩
  | some p =>
    have ⟨b1, b2⟩ := h.degreeSep p.1 (a2 p q1)
    simp only [Option.map_some]
    rw [b1]
    cases q2 : c.degreeSep p.1 with
    | none => exact ⟨rfl, hk, fun a q => by cases q⟩
    | some e2 => exact ⟨rfl, b2 e2 q2, fun a q => by cases q; exact ⟨hk, a2 p q1⟩⟩

theorem angleMinute_mirrors {f : Nat → Nat} {n : Nat} {c' c : AngleParts} (h : AngleMirrors f n c' c) {k : Nat} (hk : k ≤ n) : angleMinute c' (f k) = stepf f (angleMinute c k) ∧ StepIn n (angleMinute c k) := by
  have ⟨a1, a2⟩ := h.minute k hk
  unfold angleMinute
  rw [a1]
  cases q1 : c.minute k with
  | none => exact ⟨rfl, hk, fun a q => by cases q⟩
  | some p =>
    have ⟨b1, b2⟩ := h.minuteSep p.1 (a2 p q1)
    simp only [Option.map_some]
    by_cases l : p.2 < 60
    · rw [if_pos l, if_pos l, b1]
      cases q2 : c.minuteSep p.1 with
      | none => exact ⟨rfl, hk, fun a q => by cases q⟩
      | some e2 => exact ⟨rfl, b2 e2 q2, fun a q => by cases q; exact ⟨hk, a2 p q1⟩⟩
    · rw [if_neg l, if_neg l]; exact ⟨rfl, hk, fun a q => by cases q⟩

theorem angleSecond_mirrors {f : Nat → Nat} {n : Nat} {c' c : AngleParts} (h : AngleMirrors f n c' c) {k : Nat} (hk : k ≤ n) : angleSecond c' (f k) = stepf f (angleSecond c k) ∧ StepIn n (angleSecond c k) := by
  have ⟨a1, a2⟩ := optV_mirrors h.second k hk
  unfold angleSecond
  rw [a1]
  cases q1 : optV c.second k with
  | none => exact ⟨rfl, hk, fun a q => by cases q⟩
  | some p =>
    have ⟨b1, b2⟩ := opt'_mirrors h.secondSep p.1 (a2 p q1)
    simp only [Option.map_some]
    by_cases l : p.2 < 60
    · rw [if_pos l, if_pos l, b1]
      cases q2 : opt c.secondSep p.1 with
      | none => exact ⟨rfl, a2 p q1, fun a q => by cases q; exact ⟨hk, a2 p q1⟩⟩
      | some e2 => exact ⟨rfl, b2 e2 q2, fun a q => by cases q; exact ⟨hk, a2 p q1⟩⟩
    · rw [if_neg l, if_neg l]; exact ⟨rfl, hk, fun a q => by cases q⟩

theorem taken_mirrors {f : Nat → Nat} {n : Nat} (hf : Grows f n) {x : Option Field} (h : ∀ a, x = some a → InField n a) : taken (x.map (fieldf f)) = taken x := by
  cases x with
  | none => rfl
  | some a =>
    have ⟨l1, l2⟩ := h a rfl
    show decide (f a.1 < f a.2.1) = decide (a.1 < a.2.1)
    refine decide_eq_decide.2 ?_
    have := grows_iff hf l2 l1
    omega

/-- **C145** (angles) -/
theorem angle_mirrors {f : Nat → Nat} {n : Nat} (hf : Grows f n) {c' c : AngleParts} (h : AngleMirrors f n c' c) (o' o : Angle) {k : Nat} (hk : k ≤ n) :
    angle c' (f k) o' = ((angle c k o).1, anglef f (angle c k o).2) := by
  have ⟨a1, a2, a3⟩ := angleDegree_mirrors h hk
  have ⟨b1, b2, b3⟩ := angleMinute_mirrors h a2
  have ⟨c1, c2, c3⟩ := angleSecond_mirrors h b2
  have ⟨d1, d2⟩ := opt'_mirrors h.decimal _ c2
  unfold angle
  simp only [a1, stepf, b1, c1, taken_mirrors hf a3, taken_mirrors hf b3, taken_mirrors hf c3, d1]
  by_cases q : (taken (angleDegree c k).1 || taken (angleMinute c (angleDegree c k).2.2).1 || taken (angleSecond c (angleMinute c (angleDegree c k).2.2).2.2).1) = true
  · simp only [q, if_true]
    cases q2 : opt c.decimal (angleSecond c (angleMinute c (angleDegree c k).2.2).2.2).2.2 <;> rfl
  · simp only [q]; rfl

/-! ### Emoticons -/

theorem mouths_mirrors {f : Nat → Nat} {n : Nat} {m' m : SubV} (h : MirrorsV f n m' m) (ht : TakesV n m) (hit : Nat) : ∀ (d k fuel' fuel : Nat), n - k = d → k ≤ n → d < fuel' → d < fuel →
    ∃ e x, mouths m hit fuel k = some (e, x) ∧ mouths m' hit fuel' (f k) = some (f e, x) := by
  intro d
  induction d using Nat.strongRecOn with
  | _ d ih =>
    intro k fuel' fuel hd hk hl' hl
    cases fuel' with
    | zero => omega
    | succ fuel' =>
    cases fuel with
    | zero => omega
    | succ fuel =>
      have ⟨a, _⟩ := h k hk
      simp only [mouths]
      rw [a]
      cases q : m k with
      | none => exact ⟨k, none, rfl, rfl⟩
      | some p =>
        have l := ht k hk p.1 p.2 q
        simp only [Option.map_some]
        by_cases c : p.2 = hit
        · rw [if_pos c, if_pos c]
          exact ih (n - p.1) (by omega) p.1 fuel' fuel rfl l.2 (by omega) (by omega)
        · rw [if_neg c, if_neg c]; exact ⟨_, _, rfl, rfl⟩

theorem emoFace_mirrors {f : Nat → Nat} {n : Nat} {c' c : EmoParts} (h : EmoMirrors f n c' c) {fuel' fuel : Nat} (hl' : n < fuel') (hl : n < fuel) (i : Nat) (apex : Iv) {k : Nat} (hk : k ≤ n) :
    ∃ b x y, emoFace c fuel i apex k = some (b, x, y) ∧ emoFace c' fuel' (f i) (ivf f apex) (f k) = some (b, emof f x, y) := by
  have ⟨a1, a2⟩ := h.eyes k hk
  unfold emoFace
  rw [a1]
  cases q1 : c.eyes k with
  | none => exact ⟨_, _, _, rfl, rfl⟩
  | some e1 =>
    have l1 := a2 e1 q1
    have ⟨b1, b2⟩ := opt'_mirrors h.nose e1 l1
    have ⟨m1, m2⟩ := h.mouth e1 l1
    have plain : ∃ b x y, (match c.mouth e1 with
        | none => some (false, emoInvalid, none)
        | some (m, hh) => match mouths c.mouth hh fuel m with
          | none => none
          | some (e', kk) => some (true, ⟨none, apex, some (k, e1), none, some (e1, e'), some (i, e')⟩, kk)) = some (b, x, y) ∧
        (match c'.mouth (f e1) with
        | none => some (false, emoInvalid, none)
        | some (m, hh) => match mouths c'.mouth hh fuel' m with
          | none => none
          | some (e', kk) => some (true, ⟨none, ivf f apex, some (f k, f e1), none, some (f e1, e'), some (f i, e')⟩, kk)) = some (b, emof f x, y) := by
      rw [m1]
      cases q2 : c.mouth e1 with
      | none => exact ⟨_, _, _, rfl, rfl⟩
      | some p =>
        have l2 := m2 p q2
        obtain ⟨e, x, r1, r2⟩ := mouths_mirrors h.mouth h.takes p.2 _ p.1 fuel' fuel rfl l2 (by omega) (by omega)
        simp only [Option.map_some]
        rw [r1, r2]
        exact ⟨_, _, _, rfl, rfl⟩
    simp only [Option.map_some, noseMouth]
    rw [b1]
    cases q2 : opt c.nose e1 with
    | none => exact plain
    | some e2 =>
      have ⟨d1, d2⟩ := h.mouth e2 (b2 e2 q2)
      simp only [Option.map_some]
      rw [d1]
      cases q3 : c.mouth e2 with
      | none => exact plain
      | some p =>
        obtain ⟨e, x, r1, r2⟩ := mouths_mirrors h.mouth h.takes p.2 _ p.1 fuel' fuel rfl (d2 p q3) (by omega) (by omega)
        simp only [Option.map_some]
        rw [r1, r2]
        exact ⟨_, _, _, rfl, rfl⟩

/-- **C145** (emoticons) -/
theorem emoticon_mirrors {v u : Env} {t w : List Int} {f : Nat → Nat} (hf : Along v t u w f) {c' c : EmoParts} (h : EmoMirrors f w.length c' c) {k : Nat} (hk : k ≤ w.length) :
    ∃ b x y, emoticon u c k = some (b, x, y) ∧ emoticon v c' (f k) = some (b, emof f x, y) := by
  have ⟨l1, l2⟩ := along_len hf
  have l3 := grows_ge (along_grows hf) _ (Nat.le_refl _)
  rw [hf.fin] at l3
  have ⟨a1, a2⟩ := opt'_mirrors h.whole k hk
  have ⟨b1, b2⟩ := opt'_mirrors h.apex k hk
  unfold emoticon
  rw [a1, b1]
  cases q1 : opt c.whole k with
  | some e => exact ⟨_, _, _, rfl, rfl⟩
  | none =>
    cases q2 : opt c.apex k with
    | some e => exact emoFace_mirrors h (by omega) (by omega) k (some (k, e)) (b2 e q2)
    | none => exact emoFace_mirrors h (by omega) (by omega) k none hk

/-! ### Chemical formulas -/

theorem chemDigits_mirrors {f : Nat → Nat} {n : Nat} {c' c : ChemParts} (h : ChemMirrors f n c' c) : ∀ (d k fuel' fuel : Nat) (b : Bool), n - k = d → k ≤ n → d < fuel' → d < fuel →
    ∃ e x, chemDigits c fuel k b = some (e, x) ∧ chemDigits c' fuel' (f k) b = some (f e, x) ∧ k ≤ e ∧ e ≤ n := by
  intro d
  induction d using Nat.strongRecOn with
  | _ d ih =>
    intro k fuel' fuel b hd hk hl' hl
    cases fuel' with
    | zero => omega
    | succ fuel' =>
    cases fuel with
    | zero => omega
    | succ fuel =>
      have ⟨a, _⟩ := h.digit k hk
      simp only [chemDigits]
      rw [a]
      cases q : c.digit k with
      | none => exact ⟨k, b, rfl, rfl, Nat.le_refl _, hk⟩
      | some e =>
        have l := h.takes2 k hk e q
        obtain ⟨e2, x, r1, r2, r3, r4⟩ := ih (n - e) (by omega) e fuel' fuel true rfl l.2 (by omega) (by omega)
        exact ⟨e2, x, r1, r2, by omega, r4⟩

theorem chemLoop_mirrors {f : Nat → Nat} {n : Nat} (hf : Grows f n) {c' c : ChemParts} (h : ChemMirrors f n c' c) (i : Nat) (hi : i ≤ n) : ∀ (d k fuel' fuel : Nat) (b : Bool), n - k = d → k ≤ n → n + d + 1 < fuel' → n + d + 1 < fuel →
    ∃ r x y iv, chemLoop c i fuel k b = some (r, x, y, iv) ∧ chemLoop c' (f i) fuel' (f k) b = some (r, x, y, ivf f iv) := by
  intro d
  induction d using Nat.strongRecOn with
  | _ d ih =>
    intro k fuel' fuel b hd hk hl' hl
    cases fuel' with
    | zero => omega
    | succ fuel' =>
    cases fuel with
    | zero => omega
    | succ fuel =>
      have ⟨a1, a2⟩ := h.element k hk
      simp only [chemLoop]
      rw [a1]
      cases q : c.element false k with
      | none =>
        simp only [Option.map_none]
        have e := grows_iff hf hk hi
        by_cases l : i < k
        · rw [if_pos l, if_pos (hf i k l hk)]
          have ⟨b1, b2⟩ := h.sign k hk
          rw [b1]
          cases q2 : c.sign k <;> exact ⟨_, _, _, _, rfl, rfl⟩
        · rw [if_neg l, if_neg (by omega)]; exact ⟨_, _, _, _, rfl, rfl⟩
      | some e =>
        have l := h.takes k hk e q
        obtain ⟨e2, x, r1, r2, r3, r4⟩ := chemDigits_mirrors h _ e fuel' fuel b rfl l.2 (by omega) (by omega)
        simp only [Option.map_some]
        rw [r1, r2]
        exact ih (n - e2) (by omega) e2 fuel' fuel x rfl r4 (by omega) (by omega)

/-- **C145** (chemical formulas) -/
theorem chem_mirrors {v u : Env} {t w : List Int} {f : Nat → Nat} (hf : Along v t u w f) {c' c : ChemParts} (h : ChemMirrors f w.length c' c) {k : Nat} (hk : k ≤ w.length) :
    ∃ r x y iv, chem u c k = some (r, x, y, iv) ∧ chem v c' (f k) = some (r, x, y, ivf f iv) := by
  have ⟨l1, l2⟩ := along_len hf
  have l3 := grows_ge (along_grows hf) _ (Nat.le_refl _)
  rw [hf.fin] at l3
  exact chemLoop_mirrors (along_grows hf) h k hk _ k (2 * (v.s.length + 2)) (2 * (u.s.length + 2)) false rfl hk (by omega) (by omega)

/-! ### Phone numbers -/

structure PhoneMirrors (f : Nat → Nat) (n : Nat) (c' c : PhoneParts) : Prop where
  digit : Mirrors f n c'.digit c.digit
  plus : OptMirrors f n c'.plus c.plus
  lpar : ∃ l' l, c'.lpar = some l' ∧ c.lpar = some l ∧ MirrorsV f n l' l
  rpar : ∃ r' r, c'.rpar = some r' ∧ c.rpar = some r ∧ MirrorsV f n r' r
  sep : OptMirrors f n c'.sep c.sep
  space : OptMirrors f n (c'.space.map fun g => g false) (c.space.map fun g => g false)
  takes : ∀ i ≤ n, ∀ k j, TokAt c i k j → i < j ∧ j ≤ n

/-- The source of the characters of some intervals. -/
def pieced (s : List Int) (l : List (Nat × Nat)) : List Int := l.flatMap (slice s)

/-- States of the loops at corresponding points: the characters taken are those of the same intervals `l`, of which `m` are taken for sure. -/
structure PhoneSim (f : Nat → Nat) (v u : Env) (n : Nat) (s' s : PhoneSt) (l m : List (Nat × Nat)) : Prop where
  e : s'.e = f s.e
  le : s.e ≤ n
  ins : ∀ p ∈ l, p.1 ≤ n ∧ p.2 ≤ n
  value : s.value = pieced u.s l
  value' : s'.value = pieced v.s (compsf f l)
  pre : m <+: l
  len : s.safeLen = (pieced u.s m).length
  len' : s'.safeLen = (pieced v.s (compsf f m)).length
  safe : s'.safeEnd = f s.safeEnd
  flags : s'.has = s.has ∧ s'.afterDigit = s.afterDigit ∧ s'.inPar = s.inPar ∧ s'.afterPar = s.afterPar ∧ s'.left = s.left ∧ s'.right = s.right

theorem pieced_snoc (s : List Int) (l : List (Nat × Nat)) (p : Nat × Nat) : pieced s (l ++ [p]) = pieced s l ++ slice s p := by
  unfold pieced; rw [List.flatMap_append]; simp

theorem compsf_snoc (f : Nat → Nat) (l : List (Nat × Nat)) (p : Nat × Nat) : compsf f (l ++ [p]) = compsf f l ++ [(f p.1, f p.2)] := by
  unfold compsf; rw [List.map_append]; rfl

theorem onDigit_sim {f : Nat → Nat} {v u : Env} {n : Nat} {s' s : PhoneSt} {l m : List (Nat × Nat)} (h : PhoneSim f v u n s' s l m) {j : Nat} (hj : j ≤ n) :
    ∃ m2, PhoneSim f v u n (onDigit v s' (f j)) (onDigit u s j) (l ++ [(s.e, j)]) m2 := by
  obtain ⟨h1, h2, h3, h4, h5, h6⟩ := h.flags
  have ins : ∀ p ∈ l ++ [(s.e, j)], p.1 ≤ n ∧ p.2 ≤ n := by
    intro p hp
    rcases List.mem_append.1 hp with q | q
    · exact h.ins p q
    · cases List.mem_singleton.1 q; exact ⟨h.le, hj⟩
  by_cases q : s.inPar = true
  · refine ⟨m, rfl, hj, ins, ?_, ?_, h.pre.trans (List.prefix_append _ _), ?_, ?_, ?_, ?_⟩
    · show s.value ++ slice u.s (s.e, j) = _; rw [pieced_snoc, h.value]
    · show s'.value ++ slice v.s (s'.e, f j) = _; rw [compsf_snoc, pieced_snoc, h.value', h.e]
    · show (if s.inPar then s.safeLen else _) = _; rw [if_pos q]; exact h.len
    · show (if s'.inPar then s'.safeLen else _) = _; rw [h3, if_pos q]; exact h.len'
    · show (if s'.inPar then s'.safeEnd else f j) = f (if s.inPar then s.safeEnd else j); rw [h3, if_pos q, if_pos q]; exact h.safe
    · exact ⟨by show (s'.has || !s'.inPar) = (s.has || !s.inPar); rw [h1, h3], rfl, h3, rfl, h5, h6⟩
  · refine ⟨l ++ [(s.e, j)], rfl, hj, ins, ?_, ?_, List.prefix_refl _, ?_, ?_, ?_, ?_⟩
    · show s.value ++ slice u.s (s.e, j) = _; rw [pieced_snoc, h.value]
    · show s'.value ++ slice v.s (s'.e, f j) = _; rw [compsf_snoc, pieced_snoc, h.value', h.e]
    · show (if s.inPar then s.safeLen else (s.value ++ slice u.s (s.e, j)).length) = _; rw [if_neg q, pieced_snoc, h.value]
    · show (if s'.inPar then s'.safeLen else (s'.value ++ slice v.s (s'.e, f j)).length) = _; rw [h3, if_neg q, compsf_snoc, pieced_snoc, h.value', h.e]
    · show (if s'.inPar then s'.safeEnd else f j) = f (if s.inPar then s.safeEnd else j); rw [h3, if_neg q, if_neg q]
    · exact ⟨by show (s'.has || !s'.inPar) = (s.has || !s.inPar); rw [h1, h3], rfl, h3, rfl, h5, h6⟩

theorem onLeft_sim {f : Nat → Nat} {v u : Env} {n : Nat} {s' s : PhoneSt} {l m : List (Nat × Nat)} (h : PhoneSim f v u n s' s l m) {j : Nat} (hj : j ≤ n) (hit : Nat) :
    PhoneSim f v u n (onLeft v s' (f j) hit) (onLeft u s j hit) (l ++ [(s.e, j)]) m := by
  obtain ⟨h1, h2, h3, h4, h5, h6⟩ := h.flags
  refine ⟨rfl, hj, ?_, ?_, ?_, h.pre.trans (List.prefix_append _ _), h.len, h.len', h.safe, ⟨h1, rfl, rfl, rfl, rfl, h6⟩⟩
  · intro p hp
    rcases List.mem_append.1 hp with q | q
    · exact h.ins p q
    · cases List.mem_singleton.1 q; exact ⟨h.le, hj⟩
  · show s.value ++ slice u.s (s.e, j) = _; rw [pieced_snoc, h.value]
  · show s'.value ++ slice v.s (s'.e, f j) = _; rw [compsf_snoc, pieced_snoc, h.value', h.e]

theorem onRight_sim {f : Nat → Nat} {v u : Env} {n : Nat} {s' s : PhoneSt} {l m : List (Nat × Nat)} (h : PhoneSim f v u n s' s l m) {j : Nat} (hj : j ≤ n) :
    PhoneSim f v u n (onRight v s' (f j)) (onRight u s j) (l ++ [(s.e, j)]) (l ++ [(s.e, j)]) := by
  obtain ⟨h1, h2, h3, h4, h5, h6⟩ := h.flags
  have e1 : s.value ++ slice u.s (s.e, j) = pieced u.s (l ++ [(s.e, j)]) := by rw [pieced_snoc, h.value]
  have e2 : s'.value ++ slice v.s (s'.e, f j) = pieced v.s (compsf f (l ++ [(s.e, j)])) := by rw [compsf_snoc, pieced_snoc, h.value', h.e]
  refine ⟨rfl, hj, ?_, e1, e2, List.prefix_refl _, congrArg List.length e1, congrArg List.length e2, rfl, ⟨h1, rfl, rfl, rfl, h5, rfl⟩⟩
  intro p hp
  rcases List.mem_append.1 hp with q | q
  · exact h.ins p q
  · cases List.mem_singleton.1 q; exact ⟨h.le, hj⟩

theorem onGap_sim {f : Nat → Nat} {v u : Env} {n : Nat} {s' s : PhoneSt} {l m : List (Nat × Nat)} (h : PhoneSim f v u n s' s l m) {j : Nat} (hj : j ≤ n) (right : Bool) :
    PhoneSim f v u n (onGap s' (f j) right) (onGap s j right) l m := by
  obtain ⟨h1, h2, h3, h4, h5, h6⟩ := h.flags
  exact ⟨rfl, hj, h.ins, h.value, h.value', h.pre, h.len, h.len', h.safe, ⟨h1, rfl, h3, rfl, h5, rfl⟩⟩

theorem onlyIf_mirrors {f : Nat → Nat} {n : Nat} {a' a : Sub} (h : Mirrors f n a' a) (b : Bool) : Mirrors f n (fun i => if b then a' i else none) (fun i => if b then a i else none) := by
  cases b with
  | false => exact fun k _ => ⟨rfl, fun j q => by cases q⟩
  | true => exact h

theorem onlyIf_mirrorsV {f : Nat → Nat} {n : Nat} {a' a : SubV} (h : MirrorsV f n a' a) (b : Bool) : MirrorsV f n (fun i => if b then a' i else none) (fun i => if b then a i else none) := by
  cases b with
  | false => exact fun k _ => ⟨rfl, fun j q => by cases q⟩
  | true => exact h

/-- One step of both loops. -/
def StepSim (f : Nat → Nat) (v u : Env) (n e : Nat) (x' x : Option PhoneSt) : Prop :=
  (x' = none ∧ x = none) ∨ ∃ y' y l m, x' = some y' ∧ x = some y ∧ PhoneSim f v u n y' y l m ∧ e < y.e

theorem gapStep_sim {f : Nat → Nat} {v u : Env} {n : Nat} {c' c : PhoneParts} (hc : PhoneMirrors f n c' c) {s' s : PhoneSt} {l m : List (Nat × Nat)} (h : PhoneSim f v u n s' s l m) (right : Bool) :
    StepSim f v u n s.e (gapStep c' s' right) (gapStep c s right) := by
  obtain ⟨h1, h2, h3, h4, h5, h6⟩ := h.flags
  have ⟨a1, a2⟩ := onlyIf_mirrors (opt'_mirrors hc.sep) (s.afterDigit && !s.inPar && !s.afterPar) s.e h.le
  have ⟨b1, b2⟩ := onlyIf_mirrors (opt'_mirrors hc.space) (s.afterDigit || s.afterPar) s.e h.le
  dsimp only at a1 a2 b1 b2
  unfold gapStep
  rw [h2, h3, h4, h.e, a1, b1]
  cases q1 : (if (s.afterDigit && !s.inPar && !s.afterPar) = true then opt c.sep s.e else none) with
  | some j =>
    refine .inr ⟨_, _, l, m, rfl, rfl, onGap_sim h (a2 j q1) right, ?_⟩
    split at q1
    · unfold opt at q1
      split at q1
      · cases q1
      · rename_i d hd; exact (hc.takes s.e h.le .sep j (.sep hd q1)).1
    · cases q1
  | none =>
    cases q2 : (if (s.afterDigit || s.afterPar) = true then opt (c.space.map fun g => g false) s.e else none) with
    | some j =>
      refine .inr ⟨_, _, l, m, rfl, rfl, onGap_sim h (b2 j q2) right, ?_⟩
      split at q2
      · unfold opt at q2
        split at q2
        · cases q2
        · rename_i d hd
          cases g : c.space with
          | none => rw [g] at hd; cases hd
          | some g2 => rw [g] at hd; cases hd; exact (hc.takes s.e h.le .space j (.space g q2)).1
      · cases q2
    | none => exact .inl ⟨rfl, rfl⟩

theorem phoneStep_sim {f : Nat → Nat} {v u : Env} {n : Nat} {c' c : PhoneParts} (hc : PhoneMirrors f n c' c) {lp' lp rp' rp : SubV} (hl : MirrorsV f n lp' lp) (hr : MirrorsV f n rp' rp) (el : c.lpar = some lp) (er : c.rpar = some rp)
    {s' s : PhoneSt} {l m : List (Nat × Nat)} (h : PhoneSim f v u n s' s l m) : StepSim f v u n s.e (phoneStep v c' lp' rp' s') (phoneStep u c lp rp s) := by
  have ⟨h1, h2, h3, h4, h5, h6⟩ := h.flags
  have ⟨a1, a2⟩ := hc.digit s.e h.le
  have ⟨b1, b2⟩ := onlyIf_mirrorsV hl (s.left.isNone && !s.right) s.e h.le
  have ⟨d1, d2⟩ := onlyIf_mirrorsV hr (s.inPar && !s.right) s.e h.le
  dsimp only at b1 b2 d1 d2
  unfold phoneStep
  rw [h.e, h3, h5, h6, a1, b1, d1]
  cases q1 : c.digit s.e with
  | some j =>
    obtain ⟨m2, z⟩ := onDigit_sim h (a2 j q1)
    exact .inr ⟨_, _, _, m2, rfl, rfl, z, (hc.takes s.e h.le .digit j (.digit q1)).1⟩
  | none =>
    dsimp only [Option.map_none]
    cases q2 : (if (s.left.isNone && !s.right) = true then lp s.e else none) with
    | some p =>
      refine .inr ⟨_, _, _, m, rfl, rfl, onLeft_sim h (b2 p q2) p.2, ?_⟩
      split at q2
      · exact (hc.takes s.e h.le (.left p.2) p.1 (.left el q2)).1
      · cases q2
    | none =>
      dsimp only [Option.map_none]
      cases q3 : (if (s.inPar && !s.right) = true then rp s.e else none) with
      | some p =>
        dsimp only [Option.map_some]
        by_cases w : s.left = some p.2
        · rw [if_pos w, if_pos w]
          refine .inr ⟨_, _, _, _, rfl, rfl, onRight_sim h (d2 p q3), ?_⟩
          split at q3
          · exact (hc.takes s.e h.le (.right p.2) p.1 (.right er q3)).1
          · cases q3
        · rw [if_neg w, if_neg w]; exact gapStep_sim hc h true
      | none => exact gapStep_sim hc h s.right

theorem phoneLoop_sim {v u : Env} {t w : List Int} {f : Nat → Nat} (hf : Along v t u w f) {c' c : PhoneParts} (hc : PhoneMirrors f w.length c' c) {lp' lp rp' rp : SubV} (hl : MirrorsV f w.length lp' lp)
    (hr : MirrorsV f w.length rp' rp) (el : c.lpar = some lp) (er : c.rpar = some rp) : ∀ (d fuel' fuel : Nat) (s' s : PhoneSt) (l m : List (Nat × Nat)), w.length - s.e = d → PhoneSim f v u w.length s' s l m → d < fuel' → d < fuel →
      ∃ y' y l2 m2, phoneLoop v c' lp' rp' fuel' s' = some y' ∧ phoneLoop u c lp rp fuel s = some y ∧ PhoneSim f v u w.length y' y l2 m2 := by
  intro d
  induction d using Nat.strongRecOn with
  | _ d ih =>
    intro fuel' fuel s' s l m hd h hl' hl2
    cases fuel' with
    | zero => omega
    | succ fuel' =>
    cases fuel with
    | zero => omega
    | succ fuel =>
      simp only [phoneLoop]
      rw [h.e]
      rcases along_cond hf h.le with ⟨lt, ⟨c1, e'⟩, ⟨c2, e⟩⟩ | ⟨eq, e', e⟩
      · rw [e', e]
        rcases phoneStep_sim hc hl hr el er h with ⟨r', r⟩ | ⟨y', y, l2, m2, r', r, z, go⟩
        · simp only [r', r]; exact ⟨_, _, l, m, rfl, rfl, h⟩
        · simp only [r', r]
          have := z.le
          exact ih (w.length - y.e) (by omega) fuel' fuel y' y l2 m2 rfl z (by omega) (by omega)
      · rw [e', e]; exact ⟨_, _, l, m, rfl, rfl, h⟩

theorem pieced_text {v : Env} {t : List Int} (h : v.Ok t) : ∀ (l : List (Nat × Nat)), (∀ p ∈ l, p.2 ≤ t.length) → pieced v.s l = pieced t l := by
  intro l
  induction l with
  | nil => intro _; rfl
  | cons p l ih =>
    intro hl
    unfold pieced at ih ⊢
    rw [List.flatMap_cons, List.flatMap_cons, ih fun q hq => hl q (List.mem_cons_of_mem _ hq), slice_text h (hl p List.mem_cons_self)]

theorem pieced_take {s : List Int} {m l : List (Nat × Nat)} (h : m <+: l) : (pieced s l).take (pieced s m).length = pieced s m := by
  obtain ⟨r, rfl⟩ := h
  unfold pieced
  rw [List.flatMap_append, List.take_left']
  rfl

/-- **C145** (phone numbers) `sgml_phone_number` finds the phone number of the decoded text; its `value` is made of the same characters, as they are written in the SGML text. -/
theorem phone_mirrors {v u : Env} {t w : List Int} {f : Nat → Nat} (hf : Along v t u w f) {c' c : PhoneParts} (hc : PhoneMirrors f w.length c' c) {k : Nat} (hk : k ≤ w.length) :
    ∃ b l iv, (∀ p ∈ l, p.1 ≤ w.length ∧ p.2 ≤ w.length) ∧ phone u c k = some (b, pieced w l, iv) ∧ phone v c' (f k) = some (b, pieced t (compsf f l), ivf f iv) := by
  have ⟨l1, l2⟩ := along_len hf
  have l3 := grows_ge (along_grows hf) _ (Nat.le_refl _)
  rw [hf.fin] at l3
  obtain ⟨lp', lp, el', el, hl⟩ := hc.lpar
  obtain ⟨rp', rp, er', er, hr⟩ := hc.rpar
  have init : ∃ l m, PhoneSim f v u w.length (phoneInit v c' (f k)) (phoneInit u c k) l m := by
    have ⟨a1, a2⟩ := opt'_mirrors hc.plus k hk
    unfold phoneInit
    rw [a1]
    cases q : opt c.plus k with
    | some j =>
      refine ⟨[(k, j)], [(k, j)], rfl, a2 j q, ?_, ?_, ?_, List.prefix_refl _, ?_, ?_, rfl, ⟨rfl, rfl, rfl, rfl, rfl, rfl⟩⟩
      · intro p hp; cases List.mem_singleton.1 hp; exact ⟨hk, a2 j q⟩
      all_goals simp [pieced, compsf]
    | none =>
      refine ⟨[], [], rfl, hk, (fun p hp => by cases hp), rfl, rfl, List.prefix_refl _, rfl, rfl, rfl, ⟨rfl, rfl, rfl, rfl, rfl, rfl⟩⟩
  obtain ⟨l, m, init⟩ := init
  obtain ⟨y', y, l2', m2, r', r, z⟩ := phoneLoop_sim hf hc hl hr el er _ (v.s.length + 2) (u.s.length + 2) _ _ l m rfl init (by omega) (by omega)
  unfold phone
  rw [el, el', er, er']
  dsimp only
  rw [r, r']
  dsimp only
  rw [z.flags.1]
  have im : ∀ p ∈ m2, p.1 ≤ w.length ∧ p.2 ≤ w.length := fun p hp => z.ins p (z.pre.subset hp)
  by_cases q : y.has = true
  · rw [if_pos q, if_pos q]
    refine ⟨true, m2, some (k, y.safeEnd), im, ?_, ?_⟩
    · rw [z.value, z.len, pieced_take z.pre, pieced_text hf.dst _ fun p hp => (im p hp).2]
    · have pre : compsf f m2 <+: compsf f l2' := by
        obtain ⟨x, hx⟩ := z.pre
        exact ⟨compsf f x, by rw [← hx]; unfold compsf; rw [List.map_append]⟩
      rw [z.value', z.len', pieced_take pre, pieced_text hf.src, z.safe]
      · rfl
      · intro p hp
        unfold compsf at hp
        obtain ⟨x, hx, rfl⟩ := List.mem_map.1 hp
        exact along_le hf (im x hx).2
  · rw [if_neg q, if_neg q]
    exact ⟨false, [], none, (fun p hp => by cases hp), rfl, rfl⟩

/-! ### Examples -/

theorem takes_wcp {u : Env} {w : List Int} (hu : u.Ok w) (c : Int) : Takes w.length (wcp u c) := cu_takes hu c

/-- **C145** `sgml_date` of `sgml_integer10`s, a separator and a space, in any SGML text. -/
theorem sgml_date_decoded {v u : Env} {wd : Wide} {t w : List Int} (hv : v.Ok t) (hw : WOk v wd) (hl : t.length < 2 ^ 64) (hu : u.Ok w) (hd : Wider v wd u) (hs : Stands v.space t w) (mask : Nat) {s1 s2 sp : Int}
    (h1 : s1 ≠ 0) (h2 : s2 ≠ 0) (h3 : sp ≠ 0) (o' o : Date) {k : Nat} (hk : k ≤ w.length) :
    ∃ b x, date ⟨wideInt u, wideInt u, wideInt u, wideSeps u s1 s2, wcp u sp⟩ mask w.length k o = some (b, x) ∧
      date ⟨sgmlInt v wd, sgmlInt v wd, sgmlInt v wd, sgmlSeps v wd s1 s2, scp v wd sp⟩ mask t.length (place v.space t k) o' = some (b, datef (place v.space t) x) := by
  have hf := stands_along hv hu hs
  have int := sgmlInt_mirrors hv hw hl hu hd hs
  have l3 := grows_ge (along_grows hf) _ (Nat.le_refl _)
  rw [hf.fin] at l3
  have seps : MirrorsV (place v.space t) w.length (sgmlSeps v wd s1 s2) (wideSeps u s1 s2) := by
    intro i hi
    have ⟨a1, a2⟩ := scp_mirrors hv hw hl hu hd hs h1 i hi
    have ⟨b1, b2⟩ := scp_mirrors hv hw hl hu hd hs h2 i hi
    unfold sgmlSeps wideSeps
    rw [a1, b1]
    cases q1 : wcp u s1 i with
    | some e => exact ⟨rfl, fun p x => by cases x; exact a2 e q1⟩
    | none =>
      cases q2 : wcp u s2 i with
      | some e => exact ⟨rfl, fun p x => by cases x; exact b2 e q2⟩
      | none => exact ⟨rfl, fun p x => by cases x⟩
  exact date_mirrors l3 (c' := ⟨sgmlInt v wd, sgmlInt v wd, sgmlInt v wd, sgmlSeps v wd s1 s2, scp v wd sp⟩) (c := ⟨wideInt u, wideInt u, wideInt u, wideSeps u s1 s2, wcp u sp⟩)
    ⟨int, int, int, seps, scp_mirrors hv hw hl hu hd hs h3, cu_takes hu _⟩ mask o' o hk

/-- `29.&nbsp;2&period;2024` with no-break spaces -/
example : Stands isspace (asc "29.&nbsp;2&period;2024") [50, 57, 46, 160, 50, 46, 50, 48, 50, 52] ∧
    date ⟨sgmlInt (plainEnv (asc "29.&nbsp;2&period;2024")) plainWide, sgmlInt (plainEnv (asc "29.&nbsp;2&period;2024")) plainWide, sgmlInt (plainEnv (asc "29.&nbsp;2&period;2024")) plainWide,
      sgmlSeps (plainEnv (asc "29.&nbsp;2&period;2024")) plainWide 46 47, scp (plainEnv (asc "29.&nbsp;2&period;2024")) plainWide 160⟩ 1 22 0 ⟨none, none, none, none, none⟩ =
    some (true, ⟨some .dmy, some (0, 2, 29), some (9, 10, 2), some (18, 22, 2024), some (0, 22)⟩) :=
  ⟨stands_of (by decide +kernel), by decide +kernel⟩

/-- What C145 lacks: `sgml_iban` reads the code units of the text itself (4665-4910), and finds no number if a character of it is an entity. A space may be one, it is an element. -/
theorem sgml_iban_entities : Stands isspace (asc "SI&#53;6 1910 0000 0123 438") (asc "SI56 1910 0000 0123 438") ∧ Stands isspace (asc "SI56&#32;1910 0000 0123 438") (asc "SI56 1910 0000 0123 438") ∧
    (iban (plainEnv (asc "SI56 1910 0000 0123 438")) asciiUpper (wcp (plainEnv (asc "SI56 1910 0000 0123 438")) 32) 0 ibanInvalid).map (·.1) = some true ∧
    (iban (plainEnv (asc "SI56&#32;1910 0000 0123 438")) asciiUpper (scp (plainEnv (asc "SI56&#32;1910 0000 0123 438")) plainWide 32) 0 ibanInvalid).map (·.1) = some true ∧
    (iban (plainEnv (asc "SI&#53;6 1910 0000 0123 438")) asciiUpper (scp (plainEnv (asc "SI&#53;6 1910 0000 0123 438")) plainWide 32) 0 ibanInvalid).map (·.1) = some false :=
  ⟨stands_of (by decide +kernel), stands_of (by decide +kernel), by decide +kernel, by decide +kernel, by decide +kernel⟩

end Verif.Parser
