import Verif.Parser.DateWritten
/-
Angles from end to end (include/stdex/parser.hpp 4360-4468): degrees, minutes and seconds that are written are read.
-/
namespace Verif.Parser
open Verif.Str Verif.Html Verif.Sgml

/-- A number and its sign, or nothing -/
def angleUnit (c : Int) : Option (List Int) → List Int
  | none => []
  | some x => x ++ [c]

/-- Such as `46°30′15″`, with any of the three left out -/
def writeAngle (cd cm cs : Int) (d m s : Option (List Int)) : List Int := angleUnit cd d ++ angleUnit cm m ++ angleUnit cs s

/-- The numbers are integers and the signs characters; there is no decimal part. -/
def angleParts (v : Env) (t : List Int) (cd cm cs : Int) : AngleParts :=
  ⟨numberAt v t, charSub t cd, numberAt v t, charSub t cm, some (numberAt v t), some (charSub t cs), none⟩

/-- A number, and one below 60 -/
def SixtyFit : Option (List Int) → Prop
  | none => True
  | some x => NumberText x ∧ number x < 60

def DegreesFit : Option (List Int) → Prop
  | none => True
  | some x => NumberText x

/-- A sign is no digit. -/
def NotDigit (c : Int) : Prop := ¬ (48 ≤ c ∧ c ≤ 57)

theorem unit_at {v : Env} {t pre x post : List Int} {c : Int} (h : v.Ok t) (ht : t = pre ++ angleUnit c (some x) ++ post) (hx : NumberText x) (hc : NotDigit c) (c' : Int) :
    numberAt v t pre.length = some (pre.length + x.length, number x) ∧ charSub t c' (pre.length + x.length) = if c = c' then some (pre.length + x.length + 1) else none := by
  unfold angleUnit at ht
  dsimp only at ht
  have tx : t = pre ++ x ++ (c :: post) := by rw [ht]; simp
  refine ⟨number_at h tx hx (noDigit_cons hc), ?_⟩
  have := at_end (t := t) (pre := pre ++ x) (post := c :: post) tx
  rw [List.length_append, List.head?_cons] at this
  unfold charSub
  rw [this]
  by_cases e : c = c'
  · rw [if_pos e, if_pos (by rw [e])]
  · rw [if_neg e, if_neg (fun q => e (Option.some.inj q))]

/-- What a text starts with: a number with one of the signs, or no digit -/
def Starts (cs : List Int) (l : List Int) : Prop := NoDigit l ∨ ∃ x c r, l = x ++ c :: r ∧ NumberText x ∧ c ∈ cs ∧ NotDigit c

theorem starts_unit {cs : List Int} {c : Int} {s : Option (List Int)} {l : List Int} (hs : DegreesFit s) (hc : c ∈ cs) (nc : NotDigit c) (hl : Starts cs l) : Starts cs (angleUnit c s ++ l) := by
  cases s with
  | none => exact hl
  | some x => exact .inr ⟨x, c, l, by simp [angleUnit], hs, hc, nc⟩

theorem sixty_degrees {s : Option (List Int)} (h : SixtyFit s) : DegreesFit s := by
  cases s with
  | none => trivial
  | some x => exact h.1

/-- No number with the sign `c` here -/
theorem starts_no {v : Env} {t pre l : List Int} {cs : List Int} {c : Int} (h : v.Ok t) (ht : t = pre ++ l) (hl : Starts cs l) (hc : c ∉ cs) :
    numberAt v t pre.length = none ∨ ∃ e x, numberAt v t pre.length = some (e, x) ∧ charSub t c e = none := by
  rcases hl with n | ⟨x, c', r, e, hx, hc', nc⟩
  · exact .inl (number_no h ht n)
  · have ⟨a, b⟩ := unit_at (pre := pre) (post := r) (c := c') h (by rw [ht, e]; simp [angleUnit]) hx nc c
    exact .inr ⟨_, _, a, by rw [b, if_neg (fun q => hc (by rw [← q]; exact hc'))]⟩

theorem reads_unit {t pre post : List Int} {c : Int} {x : List Int} (ht : t = pre ++ angleUnit c (some x) ++ post) : ReadsField t (some (pre.length, pre.length + x.length, number x)) (some x) :=
  reads_field (pre := pre) (w := x) (post := c :: post) (by rw [ht]; simp [angleUnit])

theorem taken_unit {i : Nat} {x : List Int} (hx : NumberText x) : taken (some (i, i + x.length, number x)) = true := by
  have := List.length_pos_iff.2 hx.1
  unfold taken
  simpa using this

/-- **C164** (angle) Degrees, minutes below 60 and seconds below 60 with their signs, any of them left out but not all, are read: they have their numbers, are where these are written, and the
angle is the whole of it. -/
theorem angle_written {v : Env} {t pre post : List Int} {cd cm cs : Int} {d m s : Option (List Int)} (h : v.Ok t) (ht : t = pre ++ writeAngle cd cm cs d m s ++ post) (hd : DegreesFit d)
    (hm : SixtyFit m) (hs : SixtyFit s) (nd : NotDigit cd) (nm : NotDigit cm) (ns : NotDigit cs) (dm : cd ≠ cm) (ds : cd ≠ cs) (ms : cm ≠ cs) (hp : NoDigit post)
    (some1 : ¬ (d = none ∧ m = none ∧ s = none)) (old : Angle) :
    ∃ o, angle (angleParts v t cd cm cs) pre.length old = (true, o) ∧ o.interval = some (pre.length, pre.length + (writeAngle cd cm cs d m s).length) ∧
      ReadsField t o.degree d ∧ ReadsField t o.minute m ∧ ReadsField t o.second s := by
  unfold writeAngle at ht ⊢
  have s2 : Starts [cs] (angleUnit cs s ++ post) := starts_unit (sixty_degrees hs) (List.mem_cons_self ..) ns (.inl hp)
  have s2' : Starts [cm, cs] (angleUnit cs s ++ post) := starts_unit (sixty_degrees hs) (by simp) ns (.inl hp)
  have s1 : Starts [cm, cs] (angleUnit cm m ++ (angleUnit cs s ++ post)) := starts_unit (sixty_degrees hm) (List.mem_cons_self ..) nm s2'
  -- degrees
  have D : ∃ f iv, angleDegree (angleParts v t cd cm cs) pre.length = (f, iv, pre.length + (angleUnit cd d).length) ∧ ReadsField t f d ∧ taken f = d.isSome := by
    unfold angleDegree
    cases d with
    | none =>
      refine ⟨none, none, ?_, rfl, rfl⟩
      rcases starts_no (c := cd) h (t := t) (pre := pre) (by rw [ht]; simp [angleUnit]) s1 (by simp [dm, ds]) with a | ⟨e, x, a, b⟩
      · rw [show (angleParts v t cd cm cs).degree pre.length = none from a]; rfl
      · rw [show (angleParts v t cd cm cs).degree pre.length = some (e, x) from a]; dsimp only
        rw [show (angleParts v t cd cm cs).degreeSep e = none from b]; rfl
    | some x =>
      have tx : t = pre ++ angleUnit cd (some x) ++ (angleUnit cm m ++ angleUnit cs s ++ post) := by rw [ht]; simp
      have ⟨a, b⟩ := unit_at h tx hd nd cd
      rw [if_pos rfl] at b
      refine ⟨_, some (pre.length + x.length, pre.length + x.length + 1), ?_, reads_unit tx, taken_unit hd⟩
      rw [show (angleParts v t cd cm cs).degree pre.length = some _ from a]; dsimp only
      rw [show (angleParts v t cd cm cs).degreeSep _ = some _ from b]
      simp [angleUnit]; omega
  obtain ⟨fd, id, D1, D2, D3⟩ := D
  have M : ∃ f iv, angleMinute (angleParts v t cd cm cs) (pre ++ angleUnit cd d).length = (f, iv, (pre ++ angleUnit cd d).length + (angleUnit cm m).length) ∧ ReadsField t f m ∧ taken f = m.isSome := by
    unfold angleMinute
    cases m with
    | none =>
      refine ⟨none, none, ?_, rfl, rfl⟩
      rcases starts_no (c := cm) h (t := t) (pre := pre ++ angleUnit cd d) (by rw [ht]; simp [angleUnit]) s2 (by simp [ms]) with a | ⟨e, x, a, b⟩
      · rw [show (angleParts v t cd cm cs).minute _ = none from a]; rfl
      · rw [show (angleParts v t cd cm cs).minute _ = some (e, x) from a]; dsimp only
        by_cases q : x < 60
        · rw [if_pos q, show (angleParts v t cd cm cs).minuteSep e = none from b]; rfl
        · rw [if_neg q]; rfl
    | some x =>
      have tx : t = (pre ++ angleUnit cd d) ++ angleUnit cm (some x) ++ (angleUnit cs s ++ post) := by rw [ht]; simp
      have ⟨a, b⟩ := unit_at h tx hm.1 nm cm
      rw [if_pos rfl] at b
      refine ⟨_, some ((pre ++ angleUnit cd d).length + x.length, (pre ++ angleUnit cd d).length + x.length + 1), ?_, reads_unit tx, taken_unit hm.1⟩
      rw [show (angleParts v t cd cm cs).minute _ = some _ from a]; dsimp only
      rw [if_pos hm.2, show (angleParts v t cd cm cs).minuteSep _ = some _ from b]
      simp [angleUnit]; omega
  obtain ⟨fm, im, M1, M2, M3⟩ := M
  have S : ∃ f iv, angleSecond (angleParts v t cd cm cs) (pre ++ angleUnit cd d ++ angleUnit cm m).length = (f, iv, (pre ++ angleUnit cd d ++ angleUnit cm m).length + (angleUnit cs s).length) ∧
      ReadsField t f s ∧ taken f = s.isSome := by
    unfold angleSecond
    cases s with
    | none =>
      refine ⟨none, none, ?_, rfl, rfl⟩
      have a := number_no h (t := t) (pre := pre ++ angleUnit cd d ++ angleUnit cm m) (post := post) (by rw [ht]; simp [angleUnit]) hp
      rw [show optV (angleParts v t cd cm cs).second _ = none from a]; rfl
    | some x =>
      have tx : t = (pre ++ angleUnit cd d ++ angleUnit cm m) ++ angleUnit cs (some x) ++ post := by rw [ht]; simp
      have ⟨a, b⟩ := unit_at h tx hs.1 ns cs
      rw [if_pos rfl] at b
      refine ⟨_, some ((pre ++ angleUnit cd d ++ angleUnit cm m).length + x.length, (pre ++ angleUnit cd d ++ angleUnit cm m).length + x.length + 1), ?_, reads_unit tx, taken_unit hs.1⟩
      rw [show optV (angleParts v t cd cm cs).second _ = some _ from a]; dsimp only
      rw [if_pos hs.2, show opt (angleParts v t cd cm cs).secondSep _ = some _ from b]
      simp [angleUnit]; omega
  obtain ⟨fs, is, S1, S2, S3⟩ := S
  rw [List.length_append] at M1
  rw [List.length_append, List.length_append] at S1
  have some2 : (taken fd || taken fm || taken fs) = true := by
    rw [D3, M3, S3]
    cases d <;> cases m <;> cases s <;> first | rfl | exact absurd ⟨rfl, rfl, rfl⟩ some1
  refine ⟨⟨fd, id, fm, im, fs, is, none, some (pre.length, pre.length + (angleUnit cd d).length + (angleUnit cm m).length + (angleUnit cs s).length)⟩, ?_, ?_, D2, M2, S2⟩
  · unfold angle
    rw [D1]; dsimp only
    rw [M1]; dsimp only
    rw [S1]; dsimp only
    rw [if_pos some2]
    rfl
  · dsimp only
    simp only [List.length_append]
    congr 2
    omega

/-- `30'15"`: degrees are left out -/
example : writeAngle 100 39 34 none (some (asc "30")) (some (asc "15")) = asc "30'15\"" ∧ SixtyFit (some (asc "30")) ∧ SixtyFit (some (asc "15")) :=
  ⟨by decide +kernel, ⟨⟨by decide +kernel, by decide +kernel, by decide +kernel⟩, by decide +kernel⟩, ⟨by decide +kernel, by decide +kernel, by decide +kernel⟩, by decide +kernel⟩

end Verif.Parser
