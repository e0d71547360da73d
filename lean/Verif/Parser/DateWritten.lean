import Verif.Parser.DateTime
import Verif.Parser.Phone
import Verif.Html.ComesBack
/-
Dates and times from end to end (include/stdex/parser.hpp 3993-4345): what is written with decimal digits and separators is read.
-/
namespace Verif.Parser
open Verif.Str Verif.Html Verif.Sgml

/-! ### The writer -/

/-- A separator with blanks before and after it -/
def spread (s : Int) (k : Nat × Nat) : List Int := List.replicate k.1 32 ++ s :: List.replicate k.2 32

/-- `a / b` -/
def writeTwo (s : Int) (k : Nat × Nat) (a b : List Int) : List Int := a ++ spread s k ++ b

/-- `a / b / c` -/
def writeThree (s : Int) (k k' : Nat × Nat) (a b c : List Int) : List Int := writeTwo s k a b ++ spread s k' ++ c

/-! ### The parser -/

/-- Unsigned integers (`basic_integer10` of characters) -/
def numberAt (v : Env) (t : List Int) : SubV := fun i => (integer v 10 (ascii10 t) i).getD none

/-- Days, months and years are integers, the separator is one of a set of characters (`basic_set`, whose `hit_offset` is the index), and blanks are white space. -/
def dateParts (v : Env) (t seps : List Int) : DateParts := ⟨numberAt v t, numberAt v t, numberAt v t, parenSub t seps, charSub t 32⟩

/-! ### Specification -/

/-- Decimal digits, at least one, of a number that is below the greatest of 64 bits -/
def NumberText (w : List Int) : Prop := w ≠ [] ∧ (∀ c ∈ w, 48 ≤ c ∧ c ≤ 57) ∧ number w < 2 ^ 64 - 1

/-- A date can be written as these numbers in the order of the format. -/
def Fits : Format → List Nat → Prop
  | .dmy, [d, m, _] => CalendarDay d m
  | .mdy, [m, d, _] => CalendarDay d m
  | .ymd, [_, m, d] => CalendarDay d m
  | .ym, [_, m] => 1 ≤ m ∧ m ≤ 12
  | .my, [m, _] => 1 ≤ m ∧ m ≤ 12
  | .dm, [d, m] => CalendarDay d m
  | .md, [m, d] => CalendarDay d m
  | _, _ => False

/-- The text of the day, in the order of the format -/
def dayOf : Format → List (List Int) → Option (List Int)
  | .dmy, w => w[0]?
  | .mdy, w => w[1]?
  | .ymd, w => w[2]?
  | .dm, w => w[0]?
  | .md, w => w[1]?
  | _, _ => none

/-- The text of the month -/
def monthOf : Format → List (List Int) → Option (List Int)
  | .dmy, w => w[1]?
  | .mdy, w => w[0]?
  | .ymd, w => w[1]?
  | .ym, w => w[1]?
  | .my, w => w[0]?
  | .dm, w => w[1]?
  | .md, w => w[0]?

/-- The text of the year -/
def yearOf : Format → List (List Int) → Option (List Int)
  | .dmy, w => w[2]?
  | .mdy, w => w[2]?
  | .ymd, w => w[0]?
  | .ym, w => w[0]?
  | .my, w => w[1]?
  | _, _ => none

/-- The field is the number that the text says, and its interval is where that is written; or there is no field. -/
def ReadsField (t : List Int) (f : Option Field) (w : Option (List Int)) : Prop := f.map (fun f => (textAt t (f.1, f.2.1), f.2.2)) = w.map fun w => (w, number w)

/-- The format comes first of those that are allowed and fit the numbers. -/
def Chosen (mask : Nat) (f : Format) (ns : List Nat) : Prop := f ∈ allowed mask ∧ Fits f ns ∧ ∀ g ∈ allowed mask, formats.idxOf g < formats.idxOf f → ¬ Fits g ns

/-- Whether the format takes a separator at the end, as in `31. 12.` -/
def Format.closes : Format → Bool
  | .dm | .md => true
  | _ => false

/-- The date is in this format what is written as these texts, and takes the interval. -/
def IsDate (t : List Int) (f : Format) (w : List (List Int)) (iv : Nat × Nat) (o : Date) : Prop :=
  o.format = some f ∧ o.interval = some iv ∧ ReadsField t o.day (dayOf f w) ∧ ReadsField t o.month (monthOf f w) ∧ ReadsField t o.year (yearOf f w)

/-! ### Proofs -/

theorem digits_isDec {w : List Int} (h : NumberText w) : ∀ c ∈ w, isDec c = true := fun c hc => by
  have := h.2.1 c hc
  unfold isDec; simpa using this

/-- The head of the text is no decimal digit. -/
def NoDigit (l : List Int) : Prop := ∀ c, l.head? = some c → ¬ (48 ≤ c ∧ c ≤ 57)

theorem noDigit_isDec {l : List Int} (h : NoDigit l) : ∀ c, l.head? = some c → isDec c = false := fun c hc => by
  have := h c hc
  unfold isDec; simpa using this

theorem number_at {v : Env} {t pre w post : List Int} (h : v.Ok t) (ht : t = pre ++ w ++ post) (hw : NumberText w) (hp : NoDigit post) :
    numberAt v t pre.length = some (pre.length + w.length, number w) := by
  have d : t.drop pre.length = w ++ post := by rw [ht, List.append_assoc, List.drop_left]
  unfold numberAt
  rw [int_at h d (by rw [ht]; simp) (digits_isDec hw) (noDigit_isDec hp) (by have := hw.2.2; omega), if_neg hw.1]

theorem number_no {v : Env} {t pre post : List Int} (h : v.Ok t) (ht : t = pre ++ post) (hp : NoDigit post) : numberAt v t pre.length = none := by
  have d : t.drop pre.length = [] ++ post := by rw [ht, List.drop_left]; rfl
  unfold numberAt
  rw [int_at h d (by rw [ht]; simp) (fun c hc => nomatch hc) (noDigit_isDec hp) (by decide), if_pos rfl]

theorem blanks_at {t : List Int} : ∀ (k : Nat) {pre post : List Int}, t = pre ++ List.replicate k 32 ++ post → post.head? ≠ some 32 → Blanks (charSub t 32) pre.length (pre.length + k) := by
  intro k
  induction k with
  | zero =>
    intro pre post ht hp
    refine .stop ?_
    unfold charSub
    rw [at_end (t := t) (pre := pre) (post := post) (by simpa using ht), if_neg hp]
  | succ k ih =>
    intro pre post ht hp
    have e : charSub t 32 pre.length = some (pre.length + 1) := by
      unfold charSub
      rw [at_end (t := t) (pre := pre) (post := List.replicate (k + 1) 32 ++ post) (by simpa using ht)]
      rfl
    refine .more e ?_
    have := ih (pre := pre ++ [32]) (post := post) (by rw [ht, List.replicate_succ]; simp) hp
    rw [List.length_append, List.length_singleton, show pre.length + 1 + k = pre.length + (k + 1) from by omega] at this
    exact this

theorem head_digit {w post : List Int} (hw : NumberText w) : ∃ c, (w ++ post).head? = some c ∧ 48 ≤ c ∧ c ≤ 57 := by
  cases w with
  | nil => exact absurd rfl hw.1
  | cons c w => exact ⟨c, rfl, hw.2.1 c (List.mem_cons_self ..)⟩


/-- A separator: neither a digit nor a blank -/
def IsSep (seps : List Int) (s : Int) (h : Nat) : Prop := seps.idxOf? s = some h ∧ s ≠ 32

theorem sep_at {v : Env} {t pre post seps : List Int} {s : Int} {h : Nat} {k : Nat × Nat} (ht : t = pre ++ spread s k ++ post) (hs : IsSep seps s h) (hp : post.head? ≠ some 32) :
    SepAt (dateParts v t seps) pre.length h (pre.length + (spread s k).length) := by
  obtain ⟨k1, k2⟩ := k
  unfold spread at ht ⊢
  dsimp only at ht ⊢
  have a : Blanks (charSub t 32) pre.length (pre.length + k1) := blanks_at k1 (post := s :: (List.replicate k2 32 ++ post)) (by rw [ht]; simp) (by
    rw [List.head?_cons]; exact fun q => hs.2 (Option.some.inj q))
  have b : t[pre.length + k1]? = some s := by
    have := at_end (t := t) (pre := pre ++ List.replicate k1 32) (post := s :: (List.replicate k2 32 ++ post)) (by rw [ht]; simp)
    rw [List.length_append, List.length_replicate] at this
    exact this
  have c : Blanks (charSub t 32) (pre.length + k1 + 1) (pre.length + k1 + 1 + k2) := by
    have := blanks_at k2 (t := t) (pre := pre ++ List.replicate k1 32 ++ [s]) (post := post) (by rw [ht]; simp) hp
    rw [List.length_append, List.length_append, List.length_replicate, List.length_singleton] at this
    exact this
  refine ⟨pre.length + k1, pre.length + k1 + 1, a, ?_, ?_⟩
  · show parenSub t seps _ = _
    unfold parenSub
    rw [b]
    dsimp only
    rw [hs.1]; rfl
  · have e : pre.length + (List.replicate k1 32 ++ s :: List.replicate k2 32).length = pre.length + k1 + 1 + k2 := by simp; omega
    rw [e]
    exact c

/-- What follows is no separator, after blanks. -/
def NoSep (seps post : List Int) : Prop := ∀ k q c, post = List.replicate k 32 ++ q → q.head? = some c → seps.idxOf? c = none

theorem rest_sep {post : List Int} : ∃ k q, post = List.replicate k 32 ++ q ∧ q.head? ≠ some 32 := by
  induction post with
  | nil => exact ⟨0, [], rfl, by simp⟩
  | cons c r ih =>
    by_cases e : c = 32
    · obtain ⟨k, q, a, b⟩ := ih
      exact ⟨k + 1, q, by rw [a, e, List.replicate_succ]; rfl, b⟩
    · exact ⟨0, c :: r, rfl, fun q => e (by simpa using q)⟩

theorem sep_no {v : Env} {t pre post seps : List Int} (ht : t = pre ++ post) (hp : NoSep seps post) : ∃ a, Blanks (charSub t 32) pre.length a ∧ parenSub t seps a = none := by
  obtain ⟨k, q, e, n⟩ := rest_sep (post := post)
  refine ⟨pre.length + k, blanks_at k (post := q) (by rw [ht, e, List.append_assoc]) n, ?_⟩
  have b : t[pre.length + k]? = q.head? := by
    have := at_end (t := t) (pre := pre ++ List.replicate k 32) (post := q) (by rw [ht, e, List.append_assoc])
    rw [List.length_append, List.length_replicate] at this
    exact this
  unfold parenSub
  rw [b]
  cases hc : q.head? with
  | none => rfl
  | some c => dsimp only; rw [hp k q c e hc]; rfl

theorem sepAt_no {v : Env} {t pre post seps : List Int} (ht : t = pre ++ post) (hp : NoSep seps post) (h q : Nat) : ¬ SepAt (dateParts v t seps) pre.length h q := by
  rintro ⟨a, b, x, y, _⟩
  obtain ⟨a', x', y'⟩ := sep_no (v := v) ht hp
  cases blanks_unique x x'
  have y : parenSub t seps a = _ := y
  rw [y'] at y; cases y

theorem digit_not_blank {w post : List Int} (hw : NumberText w) : (w ++ post).head? ≠ some 32 := by
  obtain ⟨c, e, _, _⟩ := head_digit (post := post) hw
  rw [e]; intro q; cases q; omega

theorem spread_noDigit {s : Int} {k : Nat × Nat} {post : List Int} (hs : ¬ (48 ≤ s ∧ s ≤ 57)) : NoDigit (spread s k ++ post) := by
  obtain ⟨k1, k2⟩ := k
  intro c hc
  unfold spread at hc
  cases k1 with
  | zero => simp at hc; rw [← hc]; exact hs
  | succ k1 => rw [List.replicate_succ] at hc; simp at hc; omega

/-- Where two numbers are -/
def field1 (pre a : List Int) : Field := (pre.length, pre.length + a.length, number a)

theorem two_at {v : Env} {t pre a b post seps : List Int} {s : Int} {h : Nat} {k : Nat × Nat} (hv : v.Ok t) (ht : t = pre ++ writeTwo s k a b ++ post) (ha : NumberText a) (hb : NumberText b)
    (hs : IsSep seps s h) (hd : ¬ (48 ≤ s ∧ s ≤ 57)) (hp : NoDigit post) :
    TwoAt (dateParts v t seps) (numberAt v t) (numberAt v t) pre.length (field1 pre a) (field1 (pre ++ a ++ spread s k) b) h := by
  unfold writeTwo at ht
  refine ⟨rfl, ?_, ?_, ?_⟩
  · exact number_at hv (pre := pre) (w := a) (post := spread s k ++ (b ++ post)) (by rw [ht]; simp) ha (spread_noDigit hd)
  · have := sep_at (v := v) (t := t) (pre := pre ++ a) (post := b ++ post) (k := k) (by rw [ht]; simp) hs (digit_not_blank hb)
    unfold field1
    dsimp only
    rw [List.length_append] at this
    rw [List.length_append, List.length_append]
    exact this
  · exact number_at hv (pre := pre ++ a ++ spread s k) (w := b) (post := post) (by rw [ht]; simp) hb hp

theorem three_at {v : Env} {t pre a b c post seps : List Int} {s : Int} {h : Nat} {k k' : Nat × Nat} (hv : v.Ok t) (ht : t = pre ++ writeThree s k k' a b c ++ post) (ha : NumberText a) (hb : NumberText b)
    (hc : NumberText c) (hs : IsSep seps s h) (hd : ¬ (48 ≤ s ∧ s ≤ 57)) (hp : NoDigit post) :
    ThreeAt (dateParts v t seps) (numberAt v t) (numberAt v t) (numberAt v t) pre.length (field1 pre a) (field1 (pre ++ a ++ spread s k) b) (field1 (pre ++ writeTwo s k a b ++ spread s k') c) := by
  unfold writeThree at ht
  refine ⟨h, two_at hv (post := spread s k' ++ c ++ post) (by rw [ht]; simp) ha hb hs hd (by rw [List.append_assoc]; exact spread_noDigit hd), ?_, ?_⟩
  · have := sep_at (v := v) (t := t) (pre := pre ++ writeTwo s k a b) (post := c ++ post) (k := k') (by rw [ht]; simp) hs (digit_not_blank hc)
    unfold field1
    dsimp only
    unfold writeTwo at this ⊢
    rw [show (pre ++ a ++ spread s k).length + b.length = (pre ++ (a ++ spread s k ++ b)).length from by simp; omega,
      show (pre ++ (a ++ spread s k ++ b) ++ spread s k').length = (pre ++ (a ++ spread s k ++ b)).length + (spread s k').length from List.length_append ..]
    exact this
  · exact number_at hv (pre := pre ++ writeTwo s k a b ++ spread s k') (w := c) (post := post) (by rw [ht]; simp) hc hp


theorem parts_ok {v : Env} {t : List Int} (h : v.Ok t) (seps : List Int) : (dateParts v t seps).Ok t.length :=
  ⟨ascii_takesV h, ascii_takesV h, ascii_takesV h, parenSub_takes _ _, charSub_takes _ _⟩

/-- What is tried for a format -/
def runFormat (c : DateParts) (n i : Nat) : Format → Option (Option Date)
  | .dmy => runDmy c n i
  | .mdy => runMdy c n i
  | .ymd => runYmd c n i
  | .ym => runYm c n i
  | .my => runMy c n i
  | .dm => runDm c n i
  | .md => runMd c n i

theorem attempt_skip {mask : Nat} {f : Format} {r : Option (Option Date)} {next : Option (Bool × Date)} (h : f ∈ allowed mask → r = some none) : attempt mask f r next = next := by
  unfold attempt
  by_cases q : mask &&& f.flag = f.flag
  · rw [if_pos q, h ((mask_iff mask f).1 q)]
  · rw [if_neg q]

theorem attempt_hit {mask : Nat} {f : Format} {r : Option (Option Date)} {o : Date} {next : Option (Bool × Date)} (h : f ∈ allowed mask) (hr : r = some (some o)) :
    attempt mask f r next = some (true, o) := by
  unfold attempt
  rw [if_pos ((mask_iff mask f).2 h), hr]

theorem date_formats (c : DateParts) (mask n i : Nat) (old : Date) : date c mask n i old =
    attempt mask .dmy (runFormat c n i .dmy) (attempt mask .mdy (runFormat c n i .mdy) (attempt mask .ymd (runFormat c n i .ymd) (attempt mask .ym (runFormat c n i .ym)
      (attempt mask .my (runFormat c n i .my) (attempt mask .dm (runFormat c n i .dm) (attempt mask .md (runFormat c n i .md) (some (false, ⟨none, none, none, none, none⟩)))))))) := rfl

theorem date_chain {c : DateParts} {n i mask : Nat} {f : Format} {o old : Date} (h : f ∈ allowed mask) (hr : runFormat c n i f = some (some o))
    (hn : ∀ g ∈ allowed mask, formats.idxOf g < formats.idxOf f → runFormat c n i g = some none) : date c mask n i old = some (true, o) := by
  rw [date_formats]
  cases f
  · rw [attempt_hit h hr]
  · rw [attempt_skip fun q => hn .dmy q (by decide), attempt_hit h hr]
  · rw [attempt_skip fun q => hn .dmy q (by decide), attempt_skip fun q => hn .mdy q (by decide), attempt_hit h hr]
  · rw [attempt_skip fun q => hn .dmy q (by decide), attempt_skip fun q => hn .mdy q (by decide), attempt_skip fun q => hn .ymd q (by decide), attempt_hit h hr]
  · rw [attempt_skip fun q => hn .dmy q (by decide), attempt_skip fun q => hn .mdy q (by decide), attempt_skip fun q => hn .ymd q (by decide), attempt_skip fun q => hn .ym q (by decide), attempt_hit h hr]
  · rw [attempt_skip fun q => hn .dmy q (by decide), attempt_skip fun q => hn .mdy q (by decide), attempt_skip fun q => hn .ymd q (by decide), attempt_skip fun q => hn .ym q (by decide),
      attempt_skip fun q => hn .my q (by decide), attempt_hit h hr]
  · rw [attempt_skip fun q => hn .dmy q (by decide), attempt_skip fun q => hn .mdy q (by decide), attempt_skip fun q => hn .ymd q (by decide), attempt_skip fun q => hn .ym q (by decide),
      attempt_skip fun q => hn .my q (by decide), attempt_skip fun q => hn .dm q (by decide), attempt_hit h hr]

theorem date_none {c : DateParts} {n i mask : Nat} {old : Date} (hn : ∀ g ∈ allowed mask, runFormat c n i g = some none) : date c mask n i old = some (false, ⟨none, none, none, none, none⟩) := by
  rw [date_formats]
  rw [attempt_skip (hn .dmy), attempt_skip (hn .mdy), attempt_skip (hn .ymd), attempt_skip (hn .ym), attempt_skip (hn .my), attempt_skip (hn .dm), attempt_skip (hn .md)]

theorem two_eq_some {c : DateParts} {n : Nat} (hc : c.Ok n) {x y : SubV} (hx : TakesV n x) (hy : TakesV n y) {i : Nat} (hi : i ≤ n) {f g : Field} {h : Nat} (q : TwoAt c x y i f g h) :
    two c n x y i = some (some (f, g, h)) ∧ g.2.1 ≤ n := by
  rcases two_spec hc hx hy hi with ⟨f', g', h', a, b, e⟩ | ⟨a, _⟩
  · obtain ⟨rfl, rfl, rfl⟩ := two_unique q a
    exact ⟨e, b⟩
  · exact absurd q (a _ _ _)

theorem three_eq_some {c : DateParts} {n : Nat} (hc : c.Ok n) {x y z : SubV} (hx : TakesV n x) (hy : TakesV n y) (hz : TakesV n z) {i : Nat} (hi : i ≤ n) {f g k : Field}
    (q : ThreeAt c x y z i f g k) : three c n x y z i = some (some (f, g, k)) := by
  rcases three_spec hc hx hy hz hi with ⟨f', g', k', a, e⟩ | ⟨a, _⟩
  · obtain ⟨rfl, rfl, rfl⟩ := three_unique q a
    exact e
  · exact absurd q (a _ _ _)

theorem three_eq_none {c : DateParts} {n : Nat} (hc : c.Ok n) {x y z : SubV} (hx : TakesV n x) (hy : TakesV n y) (hz : TakesV n z) {i : Nat} (hi : i ≤ n)
    (q : ∀ f g k, ¬ ThreeAt c x y z i f g k) : three c n x y z i = some none := by
  rcases three_spec hc hx hy hz hi with ⟨f', g', k', a, e⟩ | ⟨_, e⟩
  · exact absurd a (q _ _ _)
  · exact e

theorem trailing_eq {c : DateParts} {n : Nat} (hc : c.Ok n) {h e j : Nat} (he : e ≤ n) (q : TailAt c h e j) : trailing c n h e = some j := by
  obtain ⟨j', a, _, u⟩ := trailing_spec hc h he
  rw [a, u j q]

theorem reads_field {t pre w post : List Int} (ht : t = pre ++ w ++ post) : ReadsField t (some (field1 pre w)) (some w) := by
  unfold ReadsField field1
  rw [Option.map_some, Option.map_some, textAt_mid ht]

theorem reads_none (t : List Int) : ReadsField t none none := rfl

/-- Three numbers that are written are tried as they stand. -/
theorem run_three {v : Env} {t pre a b c post seps : List Int} {s : Int} {h : Nat} {k k' : Nat × Nat} (hv : v.Ok t) (ht : t = pre ++ writeThree s k k' a b c ++ post) (ha : NumberText a)
    (hb : NumberText b) (hc : NumberText c) (hs : IsSep seps s h) (hd : ¬ (48 ≤ s ∧ s ≤ 57)) (hp : NoDigit post) (f : Format) (hf : formats.idxOf f < 3) :
    (Fits f [number a, number b, number c] → ∃ o, runFormat (dateParts v t seps) t.length pre.length f = some (some o) ∧ IsDate t f [a, b, c] (pre.length, pre.length + (writeThree s k k' a b c).length) o) ∧
    (¬ Fits f [number a, number b, number c] → runFormat (dateParts v t seps) t.length pre.length f = some none) := by
  have tk : TakesV t.length (numberAt v t) := ascii_takesV hv
  have T := three_eq_some (parts_ok hv seps) tk tk tk (by rw [ht]; simp) (three_at hv ht ha hb hc hs hd hp)
  have r1 : ReadsField t (some (field1 pre a)) (some a) := reads_field (post := spread s k ++ b ++ spread s k' ++ c ++ post) (by rw [ht]; simp [writeThree, writeTwo])
  have r2 : ReadsField t (some (field1 (pre ++ a ++ spread s k) b)) (some b) := reads_field (post := spread s k' ++ c ++ post) (by rw [ht]; simp [writeThree, writeTwo])
  have r3 : ReadsField t (some (field1 (pre ++ writeTwo s k a b ++ spread s k') c)) (some c) := reads_field (post := post) (by rw [ht]; simp [writeThree])
  have e : (field1 (pre ++ writeTwo s k a b ++ spread s k') c).2.1 = pre.length + (writeThree s k k' a b c).length := by
    unfold field1 writeThree; dsimp only; simp only [List.length_append]; omega
  have na : number a ≠ 2 ^ 64 - 1 := by have := ha.2.2; omega
  have nb : number b ≠ 2 ^ 64 - 1 := by have := hb.2.2; omega
  have nc : number c ≠ 2 ^ 64 - 1 := by have := hc.2.2; omega
  cases f <;> first | exact absurd hf (by decide) | skip
  · have u := isValidDay_spec na nb
    unfold runFormat Fits
    dsimp only
    unfold runDmy
    rw [show (dateParts v t seps).day = numberAt v t from rfl, show (dateParts v t seps).month = numberAt v t from rfl, show (dateParts v t seps).year = numberAt v t from rfl, T]
    dsimp only [andThen]
    refine ⟨fun q => ⟨_, if_pos (u.2 q), rfl, ?_, r1, r2, r3⟩, fun q => if_neg fun q' => q (u.1 q')⟩
    rw [e]
  · have u := isValidDay_spec nb na
    unfold runFormat Fits
    dsimp only
    unfold runMdy
    rw [show (dateParts v t seps).day = numberAt v t from rfl, show (dateParts v t seps).month = numberAt v t from rfl, show (dateParts v t seps).year = numberAt v t from rfl, T]
    dsimp only [andThen]
    refine ⟨fun q => ⟨_, if_pos (u.2 q), rfl, ?_, r2, r1, r3⟩, fun q => if_neg fun q' => q (u.1 q')⟩
    rw [e]
  · have u := isValidDay_spec nc nb
    unfold runFormat Fits
    dsimp only
    unfold runYmd
    rw [show (dateParts v t seps).day = numberAt v t from rfl, show (dateParts v t seps).month = numberAt v t from rfl, show (dateParts v t seps).year = numberAt v t from rfl, T]
    dsimp only [andThen]
    refine ⟨fun q => ⟨_, if_pos (u.2 q), rfl, ?_, r3, r2, r1⟩, fun q => if_neg fun q' => q (u.1 q')⟩
    rw [e]

/-- **C164** (three parts) A day, a month and a year that are written as decimal numbers, with the same separator twice and any number of blanks around it, are read by the first of the allowed
formats that makes a day of the calendar of them: the fields have their numbers, are where these are written, and the date is the whole of it. -/
theorem date_written {v : Env} {t pre a b c post seps : List Int} {s : Int} {h : Nat} {k k' : Nat × Nat} {mask : Nat} {f : Format} (hv : v.Ok t) (ht : t = pre ++ writeThree s k k' a b c ++ post)
    (ha : NumberText a) (hb : NumberText b) (hc : NumberText c) (hs : IsSep seps s h) (hd : ¬ (48 ≤ s ∧ s ≤ 57)) (hp : NoDigit post) (hf : Chosen mask f [number a, number b, number c]) (old : Date) :
    ∃ o, date (dateParts v t seps) mask t.length pre.length old = some (true, o) ∧ IsDate t f [a, b, c] (pre.length, pre.length + (writeThree s k k' a b c).length) o := by
  obtain ⟨f1, f2, f3⟩ := hf
  have l : formats.idxOf f < 3 := by cases f <;> first | decide | exact f2.elim
  obtain ⟨o, o1, o2⟩ := (run_three hv ht ha hb hc hs hd hp f l).1 f2
  exact ⟨o, date_chain f1 o1 fun g g1 g2 => (run_three hv ht ha hb hc hs hd hp g (by omega)).2 (f3 g g1 g2), o2⟩

theorem run_two {v : Env} {t pre a b post seps : List Int} {s : Int} {h j : Nat} {k : Nat × Nat} (hv : v.Ok t) (ht : t = pre ++ writeTwo s k a b ++ post) (ha : NumberText a)
    (hb : NumberText b) (hs : IsSep seps s h) (hd : ¬ (48 ≤ s ∧ s ≤ 57)) (hp : NoDigit post) (n3 : ∀ q g, SepAt (dateParts v t seps) (pre.length + (writeTwo s k a b).length) h q → g.1 = q → ¬ Holds (numberAt v t) g)
    (tl : TailAt (dateParts v t seps) h (pre.length + (writeTwo s k a b).length) j) (f : Format) :
    (Fits f [number a, number b] → ∃ o, runFormat (dateParts v t seps) t.length pre.length f = some (some o) ∧ IsDate t f [a, b] (pre.length, if f.closes then j else pre.length + (writeTwo s k a b).length) o) ∧
    (¬ Fits f [number a, number b] → runFormat (dateParts v t seps) t.length pre.length f = some none) := by
  have tk : TakesV t.length (numberAt v t) := ascii_takesV hv
  have le : pre.length ≤ t.length := by rw [ht]; simp
  have W := two_at hv ht ha hb hs hd hp
  have e : (field1 (pre ++ a ++ spread s k) b).2.1 = pre.length + (writeTwo s k a b).length := by
    unfold field1 writeTwo; dsimp only; simp only [List.length_append]; omega
  have N := three_eq_none (parts_ok hv seps) tk tk tk le (x := numberAt v t) (y := numberAt v t) (z := numberAt v t) (by
    rintro f' g' k' ⟨h', x, y, z⟩
    obtain ⟨rfl, rfl, rfl⟩ := two_unique x W
    exact n3 _ _ (by rw [e] at y; exact y) rfl z)
  have ⟨T, el⟩ := two_eq_some (parts_ok hv seps) tk tk le W
  have TL := trailing_eq (parts_ok hv seps) el (by rw [e]; exact tl)
  have r1 : ReadsField t (some (field1 pre a)) (some a) := reads_field (post := spread s k ++ b ++ post) (by rw [ht]; simp [writeTwo])
  have r2 : ReadsField t (some (field1 (pre ++ a ++ spread s k) b)) (some b) := reads_field (post := post) (by rw [ht]; simp [writeTwo])
  have na : number a ≠ 2 ^ 64 - 1 := by have := ha.2.2; omega
  have nb : number b ≠ 2 ^ 64 - 1 := by have := hb.2.2; omega
  have d1 : (dateParts v t seps).day = numberAt v t := rfl
  have d2 : (dateParts v t seps).month = numberAt v t := rfl
  have d3 : (dateParts v t seps).year = numberAt v t := rfl
  cases f
  · exact ⟨False.elim, fun _ => by show runDmy _ _ _ = _; unfold runDmy; rw [d1, d2, d3, N]; rfl⟩
  · exact ⟨False.elim, fun _ => by show runMdy _ _ _ = _; unfold runMdy; rw [d1, d2, d3, N]; rfl⟩
  · exact ⟨False.elim, fun _ => by show runYmd _ _ _ = _; unfold runYmd; rw [d1, d2, d3, N]; rfl⟩
  · have u := isValidMonth_spec nb
    unfold runFormat Fits
    dsimp only
    unfold runYm
    rw [d2, d3, T]
    dsimp only [andThen]
    exact ⟨fun q => ⟨_, if_pos (u.2 q), rfl, by rw [e]; rfl, reads_none t, r2, r1⟩, fun q => if_neg fun q' => q (u.1 q')⟩
  · have u := isValidMonth_spec na
    unfold runFormat Fits
    dsimp only
    unfold runMy
    rw [d2, d3, T]
    dsimp only [andThen]
    exact ⟨fun q => ⟨_, if_pos (u.2 q), rfl, by rw [e]; rfl, reads_none t, r1, r2⟩, fun q => if_neg fun q' => q (u.1 q')⟩
  · have u := isValidDay_spec na nb
    unfold runFormat Fits
    dsimp only
    unfold runDm
    rw [d1, d2, T]
    dsimp only [andThen]
    rw [TL]
    exact ⟨fun q => ⟨_, if_pos (u.2 q), rfl, rfl, r1, r2, reads_none t⟩, fun q => if_neg fun q' => q (u.1 q')⟩
  · have u := isValidDay_spec nb na
    unfold runFormat Fits
    dsimp only
    unfold runMd
    rw [d1, d2, T]
    dsimp only [andThen]
    rw [TL]
    exact ⟨fun q => ⟨_, if_pos (u.2 q), rfl, rfl, r2, r1, reads_none t⟩, fun q => if_neg fun q' => q (u.1 q')⟩

/-- **C164** (two parts) Two numbers with a separator that no other follows are read by the first of the allowed formats that makes a day of the calendar or a month of them. If none does,
there is no date. -/
theorem date_written_two {v : Env} {t pre a b post seps : List Int} {s : Int} {h : Nat} {k : Nat × Nat} {mask : Nat} (hv : v.Ok t) (ht : t = pre ++ writeTwo s k a b ++ post)
    (ha : NumberText a) (hb : NumberText b) (hs : IsSep seps s h) (hd : ¬ (48 ≤ s ∧ s ≤ 57)) (hp : NoDigit post) (hq : NoSep seps post) (old : Date) :
    (∀ f, Chosen mask f [number a, number b] → ∃ o, date (dateParts v t seps) mask t.length pre.length old = some (true, o) ∧
      IsDate t f [a, b] (pre.length, pre.length + (writeTwo s k a b).length) o) ∧
    ((∀ f ∈ allowed mask, ¬ Fits f [number a, number b]) → date (dateParts v t seps) mask t.length pre.length old = some (false, ⟨none, none, none, none, none⟩)) := by
  have l : (pre ++ writeTwo s k a b).length = pre.length + (writeTwo s k a b).length := List.length_append ..
  have R := run_two hv ht ha hb hs hd hp (j := pre.length + (writeTwo s k a b).length) (fun q g w => by rw [← l] at w; exact absurd w (sepAt_no ht hq h q)) (by
    obtain ⟨x, x1, x2⟩ := sep_no (v := v) (seps := seps) ht hq
    rw [l] at x1
    exact ⟨x, x1, .inr ⟨fun y z => (by rw [show (dateParts v t seps).sep x = parenSub t seps x from rfl, x2] at z; cases z), rfl⟩⟩)
  refine ⟨fun f ⟨f1, f2, f3⟩ => ?_, fun n => date_none fun g g1 => (R g).2 (n g g1)⟩
  obtain ⟨o, o1, o2⟩ := (R f).1 f2
  rw [ite_self] at o2
  exact ⟨o, date_chain f1 o1 fun g g1 g2 => (R g).2 (f3 g g1 g2), o2⟩

/-- **C164** (a separator at the end) Two numbers with the same separator after each: a date without a year takes the last separator, and another date does not. -/
theorem date_written_closed {v : Env} {t pre a b post seps : List Int} {s : Int} {h l : Nat} {k : Nat × Nat} {mask : Nat} (hv : v.Ok t)
    (ht : t = pre ++ (writeTwo s k a b ++ spread s (l, 0)) ++ post) (ha : NumberText a) (hb : NumberText b) (hs : IsSep seps s h) (hd : ¬ (48 ≤ s ∧ s ≤ 57))
    (hp : ∀ n q, post = List.replicate n 32 ++ q → NoDigit q) (old : Date) :
    (∀ f, Chosen mask f [number a, number b] → ∃ o, date (dateParts v t seps) mask t.length pre.length old = some (true, o) ∧
      IsDate t f [a, b] (pre.length, pre.length + (writeTwo s k a b).length + (if f.closes then l + 1 else 0)) o) ∧
    ((∀ f ∈ allowed mask, ¬ Fits f [number a, number b]) → date (dateParts v t seps) mask t.length pre.length old = some (false, ⟨none, none, none, none, none⟩)) := by
  have le : (pre ++ writeTwo s k a b).length = pre.length + (writeTwo s k a b).length := List.length_append ..
  obtain ⟨n, q, e, nq⟩ := rest_sep (post := post)
  have S : SepAt (dateParts v t seps) (pre ++ writeTwo s k a b).length h ((pre ++ writeTwo s k a b).length + (spread s (l, n)).length) :=
    sep_at (k := (l, n)) (post := q) (by rw [ht, e]; simp [spread]) hs nq
  have R := run_two hv (pre := pre) (k := k) (post := spread s (l, 0) ++ post) (by rw [ht]; simp only [List.append_assoc]) ha hb hs hd (j := pre.length + (writeTwo s k a b).length + (l + 1)) (spread_noDigit hd) (fun q' g w x y => by
    rw [← le] at w
    obtain ⟨-, rfl⟩ := sepAt_unique S w
    have := number_no hv (t := t) (pre := pre ++ writeTwo s k a b ++ spread s (l, n)) (post := q) (by rw [ht, e]; simp [spread]) (hp n q e)
    rw [List.length_append (as := pre ++ writeTwo s k a b)] at this
    unfold Holds at y
    rw [x, this] at y; cases y) (by
    obtain ⟨x, y, x1, x2, -⟩ := S
    have u : Blanks (charSub t 32) (pre ++ writeTwo s k a b).length ((pre ++ writeTwo s k a b).length + l) := blanks_at l (post := s :: post) (by rw [ht]; simp [spread]) (by
      rw [List.head?_cons]; exact fun z => hs.2 (Option.some.inj z))
    cases blanks_unique x1 u
    obtain ⟨c, -, -, rfl⟩ := parenSub_some x2
    rw [le] at x1 x2
    exact ⟨_, x1, .inl ⟨_, x2, by omega⟩⟩)
  refine ⟨fun f ⟨f1, f2, f3⟩ => ?_, fun n => date_none fun g g1 => (R g).2 (n g g1)⟩
  obtain ⟨o, o1, o2⟩ := (R f).1 f2
  refine ⟨o, date_chain f1 o1 fun g g1 g2 => (R g).2 (f3 g g1 g2), ?_⟩
  cases q : f.closes <;> (rw [q] at o2; exact o2)

/-! ### Time -/

/-- Seconds, which may have a decimal point and milliseconds -/
def writeSeconds (s p : Int) : Option (List Int × Option (List Int)) → List Int
  | none => []
  | some (x, none) => s :: x
  | some (x, some y) => s :: x ++ p :: y

/-- `h:m`, `h:m:s` or `h:m:s.ms` -/
def writeTime (s p : Int) (h m : List Int) (r : Option (List Int × Option (List Int))) : List Int := h ++ s :: m ++ writeSeconds s p r

/-- Hours, minutes, seconds and milliseconds are integers; the separator is one of a set of characters, and that of milliseconds one character. -/
def timeParts (v : Env) (t seps : List Int) (p : Int) : TimeParts := ⟨numberAt v t, numberAt v t, some (numberAt v t), some (numberAt v t), parenSub t seps, some (charSub t p)⟩

/-- Seconds below 60, and milliseconds below 1000; what follows would not continue them. -/
def SecondsFit (seps : List Int) (p : Int) (post : List Int) : Option (List Int × Option (List Int)) → Prop
  | none => ∀ c, post.head? = some c → seps.idxOf? c = none
  | some (x, none) => NumberText x ∧ number x < 60 ∧ post.head? ≠ some p
  | some (x, some y) => NumberText x ∧ number x < 60 ∧ NumberText y ∧ number y < 1000

theorem sep_here {t pre post seps : List Int} {s : Int} {h : Nat} (ht : t = pre ++ s :: post) (hs : seps.idxOf? s = some h) : parenSub t seps pre.length = some (pre.length + 1, h) := by
  unfold parenSub
  rw [at_end ht, List.head?_cons]
  dsimp only
  rw [hs]; rfl

theorem noDigit_cons {s : Int} {l : List Int} (hd : ¬ (48 ≤ s ∧ s ≤ 57)) : NoDigit (s :: l) := fun c hc => by
  rw [List.head?_cons] at hc; cases hc; exact hd

theorem timeMs_none {c : TimeParts} {e : Nat} (h : opt c.msSep e = none) : timeMs c e = (none, e) := by unfold timeMs; rw [h]

theorem timeMs_some {c : TimeParts} {e e1 e2 x : Nat} (h : opt c.msSep e = some e1) (h2 : optV c.ms e1 = some (e2, x)) (hx : x < 1000) : timeMs c e = (some (e1, e2, x), e2) := by
  unfold timeMs; rw [h]; dsimp only; rw [h2]; dsimp only; rw [if_pos hx]

theorem timeSec_none {c : TimeParts} {h e : Nat} (q : c.sep e = none) : timeSec c h e = (none, none, e) := by unfold timeSec; rw [q]

theorem timeSec_some {c : TimeParts} {h e e1 e2 x : Nat} (q : c.sep e = some (e1, h)) (q2 : optV c.second e1 = some (e2, x)) (hx : x < 60) : timeSec c h e = (some (e1, e2, x), timeMs c e2) := by
  unfold timeSec; rw [q]; dsimp only; rw [if_pos rfl, q2]; dsimp only; rw [if_pos hx]

/-- **C164** (time) Hours and minutes below 60, with seconds below 60 after the same separator and milliseconds below 1000 after a point if they are written, are read: they have their numbers,
are where these are written, and the time is the whole of it. -/
theorem time_written {v : Env} {t pre h m post seps : List Int} {r : Option (List Int × Option (List Int))} {s p : Int} {k : Nat} (hv : v.Ok t) (ht : t = pre ++ writeTime s p h m r ++ post)
    (hh : NumberText h) (hm : NumberText m) (m60 : number m < 60) (hr : SecondsFit seps p post r) (hs : seps.idxOf? s = some k) (hd : ¬ (48 ≤ s ∧ s ≤ 57)) (pd : ¬ (48 ≤ p ∧ p ≤ 57))
    (hp : NoDigit post) (old : Time) :
    ∃ o, time (timeParts v t seps p) pre.length old = (true, o) ∧ o.interval = some (pre.length, pre.length + (writeTime s p h m r).length) ∧
      ReadsField t o.hour (some h) ∧ ReadsField t o.minute (some m) ∧ ReadsField t o.second (r.map Prod.fst) ∧ ReadsField t o.ms (r.bind Prod.snd) := by
  have R : NoDigit (writeSeconds s p r ++ post) := by
    rcases r with _ | ⟨x, _ | y⟩
    · exact hp
    · exact noDigit_cons hd
    · exact noDigit_cons hd
  unfold writeTime at ht ⊢
  have eh : numberAt v t pre.length = some (pre.length + h.length, number h) := number_at hv (post := s :: m ++ writeSeconds s p r ++ post) (by rw [ht]; simp) hh (noDigit_cons hd)
  have es : parenSub t seps (pre.length + h.length) = some (pre.length + h.length + 1, k) := by
    have := sep_here (t := t) (pre := pre ++ h) (post := m ++ writeSeconds s p r ++ post) (by rw [ht]; simp) hs
    rw [List.length_append] at this
    exact this
  have em : numberAt v t (pre.length + h.length + 1) = some (pre.length + h.length + 1 + m.length, number m) := by
    have := number_at hv (pre := pre ++ h ++ [s]) (w := m) (post := writeSeconds s p r ++ post) (by rw [ht]; simp) hm R
    rw [List.length_append, List.length_append, List.length_singleton] at this
    exact this
  have rh : ReadsField t (some (pre.length, pre.length + h.length, number h)) (some h) := reads_field (post := s :: m ++ writeSeconds s p r ++ post) (by rw [ht]; simp)
  have rm : ReadsField t (some (pre.length + h.length + 1, pre.length + h.length + 1 + m.length, number m)) (some m) := by
    have := reads_field (t := t) (pre := pre ++ h ++ [s]) (w := m) (post := writeSeconds s p r ++ post) (by rw [ht]; simp)
    unfold field1 at this
    rw [List.length_append, List.length_append, List.length_singleton] at this
    exact this
  have go : ∀ x y j, timeSec (timeParts v t seps p) k (pre.length + h.length + 1 + m.length) = (x, y, j) → time (timeParts v t seps p) pre.length old =
      (true, ⟨some (pre.length, pre.length + h.length, number h), some (pre.length + h.length + 1, pre.length + h.length + 1 + m.length, number m), x, y, some (pre.length, j)⟩) := by
    intro x y j q
    have a1 : (timeParts v t seps p).hour pre.length = _ := eh
    have a2 : (timeParts v t seps p).sep (pre.length + h.length) = _ := es
    have a3 : (timeParts v t seps p).minute (pre.length + h.length + 1) = _ := em
    unfold time
    rw [a1]; dsimp only
    rw [a2]; dsimp only
    rw [a3]; dsimp only
    rw [if_pos m60, q]
  rcases r with _ | ⟨x, _ | y⟩
  · have n : parenSub t seps (pre.length + h.length + 1 + m.length) = none := by
      have := at_end (t := t) (pre := pre ++ h ++ [s] ++ m) (post := post) (by rw [ht]; simp [writeSeconds])
      rw [List.length_append, List.length_append, List.length_append, List.length_singleton] at this
      unfold parenSub
      rw [this]
      cases hc : post.head? with
      | none => rfl
      | some c => dsimp only; rw [hr c hc]; rfl
    refine ⟨_, go _ _ _ (timeSec_none n), ?_, rh, rm, rfl, rfl⟩
    dsimp only
    congr 2
    simp [writeSeconds]; omega
  all_goals
    have e0 : parenSub t seps (pre.length + h.length + 1 + m.length) = some (pre.length + h.length + 1 + m.length + 1, k) := by
      have := sep_here (t := t) (pre := pre ++ h ++ [s] ++ m) (s := s) (seps := seps) (h := k) (by rw [ht]; simp [writeSeconds]; rfl) hs
      rw [List.length_append, List.length_append, List.length_append, List.length_singleton] at this
      exact this
  · obtain ⟨hx, x60, np⟩ := hr
    have tx : t = (pre ++ h ++ [s] ++ m ++ [s]) ++ x ++ post := by rw [ht]; simp [writeSeconds]
    have lx : (pre ++ h ++ [s] ++ m ++ [s]).length = pre.length + h.length + 1 + m.length + 1 := by simp; omega
    have ex := number_at hv tx hx hp
    have rx := reads_field tx
    unfold field1 at rx
    rw [lx] at ex rx
    have n : charSub t p (pre.length + h.length + 1 + m.length + 1 + x.length) = none := by
      have := at_end (t := t) (pre := (pre ++ h ++ [s] ++ m ++ [s]) ++ x) (post := post) tx
      rw [List.length_append, lx] at this
      unfold charSub
      rw [this, if_neg np]
    have q1 := timeSec_some (c := timeParts v t seps p) e0 ex x60
    rw [timeMs_none (c := timeParts v t seps p) n] at q1
    refine ⟨_, go _ _ _ q1, ?_, rh, rm, rx, rfl⟩
    dsimp only
    congr 2
    simp [writeSeconds]; omega
  · obtain ⟨hx, x60, hy, y1000⟩ := hr
    have tx : t = (pre ++ h ++ [s] ++ m ++ [s]) ++ x ++ (p :: y ++ post) := by rw [ht]; simp [writeSeconds]
    have lx : (pre ++ h ++ [s] ++ m ++ [s]).length = pre.length + h.length + 1 + m.length + 1 := by simp; omega
    have ex := number_at hv tx hx (noDigit_cons pd)
    have rx := reads_field tx
    unfold field1 at rx
    rw [lx] at ex rx
    have ty : t = (pre ++ h ++ [s] ++ m ++ [s] ++ x ++ [p]) ++ y ++ post := by rw [ht]; simp [writeSeconds]
    have ly : (pre ++ h ++ [s] ++ m ++ [s] ++ x ++ [p]).length = pre.length + h.length + 1 + m.length + 1 + x.length + 1 := by simp; omega
    have ey := number_at hv ty hy hp
    have ry := reads_field ty
    unfold field1 at ry
    rw [ly] at ey ry
    have n : charSub t p (pre.length + h.length + 1 + m.length + 1 + x.length) = some (pre.length + h.length + 1 + m.length + 1 + x.length + 1) := by
      have := at_end (t := t) (pre := (pre ++ h ++ [s] ++ m ++ [s]) ++ x) (post := p :: y ++ post) tx
      rw [List.length_append, lx, List.cons_append, List.head?_cons] at this
      unfold charSub
      rw [this, if_pos rfl]
    have q1 := timeSec_some (c := timeParts v t seps p) e0 ex x60
    rw [timeMs_some (c := timeParts v t seps p) n ey y1000] at q1
    refine ⟨_, go _ _ _ q1, ?_, rh, rm, rx, ry⟩
    dsimp only
    congr 2
    simp [writeSeconds]; omega

/-! ### Examples -/

/-- `on 2024-01-31.`: 2024 is no day, so that with the formats day, month, year and year, month, day it is the latter. -/
example : Chosen 5 .ymd [number (asc "2024"), number (asc "01"), number (asc "31")] ∧ NumberText (asc "2024") ∧ NumberText (asc "01") ∧ NumberText (asc "31") ∧ IsSep [45, 46] 45 0 ∧ NoDigit (asc ".") ∧
    asc "on 2024-01-31." = asc "on " ++ writeThree 45 (0, 0) (0, 0) (asc "2024") (asc "01") (asc "31") ++ asc "." := by
  have n1 : number (asc "2024") = 2024 := by decide +kernel
  have n2 : number (asc "01") = 1 := by decide +kernel
  have n3 : number (asc "31") = 31 := by decide +kernel
  refine ⟨⟨by decide, ⟨31, by decide, by rw [n2]; rfl, by rw [n3]; decide, by rw [n3]; decide⟩, fun g g1 g2 q => ?_⟩, ⟨by decide +kernel, by decide +kernel, by decide +kernel⟩,
    ⟨by decide +kernel, by decide +kernel, by decide +kernel⟩, ⟨by decide +kernel, by decide +kernel, by decide +kernel⟩, ⟨by decide, by decide⟩, ?_, by decide +kernel⟩
  · cases g with
    | dmy =>
      obtain ⟨l, _, a, _, b⟩ := q
      rw [n2] at a
      rw [n1] at b
      cases a
      omega
    | mdy => revert g1; decide
    | _ => revert g2; decide
  · intro c hc
    have : c = 46 := by simpa [asc] using hc.symm
    omega

/-- `31. 12. ` as a day and a month, which takes the last dot. -/
example : Chosen 0x20 .dm [number (asc "31"), number (asc "12")] ∧ asc "31. 12. " = [] ++ (writeTwo 46 (0, 1) (asc "31") (asc "12") ++ spread 46 (0, 0)) ++ asc " " ∧ NumberText (asc "12") ∧
    ∀ n q, asc " " = List.replicate n 32 ++ q → NoDigit q := by
  have n1 : number (asc "31") = 31 := by decide +kernel
  have n2 : number (asc "12") = 12 := by decide +kernel
  refine ⟨⟨by decide, ⟨31, by rw [n2]; decide, by rw [n2]; rfl, by rw [n1]; decide, by rw [n1]; decide⟩, fun g g1 g2 => ?_⟩, by decide +kernel, ⟨by decide +kernel, by decide +kernel, by decide +kernel⟩, ?_⟩
  · exfalso; cases g <;> first | (clear g2; revert g1; decide) | (revert g2; decide)
  · intro n q e c hc
    have m : c ∈ asc " " := by rw [e]; exact List.mem_append_right _ (List.mem_of_mem_head? hc)
    have : c = 32 := by simpa [asc] using m
    omega

/-- `7:05:59.250` -/
example : writeTime 58 46 (asc "7") (asc "05") (some (asc "59", some (asc "250"))) = asc "7:05:59.250" ∧ SecondsFit [58] 46 [] (some (asc "59", some (asc "250"))) ∧ [(58 : Int)].idxOf? 58 = some 0 :=
  ⟨by decide +kernel, ⟨⟨by decide +kernel, by decide +kernel, by decide +kernel⟩, by decide +kernel, ⟨by decide +kernel, by decide +kernel, by decide +kernel⟩, by decide +kernel⟩, by decide⟩

end Verif.Parser
