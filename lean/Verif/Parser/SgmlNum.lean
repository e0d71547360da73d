import Verif.Parser.SgmlIp
import Verif.Parser.Roman
import Verif.Parser.Numeral
/-
Numerals in SGML text (include/stdex/parser.hpp 1374-2337 with `sgml_…` elements): what is as in the decoded text, and what is not.
-/
namespace Verif.Parser
open Verif.Str Verif.Sgml

/-! ### Specification -/

/-- `f` takes positions up to `n` to positions, in order. -/
def Grows (f : Nat → Nat) (n : Nat) : Prop := ∀ i j, i < j → j ≤ n → f i < f j

/-- An element with a value: it matches at corresponding positions, up to corresponding ends, with the same value. -/
def MirrorsV (f : Nat → Nat) (n : Nat) (d' d : Nat → Option (Nat × Nat)) : Prop := ∀ k ≤ n, d' (f k) = (d k).map (fun p => (f p.1, p.2)) ∧ ∀ p, d k = some p → p.1 ≤ n

/-- The digits of an interval are written plainly: it has as many code units as it has characters. -/
def PlainIn (f : Nat → Nat) (iv : Iv) : Prop := ∀ a b, iv = some (a, b) → f b - f a = b - a

def signsf (f : Nat → Nat) (s : Signs) : Signs := ⟨ivf f s.pos, ivf f s.neg, ivf f s.spc⟩
def fracf (f : Nat → Nat) (x : Fraction) : Fraction := ⟨ivf f x.numerator, ivf f x.line, ivf f x.denominator, ivf f x.interval⟩
def signedf (f : Nat → Nat) (x : Signed) : Signed := ⟨signsf f x.signs, ivf f x.number, ivf f x.interval⟩
def mixedf (f : Nat → Nat) (x : Mixed) : Mixed := ⟨signsf f x.signs, ivf f x.integer, ivf f x.fraction, ivf f x.interval⟩
def moneyf (f : Nat → Nat) (x : Money) : Money := ⟨signsf f x.signs, ivf f x.currency, ivf f x.integer, ivf f x.sep, ivf f x.decimal, ivf f x.interval⟩
/-- All but the value. -/
def scif (f : Nat → Nat) (x : Sci) (value : Option Rat) : Sci :=
  ⟨signsf f x.signs, ivf f x.integer, ivf f x.sep, ivf f x.decimal, ivf f x.expSym, ivf f x.expPos, ivf f x.expNeg, ivf f x.exponent, ivf f x.interval, value⟩

inductive OptMirrorsV (f : Nat → Nat) (n : Nat) : Option (Nat → Option (Nat × Nat)) → Option (Nat → Option (Nat × Nat)) → Prop
  | absent : OptMirrorsV f n none none
  | given {a' a : Nat → Option (Nat × Nat)} : MirrorsV f n a' a → OptMirrorsV f n (some a') (some a)

structure SciMirrors (f : Nat → Nat) (n : Nat) (c' c : SciParts) : Prop where
  pos : OptMirrors f n c'.pos c.pos
  neg : OptMirrors f n c'.neg c.neg
  spc : OptMirrors f n c'.spc c.spc
  integer : MirrorsV f n c'.integer c.integer
  sep : Mirrors f n c'.sep c.sep
  decimal : MirrorsV f n c'.decimal c.decimal
  expSym : OptMirrors f n c'.expSym c.expSym
  expPos : OptMirrors f n c'.expPos c.expPos
  expNeg : OptMirrors f n c'.expNeg c.expNeg
  exponent : OptMirrorsV f n c'.exponent c.exponent

/-! ### Proofs -/

theorem along_grows {v u : Env} {t w : List Int} {f : Nat → Nat} (hf : Along v t u w f) : Grows f w.length := fun _ _ h hj => along_lt hf h hj

theorem grows_le {f : Nat → Nat} {n : Nat} (h : Grows f n) {i j : Nat} (l : i ≤ j) (hj : j ≤ n) : f i ≤ f j := by
  rcases Nat.lt_or_eq_of_le l with q | q
  · exact Nat.le_of_lt (h i j q hj)
  · rw [q]; exact Nat.le_refl _

theorem grows_ge {f : Nat → Nat} {n : Nat} (h : Grows f n) : ∀ j ≤ n, j ≤ f j := by
  intro j
  induction j with
  | zero => intro _; omega
  | succ j ih => intro hj; have := h j (j + 1) (by omega) hj; have := ih (by omega); omega

theorem grows_iff {f : Nat → Nat} {n : Nat} (h : Grows f n) {i j : Nat} (hi : i ≤ n) (hj : j ≤ n) : f i ≤ f j ↔ i ≤ j := by
  constructor
  · intro q
    apply Classical.byContradiction
    intro x
    have := h j i (by omega) hi
    omega
  · intro q; exact grows_le h q hj

theorem opt'_mirrors {f : Nat → Nat} {n : Nat} {a' a : Option Sub} (h : OptMirrors f n a' a) : Mirrors f n (opt a') (opt a) := by
  cases h with
  | absent => exact fun k _ => ⟨rfl, fun j x => by cases x⟩
  | given h => exact h

theorem optV_mirrors {f : Nat → Nat} {n : Nat} {a' a : Option (Nat → Option (Nat × Nat))} (h : OptMirrorsV f n a' a) : MirrorsV f n (optV a') (optV a) := by
  cases h with
  | absent => exact fun k _ => ⟨rfl, fun j x => by cases x⟩
  | given h => exact h

/-- The ends of the matches of an element with a value. -/
theorem mirrorsV_ends {f : Nat → Nat} {n : Nat} {d' d : Nat → Option (Nat × Nat)} (h : MirrorsV f n d' d) : Mirrors f n (fun i => (d' i).map Prod.fst) (fun i => (d i).map Prod.fst) := by
  intro k hk
  have ⟨a, b⟩ := h k hk
  dsimp only
  rw [a]
  cases q : d k with
  | none => exact ⟨rfl, fun j x => by cases x⟩
  | some p => exact ⟨rfl, fun j x => by cases x; exact b p q⟩

/-- **C145** (integers) As an element of other parsers. -/
theorem integer_mirrorsV {v u : Env} {t w : List Int} {f : Nat → Nat} (hf : Along v t u w f) (b : Nat) {ds' ds : List Sub} (h : AllMirror f w.length ds' ds) (ho : Onward w.length ds) :
    MirrorsV f w.length (fun i => (integer v b ds' i).join) (fun i => (integer u b ds i).join) := by
  intro k hk
  have ⟨l1, l2⟩ := along_len hf
  obtain ⟨e, y, a, a', l, l'⟩ := intLoop_mirrors hf b h ho _ (v.s.length + 2) (u.s.length + 2) k 0 rfl hk (by omega) (by omega)
  dsimp only [integer]
  rw [a, a']
  dsimp only
  by_cases q : k < e
  · rw [if_pos q, if_pos (along_lt hf q l')]; exact ⟨rfl, fun p x => by cases x; exact l'⟩
  · have : k = e := by omega
    subst this
    rw [if_neg q, if_neg (by omega)]; exact ⟨rfl, fun p x => by cases x⟩

theorem romanLoop_mirrors {v u : Env} {t w : List Int} {f : Nat → Nat} (hf : Along v t u w f) {ds' ds : List Sub} (h : AllMirror f w.length ds' ds) (ho : Onward w.length ds) :
    ∀ (d fuel' fuel k : Nat) (x : RSt), w.length - k = d → k ≤ w.length → t.length - f k < fuel' → w.length - k < fuel →
      ∃ e y, romanLoop u ds fuel k x = some (e, y) ∧ romanLoop v ds' fuel' (f k) x = some (f e, y) ∧ k ≤ e ∧ e ≤ w.length := by
  intro d
  induction d using Nat.strongRecOn with
  | _ d ih =>
    intro fuel' fuel k x hd hk hl' hl
    cases fuel' with
    | zero => omega
    | succ fuel' =>
    cases fuel with
    | zero => omega
    | succ fuel =>
      rcases along_cond hf hk with ⟨lt, ⟨c', e'⟩, ⟨c, e⟩⟩ | ⟨eq, e', e⟩
      · have ⟨a, _⟩ := firstOf_mirrors h 0 k hk
        simp only [romanLoop, e, e', a]
        cases q : firstOf ds 0 k with
        | none => exact ⟨k, _, rfl, rfl, Nat.le_refl _, hk⟩
        | some p =>
          have l := firstOf_onward ho hk q
          have m := along_lt hf l.1 l.2
          have tl := along_le hf l.2
          simp only [Option.map_some]
          cases q2 : romanStep (romanVal p.1) x with
          | none => exact ⟨k, _, rfl, rfl, Nat.le_refl _, hk⟩
          | some s' =>
            obtain ⟨e2, y, r1, r2, r3, r4⟩ := ih (w.length - p.2) (by omega) fuel' fuel p.2 s' rfl l.2 (by omega) (by omega)
            exact ⟨e2, y, r1, r2, by omega, r4⟩
      · simp only [romanLoop, e, e']
        exact ⟨k, _, rfl, rfl, Nat.le_refl _, hk⟩

/-- **C145** (Roman numerals) `sgml_roman_numeral` finds the number of the decoded text. -/
theorem roman_mirrors {v u : Env} {t w : List Int} {f : Nat → Nat} (hf : Along v t u w f) {ds' ds : List Sub} (h : AllMirror f w.length ds' ds) (ho : Onward w.length ds) {k : Nat} (hk : k ≤ w.length) :
    ∃ r, roman u ds k = some r ∧ roman v ds' (f k) = some (r.map fun p => (f p.1, p.2)) ∧ ∀ p, r = some p → p.1 ≤ w.length := by
  have ⟨l1, l2⟩ := along_len hf
  obtain ⟨e, y, a, a', l, l'⟩ := romanLoop_mirrors hf h ho _ (v.s.length + 2) (u.s.length + 2) k romanInit rfl hk (by omega) (by omega)
  unfold roman
  rw [a, a']
  dsimp only
  by_cases q : y ≠ 0
  · rw [if_pos q, if_pos q]; exact ⟨_, rfl, rfl, fun p x => by cases x; exact l'⟩
  · rw [if_neg q, if_neg q]; exact ⟨_, rfl, rfl, fun p x => by cases x⟩

theorem signs_mirrors {f : Nat → Nat} {n : Nat} {p' p m' m s' s : Option Sub} (hp : OptMirrors f n p' p) (hm : OptMirrors f n m' m) (hs : OptMirrors f n s' s) (o' o : Signs) {k : Nat} (hk : k ≤ n) :
    signs p' m' s' (f k) o' = (signsf f (signs p m s k o).1, f (signs p m s k o).2) ∧ (signs p m s k o).2 ≤ n := by
  have ⟨a1, a2⟩ := opt'_mirrors hp k hk
  have ⟨b1, b2⟩ := opt'_mirrors hm k hk
  have ⟨c1, c2⟩ := opt'_mirrors hs k hk
  unfold signs
  rw [a1, b1, c1]
  cases q1 : opt p k with
  | some e => exact ⟨rfl, a2 e q1⟩
  | none =>
    cases q2 : opt m k with
    | some e => exact ⟨rfl, b2 e q2⟩
    | none =>
      cases q3 : opt s k with
      | some e => exact ⟨rfl, c2 e q3⟩
      | none => exact ⟨rfl, hk⟩

/-- **C145** (fractions) -/
theorem fraction_mirrors {f : Nat → Nat} {n : Nat} {a' a l' l d' d : Sub} (ha : Mirrors f n a' a) (hl : Mirrors f n l' l) (hd : Mirrors f n d' d) (o' o : Fraction) {k : Nat} (hk : k ≤ n) :
    fraction a' l' d' (f k) o' = ((fraction a l d k o).1, fracf f (fraction a l d k o).2) := by
  have ⟨a1, a2⟩ := ha k hk
  unfold fraction
  rw [a1]
  cases q1 : a k with
  | none => rfl
  | some e1 =>
    have ⟨b1, b2⟩ := hl e1 (a2 e1 q1)
    simp only [Option.map_some]
    rw [b1]
    cases q2 : l e1 with
    | none => rfl
    | some e2 =>
      have ⟨c1, c2⟩ := hd e2 (b2 e2 q2)
      simp only [Option.map_some]
      rw [c1]
      cases q3 : d e2 <;> rfl

theorem spaces_mirrors {f : Nat → Nat} {n : Nat} {s' s : Sub} (hs : Mirrors f n s' s) (ht : Takes n s) : ∀ (d k fuel' fuel : Nat), n - k = d → k ≤ n → d < fuel' → d < fuel →
    ∃ e, spaces s fuel k = some e ∧ spaces s' fuel' (f k) = some (f e) ∧ k ≤ e ∧ e ≤ n := by
  intro d
  induction d using Nat.strongRecOn with
  | _ d ih =>
    intro k fuel' fuel hd hk hl' hl
    cases fuel' with
    | zero => omega
    | succ fuel' =>
    cases fuel with
    | zero => omega
    | succ fuel =>
      have ⟨a, _⟩ := hs k hk
      simp only [spaces]
      rw [a]
      cases q : s k with
      | none => exact ⟨k, rfl, rfl, Nat.le_refl _, hk⟩
      | some e =>
        have l := ht k hk e q
        obtain ⟨e2, r1, r2, r3, r4⟩ := ih (n - e) (by omega) e fuel' fuel rfl l.2 (by omega) (by omega)
        exact ⟨e2, r1, r2, by omega, r4⟩

/-- **C145** (scores) -/
theorem score_mirrors {f : Nat → Nat} {n n' : Nat} (hn : n ≤ n') {a' a p' p g' g s' s : Sub} (ha : Mirrors f n a' a) (hp : Mirrors f n p' p) (hg : Mirrors f n g' g) (hs : Mirrors f n s' s) (ht : Takes n s)
    (o' o : Fraction) {k : Nat} (hk : k ≤ n) :
    ∃ b x, score n a p g s k o = some (b, x) ∧ score n' a' p' g' s' (f k) o' = some (b, fracf f x) := by
  have ⟨a1, a2⟩ := ha k hk
  unfold score
  rw [a1]
  cases q1 : a k with
  | none => exact ⟨_, _, rfl, rfl⟩
  | some e1 =>
    obtain ⟨e2, s1, s2, s3, s4⟩ := spaces_mirrors hs ht _ e1 (n' + 1) (n + 1) rfl (a2 e1 q1) (by omega) (by omega)
    simp only [Option.map_some]
    rw [s1, s2]
    have ⟨b1, b2⟩ := hp e2 s4
    dsimp only
    rw [b1]
    cases q2 : p e2 with
    | none => exact ⟨_, _, rfl, rfl⟩
    | some e3 =>
      obtain ⟨e4, t1, t2, t3, t4⟩ := spaces_mirrors hs ht _ e3 (n' + 1) (n + 1) rfl (b2 e3 q2) (by omega) (by omega)
      simp only [Option.map_some]
      rw [t1, t2]
      have ⟨c1, c2⟩ := hg e4 t4
      dsimp only
      rw [c1]
      cases q3 : g e4 <;> exact ⟨_, _, rfl, rfl⟩

/-- **C145** (signed numerals) -/
theorem signed_mirrors {f : Nat → Nat} {n : Nat} {p' p m' m s' s : Option Sub} {d' d : Sub} (hp : OptMirrors f n p' p) (hm : OptMirrors f n m' m) (hs : OptMirrors f n s' s) (hd : Mirrors f n d' d)
    (o' o : Signed) {k : Nat} (hk : k ≤ n) :
    signed p' m' s' d' (f k) o' = ((signed p m s d k o).1, signedf f (signed p m s d k o).2) := by
  have ⟨a1, a2⟩ := signs_mirrors hp hm hs o'.signs o.signs hk
  unfold signed
  rw [a1]
  have ⟨b1, b2⟩ := hd _ a2
  dsimp only
  rw [b1]
  cases q : d (signs p m s k o.signs).2 <;> rfl

/-- **C145** (mixed numerals) -/
theorem mixed_mirrors {f : Nat → Nat} {n n' : Nat} (hn : n ≤ n') {p' p m' m s' s : Option Sub} {d' d z' z r' r : Sub} (hp : OptMirrors f n p' p) (hm : OptMirrors f n m' m) (hs : OptMirrors f n s' s)
    (hd : Mirrors f n d' d) (hz : Mirrors f n z' z) (ht : Takes n z) (hr : Mirrors f n r' r) (o' o : Mixed) {k : Nat} (hk : k ≤ n) :
    ∃ b x, mixed n p m s d z r k o = some (b, x) ∧ mixed n' p' m' s' d' z' r' (f k) o' = some (b, mixedf f x) := by
  have ⟨a1, a2⟩ := signs_mirrors hp hm hs o'.signs o.signs hk
  unfold mixed
  rw [a1]
  generalize signs p m s k o.signs = g at a2 ⊢
  obtain ⟨g, e⟩ := g
  dsimp only at a2 ⊢
  have ⟨b1, b2⟩ := hd e a2
  have ⟨c1, c2⟩ := hr e a2
  have rest : ∃ b x, (match r e with
      | some e' => some (true, (⟨g, none, some (e, e'), some (k, e')⟩ : Mixed))
      | none => match d e with
        | some e' => some (true, ⟨g, some (e, e'), none, some (k, e')⟩)
        | none => some (false, ⟨⟨none, none, none⟩, none, none, none⟩)) = some (b, x) ∧
      (match (r e).map f with
      | some e' => some (true, (⟨signsf f g, none, some (f e, e'), some (f k, e')⟩ : Mixed))
      | none => match (d e).map f with
        | some e' => some (true, ⟨signsf f g, some (f e, e'), none, some (f k, e')⟩)
        | none => some (false, ⟨⟨none, none, none⟩, none, none, none⟩)) = some (b, mixedf f x) := by
    cases q1 : r e with
    | some e' => exact ⟨_, _, rfl, rfl⟩
    | none => cases q2 : d e <;> exact ⟨_, _, rfl, rfl⟩
  rw [b1, c1]
  cases q1 : d e with
  | none => rw [q1] at rest; exact rest
  | some e1 =>
    have ⟨d1, d2⟩ := hz e1 (b2 e1 q1)
    simp only [Option.map_some]
    rw [d1]
    cases q2 : z e1 with
    | none => rw [q1] at rest; exact rest
    | some e2 =>
      obtain ⟨e3, s1, s2, s3, s4⟩ := spaces_mirrors hz ht _ e2 (n' + 1) (n + 1) rfl (d2 e2 q2) (by omega) (by omega)
      simp only [Option.map_some]
      rw [s1, s2]
      have ⟨f1, f2⟩ := hr e3 s4
      dsimp only
      rw [f1]
      cases q3 : r e3 <;> exact ⟨_, _, rfl, rfl⟩

theorem void_mirrors {f : Nat → Nat} {n : Nat} (h : Grows f n) {iv : Iv} (hi : ∀ a b, iv = some (a, b) → a ≤ n ∧ b ≤ n) : (ivf f iv).void = iv.void := by
  cases iv with
  | none => rfl
  | some p =>
    have ⟨l1, l2⟩ := hi p.1 p.2 rfl
    show decide (f p.1 ≥ f p.2) = decide (p.1 ≥ p.2)
    exact decide_eq_decide.2 (grows_iff h l2 l1)

/-- **C145** (monetary numerals) -/
theorem monetary_mirrors {f : Nat → Nat} {n : Nat} (hf : Grows f n) {p' p m' m s' s c' c a' a e' e d' d : Sub} (hp : Mirrors f n p' p) (hm : Mirrors f n m' m) (hs : Mirrors f n s' s) (hc : Mirrors f n c' c)
    (ha : Mirrors f n a' a) (he : Mirrors f n e' e) (hd : Mirrors f n d' d) (o' o : Money) {k : Nat} (hk : k ≤ n) :
    monetary p' m' s' c' a' e' d' (f k) o' = ((monetary p m s c a e d k o).1, moneyf f (monetary p m s c a e d k o).2) := by
  have ⟨a1, a2⟩ := signs_mirrors (.given hp) (.given hm) (.given hs) o'.signs o.signs hk
  unfold monetary
  rw [a1]
  generalize signs (some p) (some m) (some s) k o.signs = g at a2 ⊢
  obtain ⟨g, e0⟩ := g
  dsimp only at a2 ⊢
  have ⟨b1, b2⟩ := hc e0 a2
  rw [b1]
  cases q1 : c e0 with
  | none => rfl
  | some e1 =>
    have l1 := b2 e1 q1
    have ⟨c1, c2⟩ := ha e1 l1
    simp only [Option.map_some]
    rw [c1]
    have key : ∀ (x : Iv × Nat), (∀ i j, x.1 = some (i, j) → i ≤ n ∧ j ≤ n) → x.2 ≤ n →
        (let y := (ivf f x.1, f x.2)
         let z : Iv × Iv × Nat := match e' y.2 with
          | none => (none, none, y.2)
          | some e1 => match d' e1 with
            | none => (none, none, y.2)
            | some e2 => (some (y.2, e1), some (e1, e2), e2)
         if y.1.void && z.2.1.void then (false, (⟨⟨none, none, none⟩, none, none, none, none, none⟩ : Money))
         else (true, ⟨signsf f g, some (f e0, f e1), y.1, z.1, z.2.1, some (f k, z.2.2)⟩)) =
        (let z : Iv × Iv × Nat := match e x.2 with
          | none => (none, none, x.2)
          | some e1 => match d e1 with
            | none => (none, none, x.2)
            | some e2 => (some (x.2, e1), some (e1, e2), e2)
         let r := if x.1.void && z.2.1.void then (false, (⟨⟨none, none, none⟩, none, none, none, none, none⟩ : Money))
         else (true, ⟨g, some (e0, e1), x.1, z.1, z.2.1, some (k, z.2.2)⟩)
         (r.1, moneyf f r.2)) := by
      intro x hx lx
      have ⟨d1, d2⟩ := he x.2 lx
      dsimp only
      rw [d1, void_mirrors hf hx]
      have fin : ∀ z : Iv × Iv × Nat, (∀ i j, z.2.1 = some (i, j) → i ≤ n ∧ j ≤ n) →
          (if x.1.void && (ivf f z.2.1).void then (false, (⟨⟨none, none, none⟩, none, none, none, none, none⟩ : Money))
           else (true, ⟨signsf f g, some (f e0, f e1), ivf f x.1, ivf f z.1, ivf f z.2.1, some (f k, f z.2.2)⟩)) =
          (let r := if x.1.void && z.2.1.void then (false, (⟨⟨none, none, none⟩, none, none, none, none, none⟩ : Money))
           else (true, ⟨g, some (e0, e1), x.1, z.1, z.2.1, some (k, z.2.2)⟩)
           (r.1, moneyf f r.2)) := by
        intro z hz
        rw [void_mirrors hf hz]
        dsimp only
        by_cases q : (x.1.void && z.2.1.void) = true
        · rw [if_pos q, if_pos q]; rfl
        · rw [if_neg q, if_neg q]; rfl
      cases q2 : e x.2 with
      | none => exact fin (none, none, x.2) (fun i j q => by cases q)
      | some e2 =>
        have ⟨f1, f2⟩ := hd e2 (d2 e2 q2)
        simp only [Option.map_some]
        rw [f1]
        cases q3 : d e2 with
        | none => exact fin (none, none, x.2) (fun i j q => by cases q)
        | some e3 => exact fin (some (x.2, e2), some (e2, e3), e3) (fun i j q => by cases q; exact ⟨d2 e2 q2, f2 e3 q3⟩)
    cases q2 : a e1 with
    | none => exact key (none, e1) (fun i j q => by cases q) l1
    | some e2 => exact key (some (e1, e2), e2) (fun i j q => by cases q; exact ⟨l1, c2 e2 q2⟩) (c2 e2 q2)

def expf (f : Nat → Nat) (x : ExpOut) : ExpOut := ⟨ivf f x.sym, ivf f x.pos, ivf f x.neg, ivf f x.exp, x.value, f x.fin⟩

theorem expNegative_mirrors {f : Nat → Nat} {n : Nat} {c' c : SciParts} (h : SciMirrors f n c' c) {k : Nat} (hk : k ≤ n) : expNegative c' (f k) = expf f (expNegative c k) := by
  have ⟨a1, a2⟩ := opt'_mirrors h.expSym k hk
  unfold expNegative
  rw [a1]
  cases q1 : opt c.expSym k with
  | none => rfl
  | some e1 =>
    have ⟨b1, b2⟩ := opt'_mirrors h.expNeg e1 (a2 e1 q1)
    simp only [Option.map_some]
    rw [b1]
    cases q2 : opt c.expNeg e1 with
    | none => rfl
    | some e2 =>
      have ⟨c1, c2⟩ := optV_mirrors h.exponent e2 (b2 e2 q2)
      simp only [Option.map_some]
      rw [c1]
      cases q3 : optV c.exponent e2 <;> rfl

theorem expPlain_mirrors {f : Nat → Nat} {n : Nat} {c' c : SciParts} (h : SciMirrors f n c' c) {k e : Nat} (hk : k ≤ n) (he : e ≤ n) (pos : Iv) :
    expPlain c' (f k) (f e) (ivf f pos) = expf f (expPlain c k e pos) := by
  have ⟨a1, a2⟩ := optV_mirrors h.exponent e he
  unfold expPlain
  rw [a1]
  cases q1 : optV c.exponent e with
  | none => exact expNegative_mirrors h hk
  | some e1 => rfl

theorem expPart_mirrors {f : Nat → Nat} {n : Nat} {c' c : SciParts} (h : SciMirrors f n c' c) {k : Nat} (hk : k ≤ n) : expPart c' (f k) = expf f (expPart c k) := by
  have ⟨a1, a2⟩ := opt'_mirrors h.expSym k hk
  unfold expPart
  rw [a1]
  cases q1 : opt c.expSym k with
  | none => exact expNegative_mirrors h hk
  | some e1 =>
    have l1 := a2 e1 q1
    have ⟨b1, b2⟩ := opt'_mirrors h.expPos e1 l1
    simp only [Option.map_some]
    rw [b1]
    cases q2 : opt c.expPos e1 with
    | none => exact expPlain_mirrors h hk l1 none
    | some e2 =>
      have ⟨c1, c2⟩ := optV_mirrors h.exponent e2 (b2 e2 q2)
      simp only [Option.map_some]
      rw [c1]
      cases q3 : optV c.exponent e2 with
      | none => exact expPlain_mirrors h hk l1 (some (e1, e2))
      | some e3 => rfl

theorem decPart_mirrors {f : Nat → Nat} {n : Nat} {c' c : SciParts} (h : SciMirrors f n c' c) {k : Nat} (hk : k ≤ n) :
    decPart c' (f k) = (ivf f (decPart c k).1, ivf f (decPart c k).2.1, (decPart c k).2.2.1, f (decPart c k).2.2.2) ∧ (decPart c k).2.2.2 ≤ n ∧ ∀ i j, (decPart c k).2.1 = some (i, j) → i ≤ n ∧ j ≤ n := by
  have ⟨a1, a2⟩ := h.sep k hk
  unfold decPart
  rw [a1]
  cases q1 : c.sep k with
  | none => exact ⟨rfl, hk, fun i j q => by cases q⟩
  | some e1 =>
    have ⟨b1, b2⟩ := h.decimal e1 (a2 e1 q1)
    simp only [Option.map_some]
    rw [b1]
    cases q2 : c.decimal e1 with
    | none => exact ⟨rfl, hk, fun i j q => by cases q⟩
    | some p => exact ⟨rfl, b2 p q2, fun i j q => by cases q; exact ⟨a2 e1 q1, b2 p q2⟩⟩

theorem ivf_isSome (f : Nat → Nat) (iv : Iv) : (ivf f iv).isSome = iv.isSome := by cases iv <;> rfl

theorem sciValue_mirrors {f : Nat → Nat} (ival : Nat) (dec : Iv) (dval : Nat) (neg exp expNeg : Iv) (eval : Nat) (hd : PlainIn f dec) :
    sciValue ival (ivf f dec) dval (ivf f neg) (ivf f exp) (ivf f expNeg) eval = sciValue ival dec dval neg exp expNeg eval := by
  have : (ivf f dec).size = dec.size := by
    cases dec with
    | none => rfl
    | some p => exact hd p.1 p.2 rfl
  unfold sciValue
  rw [this, ivf_isSome, ivf_isSome, ivf_isSome, ivf_isSome]

/-- **C145** (scientific numerals) `sgml_scientific_numeral` finds the numeral of the decoded text, part by part, with the same value if the decimals are written plainly: the value divides by ten to the number of
code units of the decimals (2187), see `sgml_decimals_scaled`. -/
theorem scientific_mirrors_partial {f : Nat → Nat} {n : Nat} (hf : Grows f n) {c' c : SciParts} (h : SciMirrors f n c' c) (o' o : Sci) {k : Nat} (hk : k ≤ n) :
    ∃ value, scientific c' (f k) o' = ((scientific c k o).1, scif f (scientific c k o).2 value) ∧
      ((scientific c k o).1 = true → PlainIn f (scientific c k o).2.decimal → value = (scientific c k o).2.value) := by
  have ⟨a1, a2⟩ := signs_mirrors h.pos h.neg h.spc o'.signs o.signs hk
  unfold scientific
  rw [a1]
  generalize signs c.pos c.neg c.spc k o.signs = g at a2 ⊢
  obtain ⟨g, e⟩ := g
  dsimp only at a2 ⊢
  have ⟨b1, b2⟩ := h.integer e a2
  rw [b1]
  have key : ∀ (x : Iv × Nat × Nat), (∀ i j, x.1 = some (i, j) → i ≤ n ∧ j ≤ n) → x.2.2 ≤ n →
      ∃ value, (if (ivf f x.1).void && (decPart c' (f x.2.2)).2.1.void then
          (false, (⟨⟨none, none, none⟩, none, none, none, none, none, none, none, none, o'.value⟩ : Sci))
        else
          let y := expPart c' (decPart c' (f x.2.2)).2.2.2
          (true, ⟨signsf f g, ivf f x.1, (decPart c' (f x.2.2)).1, (decPart c' (f x.2.2)).2.1, y.sym, y.pos, y.neg, y.exp, some (f k, y.fin),
            some (sciValue x.2.1 (decPart c' (f x.2.2)).2.1 (decPart c' (f x.2.2)).2.2.1 (signsf f g).neg y.exp y.neg y.value)⟩)) =
        (let r : Bool × Sci := if x.1.void && (decPart c x.2.2).2.1.void then (false, ⟨⟨none, none, none⟩, none, none, none, none, none, none, none, none, o.value⟩)
          else
            let y := expPart c (decPart c x.2.2).2.2.2
            (true, ⟨g, x.1, (decPart c x.2.2).1, (decPart c x.2.2).2.1, y.sym, y.pos, y.neg, y.exp, some (k, y.fin),
              some (sciValue x.2.1 (decPart c x.2.2).2.1 (decPart c x.2.2).2.2.1 g.neg y.exp y.neg y.value)⟩)
         (r.1, scif f r.2 value)) ∧
        (let r : Bool × Sci := if x.1.void && (decPart c x.2.2).2.1.void then (false, ⟨⟨none, none, none⟩, none, none, none, none, none, none, none, none, o.value⟩)
          else
            let y := expPart c (decPart c x.2.2).2.2.2
            (true, ⟨g, x.1, (decPart c x.2.2).1, (decPart c x.2.2).2.1, y.sym, y.pos, y.neg, y.exp, some (k, y.fin),
              some (sciValue x.2.1 (decPart c x.2.2).2.1 (decPart c x.2.2).2.2.1 g.neg y.exp y.neg y.value)⟩)
         r.1 = true → PlainIn f r.2.decimal → value = r.2.value) := by
    intro x hx lx
    have ⟨d1, d2, d3⟩ := decPart_mirrors h lx
    rw [d1]
    dsimp only
    rw [void_mirrors hf hx, void_mirrors hf d3, expPart_mirrors h d2]
    by_cases q : (x.1.void && (decPart c x.2.2).2.1.void) = true
    · rw [if_pos q, if_pos q]; exact ⟨o'.value, rfl, fun z => by cases z⟩
    · rw [if_neg q, if_neg q]
      refine ⟨_, rfl, fun _ hp => ?_⟩
      exact congrArg some (sciValue_mirrors _ _ _ _ _ _ _ hp)
  cases q1 : c.integer e with
  | none => exact key (none, 0, e) (fun i j q => by cases q) a2
  | some p => exact key (some (e, p.1), p.2, p.1) (fun i j q => by cases q; exact ⟨a2, b2 p q1⟩) (b2 p q1)

def groupedf (f : Nat → Nat) (g : Grouped) : Grouped := ⟨f g.fin, g.value, g.count, g.seps⟩

theorem tsLoop_mirrors {f : Nat → Nat} {n : Nat} {d' d s' s : Nat → Option (Nat × Nat)} (hd : MirrorsV f n d' d) (hs : MirrorsV f n s' s) (ht : TakesV n s)
    (hp : ∀ k j x, k ≤ n → d k = some (j, x) → f j - f k = j - k) : ∀ (r fuel' fuel : Nat) (hit : Option Nat) (g : Grouped), n - g.fin = r → g.fin ≤ n → r < fuel' → r < fuel →
      ∃ y, tsLoop d s fuel hit g = some y ∧ tsLoop d' s' fuel' hit (groupedf f g) = some (groupedf f y) ∧ y.fin ≤ n := by
  intro r
  induction r using Nat.strongRecOn with
  | _ r ih =>
    intro fuel' fuel hit g hr hg hl' hl
    cases fuel' with
    | zero => omega
    | succ fuel' =>
    cases fuel with
    | zero => omega
    | succ fuel =>
      have ⟨a1, a2⟩ := hs g.fin hg
      simp only [tsLoop]
      rw [show (groupedf f g).fin = f g.fin from rfl, a1]
      cases q1 : s g.fin with
      | none => exact ⟨g, rfl, rfl, hg⟩
      | some p =>
        obtain ⟨e1, h1⟩ := p
        have l1 := ht g.fin hg e1 h1 q1
        simp only [Option.map_some]
        by_cases c1 : hit = none ∨ hit = some h1
        · rw [if_pos c1, if_pos c1]
          have ⟨b1, b2⟩ := hd e1 l1.2
          rw [b1]
          cases q2 : d e1 with
          | none => exact ⟨g, rfl, rfl, hg⟩
          | some p2 =>
            obtain ⟨e2, x⟩ := p2
            have pl := hp e1 e2 x l1.2 q2
            have l2 : e2 ≤ n := b2 _ q2
            simp only [Option.map_some]
            rw [pl]
            by_cases c2 : e2 - e1 = 3
            · rw [if_pos c2, if_pos c2]
              obtain ⟨y, r1, r2, r3⟩ := ih (n - e2) (by omega) fuel' fuel (some h1) ⟨e2, (g.value * 1000 + x) % 2 ^ 64, g.count + 3, true⟩ rfl l2 (by omega) (by omega)
              exact ⟨y, r1, r2, r3⟩
            · rw [if_neg c2, if_neg c2]; exact ⟨g, rfl, rfl, hg⟩
        · rw [if_neg c1, if_neg c1]; exact ⟨g, rfl, rfl, hg⟩

/-- **C145** (thousand separators) `sgml_integer10ts` finds the integer of the decoded text if the digits are written plainly: the length of a group is measured in code units (1419, 1428), see `sgml_groups_lost`.
The separators may be entities. -/
theorem integerTs_mirrors_partial {f : Nat → Nat} {n n' : Nat} (hn : n ≤ n') {d' d s' s : Nat → Option (Nat × Nat)} (hd : MirrorsV f n d' d) (hs : MirrorsV f n s' s) (ht : TakesV n s)
    (hp : ∀ k j x, k ≤ n → d k = some (j, x) → f j - f k = j - k) {k : Nat} (hk : k ≤ n) :
    ∃ r, integerTs n d s k = some r ∧ integerTs n' d' s' (f k) = some (r.map (groupedf f)) := by
  have ⟨a1, a2⟩ := hd k hk
  unfold integerTs
  rw [a1]
  cases q : d k with
  | none => exact ⟨none, rfl, rfl⟩
  | some p =>
    obtain ⟨e, x⟩ := p
    simp only [Option.map_some]
    rw [hp k e x hk q]
    by_cases c : e - k ≤ 3
    · rw [if_pos c, if_pos c]
      obtain ⟨y, r1, r2, _⟩ := tsLoop_mirrors hd hs ht hp _ (n' + 1) (n + 1) none ⟨e, x, e - k, false⟩ rfl (a2 _ q) (by show n - e < n' + 1; omega) (by show n - e < n + 1; omega)
      rw [r1, show (⟨f e, x, e - k, false⟩ : Grouped) = groupedf f ⟨e, x, e - k, false⟩ from rfl, r2]
      exact ⟨some y, rfl, rfl⟩
    · rw [if_neg c, if_neg c]; exact ⟨_, rfl, rfl⟩

/-! ### Numerals of characters -/

/-- `sgml_cp` as an element -/
def scp (v : Env) (wd : Wide) (c : Int) : Sub := ends (sgmlCp v wd [c] false)
/-- `wcu` as an element -/
def wcp (u : Env) (c : Int) : Sub := ends (cu u c false)
/-- `sgml_integer10` with `sgml_cp` of the digits -/
def sgmlInt (v : Env) (wd : Wide) : Nat → Option (Nat × Nat) := fun i => (integer v 10 ((List.range 10).map fun k : Nat => scp v wd (48 + (k : Int))) i).join
/-- `winteger10` with `wcu` of the digits -/
def wideInt (u : Env) : Nat → Option (Nat × Nat) := fun i => (integer u 10 ((List.range 10).map fun k : Nat => wcp u (48 + (k : Int))) i).join
/-- `sgml_scientific_numeral` of digits, `+`, `-`, `.` and `e` -/
def sgmlSciOf (v : Env) (wd : Wide) : SciParts :=
  ⟨some (scp v wd 43), some (scp v wd 45), none, sgmlInt v wd, scp v wd 46, sgmlInt v wd, some (scp v wd 101), some (scp v wd 43), some (scp v wd 45), some (sgmlInt v wd)⟩
/-- `wscientific_numeral` of the same -/
def wideSciOf (u : Env) : SciParts :=
  ⟨some (wcp u 43), some (wcp u 45), none, wideInt u, wcp u 46, wideInt u, some (wcp u 101), some (wcp u 43), some (wcp u 45), some (wideInt u)⟩
/-- `sgml_cp_set` of two separators with its hit offset -/
def sgmlSeps (v : Env) (wd : Wide) (c d : Int) : Nat → Option (Nat × Nat) := fun i => match scp v wd c i with
  | some e => some (e, 0)
  | none => (scp v wd d i).map fun e => (e, 1)
def wideSeps (u : Env) (c d : Int) : Nat → Option (Nat × Nat) := fun i => match wcp u c i with
  | some e => some (e, 0)
  | none => (wcp u d i).map fun e => (e, 1)

theorem scp_mirrors {v u : Env} {wd : Wide} {t w : List Int} (hv : v.Ok t) (hw : WOk v wd) (hl : t.length < 2 ^ 64) (hu : u.Ok w) (hd : Wider v wd u) (hs : Stands v.space t w) {c : Int} (hc : c ≠ 0) :
    Mirrors (place v.space t) w.length (scp v wd c) (wcp u c) := ends_mirrors ((sgml_leaves hv hw hl hu hd hs false).1 c hc)

theorem sgmlInt_mirrors {v u : Env} {wd : Wide} {t w : List Int} (hv : v.Ok t) (hw : WOk v wd) (hl : t.length < 2 ^ 64) (hu : u.Ok w) (hd : Wider v wd u) (hs : Stands v.space t w) :
    MirrorsV (place v.space t) w.length (sgmlInt v wd) (wideInt u) := by
  refine integer_mirrorsV (stands_along hv hu hs) 10 (allMirror_map _ _ _ fun k _ => scp_mirrors hv hw hl hu hd hs (by omega)) ?_
  intro d hd
  obtain ⟨k, _, rfl⟩ := List.mem_map.1 hd
  exact cu_takes hu _

/-- **C145** Numbers such as `-1.5e3` in SGML text, with any characters as entities: what is found in the decoded text is found, part by part, and its value is the number's if the decimals are not entities. -/
theorem sgml_sci_decoded_partial {v u : Env} {wd : Wide} {t w : List Int} (hv : v.Ok t) (hw : WOk v wd) (hl : t.length < 2 ^ 64) (hu : u.Ok w) (hd : Wider v wd u) (hs : Stands v.space t w) (o' o : Sci) {k : Nat}
    (hk : k ≤ w.length) :
    ∃ value, scientific (sgmlSciOf v wd) (place v.space t k) o' = ((scientific (wideSciOf u) k o).1, scif (place v.space t) (scientific (wideSciOf u) k o).2 value) ∧
      ((scientific (wideSciOf u) k o).1 = true → PlainIn (place v.space t) (scientific (wideSciOf u) k o).2.decimal → value = (scientific (wideSciOf u) k o).2.value) := by
  have cp : ∀ c : Int, c ≠ 0 → Mirrors (place v.space t) w.length (scp v wd c) (wcp u c) := fun c hc => scp_mirrors hv hw hl hu hd hs hc
  have int := sgmlInt_mirrors hv hw hl hu hd hs
  exact scientific_mirrors_partial (along_grows (stands_along hv hu hs)) (c' := sgmlSciOf v wd) (c := wideSciOf u)
    ⟨.given (cp _ (by decide)), .given (cp _ (by decide)), .absent, int, cp _ (by decide), int, .given (cp _ (by decide)), .given (cp _ (by decide)), .given (cp _ (by decide)), .given int⟩ o' o hk

/-! ### Examples -/

def plainEnv (t : List Int) : Env := ⟨t ++ [0], none, false, false, id, isspace, ispunct⟩
def plainWide : Wide := ⟨id, isspace, ispunct⟩

theorem plainEnv_ok (t : List Int) : WOk (plainEnv t) plainWide ∧ ∀ w, Wider (plainEnv t) plainWide (plainEnv w) :=
  ⟨⟨fun _ h => h, fun _ => Iff.rfl⟩, fun _ => ⟨rfl, rfl, rfl, rfl, rfl⟩⟩

/-- Entities except for the decimals: `&#45;&#49;.5` stands for `-1.5`. -/
def sciS : List Int := asc "&#45;&#49;.5"
def sciW : List Int := asc "-1.5"

theorem sciS_ok : (plainEnv sciS).Ok sciS ∧ (plainEnv sciW).Ok sciW ∧ Stands isspace sciS sciW :=
  ⟨⟨.inl (by decide), by decide, (fun n q => nomatch q), fun _ => Iff.rfl⟩, ⟨.inl (by decide), by decide, (fun n q => nomatch q), fun _ => Iff.rfl⟩, stands_of (by decide +kernel)⟩

example : (scientific (sgmlSciOf (plainEnv sciS) plainWide) 0 sciOld).2.value = some (-3 / 2) ∧ (scientific (wideSciOf (plainEnv sciW)) 0 sciOld).2.value = some (-3 / 2) := by decide +kernel

/-- What C145 lacks: `0.&#53;` stands for `0.5`, and is read as 0.00005. -/
theorem sgml_decimals_scaled : Stands isspace (asc "0.&#53;") (asc "0.5") ∧ (scientific (sgmlSciOf (plainEnv (asc "0.&#53;")) plainWide) 0 sciOld).2.value = some (1 / 20000) ∧
    (scientific (wideSciOf (plainEnv (asc "0.5"))) 0 sciOld).2.value = some (1 / 2) :=
  ⟨stands_of (by decide +kernel), by decide +kernel, by decide +kernel⟩

/-- What C145 lacks: `1,23&#52;` stands for `1,234`, and is read as 1; `1&comma;234` is read as 1234. -/
theorem sgml_groups_lost : Stands isspace (asc "1,23&#52;") (asc "1,234") ∧ Stands isspace (asc "1&comma;234") (asc "1,234") ∧
    integerTs 9 (sgmlInt (plainEnv (asc "1,23&#52;")) plainWide) (sgmlSeps (plainEnv (asc "1,23&#52;")) plainWide 44 46) 0 = some (some ⟨1, 1, 1, false⟩) ∧
    integerTs 11 (sgmlInt (plainEnv (asc "1&comma;234")) plainWide) (sgmlSeps (plainEnv (asc "1&comma;234")) plainWide 44 46) 0 = some (some ⟨11, 1234, 4, true⟩) ∧
    integerTs 5 (wideInt (plainEnv (asc "1,234"))) (wideSeps (plainEnv (asc "1,234")) 44 46) 0 = some (some ⟨5, 1234, 4, true⟩) :=
  ⟨stands_of (by decide +kernel), stands_of (by decide +kernel), by decide +kernel, by decide +kernel, by decide +kernel⟩

/-- `&minus;&euro;5` and `X&#73;V` -/
example : monetary (scp (plainEnv (asc "&minus;&euro;5")) plainWide 43) (scp (plainEnv (asc "&minus;&euro;5")) plainWide 8722) (scp (plainEnv (asc "&minus;&euro;5")) plainWide 177)
      (scp (plainEnv (asc "&minus;&euro;5")) plainWide 8364) (scp (plainEnv (asc "&minus;&euro;5")) plainWide 53) (scp (plainEnv (asc "&minus;&euro;5")) plainWide 46)
      (scp (plainEnv (asc "&minus;&euro;5")) plainWide 53) 0 ⟨⟨none, none, none⟩, none, none, none, none, none⟩ =
    (true, ⟨⟨none, some (0, 7), none⟩, some (7, 13), some (13, 14), none, none, some (0, 14)⟩) ∧
    roman (plainEnv (asc "X&#73;V")) ([73, 86, 88, 76, 67, 68, 77].map (scp (plainEnv (asc "X&#73;V")) plainWide)) 0 = some (some (7, 14)) := by decide +kernel

end Verif.Parser
