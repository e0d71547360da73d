/-
Progress of sections (include/stdex/progress.hpp: global_progress, progress_switcher, timeout_progress).
-/
namespace Verif.Progress

/-- The integer type `T` of a progress, of `w` ≥ 32 bits: no promotion takes place. (Narrower types, and floating-point types, are not modelled.) -/
structure IntT where
  w : Nat
  signed : Bool

/-- The value of an arithmetic expression: signed overflow is undefined (`none`), unsigned arithmetic wraps. -/
def IntT.val (t : IntT) (x : Int) : Option Int :=
  if t.signed then (if -(2 ^ (t.w - 1)) ≤ x ∧ x < 2 ^ (t.w - 1) then some x else none) else some (x % 2 ^ t.w)

/-- The largest value, plus one. -/
def IntT.top (t : IntT) : Int := if t.signed then 2 ^ (t.w - 1) else 2 ^ t.w

/-- Is this a value of the type? -/
def IntT.has (t : IntT) (x : Int) : Prop := (if t.signed then -t.top else 0) ≤ x ∧ x < t.top

/-- `interval<T>`, interval.hpp 17-20. -/
structure Ival where
  start : Int
  stop : Int

/-- `interval::size`, interval.hpp 47. -/
def Ival.size (t : IntT) (i : Ival) : Option Int := if i.start ≤ i.stop then t.val (i.stop - i.start) else some 0

/-- What a host indicator is told. -/
inductive Call where
  | range (start stop : Int)
  | set (value : Int)
deriving DecidableEq

/-- `global_progress`, 338-339. `host`: is there one? -/
structure Glob where
  host : Bool
  loc : Ival
  glob : Ival
  sec : Ival

/-- Constructor, 235; interval.hpp 25. -/
def Glob.new (host : Bool) : Glob := ⟨host, ⟨1, 0⟩, ⟨1, 0⟩, ⟨1, 0⟩⟩

/-- Member functions of `global_progress`. -/
inductive GOp where
  | attach (host : Bool)
  | detach
  | globalRange (start stop : Int)
  | sectionRange (start stop : Int)
  | range (start stop : Int)
  | set (value : Int)

/-- `global_progress::set`, 308-317: the call of the host. -/
def Glob.set (t : IntT) (g : Glob) (value : Int) : Option (List Call) :=
  if g.host then do
    let size ← g.loc.size t
    if size = 0 then some []
    else do
      let d ← t.val (value - g.loc.start)
      let ss ← g.sec.size t
      let p ← t.val (d * ss)
      let r ← t.val (p.tdiv size + g.sec.start)
      some [.set r]
  else some []

/-- One call: 243-246 `attach`, 253-258 `detach`, 266-272 `set_global_range`, 280-284 `set_section_range`, 297-301 `set_range`, `set`. -/
def Glob.step (t : IntT) (g : Glob) : GOp → Option (List Call × Glob)
  | .attach h => some ([], { g with host := h })
  | .detach => some ([], { g with host := false })
  | .globalRange s e => some (if g.host then [.range s e] else [], { g with glob := ⟨s, e⟩ })
  | .sectionRange s e => some ([], { g with sec := ⟨s, e⟩ })
  | .range s e => some ([], { g with loc := ⟨s, e⟩ })
  | .set v => (g.set t v).map fun c => (c, g)

/-- A sequence of calls, and what the host is told. -/
def Glob.run (t : IntT) (g : Glob) : List GOp → Option (List Call × Glob)
  | [] => some ([], g)
  | o :: os => do
    let r ← g.step t o
    let q ← r.2.run t os
    some (r.1 ++ q.1, q.2)

/-! ### Specification -/

/-- `r` is the position in `[s, e]` proportional to that of `v` in `[a, b]`, rounded towards `s`. -/
def Proportional (a b s e v r : Int) : Prop := (r - s) * (b - a) ≤ (v - a) * (e - s) ∧ (v - a) * (e - s) < (r - s + 1) * (b - a)

/-! ### Proofs -/

theorem pow_split {w : Nat} (h : 0 < w) : (2 : Int) ^ w = 2 * 2 ^ (w - 1) := by
  obtain ⟨k, rfl⟩ : ∃ k, w = k + 1 := ⟨w - 1, by omega⟩
  rw [Int.pow_succ, Nat.add_sub_cancel]; omega

theorem val_some {t : IntT} {x : Int} (h : 0 ≤ x) (h2 : x < t.top) : t.val x = some x := by
  unfold IntT.val
  unfold IntT.top at h2
  cases ht : t.signed with
  | true =>
    rw [ht] at h2
    simp only [if_true] at h2 ⊢
    exact if_pos ⟨by have : (0 : Int) ≤ 2 ^ (t.w - 1) := Int.pow_nonneg (by omega); omega, h2⟩
  | false =>
    rw [ht] at h2
    simp only [Bool.false_eq_true, if_false] at h2 ⊢
    rw [Int.emod_eq_of_lt h h2]

theorem val_has {t : IntT} {x : Int} (h : t.has x) : t.val x = some x := by
  unfold IntT.has at h
  unfold IntT.val
  unfold IntT.top at h
  cases ht : t.signed with
  | true => rw [ht] at h; simp only [if_true] at h ⊢; exact if_pos h
  | false =>
    rw [ht] at h
    simp only [Bool.false_eq_true, if_false] at h ⊢
    rw [Int.emod_eq_of_lt h.1 h.2]

/-- What `set` computes, when nothing overflows. -/
theorem set_eq {t : IntT} {g : Glob} {v : Int} (hh : g.host = true) (hl : g.loc.start < g.loc.stop) (hs : g.sec.start ≤ g.sec.stop)
    (h1 : g.loc.start ≤ v) (h2 : v ≤ g.loc.stop) (t1 : g.loc.stop - g.loc.start < t.top) (t2 : g.sec.stop - g.sec.start < t.top)
    (t3 : (v - g.loc.start) * (g.sec.stop - g.sec.start) < t.top) (t4 : t.has g.sec.start) (t5 : t.has g.sec.stop) :
    let r := (v - g.loc.start) * (g.sec.stop - g.sec.start) / (g.loc.stop - g.loc.start) + g.sec.start
    g.set t v = some [.set r] ∧ g.sec.start ≤ r ∧ r ≤ g.sec.stop := by
  have hp : 0 ≤ (v - g.loc.start) * (g.sec.stop - g.sec.start) := Int.mul_nonneg (by omega) (by omega)
  have hq : 0 ≤ (v - g.loc.start) * (g.sec.stop - g.sec.start) / (g.loc.stop - g.loc.start) := Int.ediv_nonneg hp (by omega)
  have hle : (v - g.loc.start) * (g.sec.stop - g.sec.start) / (g.loc.stop - g.loc.start) ≤ g.sec.stop - g.sec.start := by
    apply Int.ediv_le_of_le_mul (by omega)
    rw [Int.mul_comm]
    exact Int.mul_le_mul_of_nonneg_left (by omega) (by omega)
  intro r
  have hr : g.sec.start ≤ r ∧ r ≤ g.sec.stop := by omega
  refine ⟨?_, hr⟩
  unfold Glob.set Ival.size
  rw [if_pos hh, if_pos (by omega), if_pos hs, val_some (by omega) t1]
  simp only [Option.bind_eq_bind, Option.bind_some]
  rw [if_neg (by omega), val_some (by omega) t2]
  simp only [Option.bind_some]
  have : v - g.loc.start < t.top := by omega
  rw [val_some (by omega) this]
  simp only [Option.bind_some]
  rw [val_some hp t3]
  simp only [Option.bind_some]
  rw [Int.tdiv_eq_ediv_of_nonneg hp]
  rw [val_has (t := t) (x := r) ⟨by have := t4.1; omega, by have := t5.2; omega⟩]
  rfl

/-- The conditions under which a section is well set up: ranges not reversed, the local one not empty, and the product of
their sizes representable. -/
structure Ready (t : IntT) (g : Glob) : Prop where
  host : g.host = true
  loc : g.loc.start < g.loc.stop
  sec : g.sec.start ≤ g.sec.stop
  sizes : g.loc.stop - g.loc.start < t.top ∧ g.sec.stop - g.sec.start < t.top
  prod : (g.loc.stop - g.loc.start) * (g.sec.stop - g.sec.start) < t.top
  has : t.has g.sec.start ∧ t.has g.sec.stop

theorem ready_set {t : IntT} {g : Glob} (hr : Ready t g) {v : Int} (h1 : g.loc.start ≤ v) (h2 : v ≤ g.loc.stop) :
    let r := (v - g.loc.start) * (g.sec.stop - g.sec.start) / (g.loc.stop - g.loc.start) + g.sec.start
    g.set t v = some [.set r] ∧ g.sec.start ≤ r ∧ r ≤ g.sec.stop := by
  refine set_eq hr.host hr.loc hr.sec h1 h2 hr.sizes.1 hr.sizes.2 ?_ hr.has.1 hr.has.2
  have := Int.mul_le_mul_of_nonneg_right (c := g.sec.stop - g.sec.start) (show v - g.loc.start ≤ g.loc.stop - g.loc.start by omega) (by have := hr.sec; omega)
  have := hr.prod
  omega

/-! ### Properties -/

/-- **C56** A value of the local range is forwarded as the proportional position of the section, and does not leave it. -/
theorem section_spec {t : IntT} {g : Glob} (hr : Ready t g) {v : Int} (h1 : g.loc.start ≤ v) (h2 : v ≤ g.loc.stop) :
    ∃ r, g.set t v = some [.set r] ∧ g.sec.start ≤ r ∧ r ≤ g.sec.stop ∧
      Proportional g.loc.start g.loc.stop g.sec.start g.sec.stop v r := by
  obtain ⟨e, a, b⟩ := ready_set hr h1 h2
  refine ⟨_, e, a, b, ?_⟩
  have hl := hr.loc
  unfold Proportional
  rw [Int.add_sub_cancel]
  generalize (v - g.loc.start) * (g.sec.stop - g.sec.start) = p at *
  have hb : 0 < g.loc.stop - g.loc.start := by omega
  generalize g.loc.stop - g.loc.start = d at *
  constructor
  · exact Int.ediv_mul_le p (by omega)
  · exact Int.lt_ediv_add_one_mul_self p hb

/-- **C56** Start goes to start. -/
theorem section_start {t : IntT} {g : Glob} (hr : Ready t g) : g.set t g.loc.start = some [.set g.sec.start] := by
  obtain ⟨e, -, -⟩ := ready_set hr (Int.le_refl _) (Int.le_of_lt hr.loc)
  rw [e, Int.sub_self, Int.zero_mul, Int.zero_ediv, Int.zero_add]

/-- **C56** End goes to end. -/
theorem section_end {t : IntT} {g : Glob} (hr : Ready t g) : g.set t g.loc.stop = some [.set g.sec.stop] := by
  obtain ⟨e, -, -⟩ := ready_set hr (Int.le_of_lt hr.loc) (Int.le_refl _)
  have := hr.loc
  rw [e, Int.mul_ediv_cancel_left _ (by omega), Int.sub_add_cancel]

/-- **C56** The mapping is monotone. -/
theorem section_monotone {t : IntT} {g : Glob} (hr : Ready t g) {v w : Int} (h1 : g.loc.start ≤ v) (h2 : v ≤ w) (h3 : w ≤ g.loc.stop)
    {r s : Int} (hv : g.set t v = some [.set r]) (hw : g.set t w = some [.set s]) : r ≤ s := by
  obtain ⟨e, -, -⟩ := ready_set hr h1 (by omega : v ≤ g.loc.stop)
  obtain ⟨e', -, -⟩ := ready_set hr (by omega : g.loc.start ≤ w) h3
  have hl := hr.loc
  rw [e] at hv
  rw [e'] at hw
  simp only [Option.some.injEq, List.cons.injEq, Call.set.injEq, and_true] at hv hw
  rw [← hv, ← hw]
  apply Int.add_le_add_right
  apply Int.ediv_le_ediv (by omega)
  exact Int.mul_le_mul_of_nonneg_right (by omega) (by have := hr.sec; omega)

/-- **C56** Without a host, and for an empty or reversed local range, nothing is reported. -/
theorem section_silent (t : IntT) (g : Glob) (h : g.host = false ∨ g.loc.stop ≤ g.loc.start) (v : Int) : g.set t v = some [] := by
  unfold Glob.set Ival.size
  by_cases hh : g.host = true
  · rw [if_pos hh]
    have hl : g.loc.stop ≤ g.loc.start := by
      rcases h with h | h
      · rw [h] at hh; cases hh
      · exact h
    have : (if g.loc.start ≤ g.loc.stop then t.val (g.loc.stop - g.loc.start) else some 0) = some 0 := by
      by_cases c : g.loc.start ≤ g.loc.stop
      · rw [if_pos c, show g.loc.stop - g.loc.start = 0 by omega]
        unfold IntT.val
        cases ht : t.signed with
        | false => simp
        | true =>
          simp only [if_true]
          have : (0 : Int) < 2 ^ (t.w - 1) := Int.pow_pos (by omega)
          exact if_pos ⟨by omega, this⟩
      · rw [if_neg c]
    rw [this]
    rfl
  · rw [if_neg hh]

/-- One phase of a job: its section, its own range, the values it reports. -/
structure Phase where
  stop : Int
  from_ : Int
  to : Int
  values : List Int

/-- What a phase does, in a section that starts where the one before ended. -/
def Phase.ops (s : Int) (p : Phase) : List GOp := .sectionRange s p.stop :: .range p.from_ p.to :: p.values.map .set

def phasesOps (s : Int) : List Phase → List GOp
  | [] => []
  | p :: ps => p.ops s ++ phasesOps p.stop ps

/-- The phases fit and every one reports values of its range that never decrease. -/
def PhasesOk (t : IntT) (s : Int) : List Phase → Prop
  | [] => True
  | p :: ps => Ready t ⟨true, ⟨p.from_, p.to⟩, ⟨0, 0⟩, ⟨s, p.stop⟩⟩ ∧ (∀ v ∈ p.values, p.from_ ≤ v ∧ v ≤ p.to) ∧
      p.values.Pairwise (· ≤ ·) ∧ PhasesOk t p.stop ps

/-- The values a host was told. -/
def told : List Call → List Int
  | [] => []
  | .set v :: cs => v :: told cs
  | .range .. :: cs => told cs

theorem told_append (a b : List Call) : told (a ++ b) = told a ++ told b := by
  induction a with
  | nil => rfl
  | cons c a ih => cases c <;> simp [told, ih]

theorem run_append (t : IntT) : ∀ (a b : List GOp) (g : Glob), g.run t (a ++ b) = (g.run t a).bind fun r => (r.2.run t b).map fun q => (r.1 ++ q.1, q.2) := by
  intro a
  induction a with
  | nil => intro b g; simp [Glob.run]
  | cons o a ih =>
    intro b g
    rw [List.cons_append, Glob.run, Glob.run]
    simp only [Option.bind_eq_bind]
    cases g.step t o with
    | none => rfl
    | some r =>
      simp only [Option.bind_some]
      rw [ih]
      cases r.2.run t a with
      | none => rfl
      | some q =>
        simp only [Option.bind_some]
        cases q.2.run t b with
        | none => rfl
        | some z => simp

theorem run_sets {t : IntT} {g : Glob} (hr : Ready t g) : ∀ (vs : List Int) (lo : Int), g.loc.start ≤ lo → (∀ v ∈ vs, lo ≤ v ∧ v ≤ g.loc.stop) →
    vs.Pairwise (· ≤ ·) → ∃ cs, g.run t (vs.map .set) = some (cs, g) ∧ (told cs).Pairwise (· ≤ ·) ∧ (∀ x ∈ told cs, g.sec.start ≤ x ∧ x ≤ g.sec.stop) ∧
      (∀ x ∈ told cs, ∀ r, g.set t lo = some [.set r] → r ≤ x) := by
  intro vs
  induction vs with
  | nil => intro lo _ _ _; exact ⟨[], rfl, List.Pairwise.nil, by simp [told], by simp [told]⟩
  | cons v vs ih =>
    intro lo hlo hb hp
    obtain ⟨b1, b2⟩ := hb v List.mem_cons_self
    obtain ⟨p1, p2⟩ := List.pairwise_cons.1 hp
    obtain ⟨cs, e, f1, f2, f3⟩ := ih v (by omega) (fun w hw => ⟨p1 w hw, (hb w (List.mem_cons_of_mem _ hw)).2⟩) p2
    obtain ⟨r, hs, r1, r2, -⟩ := section_spec hr (by omega : g.loc.start ≤ v) b2
    have mon : ∀ q, g.set t lo = some [.set q] → q ≤ r := fun q hq => section_monotone hr hlo b1 b2 hq hs
    refine ⟨.set r :: cs, ?_, ?_, ?_, ?_⟩
    · rw [List.map_cons, Glob.run]
      simp only [Glob.step, hs, Option.map_some, Option.bind_eq_bind, Option.bind_some]
      rw [e]
      rfl
    · rw [told, List.pairwise_cons]
      exact ⟨fun x hx => f3 x hx r hs, f1⟩
    · intro x hx
      rw [told, List.mem_cons] at hx
      rcases hx with rfl | hx
      · exact ⟨r1, r2⟩
      · exact f2 x hx
    · intro x hx q hq
      rw [told, List.mem_cons] at hx
      rcases hx with rfl | hx
      · exact mon q hq
      · have := f3 x hx r hs
        have := mon q hq
        omega

/-- **C56** A job of several phases, in adjacent sections: what the host sees never decreases. -/
theorem phases_monotone {t : IntT} : ∀ (ps : List Phase) (s : Int) (g : Glob), g.host = true → PhasesOk t s ps →
    ∃ cs g', g.run t (phasesOps s ps) = some (cs, g') ∧ (told cs).Pairwise (· ≤ ·) ∧ ∀ x ∈ told cs, s ≤ x := by
  intro ps
  induction ps with
  | nil => intro s g _ _; exact ⟨[], g, rfl, List.Pairwise.nil, by simp [told]⟩
  | cons p ps ih =>
    intro s g hh hok
    obtain ⟨hr, hv, hp, hrest⟩ := hok
    let g1 : Glob := ⟨true, ⟨p.from_, p.to⟩, g.glob, ⟨s, p.stop⟩⟩
    have hr1 : Ready t g1 := ⟨rfl, hr.loc, hr.sec, hr.sizes, hr.prod, hr.has⟩
    obtain ⟨cs, e, f1, f2, -⟩ := run_sets hr1 p.values p.from_ (Int.le_refl _) hv hp
    obtain ⟨cs', g', e', f1', f2'⟩ := ih p.stop g1 rfl hrest
    refine ⟨cs ++ cs', g', ?_, ?_, ?_⟩
    · rw [phasesOps, run_append]
      have : g.run t (p.ops s) = some (cs, g1) := by
        unfold Phase.ops
        rw [Glob.run]
        simp only [Glob.step, Option.bind_eq_bind, Option.bind_some, Glob.run]
        rw [hh, e]
        rfl
      rw [this, Option.bind_some, e']
      rfl
    · rw [told_append, List.pairwise_append]
      refine ⟨f1, f1', fun a ha b hb => ?_⟩
      have h1 : a ≤ p.stop := (f2 a ha).2
      have h2 := f2' b hb
      omega
    · intro x hx
      rw [told_append, List.mem_append] at hx
      rcases hx with hx | hx
      · exact (f2 x hx).1
      · have h1 := f2' x hx
        have h2 : s ≤ p.stop := hr.sec
        omega

/-- **C56** Before a range is given, a new indicator reports nothing, whatever is set. -/
theorem new_silent (t : IntT) (h : Bool) : ∀ vs : List Int, (Glob.new h).run t (vs.map .set) = some ([], Glob.new h)
  | [] => rfl
  | v :: vs => by
    rw [List.map_cons, Glob.run, Glob.step, section_silent t (Glob.new h) (.inr (by show (0:Int) ≤ 1; decide)) v]
    simp only [Option.map_some, Option.bind_eq_bind, Option.bind_some]
    rw [new_silent t h vs]
    rfl

theorem small_top {t : IntT} (hw : 32 ≤ t.w) : 2 ≤ t.top := by
  unfold IntT.top
  have p : ∀ n : Nat, 1 ≤ n → (2 : Int) ≤ 2 ^ n := by
    intro n hn
    obtain ⟨k, rfl⟩ : ∃ k, n = k + 1 := ⟨n - 1, by omega⟩
    rw [Int.pow_succ]
    have : (0 : Int) < 2 ^ k := Int.pow_pos (by omega)
    omega
  split
  · exact p _ (by omega)
  · exact p _ (by omega)

/-- **C56** (a surprise) An indicator that was given a global range, but no section, does not report within it: each value of the local range is reported as 1. -/
theorem no_section {t : IntT} (hw : 32 ≤ t.w) (s e a b : Int) (hab : a < b) (hs : b - a < t.top) : ∀ vs : List Int, (∀ v ∈ vs, a ≤ v ∧ v ≤ b) →
    ((Glob.new true).run t (.globalRange s e :: .range a b :: vs.map .set)).map Prod.fst = some (.range s e :: vs.map fun _ => .set 1) := by
  have top := small_top hw
  have one : ∀ v, a ≤ v → v ≤ b → Glob.set t ⟨true, ⟨a, b⟩, ⟨s, e⟩, ⟨1, 0⟩⟩ v = some [.set 1] := by
    intro v h1 h2
    unfold Glob.set Ival.size
    dsimp only
    rw [if_pos rfl, if_pos (by omega), val_some (by omega) hs, if_neg (by omega : ¬ (1 : Int) ≤ 0)]
    simp only [Option.bind_eq_bind, Option.bind_some]
    rw [if_neg (by omega), val_some (by omega) (by omega)]
    simp only [Option.bind_some, Int.mul_zero]
    rw [val_some (by omega) (by omega)]
    simp only [Option.bind_some, Int.zero_tdiv, Int.zero_add]
    rw [val_some (by omega) (by omega)]
    rfl
  have run : ∀ vs : List Int, (∀ v ∈ vs, a ≤ v ∧ v ≤ b) → Glob.run t ⟨true, ⟨a, b⟩, ⟨s, e⟩, ⟨1, 0⟩⟩ (vs.map .set) = some (vs.map fun _ => .set 1, ⟨true, ⟨a, b⟩, ⟨s, e⟩, ⟨1, 0⟩⟩) := by
    intro vs
    induction vs with
    | nil => intro _; rfl
    | cons v vs ih =>
      intro h
      rw [List.map_cons, Glob.run, Glob.step, one v (h v List.mem_cons_self).1 (h v List.mem_cons_self).2]
      simp only [Option.map_some, Option.bind_eq_bind, Option.bind_some]
      rw [ih fun x hx => h x (List.mem_cons_of_mem _ hx)]
      rfl
  intro vs h
  simp only [Glob.run, Glob.step, Glob.new, Option.bind_eq_bind, Option.bind_some, if_true]
  rw [run vs h]
  rfl

example : ((Glob.new true).run ⟨32, true⟩ [.globalRange 0 20, .range 0 4, .set 0, .set 2, .set 4]).map Prod.fst = some [.range 0 20, .set 1, .set 1, .set 1] := by decide +kernel

/-- A non-trivial case: 0..3 mapped to 10..20, in two phases. -/
example : Ready ⟨32, true⟩ ⟨true, ⟨0, 3⟩, ⟨0, 20⟩, ⟨10, 20⟩⟩ := by
  constructor <;> simp [IntT.top, IntT.has]
example : ((Glob.new true).run ⟨32, true⟩ (.globalRange 0 20 :: phasesOps 0 [⟨10, 5, 9, [5, 6, 9]⟩, ⟨20, 0, 3, [0, 1, 3]⟩])).map Prod.fst =
    some [.range 0 20, .set 0, .set 2, .set 10, .set 10, .set 13, .set 20] := by decide +kernel

/-- The product is computed in `T`: with 32 bits, a local range of 100000 and a section of 100000, `set(50000)` overflows; an unsigned
`T` wraps, and the end of the range is reported as 14100. -/
theorem section_overflow :
    Glob.set ⟨32, true⟩ ⟨true, ⟨0, 100000⟩, ⟨0, 100000⟩, ⟨0, 100000⟩⟩ 50000 = none ∧
    Glob.set ⟨32, false⟩ ⟨true, ⟨0, 100000⟩, ⟨0, 100000⟩, ⟨0, 100000⟩⟩ 100000 = some [.set 14100] := by decide +kernel

/-! ### progress_switcher -/

/-- The variable that refers to the current indicator, and the hosts of the switchers (by number). -/
structure Sw where
  cur : Option Nat
  hosts : Nat → Option Nat

/-- Constructor, 354-359. -/
def Sw.construct (s : Sw) (k : Nat) : Sw := ⟨some k, fun i => if i = k then s.cur else s.hosts i⟩

/-- Destructor, 361-364, with `detach`, 253-258. -/
def Sw.destruct (s : Sw) (k : Nat) : Sw := ⟨s.hosts k, fun i => if i = k then none else s.hosts i⟩

inductive SwOp where
  | construct (k : Nat)
  | destruct (k : Nat)

def Sw.run (s : Sw) : List SwOp → Sw
  | [] => s
  | .construct k :: os => (s.construct k).run os
  | .destruct k :: os => (s.destruct k).run os

theorem Sw.run_append (a b : List SwOp) : ∀ s : Sw, s.run (a ++ b) = (s.run a).run b := by
  induction a with
  | nil => intro s; rfl
  | cons o a ih => intro s; cases o <;> exact ih _

/-- Scopes: a switcher lives during a block, blocks are nested or follow each other. `Scoped L ops`: the switchers of `ops` are not among `L`. -/
inductive Scoped : List Nat → List SwOp → Prop
  | nil (L) : Scoped L []
  | block (L k body rest) : k ∉ L → Scoped (k :: L) body → Scoped L rest → Scoped L (.construct k :: (body ++ .destruct k :: rest))

theorem scoped_keeps {L : List Nat} {ops : List SwOp} (h : Scoped L ops) : ∀ (s : Sw), (s.run ops).cur = s.cur ∧ ∀ k ∈ L, (s.run ops).hosts k = s.hosts k := by
  induction h with
  | nil L => intro s; exact ⟨rfl, fun _ _ => rfl⟩
  | block L k body rest hk _ _ ih1 ih2 =>
    intro s
    rw [Sw.run, Sw.run_append, Sw.run]
    obtain ⟨a1, a2⟩ := ih1 (s.construct k)
    obtain ⟨b1, b2⟩ := ih2 (((s.construct k).run body).destruct k)
    have hk2 : ((s.construct k).run body).hosts k = s.cur := by
      rw [a2 k List.mem_cons_self]; simp [Sw.construct]
    refine ⟨by rw [b1]; exact hk2, fun j hj => ?_⟩
    have hjk : j ≠ k := fun q => hk (q ▸ hj)
    rw [b2 j hj]
    simp only [Sw.destruct, if_neg hjk]
    rw [a2 j (List.mem_cons_of_mem _ hj)]
    simp only [Sw.construct, if_neg hjk]

/-- **C63** After all switchers of a block were destroyed, the variable refers to the indicator it referred to before. -/
theorem switcher_restores {ops : List SwOp} (h : Scoped [] ops) (s : Sw) : (s.run ops).cur = s.cur := (scoped_keeps h s).1

/-- **C63** Within the block of switcher `k`, before or after any complete inner blocks, the variable refers to `k`, and `k` forwards to
the indicator the variable referred to before. -/
theorem switcher_current {L : List Nat} {k : Nat} {inner : List SwOp} (h : Scoped (k :: L) inner) (s : Sw) :
    (s.run (.construct k :: inner)).cur = some k ∧ (s.run (.construct k :: inner)).hosts k = s.cur := by
  obtain ⟨a, b⟩ := scoped_keeps h (s.construct k)
  exact ⟨a, by rw [Sw.run, b k List.mem_cons_self]; simp [Sw.construct]⟩

example : Scoped [] [.construct 1, .construct 2, .destruct 2, .construct 3, .destruct 3, .destruct 1, .construct 1, .destruct 1] :=
  .block [] 1 [.construct 2, .destruct 2, .construct 3, .destruct 3] _ (by simp)
    (.block [1] 2 [] _ (by simp) (.nil _) (.block [1] 3 [] _ (by simp) (.nil _) (.nil _)))
    (.block [] 1 [] _ (by simp) (.nil _) (.nil _))

/-! ### timeout_progress -/

/-- `timeout_progress::cancel`, 205-210. `hostCancel`: what the host's `cancel` returns, if there is a host. -/
def toCancel (deadline : Int) (hostCancel : Option Bool) (now : Int) : Bool := (hostCancel == some true) || decide (deadline < now)

/-- Constructor, 157-160. -/
def toDeadline (now timeout : Int) : Int := now + timeout

/-- **C64** The job is cancelled exactly when the host cancels or more than the timeout has passed since the construction; having
timed out, it stays cancelled. -/
theorem timeout_spec (t0 timeout now : Int) (host : Option Bool) :
    (toCancel (toDeadline t0 timeout) host now = true ↔ host = some true ∨ now - t0 > timeout) ∧
    ∀ now' host', now ≤ now' → toCancel (toDeadline t0 timeout) none now = true → toCancel (toDeadline t0 timeout) host' now' = true := by
  unfold toCancel toDeadline
  refine ⟨?_, fun now' host' hle h => ?_⟩
  · rw [Bool.or_eq_true, beq_iff_eq, decide_eq_true_eq]
    constructor
    · rintro (h | h)
      · exact Or.inl h
      · exact Or.inr (by omega)
    · rintro (h | h)
      · exact Or.inl h
      · exact Or.inr (by omega)
  · simp only [Bool.or_eq_true, decide_eq_true_eq] at h ⊢
    rcases h with h | h
    · cases h
    · exact Or.inr (by omega)

end Verif.Progress
