import Verif.Progress.Sections
import Verif.Progress.Lazy
/-
Progress indicators hosted by each other (include/stdex/progress.hpp): a part of a job that reports through a `timeout_progress` (147-219) or a
`global_progress` (226-346) to its host, which again may be such, down to an indicator (a `progress`, 20-74, for instance a `lazy_progress`, 81-140).
-/
namespace Verif.Progress

/-! ### Model -/

/-- The virtual functions a caller tells an indicator something by: `set_text`, `set_range`, `set`, `show`, 31-65. -/
inductive PCall where
  | text (msg : List Nat)
  | range (start stop : Int)
  | set (value : Int)
  | visible (on : Bool)                          -- `show`
deriving DecidableEq

/-- An indicator along with its hosts. -/
inductive Chain where
  | null                                         -- a null pointer for a host
  | base                                         -- the indicator that shows
  | timeout (deadline : Int) (host : Chain)      -- 147-219
  | global (loc sec : Ival) (host : Chain)       -- 226-346

/-- `if (m_host)`. -/
def Chain.there : Chain → Bool
  | .null => false
  | _ => true

/-- One call: the calls that arrive at `base`, and the chain afterwards; `none` for an overflow. `timeout_progress` 166-204; `global_progress` 291-334. -/
def Chain.call (t : IntT) : Chain → PCall → Option (List PCall × Chain)
  | .null, _ => some ([], .null)
  | .base, c => some ([c], .base)
  | .timeout d h, c => (h.call t c).map fun r => (r.1, .timeout d r.2)
  | .global loc sec h, .text m => (h.call t (.text m)).map fun r => (r.1, .global loc sec r.2)         -- 291-295
  | .global _ sec h, .range a b => some ([], .global ⟨a, b⟩ sec h)                                     -- 303-307
  | .global loc sec h, .set v =>                                                                       -- 314-323
    match Glob.set t ⟨h.there, loc, ⟨1, 0⟩, sec⟩ v with
    | none => none
    | some (.set r :: _) => (h.call t (.set r)).map fun q => (q.1, .global loc sec q.2)
    | some _ => some ([], .global loc sec h)
  | .global loc sec h, .visible b => (h.call t (.visible b)).map fun r => (r.1, .global loc sec r.2)         -- 330-334

/-- `global_progress::set_global_range`, 266-272, and `set_section_range`, 280-284, of the topmost indicator. -/
def Chain.setGlobal (t : IntT) : Chain → Int → Int → Option (List PCall × Chain)
  | .global loc sec h, a, b => (h.call t (.range a b)).map fun r => (r.1, .global loc sec r.2)
  | c, _, _ => some ([], c)

def Chain.setSection : Chain → Int → Int → Chain
  | .global loc _ h, a, b => .global loc ⟨a, b⟩ h
  | c, _, _ => c

/-- `cancel`, 70-73, 209-214, 339-342; `user` is what the indicator at the end says. -/
def Chain.cancel (user : Bool) (now : Int) : Chain → Bool
  | .null => false
  | .base => user
  | .timeout d h => toCancel d (if h.there then some (h.cancel user now) else none) now
  | .global _ _ h => h.there && h.cancel user now

/-- A sequence of calls. -/
def Chain.run (t : IntT) (c : Chain) : List PCall → Option (List PCall × Chain)
  | [] => some ([], c)
  | o :: os => (c.call t o).bind fun r => (r.2.run t os).map fun q => (r.1 ++ q.1, q.2)

/-! ### Specification -/

/-- Is there an indicator at the end? -/
def Chain.shows : Chain → Bool
  | .null => false
  | .base => true
  | .timeout _ h => h.shows
  | .global _ _ h => h.shows

/-- The deadlines along the chain. -/
def Chain.deadlines : Chain → List Int
  | .null => []
  | .base => []
  | .timeout d h => d :: h.deadlines
  | .global _ _ h => h.deadlines

/-- What concerns everybody: texts and visibility. -/
def PCall.plain : PCall → Bool
  | .text _ => true
  | .visible _ => true
  | _ => false

/-- The chain is set up for values `lo` to `hi`: the ranges are ranges, the products fit the type, every section lies within the range of the host. -/
def Chain.SetUp (t : IntT) : Chain → Int → Int → Prop
  | .null, _, _ => False
  | .base, _, _ => True
  | .timeout _ h, lo, hi => h.SetUp t lo hi
  | .global loc sec h, lo, hi => loc = ⟨lo, hi⟩ ∧ Ready t ⟨true, loc, ⟨1, 0⟩, sec⟩ ∧ ∃ lo' hi', h.SetUp t lo' hi' ∧ lo' ≤ sec.start ∧ sec.stop ≤ hi'

/-- The range that is left at the end for values `lo` to `hi`: the section of the last `global_progress`. -/
def Chain.outer : Chain → Int → Int → Int × Int
  | .timeout _ h, lo, hi => h.outer lo hi
  | .global _ sec h, _, _ => h.outer sec.start sec.stop
  | _, lo, hi => (lo, hi)

/-- Every section is the whole range of its host. -/
def Chain.Full : Chain → Int → Int → Prop
  | .timeout _ h, lo, hi => h.Full lo hi
  | .global loc sec h, lo, hi => loc = ⟨lo, hi⟩ ∧ h.Full sec.start sec.stop
  | _, _, _ => True

/-! ### Proofs -/

theorem call_plain (t : IntT) {c : PCall} (hc : c.plain = true) : ∀ (s : Chain), s.call t c = some (if s.shows then [c] else [], s)
  | .null => by cases c <;> rfl
  | .base => by cases c <;> rfl
  | .timeout d h => by
    have := call_plain t hc h
    cases c <;> (unfold Chain.call; rw [this]; rfl)
  | .global loc sec h => by
    have := call_plain t hc h
    cases c with
    | text m => unfold Chain.call; rw [this]; rfl
    | visible b => unfold Chain.call; rw [this]; rfl
    | range a b => cases hc
    | set v => cases hc

theorem call_other (t : IntT) {c : PCall} (hc : c.plain = false) : ∀ (s : Chain) {cs : List PCall} {s' : Chain}, s.call t c = some (cs, s') →
    s'.shows = s.shows ∧ s'.deadlines = s.deadlines ∧ cs.filter PCall.plain = [] ∧ s'.there = s.there
  | .null, cs, s', h => by
    unfold Chain.call at h
    cases h; exact ⟨rfl, rfl, rfl, rfl⟩
  | .base, cs, s', h => by
    unfold Chain.call at h
    cases h
    refine ⟨rfl, rfl, ?_, rfl⟩
    rw [List.filter_cons_of_neg (by rw [hc]; decide)]; rfl
  | .timeout d k, cs, s', h => by
    unfold Chain.call at h
    cases hk : k.call t c with
    | none => rw [hk] at h; cases h
    | some r =>
      rw [hk, Option.map_some] at h
      obtain ⟨a, b, e, f⟩ := call_other t hc k (cs := r.1) (s' := r.2) hk
      cases h
      exact ⟨a, by show d :: r.2.deadlines = _; rw [b]; rfl, e, rfl⟩
  | .global loc sec k, cs, s', h => by
    cases c with
    | text m => cases hc
    | visible b => cases hc
    | range a b =>
      unfold Chain.call at h
      cases h; exact ⟨rfl, rfl, rfl, rfl⟩
    | set v =>
      unfold Chain.call at h
      split at h
      · cases h
      · rename_i r _ _
        cases hk : k.call t (.set r) with
        | none => rw [hk] at h; cases h
        | some q =>
          rw [hk, Option.map_some] at h
          obtain ⟨a, b, e, f⟩ := call_other t (c := .set r) rfl k (cs := q.1) (s' := q.2) hk
          cases h
          exact ⟨a, b, e, rfl⟩
      · cases h; exact ⟨rfl, rfl, rfl, rfl⟩

theorem call_shape (t : IntT) (c : PCall) (s : Chain) {cs : List PCall} {s' : Chain} (h : s.call t c = some (cs, s')) : s'.shows = s.shows ∧ s'.deadlines = s.deadlines := by
  cases hc : c.plain with
  | true =>
    rw [call_plain t hc] at h
    cases h; exact ⟨rfl, rfl⟩
  | false =>
    obtain ⟨a, b, -, -⟩ := call_other t hc s h
    exact ⟨a, b⟩

/-- **C147** Texts and show/hide requests reach the indicator at the end through any chain of hosts: each once, in the order of the calls, whatever else is
called in between; and the chain keeps its indicator and its deadlines. -/
theorem chain_texts (t : IntT) : ∀ (ops : List PCall) (s : Chain) {cs : List PCall} {s' : Chain}, s.run t ops = some (cs, s') →
    cs.filter PCall.plain = (if s.shows then ops.filter PCall.plain else []) ∧ s'.shows = s.shows ∧ s'.deadlines = s.deadlines
  | [], s, cs, s', h => by
    cases h
    exact ⟨by split <;> rfl, rfl, rfl⟩
  | o :: os, s, cs, s', h => by
    unfold Chain.run at h
    cases hr : s.call t o with
    | none => rw [hr] at h; cases h
    | some r =>
      rw [hr, Option.bind_some] at h
      cases hq : r.2.run t os with
      | none => rw [hq] at h; cases h
      | some q =>
        rw [hq, Option.map_some] at h
        cases h
        obtain ⟨a1, a2⟩ := call_shape t o s (cs := r.1) (s' := r.2) hr
        obtain ⟨b1, b2, b3⟩ := chain_texts t os r.2 (cs := q.1) (s' := q.2) hq
        refine ⟨?_, b2.trans a1, b3.trans a2⟩
        rw [List.filter_append, b1, a1]
        cases ho : o.plain with
        | true =>
          rw [call_plain t ho] at hr
          cases hr
          cases hs : s.shows with
          | true => simp [ho]
          | false => simp
        | false =>
          rw [(call_other t ho s (cs := r.1) (s' := r.2) hr).2.2.1, List.nil_append, List.filter_cons_of_neg (by rw [ho]; decide)]

theorem shows_there : ∀ {c : Chain}, c.shows = true → c.there = true
  | .base, _ => rfl
  | .timeout _ _, _ => rfl
  | .global _ _ _, _ => rfl

/-- **C147** A chain asks to cancel exactly if the indicator at the end does or a deadline along the chain has passed. (A null pointer for a host does not ask.) -/
theorem chain_cancel (user : Bool) (now : Int) : ∀ (c : Chain), c.cancel user now = true ↔ (c.shows = true ∧ user = true) ∨ ∃ d ∈ c.deadlines, d < now
  | .null => by simp [Chain.cancel, Chain.shows, Chain.deadlines]
  | .base => by simp [Chain.cancel, Chain.shows, Chain.deadlines]
  | .timeout d h => by
    have ih := chain_cancel user now h
    have e : (Chain.timeout d h).cancel user now = true ↔ h.cancel user now = true ∨ d < now := by
      show toCancel d (if h.there then some (h.cancel user now) else none) now = true ↔ _
      unfold toCancel
      cases hh : h.there with
      | true =>
        simp only [if_true, Bool.or_eq_true, decide_eq_true_eq, beq_iff_eq, Option.some.injEq]
      | false =>
        have : h = .null := by cases h <;> first | rfl | cases hh
        subst this
        simp [Chain.cancel]
    rw [e, ih]
    show _ ↔ (h.shows = true ∧ user = true) ∨ ∃ x ∈ d :: h.deadlines, x < now
    simp only [List.mem_cons]
    constructor
    · rintro ((q | ⟨x, hx, q⟩) | q)
      · exact Or.inl q
      · exact Or.inr ⟨x, Or.inr hx, q⟩
      · exact Or.inr ⟨d, Or.inl rfl, q⟩
    · rintro (q | ⟨x, rfl | hx, q⟩)
      · exact Or.inl (Or.inl q)
      · exact Or.inr q
      · exact Or.inl (Or.inr ⟨x, hx, q⟩)
  | .global loc sec h => by
    have ih := chain_cancel user now h
    show (h.there && h.cancel user now) = true ↔ (h.shows = true ∧ user = true) ∨ ∃ d ∈ h.deadlines, d < now
    cases hh : h.there with
    | true => rw [Bool.true_and]; exact ih
    | false =>
      have : h = .null := by cases h <;> first | rfl | cases hh
      subst this
      simp [Chain.shows, Chain.deadlines]

/-- **C147** On a clock that does not go back, a deadline that has passed goes on asking to cancel, whatever is called in between. -/
theorem chain_cancel_stays (t : IntT) {ops : List PCall} {s s' : Chain} {cs : List PCall} (h : s.run t ops = some (cs, s')) {d now now' : Int} (hd : d ∈ s.deadlines) (hn : d < now) (hm : now ≤ now') (user : Bool) :
    s'.cancel user now' = true := by
  obtain ⟨-, -, e⟩ := chain_texts t ops s h
  exact (chain_cancel user now' s').2 (Or.inr ⟨d, by rw [e]; exact hd, by omega⟩)

theorem setUp_there {t : IntT} : ∀ {c : Chain} {lo hi : Int}, c.SetUp t lo hi → c.there = true
  | .null, _, _, h => h.elim
  | .base, _, _, _ => rfl
  | .timeout _ _, _, _, _ => rfl
  | .global _ _ _, _, _, _ => rfl

/-- What a chain makes of a value. -/
def Chain.maps : Chain → Int → Int
  | .timeout _ h, v => h.maps v
  | .global loc sec h, v => h.maps ((v - loc.start) * (sec.stop - sec.start) / (loc.stop - loc.start) + sec.start)
  | _, v => v

theorem chain_set {t : IntT} : ∀ {c : Chain} {lo hi : Int}, c.SetUp t lo hi → ∀ {v : Int}, lo ≤ v → v ≤ hi →
    c.call t (.set v) = some ([.set (c.maps v)], c) ∧ (c.outer lo hi).1 ≤ c.maps v ∧ c.maps v ≤ (c.outer lo hi).2
  | .null, _, _, h, _, _, _ => h.elim
  | .base, lo, hi, _, v, h1, h2 => ⟨rfl, h1, h2⟩
  | .timeout d k, lo, hi, h, v, h1, h2 => by
    obtain ⟨a, b⟩ := chain_set (c := k) h h1 h2
    refine ⟨?_, b⟩
    unfold Chain.call
    rw [a]; rfl
  | .global loc sec k, lo, hi, h, v, h1, h2 => by
    obtain ⟨rfl, hr, lo', hi', hk, g1, g2⟩ := h
    obtain ⟨e, e1, e2⟩ := ready_set hr h1 h2
    have e1 : sec.start ≤ (v - lo) * (sec.stop - sec.start) / (hi - lo) + sec.start := e1
    have e2 : (v - lo) * (sec.stop - sec.start) / (hi - lo) + sec.start ≤ sec.stop := e2
    obtain ⟨a, b⟩ := chain_set hk (v := (v - lo) * (sec.stop - sec.start) / (hi - lo) + sec.start) (by omega) (by omega)
    have narrow : ∀ {c : Chain} {lo' hi' a b : Int}, c.SetUp t lo' hi' → lo' ≤ a → b ≤ hi' → ∀ {w : Int}, a ≤ w → w ≤ b → (c.outer a b).1 ≤ c.maps w ∧ c.maps w ≤ (c.outer a b).2 := by
      intro c
      induction c with
      | null => intro lo' hi' a b h; exact h.elim
      | base => intro lo' hi' a b _ _ _ w w1 w2; exact ⟨w1, w2⟩
      | timeout d k ih => intro lo' hi' a b h h1 h2 w w1 w2; exact ih h h1 h2 w1 w2
      | global loc sec k ih =>
        intro lo' hi' a b h h1 h2 w w1 w2
        obtain ⟨rfl, hr, lo2, hi2, hk, g1, g2⟩ := h
        obtain ⟨-, e1, e2⟩ := ready_set hr (v := w) (by show lo' ≤ w; omega) (by show w ≤ hi'; omega)
        exact ih hk g1 g2 e1 e2
    refine ⟨?_, narrow hk g1 g2 e1 e2⟩
    unfold Chain.call
    rw [setUp_there hk]
    have e : Glob.set t ⟨true, ⟨lo, hi⟩, ⟨1, 0⟩, sec⟩ v = some [.set ((v - lo) * (sec.stop - sec.start) / (hi - lo) + sec.start)] := e
    rw [e]
    show (k.call t (.set _)).map _ = _
    rw [a]; rfl

theorem maps_mono {t : IntT} : ∀ {c : Chain} {lo hi : Int}, c.SetUp t lo hi → ∀ {v w : Int}, lo ≤ v → v ≤ w → w ≤ hi → c.maps v ≤ c.maps w
  | .null, _, _, h, _, _, _, _, _ => h.elim
  | .base, _, _, _, _, _, _, h, _ => h
  | .timeout d k, lo, hi, h, v, w, h1, h2, h3 => maps_mono (c := k) h h1 h2 h3
  | .global loc sec k, lo, hi, h, v, w, h1, h2, h3 => by
    obtain ⟨rfl, hr, lo', hi', hk, g1, g2⟩ := h
    obtain ⟨e, e1, e2⟩ := ready_set hr (v := v) h1 (by show v ≤ hi; omega)
    obtain ⟨f, f1, f2⟩ := ready_set hr (v := w) (by show lo ≤ w; omega) h3
    have := section_monotone hr (v := v) (w := w) h1 h2 h3 e f
    exact maps_mono hk (Int.le_trans g1 e1) this (Int.le_trans f2 g2)

theorem maps_ends {t : IntT} : ∀ {c : Chain} {lo hi : Int}, c.SetUp t lo hi → c.Full lo hi → c.maps lo = (c.outer lo hi).1 ∧ c.maps hi = (c.outer lo hi).2
  | .null, _, _, h, _ => h.elim
  | .base, _, _, _, _ => ⟨rfl, rfl⟩
  | .timeout d k, lo, hi, h, hf => maps_ends (c := k) h hf
  | .global loc sec k, lo, hi, h, hf => by
    obtain ⟨rfl, hr, lo', hi', hk, g1, g2⟩ := h
    obtain ⟨-, hf⟩ := hf
    have start := section_start hr
    have stop := section_end hr
    have hl : lo < hi := hr.loc
    have hs : sec.start ≤ sec.stop := hr.sec
    have sub : ∀ {c : Chain} {a b : Int}, c.Full a b → ∀ {lo' hi' : Int}, c.SetUp t lo' hi' → c.SetUp t a b := by
      intro c
      induction c with
      | null => intro a b _ lo' hi' h; exact h
      | base => intro a b _ lo' hi' h; exact h
      | timeout d k ih => intro a b hf lo' hi' h; exact ih hf h
      | global loc sec k ih =>
        intro a b hf lo' hi' h
        obtain ⟨hf, -⟩ := hf
        obtain ⟨-, rest⟩ := h
        exact ⟨hf, rest⟩
    obtain ⟨a, b⟩ := maps_ends (sub hf hk) hf
    constructor
    · show k.maps ((lo - lo) * (sec.stop - sec.start) / (hi - lo) + sec.start) = _
      rw [Int.sub_self, Int.zero_mul, Int.zero_ediv, Int.zero_add]; exact a
    · show k.maps ((hi - lo) * (sec.stop - sec.start) / (hi - lo) + sec.start) = _
      rw [Int.mul_ediv_cancel_left _ (by omega), Int.sub_add_cancel]; exact b

theorem run_sets_chain {t : IntT} {c : Chain} {lo hi : Int} (h : c.SetUp t lo hi) : ∀ (vs : List Int), (∀ v ∈ vs, lo ≤ v ∧ v ≤ hi) → c.run t (vs.map .set) = some (vs.map fun v => .set (c.maps v), c)
  | [], _ => rfl
  | v :: vs, hv => by
    obtain ⟨h1, h2⟩ := hv v List.mem_cons_self
    have ih := run_sets_chain h vs (fun w hw => hv w (List.mem_cons_of_mem _ hw))
    rw [List.map_cons]
    unfold Chain.run
    rw [(chain_set h h1 h2).1, Option.bind_some]
    simp only []
    rw [ih]; rfl

/-- **C147** Values reported through any depth of sections within sections: each value within the topmost range arrives at the end as one value, within the
section of the outermost `global_progress`; if the reported values do not go back, neither do those that arrive; and where every section is the whole
range of its host, the start arrives as the start and the end as the end. -/
theorem chain_nested {t : IntT} {c : Chain} {lo hi : Int} (h : c.SetUp t lo hi) (vs : List Int) (hv : ∀ v ∈ vs, lo ≤ v ∧ v ≤ hi) :
    ∃ rs : List Int, c.run t (vs.map .set) = some (rs.map .set, c) ∧ rs.length = vs.length ∧ (∀ r ∈ rs, (c.outer lo hi).1 ≤ r ∧ r ≤ (c.outer lo hi).2) ∧
      (vs.Pairwise (· ≤ ·) → rs.Pairwise (· ≤ ·)) ∧
      (c.Full lo hi → ∀ i : Nat, (vs[i]? = some lo → rs[i]? = some (c.outer lo hi).1) ∧ (vs[i]? = some hi → rs[i]? = some (c.outer lo hi).2)) := by
  refine ⟨vs.map c.maps, ?_, by simp, ?_, ?_, ?_⟩
  · rw [run_sets_chain h vs hv, List.map_map]; rfl
  · intro r hr
    obtain ⟨v, hm, rfl⟩ := List.mem_map.1 hr
    exact (chain_set h (hv v hm).1 (hv v hm).2).2
  · intro hp
    rw [List.pairwise_map]
    refine hp.imp_of_mem ?_
    intro a b ha hb hab
    exact maps_mono h (hv a ha).1 hab (hv b hb).2
  · intro hf i
    obtain ⟨a, b⟩ := maps_ends h hf
    constructor <;> intro e <;> rw [List.getElem?_map, e, Option.map_some]
    · rw [a]
    · rw [b]

/-! ### With a `lazy_progress` at the end -/

/-- The calls that arrive at a `lazy_progress` (which does not override `set_text` and `show`), with what its clock says at each. -/
def toLazy (clock : Nat → Int) : Nat → List PCall → List LOp
  | _, [] => []
  | i, .set v :: cs => .set v (clock i) :: toLazy clock (i + 1) cs
  | i, .range a b :: cs => .range a b :: toLazy clock (i + 1) cs
  | i, _ :: cs => toLazy clock (i + 1) cs

/-- What is shown. -/
def shown (h : Hist) : List Int := h.filterMap Prod.snd

theorem lazy_sub : ∀ (ops : List LOp) (l : Lazy), (shown (l.run ops).1).Sublist (ops.filterMap fun o => match o with | .set v _ => some v | _ => none)
  | [], _ => List.Sublist.refl _
  | o :: os, l => by
    have ih := lazy_sub os (l.step o).2
    show (shown ((o, (l.step o).1) :: ((l.step o).2.run os).1)).Sublist _
    cases o with
    | range a b => exact ih
    | set v now =>
      have hs : (l.step (.set v now)).1 = some v ∨ (l.step (.set v now)).1 = none := by
        unfold Lazy.step
        simp only []
        split
        · exact Or.inl rfl
        · split
          · exact Or.inr rfl
          · split
            · exact Or.inr rfl
            · exact Or.inl rfl
      rcases hs with e | e
      · unfold shown at ih ⊢
        rw [List.filterMap_cons, List.filterMap_cons]
        simp only [e]
        exact ih.cons_cons v
      · unfold shown at ih ⊢
        rw [List.filterMap_cons, List.filterMap_cons]
        simp only [e]
        exact ih.cons v

theorem toLazy_sets (clock : Nat → Int) : ∀ (i : Nat) (rs : List Int), ((toLazy clock i (rs.map .set)).filterMap fun o => match o with | .set v _ => some v | _ => none) = rs
  | _, [] => rfl
  | i, r :: rs => by
    show ((LOp.set r (clock i) :: toLazy clock (i + 1) (rs.map .set)).filterMap _) = _
    rw [List.filterMap_cons]
    simp only []
    rw [toLazy_sets clock (i + 1) rs]

theorem toLazy_snoc (clock : Nat → Int) : ∀ (i : Nat) (rs : List Int) (r : Int), ∃ j, toLazy clock i ((rs ++ [r]).map .set) = toLazy clock i (rs.map .set) ++ [.set r (clock j)]
  | i, [], r => ⟨i, rfl⟩
  | i, x :: rs, r => by
    obtain ⟨j, e⟩ := toLazy_snoc clock (i + 1) rs r
    refine ⟨j, ?_⟩
    show LOp.set x (clock i) :: toLazy clock (i + 1) ((rs ++ [r]).map .set) = _
    rw [e]; rfl

theorem rangeOf_sets {l : List LOp} {a : Hist} {lo hi : Int} (h : a.map Prod.fst = .range lo hi :: l) (hl : ∀ o ∈ l, ∃ v now, o = LOp.set v now) : rangeOf a = (lo, hi) := by
  cases a with
  | nil => cases h
  | cons x a =>
    obtain ⟨o, f⟩ := x
    rw [List.map_cons] at h
    injection h with h1 h2
    subst h2
    have h1 : o = .range lo hi := h1
    subst h1
    unfold rangeOf
    rw [List.foldl_cons]
    simp only []
    generalize ((lo, hi) : Int × Int) = acc
    induction a with
    | nil => rfl
    | cons y a ih =>
      obtain ⟨v, now, e⟩ := hl y.1 (by rw [List.map_cons]; exact List.mem_cons_self)
      rw [List.foldl_cons]
      obtain ⟨o, g⟩ := y
      have e : o = .set v now := e
      subst e
      exact ih (fun o ho => hl o (by rw [List.map_cons]; exact List.mem_cons_of_mem _ ho))

theorem mem_toLazy (clock : Nat → Int) : ∀ (i : Nat) (rs : List Int), ∀ o ∈ toLazy clock i (rs.map .set), ∃ v now, o = LOp.set v now
  | _, [], o, h => by cases h
  | i, r :: rs, o, h => by
    rcases List.mem_cons.1 h with rfl | h
    · exact ⟨r, clock i, rfl⟩
    · exact mem_toLazy clock (i + 1) rs o h

/-- **C147** A job that reports through any depth of sections, each the whole of its host's range, to a `lazy_progress` with the outermost section for a range, values that do not go back,
ending with the end of its range: what is shown lies within the range, never goes back, and ends with the end - at whatever times the values come and whatever the timeout is. -/
theorem chain_lazy {t : IntT} {c : Chain} {lo hi : Int} (h : c.SetUp t lo hi) (hf : c.Full lo hi) (vs : List Int) (hv : ∀ v ∈ vs, lo ≤ v ∧ v ≤ hi) (hp : vs.Pairwise (· ≤ ·)) (hlo : lo ≤ hi)
    (timeout : Int) (clock : Nat → Int) :
    ∃ cs, c.run t ((vs ++ [hi]).map .set) = some (cs, c) ∧
      let s := shown ((Lazy.new timeout).run (.range (c.outer lo hi).1 (c.outer lo hi).2 :: toLazy clock 0 cs)).1
      (∀ x ∈ s, (c.outer lo hi).1 ≤ x ∧ x ≤ (c.outer lo hi).2) ∧ s.Pairwise (· ≤ ·) ∧ s.getLast? = some (c.outer lo hi).2 := by
  have hv' : ∀ v ∈ vs ++ [hi], lo ≤ v ∧ v ≤ hi := by
    intro v hm
    rcases List.mem_append.1 hm with q | q
    · exact hv v q
    · rw [List.mem_singleton.1 q]; exact ⟨hlo, Int.le_refl _⟩
  have hp' : (vs ++ [hi]).Pairwise (· ≤ ·) := by
    rw [List.pairwise_append]
    refine ⟨hp, List.pairwise_singleton _ _, ?_⟩
    intro a ha b hb
    rw [List.mem_singleton.1 hb]; exact (hv a ha).2
  have er := run_sets_chain h (vs ++ [hi]) hv'
  have er' : c.run t ((vs ++ [hi]).map .set) = some (((vs ++ [hi]).map c.maps).map .set, c) := by rw [er, List.map_map]; rfl
  refine ⟨_, er', ?_⟩
  have hends := maps_ends h hf
  rw [List.map_append, List.map_cons, List.map_nil, hends.2]
  intro s
  have hsub : s.Sublist (vs.map c.maps ++ [(c.outer lo hi).2]) := by
    have := lazy_sub (.range (c.outer lo hi).1 (c.outer lo hi).2 :: toLazy clock 0 ((vs.map c.maps ++ [(c.outer lo hi).2]).map .set)) (Lazy.new timeout)
    rw [List.filterMap_cons] at this
    simp only [] at this
    rw [toLazy_sets] at this
    exact this
  have hmap : (vs ++ [hi]).map c.maps = vs.map c.maps ++ [(c.outer lo hi).2] := by rw [List.map_append, List.map_cons, List.map_nil, hends.2]
  have hpm : (vs.map c.maps ++ [(c.outer lo hi).2]).Pairwise (· ≤ ·) := by
    rw [← hmap, List.pairwise_map]
    refine hp'.imp_of_mem ?_
    intro a b ha hb hab
    exact maps_mono h (hv' a ha).1 hab (hv' b hb).2
  refine ⟨?_, hpm.sublist hsub, ?_⟩
  · intro x hx
    have := hsub.subset hx
    rw [← hmap] at this
    obtain ⟨v, hm, rfl⟩ := List.mem_map.1 this
    exact (chain_set h (hv' v hm).1 (hv' v hm).2).2
  · obtain ⟨j, ej⟩ := toLazy_snoc clock 0 (vs.map c.maps) (c.outer lo hi).2
    have hops := run_ops (.range (c.outer lo hi).1 (c.outer lo hi).2 :: toLazy clock 0 ((vs.map c.maps ++ [(c.outer lo hi).2]).map .set)) (Lazy.new timeout)
    show (shown ((Lazy.new timeout).run _).1).getLast? = _
    generalize hH : ((Lazy.new timeout).run (.range (c.outer lo hi).1 (c.outer lo hi).2 :: toLazy clock 0 ((vs.map c.maps ++ [(c.outer lo hi).2]).map .set))).1 = H at *
    rw [ej, ← List.cons_append] at hops
    obtain ⟨a, b, rfl, ha, hb⟩ := List.map_eq_append_iff.1 hops
    obtain ⟨x, rfl⟩ : ∃ x, b = [x] := by
      cases b with
      | nil => cases hb
      | cons x b =>
        cases b with
        | nil => exact ⟨x, rfl⟩
        | cons y b =>
          have := congrArg List.length hb
          simp at this
    obtain ⟨o, f⟩ := x
    have hb : [o] = [LOp.set (c.outer lo hi).2 (clock j)] := hb
    cases hb
    have hr := rangeOf_sets ha (mem_toLazy clock 0 _)
    have sp := lazy_spec timeout _ hH
    simp only at sp
    have := sp.2.2 (Or.inr (Or.inl (by rw [hr])))
    subst this
    unfold shown
    rw [List.filterMap_append]
    simp

/-! ### Examples -/

/-- A job in a section of a job with a deadline in the whole of a job. -/
def three : Chain := .global ⟨0, 10⟩ ⟨100, 200⟩ (.timeout 5000 (.global ⟨0, 400⟩ ⟨50, 90⟩ .base))

example : three.SetUp ⟨32, true⟩ 0 10 := by
  refine ⟨rfl, ⟨rfl, by decide, by decide, by decide, by decide, by unfold IntT.has; decide⟩, 0, 400, ?_, by decide, by decide⟩
  exact ⟨rfl, ⟨rfl, by decide, by decide, by decide, by decide, by unfold IntT.has; decide⟩, 50, 90, trivial, by decide, by decide⟩
example : (three.run ⟨32, true⟩ [.visible true, .set 0, .text [104, 105], .set 3, .range 0 20, .set 10, .set 10]).map Prod.fst =
    some [.visible true, .set 60, .text [104, 105], .set 63, .set 65, .set 65] := by decide +kernel
example : three.cancel false 5001 = true ∧ three.cancel false 5000 = false ∧ three.cancel true 0 = true := by decide +kernel

/-- As `three`, every section the whole of its host's range. -/
def wholes : Chain := .global ⟨0, 10⟩ ⟨0, 400⟩ (.timeout 5000 (.global ⟨0, 400⟩ ⟨50, 90⟩ .base))

example : wholes.SetUp ⟨32, true⟩ 0 10 ∧ wholes.Full 0 10 ∧ wholes.outer 0 10 = (50, 90) := by
  refine ⟨⟨rfl, ⟨rfl, by decide, by decide, by decide, by decide, by unfold IntT.has; decide⟩, 0, 400, ?_, by decide, by decide⟩, ⟨rfl, rfl, trivial⟩, rfl⟩
  exact ⟨rfl, ⟨rfl, by decide, by decide, by decide, by decide, by unfold IntT.has; decide⟩, 50, 90, trivial, by decide, by decide⟩

end Verif.Progress
