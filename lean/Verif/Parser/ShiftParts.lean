import Verif.Parser.Shift
import Verif.Parser.SgmlDate
import Verif.Parser.SgmlIp
/-
Parsing is local (Shift.lean), for the parsers of names, numbers, dates, angles, addresses, phone numbers, emoticons and formulas (include/stdex/parser.hpp 1470-5650): in the middle of a text they find what they find in the text
that begins there, with the same values, and all intervals moved. Here the elements are given as grammars, and not as what they match.
-/
namespace Verif.Parser
open Verif.Interval Verif.Str Verif.Sgml

/-! ### Specification -/

mutual
/-- It never matches without taking some of the text - a sufficient condition that can be read off the grammar. -/
def Grammar.Advances : Grammar → Prop
  | .noop => False
  | .any => True
  | .cu _ _ => True
  | .space _ => True
  | .punct _ => True
  | .spaceOrPunct _ => True
  | .bol _ => False
  | .eol _ => False
  | .set _ _ => True
  | .string s => s ≠ []
  | .iter e mn mx _ => 1 ≤ mn ∧ 1 ≤ mx ∧ e.Advances
  | .seq l => Grammar.SomeAdvances l
  | .branch l => Grammar.AllAdvance l
  | .perm _ => False
/-- One of the list does. -/
def Grammar.SomeAdvances : List Grammar → Prop
  | [] => False
  | g :: r => g.Advances ∨ Grammar.SomeAdvances r
/-- All of the list do. -/
def Grammar.AllAdvance : List Grammar → Prop
  | [] => True
  | g :: r => g.Advances ∧ Grammar.AllAdvance r
end

/-- A grammar that can be moved: sets and strings without terminators, no beginnings of lines. -/
def Movable (g : Grammar) : Prop := g.Each Plain ∧ g.Each NoBol

/-- … and one that may be repeated. -/
def Moving (g : Grammar) : Prop := Movable g ∧ g.Advances

/-- An element with a value: an integer of given digits (`basic_integer10` 1420, `basic_integer16` 1590), or the one of several grammars that matches first (`hit_offset` of `basic_branch`, `basic_cu_set`). -/
inductive Valued where
  | integer (base : Nat) (digits : List Grammar)
  | which (els : List Grammar)

/-- What it matches on a text, and its value. -/
def Valued.on (v : Env) : Valued → SubV
  | .integer b ds => fun i => (Parser.integer v b (ds.map fun g => sem (g.on v)) i).join
  | .which els => fun i => (firstOf (els.map fun g => sem (g.on v)) 0 i).map fun p => (p.2, p.1)

/-- Its grammars. -/
def Valued.All (P : Grammar → Prop) : Valued → Prop
  | .integer _ ds => ∀ g ∈ ds, P g
  | .which els => ∀ g ∈ els, P g

/-- Digits advance; alternatives need not. -/
def Valued.Movable : Valued → Prop
  | .integer _ ds => ∀ g ∈ ds, Moving g
  | .which els => ∀ g ∈ els, Parser.Movable g

/-- It may be repeated. -/
def Valued.Moving (x : Valued) : Prop := x.All Parser.Moving

structure DateGrammars where
  day : Valued
  month : Valued
  year : Valued
  sep : Valued
  space : Grammar
def DateGrammars.on (v : Env) (c : DateGrammars) : DateParts := ⟨c.day.on v, c.month.on v, c.year.on v, c.sep.on v, sem (c.space.on v)⟩

structure TimeGrammars where
  hour : Valued
  minute : Valued
  second : Option Valued
  ms : Option Valued
  sep : Valued
  msSep : Option Grammar
def TimeGrammars.on (v : Env) (c : TimeGrammars) : TimeParts :=
  ⟨c.hour.on v, c.minute.on v, c.second.map fun x => x.on v, c.ms.map fun x => x.on v, c.sep.on v, c.msSep.map fun g => sem (g.on v)⟩

structure AngleGrammars where
  degree : Valued
  degreeSep : Grammar
  minute : Valued
  minuteSep : Grammar
  second : Option Valued
  secondSep : Option Grammar
  decimal : Option Grammar
def AngleGrammars.on (v : Env) (c : AngleGrammars) : AngleParts :=
  ⟨c.degree.on v, sem (c.degreeSep.on v), c.minute.on v, sem (c.minuteSep.on v), c.second.map fun x => x.on v, c.secondSep.map fun g => sem (g.on v), c.decimal.map fun g => sem (g.on v)⟩

structure EmoGrammars where
  whole : Option Grammar
  apex : Option Grammar
  eyes : Grammar
  nose : Option Grammar
  mouth : Valued
def EmoGrammars.on (v : Env) (c : EmoGrammars) : EmoParts :=
  ⟨c.whole.map fun g => sem (g.on v), c.apex.map fun g => sem (g.on v), sem (c.eyes.on v), c.nose.map fun g => sem (g.on v), c.mouth.on v⟩

structure SciGrammars where
  pos : Option Grammar
  neg : Option Grammar
  spc : Option Grammar
  integer : Valued
  sep : Grammar
  decimal : Valued
  expSym : Option Grammar
  expPos : Option Grammar
  expNeg : Option Grammar
  exponent : Option Valued
def SciGrammars.on (v : Env) (c : SciGrammars) : SciParts :=
  ⟨c.pos.map fun g => sem (g.on v), c.neg.map fun g => sem (g.on v), c.spc.map fun g => sem (g.on v), c.integer.on v, sem (c.sep.on v), c.decimal.on v, c.expSym.map fun g => sem (g.on v),
   c.expPos.map fun g => sem (g.on v), c.expNeg.map fun g => sem (g.on v), c.exponent.map fun x => x.on v⟩

/-! ### What advances -/

theorem grammar_bound {u : Env} {t : List Int} (hu : u.Ok t) (g : Grammar) (hp : g.Each Plain) : ∀ i ≤ t.length, ∀ j, sem (g.on u) i = some j → i ≤ j ∧ j ≤ t.length :=
  fun i hi j h => (shape_contract (Nat.lt_succ_self _) _ (grammar_good hu g hp)).bound i j hi h

theorem one_takes {t : List Int} {m : Leaf} {p : Int → Bool} (h : One t m p) : Takes t.length (sem (.leaf m)) := by
  intro i hi j q
  rw [sem] at q
  dsimp only at q
  rw [h i hi] at q
  cases hc : t[i]? with
  | none => rw [hc] at q; cases q
  | some c =>
    rw [hc] at q
    dsimp only at q
    have := (List.getElem?_eq_some_iff.1 hc).1
    split at q
    · cases q; dsimp only; omega
    · cases q

theorem iterSem_takes {f : Sem} {n : Nat} (h : ∀ i ≤ n, ∀ j, f i = some j → i ≤ j ∧ j ≤ n) : ∀ (lim mn i : Nat), i ≤ n → ∀ j, iterSem f lim mn i = some j → i ≤ j ∧ j ≤ n
  | 0, _, i, hi, j, q => by cases q; exact ⟨Nat.le_refl _, hi⟩
  | lim + 1, mn, i, hi, j, q => by
    rw [iterSem] at q
    cases e : f i with
    | none =>
      rw [e] at q
      dsimp only at q
      split at q
      · cases q; exact ⟨Nat.le_refl _, hi⟩
      · cases q
    | some j' =>
      rw [e] at q
      dsimp only at q
      have b := h i hi j' e
      split at q
      · cases q; exact ⟨Nat.le_refl _, hi⟩
      · have := iterSem_takes h lim (mn - 1) j' b.2 j q
        omega

mutual
/-- A grammar that advances does. -/
theorem advances_takes {u : Env} {t : List Int} (hu : u.Ok t) : ∀ (g : Grammar), g.Each Plain → g.Advances → Takes t.length (sem (g.on u))
  | .noop, _, ha => by simp only [Grammar.Advances] at ha
  | .any, _, _ => by simp only [Grammar.on]; exact one_takes (anyCu_spec hu)
  | .cu c i, _, _ => by simp only [Grammar.on]; exact one_takes (cu_spec hu c i)
  | .space i, _, _ => by simp only [Grammar.on]; exact one_takes (spaceCu_spec hu i)
  | .punct i, _, _ => by simp only [Grammar.on]; exact one_takes (punctCu_spec hu i)
  | .spaceOrPunct i, _, _ => by simp only [Grammar.on]; exact one_takes (spaceOrPunctCu_spec hu i)
  | .bol i, _, ha => by simp only [Grammar.Advances] at ha
  | .eol i, _, ha => by simp only [Grammar.Advances] at ha
  | .set s i, hp, _ => by
    simp only [Grammar.on]
    intro k hk j q
    obtain ⟨hit, e, _⟩ := cuSet_spec hu (by simpa only [Grammar.Each, Plain] using hp) i k hk
    rw [sem] at q
    dsimp only at q
    rw [e] at q
    cases hc : t[k]? with
    | none => rw [hc] at q; cases q
    | some c =>
      rw [hc] at q
      dsimp only at q
      have := (List.getElem?_eq_some_iff.1 hc).1
      split at q
      · cases q; dsimp only; omega
      · cases q
  | .string s, hp, ha => by
    intro k hk j q
    have b := grammar_bound hu _ hp k hk j q
    simp only [Grammar.Advances] at ha
    simp only [Grammar.on] at q
    rw [sem] at q
    dsimp only at q
    rw [string_spec hu (by simpa only [Grammar.Each, Plain] using hp) k hk] at q
    have := List.length_pos_iff.2 ha
    generalize (if u.ci = true then u.lower else id) = f at q
    split at q
    · cases q; dsimp only at b ⊢; omega
    · cases q
  | .iter e mn mx g, hp, ha => by
    simp only [Grammar.Each] at hp
    simp only [Grammar.Advances] at ha
    have ih := advances_takes hu e hp ha.2.2
    simp only [Grammar.on]
    intro i hi j q
    rw [sem] at q
    have lim : 1 ≤ iterLimit mn mx g := by unfold iterLimit; split <;> omega
    obtain ⟨l, hl⟩ : ∃ l, iterLimit mn mx g = l + 1 := ⟨iterLimit mn mx g - 1, by omega⟩
    rw [hl, iterSem] at q
    cases e' : sem (e.on u) i with
    | none =>
      rw [e'] at q
      dsimp only at q
      split at q
      · omega
      · cases q
    | some j' =>
      rw [e'] at q
      dsimp only at q
      have b := ih i hi j' e'
      split at q
      · omega
      · have := iterSem_takes (grammar_bound hu e hp) l (mn - 1) j' b.2 j q
        omega
  | .seq l, hp, ha => by
    simp only [Grammar.Each] at hp
    simp only [Grammar.Advances] at ha
    simp only [Grammar.on]
    have := (chain_takes hu l hp).2 ha
    rw [sem]
    exact this
  | .branch l, hp, ha => by
    simp only [Grammar.Each] at hp
    simp only [Grammar.Advances] at ha
    simp only [Grammar.on]
    have := first_takes hu l hp ha
    rw [sem]
    exact this
  | .perm l, _, ha => by simp only [Grammar.Advances] at ha
theorem chain_takes {u : Env} {t : List Int} (hu : u.Ok t) : ∀ (l : List Grammar), Grammar.Eachs Plain l →
    (∀ i ≤ t.length, ∀ j, chain (sems (Grammar.ons u l)) i = some j → i ≤ j ∧ j ≤ t.length) ∧ (Grammar.SomeAdvances l → Takes t.length (chain (sems (Grammar.ons u l))))
  | [], _ => by
    simp only [Grammar.ons, sems, Grammar.SomeAdvances]
    exact ⟨fun i hi j q => by cases q; exact ⟨Nat.le_refl _, hi⟩, fun h => h.elim⟩
  | g :: r, hp => by
    simp only [Grammar.Eachs] at hp
    simp only [Grammar.ons, sems, Grammar.SomeAdvances]
    have ⟨ih1, ih2⟩ := chain_takes hu r hp.2
    have bd := grammar_bound hu g hp.1
    refine ⟨?_, ?_⟩
    · intro i hi j q
      rw [chain_cons] at q
      cases e : sem (g.on u) i with
      | none => rw [e] at q; cases q
      | some j' =>
        rw [e] at q
        have := bd i hi j' e
        have := ih1 j' this.2 j q
        omega
    · intro ha i hi j q
      rw [chain_cons] at q
      cases e : sem (g.on u) i with
      | none => rw [e] at q; cases q
      | some j' =>
        rw [e] at q
        have b := bd i hi j' e
        have b2 := ih1 j' b.2 j q
        rcases ha with ha | ha
        · have := advances_takes hu g hp.1 ha i hi j' e
          omega
        · have := ih2 ha j' b.2 j q
          omega
theorem first_takes {u : Env} {t : List Int} (hu : u.Ok t) : ∀ (l : List Grammar), Grammar.Eachs Plain l → Grammar.AllAdvance l →
    Takes t.length (fun i => (sems (Grammar.ons u l)).findSome? fun f => f i)
  | [], _, _ => by
    simp only [Grammar.ons, sems]
    exact fun i hi j q => by cases q
  | g :: r, hp, ha => by
    simp only [Grammar.Eachs] at hp
    simp only [Grammar.AllAdvance] at ha
    simp only [Grammar.ons, sems]
    intro i hi j q
    dsimp only at q
    rw [List.findSome?_cons] at q
    cases e : sem (g.on u) i with
    | none => rw [e] at q; exact first_takes hu r hp.2 ha.2 i hi j q
    | some j' => rw [e] at q; cases q; exact advances_takes hu g hp.1 ha.1 i hi j e
end

/-! ### Elements -/

section
variable {v u : Env} {p t : List Int}

theorem movable_mirrors (hv : v.Ok (p ++ t)) (hu : u.Ok t) (e : SameLocale v u) {g : Grammar} (h : Movable g) : Mirrors (p.length + ·) t.length (sem (g.on v)) (sem (g.on u)) :=
  shift_sub hv hu e g h.1 (.inr h.2)

theorem moving_takes (hu : u.Ok t) {g : Grammar} (h : Moving g) : Takes t.length (sem (g.on u)) := advances_takes hu g h.1.1 h.2

theorem all_movable (hv : v.Ok (p ++ t)) (hu : u.Ok t) (e : SameLocale v u) : ∀ {l : List Grammar}, (∀ g ∈ l, Movable g) →
    AllMirror (p.length + ·) t.length (l.map fun g => sem (g.on v)) (l.map fun g => sem (g.on u))
  | [], _ => .nil
  | _ :: _, h => .cons (movable_mirrors hv hu e (h _ List.mem_cons_self)) (all_movable hv hu e fun x hx => h x (List.mem_cons_of_mem _ hx))

theorem all_moving (hu : u.Ok t) {l : List Grammar} (h : ∀ g ∈ l, Moving g) : Onward t.length (l.map fun g => sem (g.on u)) := by
  intro d hd
  obtain ⟨g, hg, rfl⟩ := List.mem_map.1 hd
  exact moving_takes hu (h g hg)

theorem opt_movable (hv : v.Ok (p ++ t)) (hu : u.Ok t) (e : SameLocale v u) : ∀ {o : Option Grammar}, (∀ g, o = some g → Movable g) →
    OptMirrors (p.length + ·) t.length (o.map fun g => sem (g.on v)) (o.map fun g => sem (g.on u))
  | none, _ => .absent
  | some g, h => .given (movable_mirrors hv hu e (h g rfl))

/-- **C151** (values) An element with a value: the same value, and the end moved. -/
theorem shift_value (hv : v.Ok (p ++ t)) (hu : u.Ok t) (e : SameLocale v u) : ∀ {x : Valued}, x.Movable → MirrorsV (p.length + ·) t.length (x.on v) (x.on u)
  | .integer b ds, h => integer_mirrorsV (shift_along hv hu) b (all_movable hv hu e fun g hg => (h g hg).1) (all_moving hu h)
  | .which els, h => by
    intro k hk
    obtain ⟨a, b⟩ := firstOf_mirrors (all_movable hv hu e h) 0 k hk
    unfold Valued.on
    dsimp only
    rw [a]
    refine ⟨?_, ?_⟩
    · rw [Option.map_map, Option.map_map]; rfl
    · intro q hq
      rw [Option.map_eq_some_iff] at hq
      obtain ⟨r, hr, rfl⟩ := hq
      exact b r hr

theorem moving_movable : ∀ {x : Valued}, x.Moving → x.Movable
  | .integer _ _, h => h
  | .which _, h => fun g hg => (h g hg).1

theorem value_takes (hu : u.Ok t) : ∀ {x : Valued}, x.Moving → TakesV t.length (x.on u)
  | .integer b ds, h => by
    intro i hi j x q
    obtain ⟨w, j', _, _, l, l', r⟩ := integer_spec hu b (all_moving hu h) hi
    unfold Valued.on at q
    dsimp only at q
    rw [r] at q
    by_cases e : w = []
    · rw [if_pos e] at q; cases q
    · rw [if_neg e] at q
      cases q
      have := List.length_pos_iff.2 e
      omega
  | .which els, h => by
    intro i hi j x q
    unfold Valued.on at q
    dsimp only at q
    rw [Option.map_eq_some_iff] at q
    obtain ⟨r, hr, hx⟩ := q
    cases hx
    exact firstOf_onward (all_moving hu h) hi hr

theorem opt_value (hv : v.Ok (p ++ t)) (hu : u.Ok t) (e : SameLocale v u) : ∀ {o : Option Valued}, (∀ x, o = some x → x.Movable) →
    OptMirrorsV (p.length + ·) t.length (o.map fun x => x.on v) (o.map fun x => x.on u)
  | none, _ => .absent
  | some x, h => .given (shift_value hv hu e (h x rfl))

theorem shift_len (p t : List Int) : t.length ≤ (p ++ t).length := by rw [List.length_append]; omega

theorem shift_grows (p t : List Int) : Grows (p.length + ·) t.length := fun i j h _ => by dsimp only; omega

/-! ### The parsers -/

/-- **C151** (dates) -/
theorem shift_date (hv : v.Ok (p ++ t)) (hu : u.Ok t) (e : SameLocale v u) (c : DateGrammars) (hd : c.day.Movable) (hm : c.month.Movable) (hy : c.year.Movable) (hs : c.sep.Movable) (hg : Moving c.space)
    (mask : Nat) (o' o : Date) {k : Nat} (hk : k ≤ t.length) :
    ∃ b x, date (c.on u) mask t.length k o = some (b, x) ∧ date (c.on v) mask (p ++ t).length (p.length + k) o' = some (b, datef (p.length + ·) x) :=
  date_mirrors (f := (p.length + ·)) (shift_len p t) (c' := c.on v) (c := c.on u)
    ⟨shift_value hv hu e hd, shift_value hv hu e hm, shift_value hv hu e hy, shift_value hv hu e hs, movable_mirrors hv hu e hg.1, moving_takes hu hg⟩ mask o' o hk

/-- **C151** (times) -/
theorem shift_time (hv : v.Ok (p ++ t)) (hu : u.Ok t) (e : SameLocale v u) (c : TimeGrammars) (hh : c.hour.Movable) (hm : c.minute.Movable) (h1 : ∀ x, c.second = some x → x.Movable) (h2 : ∀ x, c.ms = some x → x.Movable)
    (hs : c.sep.Movable) (hp : ∀ g, c.msSep = some g → Movable g) (o' o : Time) {k : Nat} (hk : k ≤ t.length) :
    time (c.on v) (p.length + k) o' = ((time (c.on u) k o).1, timef (p.length + ·) (time (c.on u) k o).2) :=
  time_mirrors (f := (p.length + ·)) (n := t.length) (c' := c.on v) (c := c.on u)
    ⟨shift_value hv hu e hh, shift_value hv hu e hm, opt_value hv hu e h1, opt_value hv hu e h2, shift_value hv hu e hs, opt_movable hv hu e hp⟩ o' o hk

/-- **C151** (angles) -/
theorem shift_angle (hv : v.Ok (p ++ t)) (hu : u.Ok t) (e : SameLocale v u) (c : AngleGrammars) (hd : c.degree.Movable) (hds : Movable c.degreeSep) (hm : c.minute.Movable) (hms : Movable c.minuteSep)
    (hs : ∀ x, c.second = some x → x.Movable) (hss : ∀ g, c.secondSep = some g → Movable g) (hp : ∀ g, c.decimal = some g → Movable g) (o' o : Angle) {k : Nat} (hk : k ≤ t.length) :
    angle (c.on v) (p.length + k) o' = ((angle (c.on u) k o).1, anglef (p.length + ·) (angle (c.on u) k o).2) :=
  angle_mirrors (shift_grows p t) (c' := c.on v) (c := c.on u)
    ⟨shift_value hv hu e hd, movable_mirrors hv hu e hds, shift_value hv hu e hm, movable_mirrors hv hu e hms, opt_value hv hu e hs, opt_movable hv hu e hss, opt_movable hv hu e hp⟩ o' o hk

/-- **C151** (emoticons) -/
theorem shift_emoticon (hv : v.Ok (p ++ t)) (hu : u.Ok t) (e : SameLocale v u) (c : EmoGrammars) (hw : ∀ g, c.whole = some g → Movable g) (ha : ∀ g, c.apex = some g → Movable g) (he : Movable c.eyes)
    (hn : ∀ g, c.nose = some g → Movable g) (hm : c.mouth.Moving) {k : Nat} (hk : k ≤ t.length) :
    ∃ b x y, emoticon u (c.on u) k = some (b, x, y) ∧ emoticon v (c.on v) (p.length + k) = some (b, emof (p.length + ·) x, y) :=
  emoticon_mirrors (shift_along hv hu) (c' := c.on v) (c := c.on u)
    ⟨opt_movable hv hu e hw, opt_movable hv hu e ha, movable_mirrors hv hu e he, opt_movable hv hu e hn, shift_value hv hu e (moving_movable hm), value_takes hu hm⟩ hk

/-- **C151** (chemical formulas) -/
theorem shift_chem (hv : v.Ok (p ++ t)) (hu : u.Ok t) (e : SameLocale v u) {el dg sg : Grammar} (he : Moving el) (hd : Moving dg) (hs : Movable sg) {k : Nat} (hk : k ≤ t.length) :
    ∃ r x y iv, chem u ⟨fun _ => sem (el.on u), sem (dg.on u), sem (sg.on u)⟩ k = some (r, x, y, iv) ∧
      chem v ⟨fun _ => sem (el.on v), sem (dg.on v), sem (sg.on v)⟩ (p.length + k) = some (r, x, y, ivf (p.length + ·) iv) :=
  chem_mirrors (shift_along hv hu) (c' := ⟨fun _ => sem (el.on v), sem (dg.on v), sem (sg.on v)⟩) (c := ⟨fun _ => sem (el.on u), sem (dg.on u), sem (sg.on u)⟩)
    ⟨movable_mirrors hv hu e he.1, movable_mirrors hv hu e hd.1, movable_mirrors hv hu e hs, moving_takes hu he, moving_takes hu hd⟩ hk

/-- **C151** (IPv4 addresses) -/
theorem shift_ipv4 (hv : v.Ok (p ++ t)) (hu : u.Ok t) (e : SameLocale v u) {ds : List Grammar} (hd : ∀ g ∈ ds, Moving g) {sep : Grammar} (hs : Movable sep) {k : Nat} (hk : k ≤ t.length) :
    ∃ b x, ipv4 u (ds.map fun g => sem (g.on u)) (sem (sep.on u)) k = some (b, x) ∧
      ipv4 v (ds.map fun g => sem (g.on v)) (sem (sep.on v)) (p.length + k) = some (b, v4f (p.length + ·) b x) := by
  obtain ⟨b, x, h1, h2, _⟩ := ipv4_mirrors (shift_along hv hu) (all_movable hv hu e fun g hg => (hd g hg).1) (all_moving hu hd) (movable_mirrors hv hu e hs) hk
  exact ⟨b, x, h1, h2⟩

/-- **C151** (IPv6 addresses) -/
theorem shift_ipv6 (hv : v.Ok (p ++ t)) (hu : u.Ok t) (e : SameLocale v u) {ds : List Grammar} (hd : ∀ g ∈ ds, Moving g) {sep : Grammar} (hs : Movable sep) {a b : Option Grammar} (ha : ∀ g, a = some g → Movable g)
    (hb : ∀ g, b = some g → Movable g) {old' old : V6} (l' : old'.comps.length = 8) (l : old.comps.length = 8) {k : Nat} (hk : k ≤ t.length) :
    ∃ r x, ipv6 u (ds.map fun g => sem (g.on u)) (sem (sep.on u)) (a.map fun g => sem (g.on u)) (b.map fun g => sem (g.on u)) k old = some (r, x) ∧
      ipv6 v (ds.map fun g => sem (g.on v)) (sem (sep.on v)) (a.map fun g => sem (g.on v)) (b.map fun g => sem (g.on v)) (p.length + k) old' = some (r, v6f (p.length + ·) r x) := by
  obtain ⟨r, x, h1, h2, _⟩ := ipv6_mirrors (shift_along hv hu) (all_movable hv hu e fun g hg => (hd g hg).1) (all_moving hu hd) (movable_mirrors hv hu e hs) (opt_movable hv hu e ha) (opt_movable hv hu e hb) l' l hk
  exact ⟨r, x, h1, h2⟩

/-- **C151** (Roman numerals) -/
theorem shift_roman (hv : v.Ok (p ++ t)) (hu : u.Ok t) (e : SameLocale v u) {ds : List Grammar} (hd : ∀ g ∈ ds, Moving g) {k : Nat} (hk : k ≤ t.length) :
    ∃ r, roman u (ds.map fun g => sem (g.on u)) k = some r ∧ roman v (ds.map fun g => sem (g.on v)) (p.length + k) = some (r.map fun x => (p.length + x.1, x.2)) := by
  obtain ⟨r, h1, h2, _⟩ := roman_mirrors (shift_along hv hu) (all_movable hv hu e fun g hg => (hd g hg).1) (all_moving hu hd) hk
  exact ⟨r, h1, h2⟩

/-- **C151** (fractions) -/
theorem shift_fraction (hv : v.Ok (p ++ t)) (hu : u.Ok t) (e : SameLocale v u) {a l d : Grammar} (ha : Movable a) (hl : Movable l) (hd : Movable d) (o' o : Fraction) {k : Nat} (hk : k ≤ t.length) :
    fraction (sem (a.on v)) (sem (l.on v)) (sem (d.on v)) (p.length + k) o' =
      ((fraction (sem (a.on u)) (sem (l.on u)) (sem (d.on u)) k o).1, fracf (p.length + ·) (fraction (sem (a.on u)) (sem (l.on u)) (sem (d.on u)) k o).2) :=
  fraction_mirrors (movable_mirrors hv hu e ha) (movable_mirrors hv hu e hl) (movable_mirrors hv hu e hd) o' o hk

/-- **C151** (scores) -/
theorem shift_score (hv : v.Ok (p ++ t)) (hu : u.Ok t) (e : SameLocale v u) {a l d s : Grammar} (ha : Movable a) (hl : Movable l) (hd : Movable d) (hs : Moving s) (o' o : Fraction) {k : Nat} (hk : k ≤ t.length) :
    ∃ b x, score t.length (sem (a.on u)) (sem (l.on u)) (sem (d.on u)) (sem (s.on u)) k o = some (b, x) ∧
      score (p ++ t).length (sem (a.on v)) (sem (l.on v)) (sem (d.on v)) (sem (s.on v)) (p.length + k) o' = some (b, fracf (p.length + ·) x) :=
  score_mirrors (shift_len p t) (movable_mirrors hv hu e ha) (movable_mirrors hv hu e hl) (movable_mirrors hv hu e hd) (movable_mirrors hv hu e hs.1) (moving_takes hu hs) o' o hk

/-- **C151** (signed numerals) -/
theorem shift_signed (hv : v.Ok (p ++ t)) (hu : u.Ok t) (e : SameLocale v u) {a b c : Option Grammar} {d : Grammar} (ha : ∀ g, a = some g → Movable g) (hb : ∀ g, b = some g → Movable g) (hc : ∀ g, c = some g → Movable g)
    (hd : Movable d) (o' o : Signed) {k : Nat} (hk : k ≤ t.length) :
    signed (a.map fun g => sem (g.on v)) (b.map fun g => sem (g.on v)) (c.map fun g => sem (g.on v)) (sem (d.on v)) (p.length + k) o' =
      ((signed (a.map fun g => sem (g.on u)) (b.map fun g => sem (g.on u)) (c.map fun g => sem (g.on u)) (sem (d.on u)) k o).1,
       signedf (p.length + ·) (signed (a.map fun g => sem (g.on u)) (b.map fun g => sem (g.on u)) (c.map fun g => sem (g.on u)) (sem (d.on u)) k o).2) :=
  signed_mirrors (opt_movable hv hu e ha) (opt_movable hv hu e hb) (opt_movable hv hu e hc) (movable_mirrors hv hu e hd) o' o hk

/-- **C151** (mixed numerals) -/
theorem shift_mixed (hv : v.Ok (p ++ t)) (hu : u.Ok t) (e : SameLocale v u) {a b c : Option Grammar} {d z r : Grammar} (ha : ∀ g, a = some g → Movable g) (hb : ∀ g, b = some g → Movable g) (hc : ∀ g, c = some g → Movable g)
    (hd : Movable d) (hz : Moving z) (hr : Movable r) (o' o : Mixed) {k : Nat} (hk : k ≤ t.length) :
    ∃ w x, mixed t.length (a.map fun g => sem (g.on u)) (b.map fun g => sem (g.on u)) (c.map fun g => sem (g.on u)) (sem (d.on u)) (sem (z.on u)) (sem (r.on u)) k o = some (w, x) ∧
      mixed (p ++ t).length (a.map fun g => sem (g.on v)) (b.map fun g => sem (g.on v)) (c.map fun g => sem (g.on v)) (sem (d.on v)) (sem (z.on v)) (sem (r.on v)) (p.length + k) o' = some (w, mixedf (p.length + ·) x) :=
  mixed_mirrors (shift_len p t) (opt_movable hv hu e ha) (opt_movable hv hu e hb) (opt_movable hv hu e hc) (movable_mirrors hv hu e hd) (movable_mirrors hv hu e hz.1) (moving_takes hu hz) (movable_mirrors hv hu e hr) o' o hk

/-- **C151** (amounts of money) -/
theorem shift_monetary (hv : v.Ok (p ++ t)) (hu : u.Ok t) (e : SameLocale v u) {a b c d i s f : Grammar} (ha : Movable a) (hb : Movable b) (hc : Movable c) (hd : Movable d) (hi : Movable i) (hs : Movable s) (hf : Movable f)
    (o' o : Money) {k : Nat} (hk : k ≤ t.length) :
    monetary (sem (a.on v)) (sem (b.on v)) (sem (c.on v)) (sem (d.on v)) (sem (i.on v)) (sem (s.on v)) (sem (f.on v)) (p.length + k) o' =
      ((monetary (sem (a.on u)) (sem (b.on u)) (sem (c.on u)) (sem (d.on u)) (sem (i.on u)) (sem (s.on u)) (sem (f.on u)) k o).1,
       moneyf (p.length + ·) (monetary (sem (a.on u)) (sem (b.on u)) (sem (c.on u)) (sem (d.on u)) (sem (i.on u)) (sem (s.on u)) (sem (f.on u)) k o).2) :=
  monetary_mirrors (shift_grows p t) (movable_mirrors hv hu e ha) (movable_mirrors hv hu e hb) (movable_mirrors hv hu e hc) (movable_mirrors hv hu e hd) (movable_mirrors hv hu e hi) (movable_mirrors hv hu e hs)
    (movable_mirrors hv hu e hf) o' o hk

/-- **C151** (numbers in scientific notation) All the parts moved, and the same value. -/
theorem shift_scientific (hv : v.Ok (p ++ t)) (hu : u.Ok t) (e : SameLocale v u) (c : SciGrammars) (h1 : ∀ g, c.pos = some g → Movable g) (h2 : ∀ g, c.neg = some g → Movable g) (h3 : ∀ g, c.spc = some g → Movable g)
    (h4 : c.integer.Movable) (h5 : Movable c.sep) (h6 : c.decimal.Movable) (h7 : ∀ g, c.expSym = some g → Movable g) (h8 : ∀ g, c.expPos = some g → Movable g) (h9 : ∀ g, c.expNeg = some g → Movable g)
    (h10 : ∀ x, c.exponent = some x → x.Movable) (o' o : Sci) {k : Nat} (hk : k ≤ t.length) :
    ∃ value, scientific (c.on v) (p.length + k) o' = ((scientific (c.on u) k o).1, scif (p.length + ·) (scientific (c.on u) k o).2 value) ∧
      ((scientific (c.on u) k o).1 = true → value = (scientific (c.on u) k o).2.value) := by
  obtain ⟨value, a, b⟩ := scientific_mirrors_partial (shift_grows p t) (c' := c.on v) (c := c.on u)
    ⟨opt_movable hv hu e h1, opt_movable hv hu e h2, opt_movable hv hu e h3, shift_value hv hu e h4, movable_mirrors hv hu e h5, shift_value hv hu e h6, opt_movable hv hu e h7, opt_movable hv hu e h8, opt_movable hv hu e h9,
     opt_value hv hu e h10⟩ o' o hk
  exact ⟨value, a, fun h => b h fun x y _ => by dsimp only; omega⟩

/-- **C151** (integers with thousands separators) -/
theorem shift_thousands (hv : v.Ok (p ++ t)) (hu : u.Ok t) (e : SameLocale v u) {d s : Valued} (hd : d.Movable) (hs : s.Moving) {k : Nat} (hk : k ≤ t.length) :
    ∃ r, integerTs t.length (d.on u) (s.on u) k = some r ∧ integerTs (p ++ t).length (d.on v) (s.on v) (p.length + k) = some (r.map (groupedf (p.length + ·))) :=
  integerTs_mirrors_partial (shift_len p t) (shift_value hv hu e hd) (shift_value hv hu e (moving_movable hs)) (value_takes hu hs) (fun k j x _ _ => by omega) hk

/-- **C151** (DNS names) Of characters `a`; `edge` says which of them may be at the edge of a label (`allow_on_edge`, 2916). -/
theorem shift_dns (hv : v.Ok (p ++ t)) (hu : u.Ok t) (e : SameLocale v u) (absolute : Bool) {a sep : Grammar} (ha : Moving a) (hs : Movable sep) (edge : Option Int → Bool) {k : Nat} (hk : k ≤ t.length) :
    ∃ r, dnsName u ⟨absolute, fun i => (sem (a.on u) i).map fun j => (j, edge t[i]?), sem (sep.on u)⟩ k = some r ∧
      dnsName v ⟨absolute, fun i => (sem (a.on v) i).map fun j => (j, edge (p ++ t)[i]?), sem (sep.on v)⟩ (p.length + k) = some (ivf (p.length + ·) r) := by
  have m : DnsMirrors (p.length + ·) t.length ⟨absolute, fun i => (sem (a.on v) i).map fun j => (j, edge (p ++ t)[i]?), sem (sep.on v)⟩
      ⟨absolute, fun i => (sem (a.on u) i).map fun j => (j, edge t[i]?), sem (sep.on u)⟩ := by
    refine ⟨rfl, ?_, movable_mirrors hv hu e hs⟩
    intro i hi
    obtain ⟨m1, m2⟩ := movable_mirrors hv hu e ha.1 i hi
    dsimp only at m1 ⊢
    rw [m1, shift_at]
    refine ⟨?_, ?_⟩
    · rw [Option.map_map, Option.map_map]; rfl
    · intro q hq
      rw [Option.map_eq_some_iff] at hq
      obtain ⟨j, hj, rfl⟩ := hq
      exact moving_takes hu ha i hi j hj
  obtain ⟨r, h1, h2, _⟩ := dnsName_mirrors (shift_along hv hu) m hk
  exact ⟨r, h1, h2⟩

/-- A phone number of given grammars. -/
structure PhoneGrammars where
  digit : Grammar
  plus : Option Grammar
  lpar : Valued
  rpar : Valued
  sep : Option Grammar
  space : Option Grammar
def PhoneGrammars.on (v : Env) (c : PhoneGrammars) : PhoneParts :=
  ⟨sem (c.digit.on v), c.plus.map fun g => sem (g.on v), some (c.lpar.on v), some (c.rpar.on v), c.sep.map fun g => sem (g.on v), c.space.map fun g _ => sem (g.on v)⟩

theorem slice_shift (p t : List Int) (x : Nat × Nat) : slice (p ++ t) (p.length + x.1, p.length + x.2) = slice t x := by
  unfold slice
  dsimp only
  rw [List.drop_append, show (List.drop (p.length + x.1) p) = [] from List.drop_eq_nil_of_le (by omega), List.nil_append, show p.length + x.1 - p.length = x.1 from by omega, show p.length + x.2 - (p.length + x.1) = x.2 - x.1 from by omega]

/-- **C151** (phone numbers) The same number. -/
theorem shift_phone (hv : v.Ok (p ++ t)) (hu : u.Ok t) (e : SameLocale v u) (c : PhoneGrammars) (hd : Moving c.digit) (hp : ∀ g, c.plus = some g → Movable g) (hl : c.lpar.Moving) (hr : c.rpar.Moving)
    (hs : ∀ g, c.sep = some g → Moving g) (hg : ∀ g, c.space = some g → Moving g) {k : Nat} (hk : k ≤ t.length) :
    ∃ b n iv, phone u (c.on u) k = some (b, n, iv) ∧ phone v (c.on v) (p.length + k) = some (b, n, ivf (p.length + ·) iv) := by
  have m : PhoneMirrors (p.length + ·) t.length (c.on v) (c.on u) := by
    refine ⟨movable_mirrors hv hu e hd.1, opt_movable hv hu e hp, ⟨_, _, rfl, rfl, shift_value hv hu e (moving_movable hl)⟩, ⟨_, _, rfl, rfl, shift_value hv hu e (moving_movable hr)⟩,
      opt_movable hv hu e fun g h => (hs g h).1, ?_, ?_⟩
    · cases q : c.space with
      | none => simp only [PhoneGrammars.on, q, Option.map_none]; exact .absent
      | some g => simp only [PhoneGrammars.on, q, Option.map_some]; exact .given (movable_mirrors hv hu e (hg g q).1)
    · intro i hi tok j h
      cases h with
      | digit h => exact moving_takes hu hd i hi j h
      | left h1 h2 => cases h1; exact value_takes hu hl i hi j _ h2
      | right h1 h2 => cases h1; exact value_takes hu hr i hi j _ h2
      | sep h1 h2 =>
        obtain ⟨g, hg', rfl⟩ := Option.map_eq_some_iff.1 h1
        exact moving_takes hu (hs g hg') i hi j h2
      | space h1 h2 =>
        obtain ⟨g, hg', rfl⟩ := Option.map_eq_some_iff.1 h1
        exact moving_takes hu (hg g hg') i hi j h2
  obtain ⟨b, l, iv, _, h1, h2⟩ := phone_mirrors (shift_along hv hu) m hk
  refine ⟨b, _, iv, h1, ?_⟩
  rw [h2]
  have : pieced (p ++ t) (compsf (p.length + ·) l) = pieced t l := by
    unfold pieced compsf
    rw [List.flatMap_map]
    exact congrArg (fun g => l.flatMap g) (funext fun x => slice_shift p t x)
  rw [this]

/-- **C151** (paths of URLs) -/
theorem shift_path (hv : v.Ok (p ++ t)) (hu : u.Ok t) (e : SameLocale v u) {c q m : Grammar} (hc : Moving c) (hq : Movable q) (hm : Movable m) {k : Nat} (hk : k ≤ t.length) :
    ∃ b x, urlPath u ⟨sem (c.on u), sem (q.on u), sem (m.on u)⟩ k = some (b, x) ∧ urlPath v ⟨sem (c.on v), sem (q.on v), sem (m.on v)⟩ (p.length + k) = some (b, pathf (p.length + ·) x) := by
  obtain ⟨b, x, h1, h2, _⟩ := urlPath_mirrors (shift_along hv hu) (c' := ⟨sem (c.on v), sem (q.on v), sem (m.on v)⟩) (c := ⟨sem (c.on u), sem (q.on u), sem (m.on u)⟩)
    ⟨movable_mirrors hv hu e hc.1, moving_takes hu hc, movable_mirrors hv hu e hq, movable_mirrors hv hu e hm⟩ hk
  exact ⟨b, x, h1, h2⟩

end

/-! ### Examples -/

/-- The digits 0 to 9. -/
def tenDigits : List Grammar := (List.range 10).map fun i : Nat => Grammar.cu (48 + (i : Int)) false

/-- `29.2.2024`, with any spaces. -/
def plainDate : DateGrammars := ⟨.integer 10 tenDigits, .integer 10 tenDigits, .integer 10 tenDigits, .which [.cu 46 false, .string [45]], .space false⟩

theorem tenDigits_moving : ∀ g ∈ tenDigits, Moving g := by
  intro g h
  obtain ⟨i, _, rfl⟩ := List.mem_map.1 h
  simp [Moving, Movable, Grammar.Each, Plain, NoBol, Grammar.Advances]

/-- In a sentence, and alone. -/
example : ∃ b x, date (plainDate.on (ipEnv (asc "29.2.2024"))) 1 9 0 ⟨none, none, none, none, none⟩ = some (b, x) ∧
    date (plainDate.on (ipEnv (asc "on 29.2.2024"))) 1 12 3 ⟨none, none, none, none, none⟩ = some (b, datef (3 + ·) x) :=
  shift_date (p := asc "on ") (t := asc "29.2.2024") (v := ipEnv (asc "on 29.2.2024")) (u := ipEnv (asc "29.2.2024")) ⟨.inl (by decide +kernel), by decide +kernel, (fun n q => nomatch q), fun _ => Iff.rfl⟩ ⟨.inl (by decide +kernel), by decide +kernel, (fun n q => nomatch q), fun _ => Iff.rfl⟩ ⟨rfl, rfl, rfl, rfl, rfl⟩ plainDate tenDigits_moving tenDigits_moving
    tenDigits_moving (by simp [plainDate, Valued.Movable, Movable, Grammar.Each, Plain, NoBol]) (by simp [plainDate, Moving, Movable, Grammar.Each, Plain, NoBol, Grammar.Advances]) 1 _ _ (Nat.zero_le _)

example : date (plainDate.on (ipEnv (asc "on 29.2.2024"))) 1 12 3 ⟨none, none, none, none, none⟩ = some (true, ⟨some .dmy, some (3, 5, 29), some (6, 7, 2), some (8, 12, 2024), some (3, 12)⟩) ∧
    date (plainDate.on (ipEnv (asc "29.2.2024"))) 1 9 0 ⟨none, none, none, none, none⟩ = some (true, ⟨some .dmy, some (0, 2, 29), some (3, 4, 2), some (5, 9, 2024), some (0, 9)⟩) := by decide +kernel

/-- A grammar that advances, and one that does not. -/
example : (Grammar.seq [.eol false, .iter (.branch [.cu 97 false, .string [98, 99]]) 1 5 true]).Advances ∧ ¬ (Grammar.iter (.cu 97 false) 0 5 true).Advances := by
  simp [Grammar.Advances, Grammar.SomeAdvances, Grammar.AllAdvance]

end Verif.Parser
