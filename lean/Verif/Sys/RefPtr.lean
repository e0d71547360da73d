/-
Handing the pointer of a `unique_ptr` to a function that sets it, and memory that is wiped, include/stdex/memory.hpp 70-295.
-/
namespace Verif.RefPtr

/-! ### Model -/

/-- The program: resources that are allocated; the pointers in the owners (`unique_ptr`) and in the references (`ref_unique_ptr`: `m_own`, `m_ptr`) that exist;
whether something was freed that is not allocated. -/
structure World where
  alive : List Nat
  owners : Nat → Option (Option Nat)
  refs : Nat → Option (Nat × Option Nat)
  stray : Bool

def World.setOwner (w : World) (o : Nat) (v : Option (Option Nat)) : World := { w with owners := fun y => if y = o then v else w.owners y }
def World.setRef (w : World) (r : Nat) (v : Option (Nat × Option Nat)) : World := { w with refs := fun y => if y = r then v else w.refs y }

/-- The deleter, on a pointer that is not null. -/
def World.free (w : World) : Option Nat → World
  | none => w
  | some p => if p ∈ w.alive then { w with alive := w.alive.erase p } else { w with stray := true }

/-- A resource is allocated. -/
def World.new (w : World) : Option Nat → World
  | none => w
  | some p => { w with alive := p :: w.alive }

/-- `std::unique_ptr::reset`. -/
def World.reset (w : World) (o : Nat) (p : Option Nat) : World := (w.setOwner o (some p)).free ((w.owners o).getD none)

/-- What a program does. `callee r p`: a function is given the reference as `T**` or `T*&` (186-199, 263-276), frees or reuses what is there, and stores `p`. -/
inductive Op where
  | make (o : Nat) (p : Option Nat)
  | reset (o : Nat) (p : Option Nat)
  | destroy (o : Nat)
  | get (r o : Nat)
  | move (r q : Nat)
  | callee (r : Nat) (p : Option Nat)
  | done (r : Nat)

def World.step (w : World) : Op → World
  | .make o p => (w.new p).setOwner o (some p)
  | .reset o p => (w.new p).reset o p
  | .destroy o => (w.free ((w.owners o).getD none)).setOwner o none
  | .get r o => -- 155-158, 213-217, 232-235, 291-295: `owner.release()`
    (w.setRef r (some (o, (w.owners o).getD none))).setOwner o (some none)
  | .move r q => -- 165-170, 242-247
    match w.refs q with
    | some (o, p) => (w.setRef r (some (o, p))).setRef q (some (o, none))
    | none => w
  | .callee r p =>
    match w.refs r with
    | some (o, old) => ((w.free old).new p).setRef r (some (o, p))
    | none => w
  | .done r => -- 175-179, 252-256
    match w.refs r with
    | some (o, some p) => (w.setRef r none).reset o (some p)
    | some (_, none) => w.setRef r none
    | none => w

def World.run (w : World) (ops : List Op) : World := ops.foldl World.step w

def World.start : World := ⟨[], fun _ => none, fun _ => none, false⟩

/-! ### Specification -/

/-- What the program has to keep: objects that are used exist, those that are made do not, an owner is not destroyed before the references to it, and what is allocated is new. -/
def Op.Legal (w : World) : Op → Prop
  | .make o p => w.owners o = none ∧ ∀ k, p = some k → k ∉ w.alive
  | .reset o p => w.owners o ≠ none ∧ ∀ k, p = some k → k ∉ w.alive
  | .destroy o => w.owners o ≠ none ∧ ∀ r x, w.refs r = some x → x.1 ≠ o
  | .get r o => w.refs r = none ∧ w.owners o ≠ none
  | .move r q => w.refs r = none ∧ w.refs q ≠ none
  | .callee r p => w.refs r ≠ none ∧ ∀ k, p = some k → k ∉ w.alive
  | .done r => w.refs r ≠ none

def Legal (w : World) : List Op → Prop
  | [] => True
  | op :: ops => op.Legal w ∧ Legal (w.step op) ops

/-- Who may hold a pointer: an owner or a reference. -/
inductive Holder where
  | owner (o : Nat)
  | ref (r : Nat)
  deriving DecidableEq

/-- What it holds. -/
def World.held (w : World) : Holder → Option Nat
  | .owner o => (w.owners o).getD none
  | .ref r => match w.refs r with | some (_, p) => p | none => none

/-- Every resource has exactly one holder, what is held is allocated, nothing was freed that is not, and references are to owners that exist. -/
structure Owned (w : World) : Prop where
  nodup : w.alive.Nodup
  live : ∀ x p, w.held x = some p → p ∈ w.alive
  one : ∀ x y p, w.held x = some p → w.held y = some p → x = y
  holder : ∀ p ∈ w.alive, ∃ x, w.held x = some p
  clean : w.stray = false
  refs : ∀ r x, w.refs r = some x → w.owners x.1 ≠ none

/-! ### Proofs -/

/-- The part about resources alone. -/
structure Good (alive : List Nat) (held : Holder → Option Nat) : Prop where
  nodup : alive.Nodup
  live : ∀ x p, held x = some p → p ∈ alive
  one : ∀ x y p, held x = some p → held y = some p → x = y
  holder : ∀ p ∈ alive, ∃ x, held x = some p

def upd (h : Holder → Option Nat) (x : Holder) (v : Option Nat) : Holder → Option Nat := fun y => if y = x then v else h y

theorem Good.erase {a : List Nat} {h : Holder → Option Nat} (g : Good a h) {x : Holder} {p : Nat} (hx : h x = some p) : Good (a.erase p) (upd h x none) := by
  have get : ∀ y q, upd h x none y = some q → y ≠ x ∧ h y = some q := by
    intro y q e
    unfold upd at e
    split at e
    · cases e
    · next q' => exact ⟨q', e⟩
  refine ⟨g.nodup.erase p, fun y q e => ?_, fun y z q e e' => ?_, fun q hq => ?_⟩
  · obtain ⟨a1, a2⟩ := get y q e
    refine (List.mem_erase_of_ne ?_).2 (g.live y q a2)
    intro e
    exact a1 (g.one y x p (by rw [← e]; exact a2) hx)
  · exact g.one y z q (get y q e).2 (get z q e').2
  · obtain ⟨y, hy⟩ := g.holder q (List.mem_of_mem_erase hq)
    refine ⟨y, ?_⟩
    unfold upd
    rw [if_neg]
    · exact hy
    · intro e
      rw [e, hx] at hy
      cases hy
      exact List.Nodup.not_mem_erase g.nodup hq

theorem Good.add {a : List Nat} {h : Holder → Option Nat} (g : Good a h) {x : Holder} {p : Nat} (hx : h x = none) (hp : p ∉ a) : Good (p :: a) (upd h x (some p)) := by
  have get : ∀ y q, upd h x (some p) y = some q → (y = x ∧ q = p) ∨ (y ≠ x ∧ h y = some q) := by
    intro y q e
    unfold upd at e
    split at e
    · next q' => cases e; exact Or.inl ⟨q', rfl⟩
    · next q' => exact Or.inr ⟨q', e⟩
  refine ⟨List.nodup_cons.2 ⟨hp, g.nodup⟩, fun y q e => ?_, fun y z q e e' => ?_, fun q hq => ?_⟩
  · rcases get y q e with ⟨-, b⟩ | ⟨-, b⟩
    · rw [b]; exact List.mem_cons_self
    · exact List.mem_cons_of_mem _ (g.live y q b)
  · rcases get y q e with ⟨b1, b2⟩ | ⟨b1, b2⟩ <;> rcases get z q e' with ⟨c1, c2⟩ | ⟨c1, c2⟩
    · rw [b1, c1]
    · rw [b2] at c2; exact absurd (g.live z p c2) hp
    · rw [c2] at b2; exact absurd (g.live y p b2) hp
    · exact g.one y z q b2 c2
  · rcases List.mem_cons.1 hq with e | e
    · exact ⟨x, by unfold upd; rw [if_pos rfl, e]⟩
    · obtain ⟨y, hy⟩ := g.holder q e
      refine ⟨y, ?_⟩
      unfold upd
      rw [if_neg]
      · exact hy
      · intro e; rw [e, hx] at hy; cases hy

/-- What `y` holds goes to `x`, that holds nothing. -/
theorem Good.take {a : List Nat} {h : Holder → Option Nat} (g : Good a h) {x y : Holder} (hxy : x ≠ y) (hx : h x = none) : Good a (upd (upd h x (h y)) y none) := by
  have get : ∀ z q, upd (upd h x (h y)) y none z = some q → (z = x ∧ h y = some q) ∨ (z ≠ y ∧ h z = some q) := by
    intro z q e
    unfold upd at e
    split at e
    · cases e
    · next n1 =>
      split at e
      · next n2 => exact Or.inl ⟨n2, e⟩
      · exact Or.inr ⟨n1, e⟩
  refine ⟨g.nodup, fun z q e => ?_, fun z u q e e' => ?_, fun q hq => ?_⟩
  · rcases get z q e with ⟨-, b⟩ | ⟨-, b⟩ <;> exact g.live _ q b
  · rcases get z q e with ⟨b1, b2⟩ | ⟨b1, b2⟩ <;> rcases get u q e' with ⟨c1, c2⟩ | ⟨c1, c2⟩
    · rw [b1, c1]
    · exact absurd (g.one u y q c2 b2) c1
    · exact absurd (g.one z y q b2 c2) b1
    · exact g.one z u q b2 c2
  · obtain ⟨z, hz⟩ := g.holder q hq
    by_cases e : z = y
    · refine ⟨x, ?_⟩
      unfold upd
      rw [if_neg hxy, if_pos rfl, ← e]; exact hz
    · refine ⟨z, ?_⟩
      unfold upd
      rw [if_neg e, if_neg]
      · exact hz
      · intro e'; rw [e', hx] at hz; cases hz

theorem Owned.good {w : World} (h : Owned w) : Good w.alive w.held := ⟨h.nodup, h.live, h.one, h.holder⟩

theorem Good.owned {w : World} (g : Good w.alive w.held) (hc : w.stray = false) (hr : ∀ r x, w.refs r = some x → w.owners x.1 ≠ none) : Owned w := ⟨g.nodup, g.live, g.one, g.holder, hc, hr⟩

theorem held_setOwner (w : World) (o : Nat) (v : Option (Option Nat)) : (w.setOwner o v).held = upd w.held (.owner o) (v.getD none) := by
  funext x
  cases x with
  | owner k =>
    unfold upd World.setOwner World.held
    simp only [Holder.owner.injEq]
    by_cases h : k = o
    · rw [if_pos h, if_pos h]
    · rw [if_neg h, if_neg h]
  | ref k => unfold upd; rw [if_neg (fun e => nomatch e)]; rfl

theorem held_setRef (w : World) (r : Nat) (v : Option (Nat × Option Nat)) : (w.setRef r v).held = upd w.held (.ref r) (match v with | some (_, p) => p | none => none) := by
  funext x
  cases x with
  | ref k =>
    unfold upd World.setRef World.held
    simp only [Holder.ref.injEq]
    by_cases h : k = r
    · rw [if_pos h, if_pos h]
    · rw [if_neg h, if_neg h]
  | owner k => unfold upd; rw [if_neg (fun e => nomatch e)]; rfl

theorem upd_upd (h : Holder → Option Nat) (x : Holder) (a b : Option Nat) : upd (upd h x a) x b = upd h x b := by
  funext y; unfold upd; split <;> rfl

theorem upd_comm (h : Holder → Option Nat) {x y : Holder} (hxy : x ≠ y) (a b : Option Nat) : upd (upd h x a) y b = upd (upd h y b) x a := by
  funext z; unfold upd
  by_cases h1 : z = y
  · rw [if_pos h1, if_neg (show ¬ z = x from fun e => hxy (e.symm.trans h1)), if_pos h1]
  · rw [if_neg h1]; split <;> first | rfl | (rw [if_neg h1])

theorem upd_self (h : Holder → Option Nat) (x : Holder) : upd h x (h x) = h := by
  funext y; unfold upd; split
  · next e => rw [e]
  · rfl

theorem upd_at (h : Holder → Option Nat) (x : Holder) (v : Option Nat) : upd h x v x = v := by unfold upd; rw [if_pos rfl]
theorem upd_ne (h : Holder → Option Nat) {x y : Holder} (v : Option Nat) (e : y ≠ x) : upd h x v y = h y := by unfold upd; rw [if_neg e]

/-- Freeing what a holder has, and then giving it something new or nothing. -/
theorem Good.renew {a : List Nat} {h : Holder → Option Nat} (g : Good a h) (x : Holder) :
    ∃ a', Good a' (upd h x none) ∧ (∀ w : World, w.alive = a → (w.free (h x)).alive = a' ∧ (w.free (h x)).stray = w.stray) ∧ (∀ p ∈ a', p ∈ a) := by
  cases hx : h x with
  | none =>
    refine ⟨a, ?_, fun w e => ⟨e, rfl⟩, fun _ => id⟩
    have := upd_self h x
    rw [hx] at this
    rw [this]; exact g
  | some p =>
    refine ⟨a.erase p, g.erase hx, fun w e => ?_, fun q => List.mem_of_mem_erase⟩
    unfold World.free
    simp only []
    rw [if_pos (by rw [e]; exact g.live x p hx), ← e]
    exact ⟨rfl, rfl⟩

theorem free_held (w : World) (p : Option Nat) : (w.free p).held = w.held ∧ (w.free p).owners = w.owners ∧ (w.free p).refs = w.refs := by
  have h : (w.free p).owners = w.owners ∧ (w.free p).refs = w.refs := by
    unfold World.free
    split
    · exact ⟨rfl, rfl⟩
    · split <;> exact ⟨rfl, rfl⟩
  refine ⟨?_, h⟩
  funext x
  cases x with
  | owner o => unfold World.held; simp only []; rw [h.1]
  | ref o => unfold World.held; simp only []; rw [h.2]

theorem new_held (w : World) (p : Option Nat) : (w.new p).held = w.held ∧ (w.new p).owners = w.owners ∧ (w.new p).refs = w.refs ∧ (w.new p).stray = w.stray := by
  cases p with
  | none => exact ⟨rfl, rfl, rfl, rfl⟩
  | some k => exact ⟨by funext x; cases x <;> rfl, rfl, rfl, rfl⟩

theorem Good.give {a : List Nat} {h : Holder → Option Nat} (g : Good a h) {x : Holder} (hx : h x = none) {p : Option Nat} (hp : ∀ k, p = some k → k ∉ a) :
    ∃ a', Good a' (upd h x p) ∧ ∀ w : World, w.alive = a → (w.new p).alive = a' := by
  cases p with
  | none =>
    have := upd_self h x
    rw [hx] at this
    exact ⟨a, by rw [this]; exact g, fun w e => e⟩
  | some k => exact ⟨k :: a, g.add hx (hp k rfl), fun w e => by rw [← e]; rfl⟩

theorem refs_setOwner {w : World} (h : ∀ r x, w.refs r = some x → w.owners x.1 ≠ none) (o : Nat) (v : Option Nat) : ∀ r x, (w.setOwner o (some v)).refs r = some x → (w.setOwner o (some v)).owners x.1 ≠ none := by
  intro r x e
  show (if x.1 = o then some v else w.owners x.1) ≠ none
  split
  · exact fun q => nomatch q
  · exact h r x e

theorem step_owned {w : World} (h : Owned w) {op : Op} (hl : op.Legal w) : Owned (w.step op) := by
  have g := h.good
  cases op with
  | make o p =>
    have ho : w.held (.owner o) = none := by show (w.owners o).getD none = none; rw [hl.1]; rfl
    obtain ⟨a', g', e⟩ := g.give ho hl.2
    obtain ⟨n1, n2, n3, n4⟩ := new_held w p
    refine Good.owned ?_ (by show (w.new p).stray = false; rw [n4]; exact h.clean) (refs_setOwner (by rw [n2, n3]; exact h.refs) o p)
    show Good (w.new p).alive ((w.new p).setOwner o (some p)).held
    rw [e w rfl, held_setOwner, n1]; exact g'
  | reset o p =>
    show Owned (((w.new p).setOwner o (some p)).free (((w.new p).owners o).getD none))
    obtain ⟨n1, n2, n3, n4⟩ := new_held w p
    rw [n2]
    have e0 : (w.owners o).getD none = w.held (.owner o) := rfl
    rw [e0]
    obtain ⟨f1, f2, f3⟩ := free_held ((w.new p).setOwner o (some p)) (w.held (.owner o))
    have hh : (((w.new p).setOwner o (some p)).free (w.held (.owner o))).held = upd w.held (.owner o) p := by rw [f1, held_setOwner, n1]; rfl
    have hrefs : ∀ r x, (((w.new p).setOwner o (some p)).free (w.held (.owner o))).refs r = some x → (((w.new p).setOwner o (some p)).free (w.held (.owner o))).owners x.1 ≠ none := by
      rw [f2, f3]; exact refs_setOwner (by rw [n2, n3]; exact h.refs) o p
    cases hx : w.held (.owner o) with
    | none =>
      obtain ⟨a', g', e⟩ := g.give hx hl.2
      rw [hx] at hh hrefs
      refine Good.owned ?_ (by show (w.new p).stray = false; rw [n4]; exact h.clean) hrefs
      rw [hh]
      show Good (w.new p).alive _
      rw [e w rfl]; exact g'
    | some old =>
      rw [hx] at hh hrefs
      have hold := g.live _ old hx
      cases p with
      | none =>
        have ha : ((w.new none).setOwner o (some none)).free (some old) = { (w.setOwner o (some none)) with alive := w.alive.erase old } := by
          show (if old ∈ w.alive then _ else _) = _
          rw [if_pos hold]; rfl
        refine Good.owned ?_ (by rw [ha]; exact h.clean) hrefs
        rw [hh, ha]
        exact g.erase hx
      | some k =>
        have hk := hl.2 k rfl
        have hne : ¬ (k == old) = true := fun e => hk (by rw [eq_of_beq e]; exact hold)
        have ha : ((w.new (some k)).setOwner o (some (some k))).free (some old) = { (w.setOwner o (some (some k))) with alive := k :: w.alive.erase old } := by
          show (if old ∈ k :: w.alive then _ else _) = _
          rw [if_pos (List.mem_cons_of_mem _ hold)]
          show ({ (w.setOwner o (some (some k))) with alive := (k :: w.alive).erase old } : World) = _
          rw [List.erase_cons, if_neg hne]
        refine Good.owned ?_ (by rw [ha]; exact h.clean) hrefs
        rw [hh, ha]
        have := (g.erase hx).add (x := .owner o) (p := k) (upd_at _ _ _) (fun q => hk (List.mem_of_mem_erase q))
        rw [upd_upd] at this
        exact this
  | destroy o =>
    show Owned ((w.free (w.held (.owner o))).setOwner o none)
    obtain ⟨a', g', e, -⟩ := g.renew (.owner o)
    obtain ⟨f1, f2, f3⟩ := free_held w (w.held (.owner o))
    refine Good.owned ?_ (by show (w.free _).stray = false; rw [(e w rfl).2]; exact h.clean) ?_
    · show Good (w.free _).alive _
      rw [(e w rfl).1, held_setOwner, f1]; exact g'
    · intro r x hr
      have hr' : w.refs r = some x := by rw [← f3]; exact hr
      show (if x.1 = o then none else (w.free (w.held (.owner o))).owners x.1) ≠ none
      rw [if_neg (hl.2 r x hr'), f2]
      exact h.refs r x hr'
  | get r o =>
    show Owned ((w.setRef r (some (o, w.held (.owner o)))).setOwner o (some none))
    have hr0 : w.held (.ref r) = none := by unfold World.held; simp only []; rw [hl.1]
    refine Good.owned ?_ h.clean ?_
    · show Good w.alive _
      rw [held_setOwner, held_setRef]
      exact g.take (fun e => nomatch e) hr0
    · refine refs_setOwner ?_ o none
      intro s x hs
      change (if s = r then some (o, w.held (.owner o)) else w.refs s) = some x at hs
      split at hs
      · cases hs; exact hl.2
      · exact h.refs s x hs
  | move r q =>
    obtain ⟨h1, h2⟩ := hl
    cases hq : w.refs q with
    | none => exact absurd hq h2
    | some y =>
      obtain ⟨o, p⟩ := y
      have e : w.step (.move r q) = (w.setRef r (some (o, p))).setRef q (some (o, none)) := by
        show (match w.refs q with | some (o, p) => _ | none => w) = _
        rw [hq]
      rw [e]
      have hp : w.held (.ref q) = p := by unfold World.held; simp only []; rw [hq]
      have hr0 : w.held (.ref r) = none := by unfold World.held; simp only []; rw [h1]
      have hne : Holder.ref r ≠ Holder.ref q := fun e => by cases e; rw [h1] at hq; cases hq
      refine Good.owned ?_ h.clean ?_
      · show Good w.alive _
        rw [held_setRef, held_setRef]
        have := g.take hne hr0
        rw [hp] at this
        exact this
      · intro s x hs
        change (if s = q then some (o, none) else if s = r then some (o, p) else w.refs s) = some x at hs
        have ho := h.refs q _ hq
        split at hs
        · cases hs; exact ho
        · split at hs
          · cases hs; exact ho
          · exact h.refs s x hs
  | callee r p =>
    obtain ⟨h1, h2⟩ := hl
    cases hq : w.refs r with
    | none => exact absurd hq h1
    | some y =>
      obtain ⟨o, old⟩ := y
      have hp : w.held (.ref r) = old := by unfold World.held; simp only []; rw [hq]
      have e : w.step (.callee r p) = ((w.free (w.held (.ref r))).new p).setRef r (some (o, p)) := by
        show (match w.refs r with | some (o, old) => _ | none => w) = _
        rw [hq, hp]
      rw [e]
      obtain ⟨a1, g1, e1, s1⟩ := g.renew (.ref r)
      obtain ⟨f1, f2, f3⟩ := free_held w (w.held (.ref r))
      obtain ⟨n1, n2, n3, n4⟩ := new_held (w.free (w.held (.ref r))) p
      obtain ⟨a2, g2, e2⟩ := g1.give (x := .ref r) (upd_at _ _ _) (p := p) (fun k hk q => h2 k hk (s1 k q))
      rw [upd_upd] at g2
      refine Good.owned ?_ (by show (World.new _ p).stray = false; rw [n4, (e1 w rfl).2]; exact h.clean) ?_
      · show Good (World.new _ p).alive _
        rw [e2 _ (e1 w rfl).1, held_setRef, n1, f1]; exact g2
      · intro s x hs
        change (if s = r then some (o, p) else (World.new _ p).refs s) = some x at hs
        show (World.new _ p).owners x.1 ≠ none
        rw [n2, f2]
        rw [n3, f3] at hs
        split at hs
        · cases hs; exact h.refs r (o, old) hq
        · exact h.refs s x hs
  | done r =>
    cases hq : w.refs r with
    | none => exact absurd hq hl
    | some y =>
      obtain ⟨o, p⟩ := y
      have hp : w.held (.ref r) = p := by unfold World.held; simp only []; rw [hq]
      have ho := h.refs r _ hq
      have hrefs0 : ∀ s x, (w.setRef r none).refs s = some x → w.owners x.1 ≠ none := by
        intro s x hs
        change (if s = r then none else w.refs s) = some x at hs
        split at hs
        · cases hs
        · exact h.refs s x hs
      cases hpp : p with
      | none =>
        have e : w.step (.done r) = w.setRef r none := by
          show (match w.refs r with | some (o, some p) => _ | some (_, none) => _ | none => w) = _
          rw [hq, hpp]
        rw [e]
        refine Good.owned ?_ h.clean hrefs0
        show Good w.alive _
        rw [held_setRef]
        have := upd_self w.held (.ref r)
        rw [hp, hpp] at this
        simp only []
        rw [this]; exact g
      | some k =>
        have e : w.step (.done r) = (((w.setRef r none).setOwner o (some (some k))).free (w.held (.owner o))) := by
          show (match w.refs r with | some (o, some p) => _ | some (_, none) => _ | none => w) = _
          rw [hq, hpp]; rfl
        rw [e]
        obtain ⟨a1, g1, e1, s1⟩ := g.renew (.owner o)
        have e1 := e1 ((w.setRef r none).setOwner o (some (some k))) rfl
        obtain ⟨f1, f2, f3⟩ := free_held ((w.setRef r none).setOwner o (some (some k))) (w.held (.owner o))
        refine Good.owned ?_ (by rw [e1.2]; exact h.clean) ?_
        · rw [e1.1, f1, held_setOwner, held_setRef]
          have := g1.take (x := .owner o) (y := .ref r) (fun e => nomatch e) (upd_at _ _ _)
          rw [upd_ne w.held none (show Holder.ref r ≠ Holder.owner o from fun e => nomatch e), hp, hpp, upd_upd] at this
          rw [upd_comm w.held (show Holder.ref r ≠ Holder.owner o from fun e => nomatch e)]
          exact this
        · rw [f2, f3]; exact refs_setOwner hrefs0 o (some k)

theorem start_owned : Owned World.start :=
  ⟨List.nodup_nil, (fun x _ e => by cases x <;> cases e), (fun x _ _ e => by cases x <;> cases e), (fun _ h => nomatch h), rfl, (fun _ _ e => nomatch e)⟩

/-! ### Properties -/

/-- In every history every resource has exactly one holder, what is held is allocated, and nothing is freed twice. -/
theorem refptr_owned : ∀ (ops : List Op) (w : World), Owned w → Legal w ops → Owned (w.run ops) := by
  intro ops
  induction ops with
  | nil => intro w h _; exact h
  | cons op ops ih => intro w h hl; exact ih _ (step_owned h hl.1) hl.2

/-- When all owners and references are gone, nothing is allocated. -/
theorem refptr_no_leak {ops : List Op} (hl : Legal World.start ops) (ho : ∀ o, (World.start.run ops).owners o = none) (hr : ∀ r, (World.start.run ops).refs r = none) :
    (World.start.run ops).alive = [] ∧ (World.start.run ops).stray = false := by
  have h := refptr_owned ops _ start_owned hl
  refine ⟨?_, h.clean⟩
  cases hq : (World.start.run ops).alive with
  | nil => rfl
  | cons k l =>
    obtain ⟨x, hx⟩ := h.holder k (by rw [hq]; exact List.mem_cons_self)
    unfold World.held at hx
    cases x with
    | owner o => simp only [] at hx; rw [ho o] at hx; cases hx
    | ref r => simp only [] at hx; rw [hr r] at hx; cases hx

/-- A function that is given `get_ptr(owner)` and stores a resource there: the owner has it afterwards, and what the owner had is freed, not twice. -/
theorem refptr_sets {w : World} (h : Owned w) {o r k : Nat} (ho : w.owners o ≠ none) (hr : w.refs r = none) (hk : k ∉ w.alive) :
    (w.run [.get r o, .callee r (some k), .done r]).owners o = some (some k) ∧ (w.run [.get r o, .callee r (some k), .done r]).refs r = none ∧
    (∀ old, w.owners o = some (some old) → old ∉ (w.run [.get r o, .callee r (some k), .done r]).alive) ∧ Owned (w.run [.get r o, .callee r (some k), .done r]) := by
  let w1 := w.step (.get r o)
  have r1 : w1.refs r = some (o, (w.owners o).getD none) := by show (if r = r then _ else _) = _; rw [if_pos rfl]
  have a1 : w1.alive = w.alive := rfl
  let w2 := w1.step (.callee r (some k))
  have e2 : w2 = ((w1.free ((w.owners o).getD none)).new (some k)).setRef r (some (o, some k)) := by
    show (match w1.refs r with | some (o, old) => _ | none => w1) = _
    rw [r1]
  have r2 : w2.refs r = some (o, some k) := by rw [e2]; show (if r = r then _ else _) = _; rw [if_pos rfl]
  have l1 : Op.Legal w (.get r o) := ⟨hr, ho⟩
  have l2 : Op.Legal w1 (.callee r (some k)) := ⟨(by rw [r1]; exact fun e => nomatch e), (fun j hj => by cases hj; exact hk)⟩
  have l3 : Op.Legal w2 (.done r) := by show w2.refs r ≠ none; rw [r2]; exact fun e => nomatch e
  have h3 : Owned (w2.step (.done r)) := step_owned (step_owned (step_owned h l1) l2) l3
  have e3 : w2.step (.done r) = (w2.setRef r none).reset o (some k) := by
    show (match w2.refs r with | some (o, some p) => _ | some (_, none) => _ | none => w2) = _
    rw [r2]
  obtain ⟨f1, f2, f3⟩ := free_held ((w2.setRef r none).setOwner o (some (some k))) (((w2.setRef r none).owners o).getD none)
  have o3 : (w2.step (.done r)).owners o = some (some k) := by
    rw [e3]; show (World.free _ _).owners o = _
    rw [f2]; show (if o = o then _ else _) = _; rw [if_pos rfl]
  refine ⟨o3, ?_, fun old hold => ?_, h3⟩
  · show (w2.step (.done r)).refs r = none
    rw [e3]; show (World.free _ _).refs r = _
    rw [f3]; show (if r = r then _ else _) = _; rw [if_pos rfl]
  · intro hin
    have hin : old ∈ (w2.step (.done r)).alive := hin
    have hold' : old ∈ w.alive := h.live (.owner o) old (by show (w.owners o).getD none = _; rw [hold]; rfl)
    have hne : old ≠ k := fun e => hk (by rw [← e]; exact hold')
    have hw2 : w2.alive = k :: w.alive.erase old := by
      rw [e2]
      show k :: (w1.free ((w.owners o).getD none)).alive = _
      rw [hold]
      show k :: (if old ∈ w1.alive then _ else _ : World).alive = _
      rw [if_pos (show old ∈ w1.alive from hold')]; rfl
    have o2 : (w2.setRef r none).owners o = some none := by
      rw [e2]
      show (World.new (w1.free _) (some k)).owners o = _
      rw [(new_held _ _).2.1, (free_held _ _).2.1]
      show (if o = o then _ else _) = _
      rw [if_pos rfl]
    have : (w2.step (.done r)).alive = w2.alive := by
      rw [e3]; unfold World.reset
      rw [o2]; rfl
    rw [this, hw2] at hin
    rcases List.mem_cons.1 hin with e | e
    · exact hne e
    · exact List.Nodup.not_mem_erase h.nodup e

/-- A history of every kind of operation, with two references to one owner. -/
example : Legal World.start [.make 1 (some 5), .get 1 1, .callee 1 (some 6), .move 2 1, .get 3 1, .callee 3 (some 7), .done 2, .done 3, .done 1, .make 2 none, .get 4 2, .callee 4 (some 8), .done 4, .reset 1 none, .destroy 1, .destroy 2] := by
  simp only [Legal]
  refine ⟨?_, ?_, ?_, ?_, ?_, ?_, ?_, ?_, ?_, ?_, ?_, ?_, ?_, ?_, ?_, ?_, trivial⟩ <;>
    simp +decide [Op.Legal, World.start, World.step, World.setOwner, World.setRef, World.free, World.new, World.reset]
  all_goals (intro r a b h4 e; by_cases h1 : r = 1 <;> by_cases h2 : r = 2 <;> by_cases h3 : r = 3 <;> simp_all)

/-! ### Memory that is wiped -/

/-- `memset(p, 0, n)` in a memory of bytes. -/
def zero (m : Nat → Nat) (p n : Nat) : Nat → Nat := fun a => if p ≤ a ∧ a < p + n then 0 else m a

/-- `sanitizing_allocator::deallocate`, 105-113: what the memory holds when it is given back. -/
def deallocate (m : Nat → Nat) (p size n : Nat) : Nat → Nat := zero m p (size * n)

/-- `sanitizing_blob`, 121-141: what is in it after construction and at the end. -/
def blobInit (m : Nat → Nat) (p n : Nat) : Nat → Nat := zero m p n
def blobDone (m : Nat → Nat) (p n : Nat) : Nat → Nat := zero m p n

/-- Every byte of every element is wiped when memory is given back, and no other. -/
theorem sanitized (m : Nat → Nat) (p size n : Nat) : (∀ i < n, ∀ j < size, deallocate m p size n (p + size * i + j) = 0) ∧ (∀ a, a < p ∨ p + n * size ≤ a → deallocate m p size n a = m a) := by
  refine ⟨fun i hi j hj => ?_, fun a ha => ?_⟩
  · unfold deallocate zero
    have : size * i + size ≤ size * n := by rw [← Nat.mul_succ]; exact Nat.mul_le_mul_left _ hi
    rw [if_pos ⟨by omega, by omega⟩]
  · unfold deallocate zero
    rw [Nat.mul_comm]
    rw [if_neg (by omega)]

/-- A blob is all zeros when made, whatever the memory held, and again at its end, whatever was stored in it (`m'` is the memory then). -/
theorem blob_sanitized (m m' : Nat → Nat) (p n : Nat) : (∀ i < n, blobInit m p n (p + i) = 0) ∧ (∀ i < n, blobDone m' p n (p + i) = 0) ∧ ∀ a, a < p ∨ p + n ≤ a → blobInit m p n a = m a ∧ blobDone m' p n a = m' a := by
  refine ⟨fun i hi => if_pos ⟨by omega, by omega⟩, fun i hi => if_pos ⟨by omega, by omega⟩, fun a ha => ⟨if_neg (by omega), if_neg (by omega)⟩⟩

end Verif.RefPtr
