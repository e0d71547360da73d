import Verif.Stream.MemoryFile
/-
Whose the memory of memory files is: constructors, assignments, destructor, `reserve` and `close` of `memory_file`, include/stdex/stream.hpp 3221-3461, 3886-3898.
-/
namespace Verif.Stream.MemoryOwner
open Verif.Stream.MemoryFile (grown)

/-! ### Model -/

/-- A memory file: `m_data` (none: null), `m_manage`, `m_size`, `m_reserved`. -/
structure Obj where
  data : Option Nat
  manage : Bool
  size : Nat
  reserved : Nat

/-- The program: the blocks of memory with their sizes, which of them the user has to free, the memory files, whether something was freed that must not be, and whether a copy read
or wrote outside of a block. -/
structure World where
  heap : Nat → Option Nat
  user : Nat → Bool
  objs : Nat → Option Obj
  stray : Bool
  wild : Bool

def World.setObj (w : World) (x : Nat) (v : Option Obj) : World := { w with objs := fun y => if y = x then v else w.objs y }
def World.setHeap (w : World) (p : Nat) (v : Option Nat) : World := { w with heap := fun y => if y = p then v else w.heap y }
def World.setUser (w : World) (p : Nat) (v : Bool) : World := { w with user := fun y => if y = p then v else w.user y }

/-- `free`. -/
def World.free (w : World) (p : Nat) : World :=
  if w.heap p ≠ none ∧ w.user p = false then w.setHeap p none else { w with stray := true }

/-- `if (m_manage && m_data) free(m_data);` -/
def World.drop (w : World) (o : Obj) : World :=
  match o.data with
  | some p => if o.manage then w.free p else w
  | none => w

/-- `malloc` that succeeded with block `q`. -/
def World.alloc (w : World) (q n : Nat) : World := (w.setHeap q (some n)).setUser q false

/-- `memcpy` of the `n` bytes at the beginning of one block to another. -/
def World.copy (w : World) (dst src : Option Nat) (n : Nat) : World :=
  let room := fun p : Option Nat => match p with | some p => (w.heap p).getD 0 | none => 0
  if n ≤ room dst ∧ n ≤ room src then w else { w with wild := true }

/-- What a program does. Where memory is asked for, `q` is the block that is given, or none. -/
inductive Op where
  | default (x : Nat)
  | sized (x n : Nat) (q : Option Nat)
  | over (x p size reserved : Nat) (manage : Bool)
  | copy (x y : Nat) (q : Option Nat)
  | assign (x y : Nat) (q : Option Nat)
  | move (x y : Nat)
  | moveAssign (x y : Nat)
  | destroy (x : Nat)
  | reserve (x required : Nat) (tight : Bool) (q : Option Nat)
  | resize (x n : Nat) -- any of the writing operations, within what is reserved
  | close (x : Nat)
  | userAlloc (p n : Nat)
  | userFree (p : Nat)

def World.step (w : World) : Op → World
  | .default x => w.setObj x (some ⟨none, true, 0, 0⟩) -- 3221-3232
  | .sized x n q => -- 3240-3254: an object that is not made if there is no memory
    match q with
    | some q => (w.alloc q n).setObj x (some ⟨some q, true, 0, n⟩)
    | none => w
  | .over x p size reserved manage => -- 3266-3279
    (if manage then w.setUser p false else w).setObj x (some ⟨some p, manage, size, reserved⟩)
  | .copy x y q => -- 3318-3336
    match w.objs y, q with
    | some o, some q => (((w.alloc q o.size).copy (some q) o.data o.size)).setObj x (some ⟨some q, true, o.size, o.size⟩)
    | _, _ => w
  | .assign x y q => -- 3343-3366
    if x = y then w
    else
      match w.objs x, w.objs y with
      | some s, some o =>
        match q with
        | some q => ((((w.drop s).alloc q o.size).copy (some q) o.data o.size)).setObj x (some ⟨some q, true, o.size, o.size⟩)
        | none => (w.drop s).setObj x (some { s with data := none })
      | _, _ => w
  | .move x y => -- 3373-3395
    match w.objs y with
    | some o => (w.setObj x (some o)).setObj y (some ⟨none, true, 0, 0⟩)
    | none => w
  | .moveAssign x y => -- 3402-3425
    if x = y then w
    else
      match w.objs x, w.objs y with
      | some s, some o => ((w.drop s).setObj x (some o)).setObj y (some ⟨none, true, 0, 0⟩)
      | _, _ => w
  | .destroy x => -- 3427-3431
    match w.objs x with
    | some s => (w.drop s).setObj x none
    | none => w
  | .reserve x required tight q => -- 3440-3461
    match w.objs x with
    | some s =>
      if required ≤ s.reserved ∧ (tight = false ∨ required ≥ s.reserved) then w
      else if s.manage = false then w
      else
        let r := grown required tight
        let fin := fun (w : World) (d : Option Nat) => w.setObj x (some ⟨d, s.manage, if r < s.size then r else s.size, r⟩)
        -- `realloc`: of nothing it frees the block and gives null; otherwise a new block in the place of the old one, or null
        if r = 0 then fin (w.drop s) none
        else match q with
          | some q => fin ((w.drop s).alloc q r) (some q)
          | none => w
    | none => w
  | .resize x n =>
    match w.objs x with
    | some s => w.setObj x (some { s with size := n })
    | none => w
  | .close x => -- 3886-3898
    match w.objs x with
    | some s => (w.drop s).setObj x (some ⟨none, true, 0, 0⟩)
    | none => w
  | .userAlloc p n => (w.setHeap p (some n)).setUser p true
  | .userFree p => w.setHeap p none

def World.run (w : World) (ops : List Op) : World := ops.foldl World.step w

def World.start : World := ⟨fun _ => none, fun _ => false, fun _ => none, false, false⟩

/-! ### Specification -/

/-- What the program has to keep: objects that are used exist and those that are made do not; memory that is given is not in use (`realloc` may give the old block again); a memory file is made over
memory of the user that is large enough; the user frees only what is his and no memory file is over. -/
def Op.Legal (w : World) : Op → Prop
  | .default x => w.objs x = none
  | .sized x _ q => w.objs x = none ∧ ∀ k, q = some k → w.heap k = none
  | .over x p size reserved manage => w.objs x = none ∧ w.user p = true ∧ (∃ n, w.heap p = some n ∧ reserved ≤ n) ∧ size ≤ reserved ∧ (manage = true → ∀ y o, w.objs y = some o → o.data ≠ some p)
  | .copy x y q => w.objs x = none ∧ w.objs y ≠ none ∧ ∀ k, q = some k → w.heap k = none
  | .assign x y q => w.objs x ≠ none ∧ w.objs y ≠ none ∧ ∀ k, q = some k → w.heap k = none
  | .move x y => w.objs x = none ∧ w.objs y ≠ none
  | .moveAssign x y => w.objs x ≠ none ∧ w.objs y ≠ none
  | .destroy x => w.objs x ≠ none
  | .reserve x _ _ q => w.objs x ≠ none ∧ ∀ k, q = some k → w.heap k = none ∨ ∃ s, w.objs x = some s ∧ s.manage = true ∧ s.data = some k
  | .resize x n => ∃ s, w.objs x = some s ∧ n ≤ s.reserved
  | .close x => w.objs x ≠ none
  | .userAlloc p _ => w.heap p = none
  | .userFree p => w.user p = true ∧ w.heap p ≠ none ∧ ∀ y o, w.objs y = some o → o.data ≠ some p

def Legal (w : World) : List Op → Prop
  | [] => True
  | op :: ops => op.Legal w ∧ Legal (w.step op) ops

/-- Every block is the user's or exactly one memory file's that manages its memory; files that do not are over the user's; nothing was freed that must not be. -/
structure Owned (w : World) : Prop where
  live : ∀ x o p, w.objs x = some o → o.data = some p → w.heap p ≠ none ∧ w.user p = !o.manage
  one : ∀ x y o o' p, w.objs x = some o → w.objs y = some o' → o.data = some p → o'.data = some p → o.manage = true → x = y
  holder : ∀ p, w.heap p ≠ none → w.user p = false → ∃ x o, w.objs x = some o ∧ o.manage = true ∧ o.data = some p
  clean : w.stray = false

/-- Every file fits into its block. -/
structure Fits (w : World) : Prop where
  size : ∀ x o, w.objs x = some o → o.size ≤ o.reserved
  room : ∀ x o p n, w.objs x = some o → o.data = some p → w.heap p = some n → o.reserved ≤ n
  null : ∀ x o, w.objs x = some o → o.data = none → o.reserved = 0
  tame : w.wild = false

/-! ### Proofs -/

theorem setObj_setObj (w : World) (x : Nat) (u v : Option Obj) : (w.setObj x u).setObj x v = w.setObj x v := by
  unfold World.setObj
  simp only []
  congr 1
  funext y
  split <;> rfl

theorem setObj_at (w : World) (x : Nat) (v : Option Obj) : (w.setObj x v).objs x = v := if_pos rfl
theorem setObj_ne (w : World) {x y : Nat} (v : Option Obj) (h : y ≠ x) : (w.setObj x v).objs y = w.objs y := if_neg h

theorem setObj_get {w : World} {x : Nat} {v : Option Obj} {y : Nat} {o : Obj} (h : (w.setObj x v).objs y = some o) : (y = x ∧ v = some o) ∨ (y ≠ x ∧ w.objs y = some o) := by
  by_cases hy : y = x
  · subst hy; rw [setObj_at] at h; exact Or.inl ⟨rfl, h⟩
  · rw [setObj_ne _ _ hy] at h; exact Or.inr ⟨hy, h⟩

/-- An object's memory is given up. -/
theorem Owned.drop {w : World} (h : Owned w) {x : Nat} {s : Obj} (hx : w.objs x = some s) {v : Option Obj} (hv : ∀ o, v = some o → o.data = none) : Owned ((w.drop s).setObj x v) := by
  have key : ∀ w' : World, w'.objs = w.objs → w'.user = w.user → w'.stray = false →
      (∀ y o p, y ≠ x → w.objs y = some o → o.data = some p → w'.heap p ≠ none) →
      (∀ p, w'.heap p ≠ none → w.heap p ≠ none ∧ (s.manage = true → s.data ≠ some p)) → Owned (w'.setObj x v) := by
    intro w' e1 e2 e3 e4 e5
    have get : ∀ {y o p}, (w'.setObj x v).objs y = some o → o.data = some p → y ≠ x ∧ w.objs y = some o := by
      intro y o p hy hp
      rcases setObj_get hy with ⟨-, q⟩ | ⟨q1, q2⟩
      · rw [hv o q] at hp; cases hp
      · rw [e1] at q2; exact ⟨q1, q2⟩
    refine ⟨fun y o p hy hp => ?_, fun y z o o' p hy hz hp hp' hm => ?_, fun p hp hu => ?_, e3⟩
    · obtain ⟨q1, q2⟩ := get hy hp
      refine ⟨e4 y o p q1 q2 hp, ?_⟩
      show w'.user p = _
      rw [e2]; exact (h.live y o p q2 hp).2
    · exact h.one y z o o' p (get hy hp).2 (get hz hp').2 hp hp' hm
    · obtain ⟨q1, q2⟩ := e5 p hp
      have hu : w'.user p = false := hu
      rw [e2] at hu
      obtain ⟨y, o, a1, a2, a3⟩ := h.holder p q1 hu
      have hyx : y ≠ x := by
        intro e
        rw [e, hx] at a1
        cases a1
        exact q2 a2 a3
      exact ⟨y, o, by rw [setObj_ne _ _ hyx, e1]; exact a1, a2, a3⟩
  unfold World.drop
  cases hd : s.data with
  | none =>
    simp only []
    exact key w rfl rfl h.clean (fun y o p _ hy hp => (h.live y o p hy hp).1) (fun p hp => ⟨hp, fun _ q => by rw [hd] at q; cases q⟩)
  | some p =>
    simp only []
    obtain ⟨l1, l2⟩ := h.live x s p hx hd
    by_cases hm : s.manage = true
    · rw [if_pos hm]
      rw [hm] at l2
      unfold World.free
      rw [if_pos ⟨l1, l2⟩]
      refine key _ rfl rfl h.clean (fun y o q hyx hy hq => ?_) (fun q hq => ?_)
      · show (if q = p then none else w.heap q) ≠ none
        rw [if_neg]
        · exact (h.live y o q hy hq).1
        · intro e
          subst e
          exact hyx (h.one x y s o q hx hy hd hq hm).symm
      · have hq : (if q = p then none else w.heap q) ≠ none := hq
        split at hq
        · exact absurd rfl hq
        · next hne => exact ⟨hq, fun _ e => hne (by rw [hd] at e; cases e; rfl)⟩
    · rw [if_neg hm]
      exact key w rfl rfl h.clean (fun y o p _ hy hp => (h.live y o p hy hp).1) (fun p hp => ⟨hp, fun q => absurd q hm⟩)

/-- An object is given new memory. -/
theorem Owned.put {w : World} (h : Owned w) {x : Nat} (hx : ∀ o, w.objs x = some o → o.data = none) {q n : Nat} (hq : w.heap q = none) {o : Obj} (ho : o.data = some q) (hm : o.manage = true) : Owned ((w.alloc q n).setObj x (some o)) := by
  have heap : ∀ p, ((w.alloc q n).setObj x (some o)).heap p = if p = q then some n else w.heap p := fun _ => rfl
  have user : ∀ p, ((w.alloc q n).setObj x (some o)).user p = if p = q then false else w.user p := fun _ => rfl
  have old : ∀ y o' p, w.objs y = some o' → o'.data = some p → y ≠ x ∧ p ≠ q := by
    intro y o' p hy hp
    refine ⟨?_, ?_⟩
    · intro e
      rw [e] at hy
      rw [hx o' hy] at hp
      cases hp
    · intro e
      exact (h.live y o' p hy hp).1 (by rw [e]; exact hq)
  have get : ∀ {y o'}, ((w.alloc q n).setObj x (some o)).objs y = some o' → (y = x ∧ o' = o) ∨ (y ≠ x ∧ w.objs y = some o') := by
    intro y o' hy
    rcases setObj_get hy with ⟨a, b⟩ | ⟨a, b⟩
    · exact Or.inl ⟨a, by cases b; rfl⟩
    · exact Or.inr ⟨a, b⟩
  refine ⟨fun y o' p hy hp => ?_, fun y z o1 o2 p hy hz hp hp' hmm => ?_, fun p hp hu => ?_, h.clean⟩
  · rw [heap, user]
    rcases get hy with ⟨-, e⟩ | ⟨-, e⟩
    · subst e
      rw [ho] at hp
      cases hp
      rw [if_pos rfl, if_pos rfl, hm]
      exact ⟨(fun q => nomatch q), rfl⟩
    · have := (old y o' p e hp).2
      rw [if_neg this, if_neg this]
      exact h.live y o' p e hp
  · rcases get hy with ⟨a1, a2⟩ | ⟨a1, a2⟩ <;> rcases get hz with ⟨b1, b2⟩ | ⟨b1, b2⟩
    · rw [a1, b1]
    · subst a2
      rw [ho] at hp
      cases hp
      exact absurd rfl (old z o2 q b2 hp').2
    · subst b2
      rw [ho] at hp'
      cases hp'
      exact absurd rfl (old y o1 q a2 hp).2
    · exact h.one y z o1 o2 p a2 b2 hp hp' hmm
  · rw [heap] at hp
    rw [user] at hu
    by_cases hpq : p = q
    · subst hpq
      exact ⟨x, o, setObj_at _ _ _, hm, ho⟩
    · rw [if_neg hpq] at hp hu
      obtain ⟨y, o', a1, a2, a3⟩ := h.holder p hp hu
      exact ⟨y, o', by rw [setObj_ne _ _ (old y o' p a1 a3).1]; exact a1, a2, a3⟩

/-- An object that has no memory is changed to one that has none. -/
theorem Owned.plain {w : World} (h : Owned w) {x : Nat} (hx : ∀ o, w.objs x = some o → o.data = none) {v : Option Obj} (hv : ∀ o, v = some o → o.data = none) : Owned (w.setObj x v) := by
  have get : ∀ {y o p}, (w.setObj x v).objs y = some o → o.data = some p → y ≠ x ∧ w.objs y = some o := by
    intro y o p hy hp
    rcases setObj_get hy with ⟨-, q⟩ | q
    · rw [hv o q] at hp; cases hp
    · exact q
  refine ⟨fun y o p hy hp => h.live y o p (get hy hp).2 hp, fun y z o o' p hy hz hp hp' hm => h.one y z o o' p (get hy hp).2 (get hz hp').2 hp hp' hm, fun p hp hu => ?_, h.clean⟩
  obtain ⟨y, o, a1, a2, a3⟩ := h.holder p hp hu
  refine ⟨y, o, ?_, a2, a3⟩
  rw [setObj_ne]
  · exact a1
  · intro e
    rw [e] at a1
    rw [hx o a1] at a3
    cases a3

/-- The memory of one object goes to another. -/
theorem Owned.give {w : World} (h : Owned w) {x y : Nat} (hxy : x ≠ y) (hx : ∀ o, w.objs x = some o → o.data = none) {o : Obj} (hy : w.objs y = some o) {e : Obj} (he : e.data = none) :
    Owned ((w.setObj x (some o)).setObj y (some e)) := by
  have get : ∀ {z o' p}, ((w.setObj x (some o)).setObj y (some e)).objs z = some o' → o'.data = some p → (z = x ∧ o' = o) ∨ (z ≠ x ∧ z ≠ y ∧ w.objs z = some o') := by
    intro z o' p hz hp
    rcases setObj_get hz with ⟨-, q⟩ | ⟨q1, q2⟩
    · cases q; rw [he] at hp; cases hp
    · rcases setObj_get q2 with ⟨r1, r2⟩ | ⟨r1, r2⟩
      · exact Or.inl ⟨r1, by cases r2; rfl⟩
      · exact Or.inr ⟨r1, q1, r2⟩
  refine ⟨fun z o' p hz hp => ?_, fun z t o1 o2 p hz ht hp hp' hm => ?_, fun p hp hu => ?_, h.clean⟩
  · rcases get hz hp with ⟨-, a⟩ | ⟨-, -, a⟩
    · subst a; exact h.live y o' p hy hp
    · exact h.live z o' p a hp
  · rcases get hz hp with ⟨a1, a2⟩ | ⟨a1, a3, a2⟩ <;> rcases get ht hp' with ⟨b1, b2⟩ | ⟨b1, b3, b2⟩
    · rw [a1, b1]
    · subst a2
      exact absurd (h.one y t o1 o2 p hy b2 hp hp' hm).symm b3
    · subst b2
      exact absurd (h.one z y o1 o2 p a2 hy hp hp' hm) a3
    · exact h.one z t o1 o2 p a2 b2 hp hp' hm
  · obtain ⟨z, o', a1, a2, a3⟩ := h.holder p hp hu
    by_cases hz : z = y
    · subst hz
      rw [hy] at a1
      cases a1
      exact ⟨x, o, by rw [setObj_ne _ _ hxy, setObj_at], a2, a3⟩
    · refine ⟨z, o', ?_, a2, a3⟩
      rw [setObj_ne _ _ hz, setObj_ne]
      · exact a1
      · intro e
        rw [e] at a1
        rw [hx o' a1] at a3
        cases a3

/-- Other members change. -/
theorem Owned.same {w : World} (h : Owned w) {x : Nat} {s o : Obj} (hx : w.objs x = some s) (hd : o.data = s.data) (hm : o.manage = s.manage) : Owned (w.setObj x (some o)) := by
  have get : ∀ {z o'}, (w.setObj x (some o)).objs z = some o' → ∃ t, w.objs z = some t ∧ o'.data = t.data ∧ o'.manage = t.manage := by
    intro z o' hz
    rcases setObj_get hz with ⟨q1, q2⟩ | ⟨q1, q2⟩
    · cases q2; exact ⟨s, by rw [q1]; exact hx, hd, hm⟩
    · exact ⟨o', q2, rfl, rfl⟩
  refine ⟨fun z o' p hz hp => ?_, fun z t o1 o2 p hz ht hp hp' hmm => ?_, fun p hp hu => ?_, h.clean⟩
  · obtain ⟨t, t1, t2, t3⟩ := get hz
    rw [t3]
    exact h.live z t p t1 (by rw [← t2]; exact hp)
  · obtain ⟨u, u1, u2, u3⟩ := get hz
    obtain ⟨v, v1, v2, v3⟩ := get ht
    exact h.one z t u v p u1 v1 (by rw [← u2]; exact hp) (by rw [← v2]; exact hp') (by rw [← u3]; exact hmm)
  · obtain ⟨z, o', a1, a2, a3⟩ := h.holder p hp hu
    by_cases hz : z = x
    · subst hz
      rw [hx] at a1
      cases a1
      exact ⟨z, o, setObj_at _ _ _, by rw [hm]; exact a2, by rw [hd]; exact a3⟩
    · exact ⟨z, o', by rw [setObj_ne _ _ hz]; exact a1, a2, a3⟩

theorem apply_ite_eq {α : Type} {P : Prop} [Decidable P] (f : World → α) {a b : World} {r : α} (h1 : f a = r) (h2 : f b = r) : f (if P then a else b) = r := by split; exact h1; exact h2

theorem copy_fields (w : World) (d s : Option Nat) (n : Nat) : (w.copy d s n).heap = w.heap ∧ (w.copy d s n).user = w.user ∧ (w.copy d s n).objs = w.objs ∧ (w.copy d s n).stray = w.stray := by
  unfold World.copy
  simp only []
  exact ⟨apply_ite_eq World.heap rfl rfl, apply_ite_eq World.user rfl rfl, apply_ite_eq World.objs rfl rfl, apply_ite_eq World.stray rfl rfl⟩

theorem Owned.of_fields {w w' : World} (h : Owned w) (e1 : w'.heap = w.heap) (e2 : w'.user = w.user) (e3 : w'.objs = w.objs) (e4 : w'.stray = w.stray) : Owned w' := by
  obtain ⟨a, b, c, d⟩ := h
  refine ⟨?_, ?_, ?_, ?_⟩
  · rw [e1, e2, e3]; exact a
  · rw [e3]; exact b
  · rw [e1, e2, e3]; exact c
  · rw [e4]; exact d

/-- A copy before an object is set is one after. -/
theorem Owned.copied {w : World} {x : Nat} {v : Option Obj} (h : Owned (w.setObj x v)) (d s : Option Nat) (n : Nat) : Owned ((w.copy d s n).setObj x v) := by
  obtain ⟨e1, e2, e3, e4⟩ := copy_fields w d s n
  exact h.of_fields (by show (w.copy d s n).heap = _; rw [e1]; rfl) (by show (w.copy d s n).user = _; rw [e2]; rfl) (by unfold World.setObj; simp only [e3]) (by show (w.copy d s n).stray = _; rw [e4]; rfl)

/-- Giving up memory leaves the objects and at most fewer blocks. -/
theorem drop_fields (w : World) (s : Obj) : (w.drop s).objs = w.objs ∧ (w.drop s).user = w.user ∧ (∀ p, (w.drop s).heap p = none ∨ (w.drop s).heap p = w.heap p) ∧ (w.drop s).wild = w.wild := by
  unfold World.drop World.free World.setHeap
  split
  · split
    · split
      · refine ⟨rfl, rfl, fun p => ?_, rfl⟩
        simp only []
        split
        · exact Or.inl rfl
        · exact Or.inr rfl
      · exact ⟨rfl, rfl, fun _ => Or.inr rfl, rfl⟩
    · exact ⟨rfl, rfl, fun _ => Or.inr rfl, rfl⟩
  · exact ⟨rfl, rfl, fun _ => Or.inr rfl, rfl⟩

theorem drop_self {w : World} (h : Owned w) {x : Nat} {s : Obj} (hx : w.objs x = some s) {k : Nat} (hk : w.heap k = none ∨ (s.manage = true ∧ s.data = some k)) : (w.drop s).heap k = none := by
  rcases hk with hk | ⟨hm, hd⟩
  · rcases (drop_fields w s).2.2.1 k with q | q
    · exact q
    · rw [q]; exact hk
  · obtain ⟨l1, l2⟩ := h.live x s k hx hd
    rw [hm] at l2
    unfold World.drop
    rw [hd]
    simp only []
    rw [if_pos hm]
    unfold World.free
    rw [if_pos ⟨l1, l2⟩]
    exact if_pos rfl

theorem alloc_setObj (w : World) (q n x : Nat) (v : Option Obj) : (w.alloc q n).setObj x v = (w.setObj x v).alloc q n := rfl

/-- Memory is given up and new is had. -/
theorem Owned.renew {w : World} (h : Owned w) {x : Nat} {s : Obj} (hx : w.objs x = some s) {q : Nat} (hq : w.heap q = none ∨ (s.manage = true ∧ s.data = some q)) (n : Nat) {o : Obj} (ho : o.data = some q) (hm : o.manage = true) :
    Owned (((w.drop s).alloc q n).setObj x (some o)) := by
  have h1 : Owned ((w.drop s).setObj x (some ⟨none, true, 0, 0⟩)) := h.drop hx (fun o e => by cases e; rfl)
  have h2 := h1.put (x := x) (fun o e => by rw [setObj_at] at e; cases e; rfl) (q := q) (n := n) (drop_self h hx hq) ho hm
  rw [alloc_setObj, setObj_setObj, ← alloc_setObj] at h2
  exact h2

theorem step_owned {w : World} (h : Owned w) {op : Op} (hl : op.Legal w) : Owned (w.step op) := by
  cases op with
  | default x => exact h.plain (fun o e => by rw [show w.objs x = none from hl] at e; cases e) (fun o e => by cases e; rfl)
  | sized x n q =>
    cases q with
    | none => exact h
    | some q => exact h.put (fun o e => by rw [hl.1] at e; cases e) (hl.2 q rfl) rfl rfl
  | over x p size reserved manage =>
    obtain ⟨l1, l2, ⟨n, l3, -⟩, -, l4⟩ := hl
    have hx : ∀ o, w.objs x ≠ some o := fun o e => by rw [l1] at e; cases e
    show Owned ((if manage = true then w.setUser p false else w).setObj x (some ⟨some p, manage, size, reserved⟩))
    have heq : (if manage = true then w.setUser p false else w) = { w with user := fun y => if y = p ∧ manage = true then false else w.user y } := by
      cases manage with
      | true => simp only [if_true, and_true]; rfl
      | false => simp
    rw [heq]
    have get : ∀ {y o}, (World.setObj { w with user := fun y => if y = p ∧ manage = true then false else w.user y } x (some ⟨some p, manage, size, reserved⟩)).objs y = some o → (y = x ∧ o = ⟨some p, manage, size, reserved⟩) ∨ (y ≠ x ∧ w.objs y = some o) := by
      intro y o hy
      rcases setObj_get hy with ⟨a, b⟩ | ⟨a, b⟩
      · exact Or.inl ⟨a, by cases b; rfl⟩
      · exact Or.inr ⟨a, b⟩
    refine ⟨fun y o k hy hk => ?_, fun y z o o' k hy hz hk hk' hm => ?_, fun k hk hu => ?_, h.clean⟩
    · show w.heap k ≠ none ∧ (if k = p ∧ manage = true then false else w.user k) = !o.manage
      rcases get hy with ⟨a, b⟩ | ⟨a, b⟩
      · subst b
        cases hk
        refine ⟨by rw [l3]; exact (fun q => nomatch q), ?_⟩
        simp only []
        cases manage with
        | true => simp
        | false => simp [l2]
      · obtain ⟨c1, c2⟩ := h.live y o k b hk
        refine ⟨c1, ?_⟩
        rw [if_neg]
        · exact c2
        · rintro ⟨q1, q2⟩
          exact l4 q2 y o b (by rw [hk, q1])
    · rcases get hy with ⟨a1, a2⟩ | ⟨a1, a2⟩ <;> rcases get hz with ⟨b1, b2⟩ | ⟨b1, b2⟩
      · rw [a1, b1]
      · subst a2
        cases hk
        exact absurd hk' (l4 hm z o' b2)
      · subst b2
        cases hk'
        have := (h.live y o p a2 hk).2
        rw [l2, hm] at this
        cases this
      · exact h.one y z o o' k a2 b2 hk hk' hm
    · have hu : (if k = p ∧ manage = true then false else w.user k) = false := hu
      by_cases hkp : k = p ∧ manage = true
      · exact ⟨x, _, setObj_at _ _ _, hkp.2, by rw [hkp.1]⟩
      · rw [if_neg hkp] at hu
        obtain ⟨y, o, a1, a2, a3⟩ := h.holder k hk hu
        exact ⟨y, o, by rw [setObj_ne _ _ (fun e => hx o (by rw [← e]; exact a1))]; exact a1, a2, a3⟩
  | copy x y q =>
    unfold World.step
    simp only []
    split
    · next o k e =>
      refine Owned.copied ?_ _ _ _
      exact h.put (fun o e => by rw [hl.1] at e; cases e) (hl.2.2 _ rfl) rfl rfl
    · exact h
  | assign x y q =>
    unfold World.step
    simp only []
    split
    · exact h
    · split
      · next hxy _ _ s o e1 e2 =>
        cases q with
        | some q =>
          simp only []
          exact Owned.copied (h.renew e1 (Or.inl (hl.2.2 q rfl)) _ rfl rfl) _ _ _
        | none =>
          simp only []
          exact h.drop e1 (fun o e => by cases e; rfl)
      · exact h
  | move x y =>
    unfold World.step
    simp only []
    split
    · next o e =>
      exact h.give (fun q => by rw [q] at hl; exact hl.2 hl.1) (fun o e => by rw [hl.1] at e; cases e) e rfl
    · exact h
  | moveAssign x y =>
    unfold World.step
    simp only []
    split
    · exact h
    · next hxy =>
      split
      · next _ _ s o e1 e2 =>
        have h1 : Owned ((w.drop s).setObj x (some ⟨none, true, 0, 0⟩)) := h.drop e1 (fun o e => by cases e; rfl)
        have h2 := h1.give hxy (fun o e => by rw [setObj_at] at e; cases e; rfl) (y := y) (o := o) (by rw [setObj_ne _ _ (fun q => hxy q.symm), (drop_fields w s).1]; exact e2) (e := ⟨none, true, 0, 0⟩) rfl
        rw [setObj_setObj] at h2
        exact h2
      · exact h
  | destroy x =>
    unfold World.step
    simp only []
    split
    · next s e => exact h.drop e (fun o e => nomatch e)
    · exact h
  | reserve x required tight q =>
    unfold World.step
    simp only []
    split
    · next s e =>
      split
      · exact h
      · split
        · exact h
        · next hm =>
          have hm : s.manage = true := by simpa using hm
          split
          · exact h.drop e (fun o e => by cases e; rfl)
          · cases q with
            | some q =>
              simp only []
              refine h.renew e ?_ _ rfl hm
              rcases hl.2 q rfl with a | ⟨s', a, b⟩
              · exact Or.inl a
              · rw [e] at a; cases a; exact Or.inr b
            | none => exact h
    · exact h
  | resize x n =>
    unfold World.step
    simp only []
    split
    · next s e => exact h.same e rfl rfl
    · exact h
  | close x =>
    unfold World.step
    simp only []
    split
    · next s e => exact h.drop e (fun o e => by cases e; rfl)
    · exact h
  | userAlloc p n =>
    have hl : w.heap p = none := hl
    have ne : ∀ y o k, w.objs y = some o → o.data = some k → k ≠ p := fun y o k hy hk e => (h.live y o k hy hk).1 (by rw [e]; exact hl)
    refine ⟨fun y o k hy hk => ?_, fun y z o o' k hy hz => h.one y z o o' k hy hz, fun k hk hu => ?_, h.clean⟩
    · show (if k = p then some n else w.heap k) ≠ none ∧ (if k = p then true else w.user k) = _
      rw [if_neg (ne y o k hy hk), if_neg (ne y o k hy hk)]
      exact h.live y o k hy hk
    · have hk : (if k = p then some n else w.heap k) ≠ none := hk
      have hu : (if k = p then true else w.user k) = false := hu
      by_cases e : k = p
      · rw [if_pos e] at hu; cases hu
      · rw [if_neg e] at hk hu
        exact h.holder k hk hu
  | userFree p =>
    obtain ⟨l1, l2, l3⟩ := hl
    refine ⟨fun y o k hy hk => ?_, fun y z o o' k hy hz => h.one y z o o' k hy hz, fun k hk hu => ?_, h.clean⟩
    · show (if k = p then none else w.heap k) ≠ none ∧ w.user k = _
      rw [if_neg (fun e => l3 y o hy (by rw [← e]; exact hk))]
      exact h.live y o k hy hk
    · have hk : (if k = p then none else w.heap k) ≠ none := hk
      split at hk
      · exact absurd rfl hk
      · exact h.holder k hk hu

theorem start_owned : Owned World.start := ⟨(fun _ _ _ e => nomatch e), (fun _ _ _ _ _ e => nomatch e), fun _ e => absurd rfl e, rfl⟩

theorem run_owned : ∀ {ops : List Op} {w : World}, Owned w → Legal w ops → Owned (w.run ops)
  | [], _, h, _ => h
  | op :: ops, w, h, hl => run_owned (ops := ops) (step_owned h hl.1) hl.2

/-- Whatever is done with memory files, with memory or without: no memory is lost, freed twice or while in use, and none of the user's is freed. -/
theorem memory_files_owned {ops : List Op} (hl : Legal World.start ops) : Owned (World.start.run ops) := run_owned start_owned hl

/-- Where no memory files are left, all memory is the user's. -/
theorem memory_files_free_all {ops : List Op} (hl : Legal World.start ops) (hn : ∀ x, (World.start.run ops).objs x = none) {p : Nat} (hp : (World.start.run ops).heap p ≠ none) : (World.start.run ops).user p = true := by
  cases hu : (World.start.run ops).user p with
  | true => rfl
  | false =>
    obtain ⟨x, o, e, -⟩ := (memory_files_owned hl).holder p hp hu
    rw [hn x] at e; cases e

/-! ### Files fit into their blocks -/

/-- Copy assignment that gets no memory is the exception. -/
def Op.Supplied : Op → Prop
  | .assign x y q => q ≠ none ∨ x = y
  | _ => True

theorem Fits.change {w w' : World} (h : Fits w) (x : Nat) {v : Option Obj} (ho : ∀ y, w'.objs y = if y = x then v else w.objs y) (hh : ∀ y o p n, y ≠ x → w.objs y = some o → o.data = some p → w'.heap p = some n → w.heap p = some n)
    (hs : ∀ o, v = some o → o.size ≤ o.reserved) (hr : ∀ o p n, v = some o → o.data = some p → w'.heap p = some n → o.reserved ≤ n) (hn : ∀ o, v = some o → o.data = none → o.reserved = 0) (ht : w'.wild = false) : Fits w' := by
  have get : ∀ {y o}, w'.objs y = some o → v = some o ∨ (y ≠ x ∧ w.objs y = some o) := by
    intro y o e
    rw [ho] at e
    split at e
    · exact Or.inl e
    · next q => exact Or.inr ⟨q, e⟩
  refine ⟨fun y o e => ?_, fun y o p n e hp hq => ?_, fun y o e hd => ?_, ht⟩
  · rcases get e with q | ⟨-, q⟩
    · exact hs o q
    · exact h.size y o q
  · rcases get e with q | ⟨q1, q2⟩
    · exact hr o p n q hp hq
    · exact h.room y o p n q2 hp (hh y o p n q1 q2 hp hq)
  · rcases get e with q | ⟨-, q⟩
    · exact hn o q hd
    · exact h.null y o q hd

theorem drop_le {w : World} {s : Obj} {p n : Nat} (h : (w.drop s).heap p = some n) : w.heap p = some n := by
  rcases (drop_fields w s).2.2.1 p with q | q
  · rw [q] at h; cases h
  · rw [← q]; exact h

/-- The other objects keep their memory. -/
theorem drop_keeps {w : World} (h : Owned w) {x : Nat} {s : Obj} (hx : w.objs x = some s) {y : Nat} {o : Obj} (hyx : y ≠ x) (hy : w.objs y = some o) {p : Nat} (hp : o.data = some p) : (w.drop s).heap p = w.heap p := by
  rcases (drop_fields w s).2.2.1 p with q | q
  · exfalso
    have h1 : Owned ((w.drop s).setObj x none) := h.drop hx (fun o e => nomatch e)
    exact (h1.live y o p (by rw [setObj_ne _ _ hyx, (drop_fields w s).1]; exact hy) hp).1 q
  · exact q

/-- A copy of a file to a new block of its size is within bounds. -/
theorem copy_tame {w : World} {q : Nat} {o : Obj} (hw : w.wild = false) (hq : w.heap q = some o.size) (hd : ∀ p, o.data = some p → ∃ n, w.heap p = some n ∧ o.size ≤ n) (hn : o.data = none → o.size = 0) : (w.copy (some q) o.data o.size).wild = false := by
  unfold World.copy
  simp only []
  rw [if_pos]
  · exact hw
  · refine ⟨by rw [hq]; exact Nat.le_refl _, ?_⟩
    cases hp : o.data with
    | none => simp only []; rw [hn hp]; exact Nat.le_refl _
    | some p =>
      simp only []
      obtain ⟨n, e1, e2⟩ := hd p hp
      rw [e1]; exact e2

theorem step_fits {w : World} (ho : Owned w) (h : Fits w) {op : Op} (hl : op.Legal w) (hs : op.Supplied) : Fits (w.step op) := by
  -- a block that is new is no other object's
  have new : ∀ {y o p q}, w.objs y = some o → o.data = some p → w.heap q = none → p ≠ q := fun {y o p q} hy hp hq e => (ho.live y o p hy hp).1 (by rw [e]; exact hq)
  have old : ∀ {y o p}, w.objs y = some o → o.data = some p → ∃ n, w.heap p = some n ∧ o.size ≤ n := by
    intro y o p hy hp
    cases hn : w.heap p with
    | none => exact absurd hn (ho.live y o p hy hp).1
    | some n => exact ⟨n, rfl, Nat.le_trans (h.size y o hy) (h.room y o p n hy hp hn)⟩
  have empty : ∀ o : Obj, (some ⟨none, true, 0, 0⟩ : Option Obj) = some o → o.size ≤ o.reserved ∧ o.reserved = 0 ∧ o.data = none := by
    intro o e; cases e; exact ⟨Nat.le_refl _, rfl, rfl⟩
  cases op with
  | default x =>
    exact h.change x (v := some ⟨none, true, 0, 0⟩) (fun _ => rfl) (fun y o p n _ _ _ e => e) (fun o e => (empty o e).1) (fun o p n e hp _ => by rw [(empty o e).2.2] at hp; cases hp) (fun o e _ => (empty o e).2.1) h.tame
  | sized x n q =>
    cases q with
    | none => exact h
    | some q =>
      refine h.change x (v := some ⟨some q, true, 0, n⟩) (fun _ => rfl) (fun y o p k _ hy hp e => ?_) (fun o e => by cases e; exact Nat.zero_le _) (fun o p k e hp hk => ?_) (fun o e hd => by cases e; cases hd) h.tame
      · have e : (if p = q then some n else w.heap p) = some k := e
        rwa [if_neg (new hy hp (hl.2 q rfl))] at e
      · cases e; cases hp
        have hk : (if q = q then some n else w.heap q) = some k := hk
        rw [if_pos rfl] at hk; cases hk; exact Nat.le_refl _
  | over x p size reserved manage =>
    obtain ⟨l1, l2, ⟨n, l3, l4⟩, l5, -⟩ := hl
    have hw : ∀ P : Bool, (if P = true then w.setUser p false else w).heap = w.heap ∧ (if P = true then w.setUser p false else w).objs = w.objs ∧ (if P = true then w.setUser p false else w).wild = w.wild := by
      intro P; cases P <;> exact ⟨rfl, rfl, rfl⟩
    obtain ⟨w1, w2, w3⟩ := hw manage
    refine h.change x (v := some ⟨some p, manage, size, reserved⟩) (fun y => ?_) (fun y o k m _ _ _ e => ?_) (fun o e => by cases e; exact l5) (fun o k m e hp hk => ?_) (fun o e hd => by cases e; cases hd) ?_
    · show (if y = x then _ else (if manage = true then w.setUser p false else w).objs y) = _
      rw [w2]
    · have e : (if manage = true then w.setUser p false else w).heap k = some m := e
      rw [w1] at e; exact e
    · cases e; cases hp
      have hk : (if manage = true then w.setUser p false else w).heap p = some m := hk
      rw [w1, l3] at hk; cases hk; exact l4
    · show (if manage = true then w.setUser p false else w).wild = false
      rw [w3]; exact h.tame
  | copy x y q =>
    unfold World.step
    simp only []
    split
    · next o k e =>
      have hk := hl.2.2 k rfl
      obtain ⟨c1, c2, c3, c4⟩ := copy_fields (w.alloc k o.size) (some k) o.data o.size
      refine h.change x (v := some ⟨some k, true, o.size, o.size⟩) (fun z => ?_) (fun z o' p n _ hz hp e => ?_) (fun o e => by cases e; exact Nat.le_refl _) (fun o' p n e hp hn => ?_) (fun o e hd => by cases e; cases hd) ?_
      · show (if z = x then _ else ((w.alloc k o.size).copy (some k) o.data o.size).objs z) = _
        rw [c3]; rfl
      · have e : ((w.alloc k o.size).copy (some k) o.data o.size).heap p = some n := e
        rw [c1] at e
        have e : (if p = k then some o.size else w.heap p) = some n := e
        rwa [if_neg (new hz hp hk)] at e
      · cases e; cases hp
        have hn : ((w.alloc k o.size).copy (some k) o.data o.size).heap k = some n := hn
        rw [c1] at hn
        have hn : (if k = k then some o.size else w.heap k) = some n := hn
        rw [if_pos rfl] at hn; cases hn; exact Nat.le_refl _
      · refine copy_tame h.tame (if_pos rfl) (fun p hp => ?_) (fun hd => by have := h.size y o e; have := h.null y o e hd; omega)
        obtain ⟨n, n1, n2⟩ := old e hp
        exact ⟨n, by show (if p = k then some o.size else w.heap p) = some n; rw [if_neg (new e hp hk)]; exact n1, n2⟩
    · exact h
  | assign x y q =>
    unfold World.step
    simp only []
    split
    · exact h
    · next hxy =>
      split
      · next s o e1 e2 =>
        cases q with
        | none => rcases hs with q | q; exact absurd rfl q; exact absurd q hxy
        | some k =>
          simp only []
          have hk := hl.2.2 k rfl
          obtain ⟨c1, c2, c3, c4⟩ := copy_fields ((w.drop s).alloc k o.size) (some k) o.data o.size
          refine h.change x (v := some ⟨some k, true, o.size, o.size⟩) (fun z => ?_) (fun z o' p n hzx hz hp e => ?_) (fun o e => by cases e; exact Nat.le_refl _) (fun o' p n e hp hn => ?_) (fun o e hd => by cases e; cases hd) ?_
          · show (if z = x then _ else (((w.drop s).alloc k o.size).copy (some k) o.data o.size).objs z) = _
            rw [c3]
            show (if z = x then _ else (w.drop s).objs z) = _
            rw [(drop_fields w s).1]
          · have e : (((w.drop s).alloc k o.size).copy (some k) o.data o.size).heap p = some n := e
            rw [c1] at e
            have e : (if p = k then some o.size else (w.drop s).heap p) = some n := e
            rw [if_neg (new hz hp hk)] at e
            exact drop_le e
          · cases e; cases hp
            have hn : (((w.drop s).alloc k o.size).copy (some k) o.data o.size).heap k = some n := hn
            rw [c1] at hn
            have hn : (if k = k then some o.size else (w.drop s).heap k) = some n := hn
            rw [if_pos rfl] at hn; cases hn; exact Nat.le_refl _
          · refine copy_tame (by show (w.drop s).wild = false; rw [(drop_fields w s).2.2.2]; exact h.tame) (if_pos rfl) (fun p hp => ?_) (fun hd => by have := h.size y o e2; have := h.null y o e2 hd; omega)
            obtain ⟨n, n1, n2⟩ := old e2 hp
            exact ⟨n, by show (if p = k then some o.size else (w.drop s).heap p) = some n; rw [if_neg (new e2 hp hk), drop_keeps ho e1 (fun q => hxy q.symm) e2 hp]; exact n1, n2⟩
      · exact h
  | move x y =>
    unfold World.step
    simp only []
    split
    · next o e =>
      have hxy : x ≠ y := fun q => by rw [q] at hl; exact hl.2 hl.1
      have h1 : Fits (w.setObj x (some o)) := h.change x (v := some o) (fun _ => rfl) (fun _ _ _ _ _ _ _ e => e) (fun o' e' => by cases e'; exact h.size y o e) (fun o' p n e' hp hn => by cases e'; exact h.room y o p n e hp hn) (fun o' e' hd => by cases e'; exact h.null y o e hd) h.tame
      exact h1.change y (v := some ⟨none, true, 0, 0⟩) (fun _ => rfl) (fun y o p n _ _ _ e => e) (fun o e => (empty o e).1) (fun o p n e hp _ => by rw [(empty o e).2.2] at hp; cases hp) (fun o e _ => (empty o e).2.1) h1.tame
    · exact h
  | moveAssign x y =>
    unfold World.step
    simp only []
    split
    · exact h
    · next hxy =>
      split
      · next s o e1 e2 =>
        have h1 : Fits ((w.drop s).setObj x (some o)) := h.change x (v := some o) (fun z => by show (if z = x then _ else (w.drop s).objs z) = _; rw [(drop_fields w s).1]) (fun _ _ p n _ _ _ e => drop_le e) (fun o' e' => by cases e'; exact h.size y o e2)
          (fun o' p n e' hp hn => by cases e'; exact h.room y o p n e2 hp (drop_le hn)) (fun o' e' hd => by cases e'; exact h.null y o e2 hd) (by show (w.drop s).wild = false; rw [(drop_fields w s).2.2.2]; exact h.tame)
        exact h1.change y (v := some ⟨none, true, 0, 0⟩) (fun _ => rfl) (fun y o p n _ _ _ e => e) (fun o e => (empty o e).1) (fun o p n e hp _ => by rw [(empty o e).2.2] at hp; cases hp) (fun o e _ => (empty o e).2.1) h1.tame
      · exact h
  | destroy x =>
    unfold World.step
    simp only []
    split
    · next s e =>
      exact h.change x (v := none) (fun z => by show (if z = x then _ else (w.drop s).objs z) = _; rw [(drop_fields w s).1]) (fun _ _ p n _ _ _ e => drop_le e) (fun _ e => nomatch e) (fun _ _ _ e => nomatch e) (fun _ e => nomatch e) (by show (w.drop s).wild = false; rw [(drop_fields w s).2.2.2]; exact h.tame)
    · exact h
  | reserve x required tight q =>
    unfold World.step
    simp only []
    split
    · next s e =>
      split
      · exact h
      · split
        · exact h
        · next hm =>
          have hm : s.manage = true := by simpa using hm
          split
          · next hr =>
            refine h.change x (v := some ⟨none, s.manage, if grown required tight < s.size then grown required tight else s.size, grown required tight⟩) (fun z => by show (if z = x then _ else (w.drop s).objs z) = _; rw [(drop_fields w s).1]) (fun _ _ p n _ _ _ e => drop_le e) (fun o e => ?_)
              (fun o p n e hp => by cases e; cases hp) (fun o e _ => by cases e; exact hr) (by show (w.drop s).wild = false; rw [(drop_fields w s).2.2.2]; exact h.tame)
            cases e
            simp only []
            split <;> omega
          · cases q with
            | none => exact h
            | some k =>
              simp only []
              have hk : (w.drop s).heap k = none := by
                refine drop_self ho e ?_
                rcases hl.2 k rfl with a | ⟨s', a, b⟩
                · exact Or.inl a
                · rw [e] at a; cases a; exact Or.inr b
              refine h.change x (v := some ⟨some k, s.manage, if grown required tight < s.size then grown required tight else s.size, grown required tight⟩) (fun z => by show (if z = x then _ else (w.drop s).objs z) = _; rw [(drop_fields w s).1]) (fun y o p n hyx hy hp e' => ?_) (fun o e => ?_)
                (fun o p n e hp hn => ?_) (fun o e hd => by cases e; cases hd) (by show (w.drop s).wild = false; rw [(drop_fields w s).2.2.2]; exact h.tame)
              · have e' : (if p = k then some (grown required tight) else (w.drop s).heap p) = some n := e'
                rw [if_neg] at e'
                · exact drop_le e'
                · intro q
                  have := drop_keeps ho e hyx hy hp
                  rw [q, hk] at this
                  exact (ho.live y o p hy hp).1 (by rw [q]; exact this.symm)
              · cases e
                simp only []
                split <;> omega
              · cases e; cases hp
                have hn : (if k = k then some (grown required tight) else (w.drop s).heap k) = some n := hn
                rw [if_pos rfl] at hn; cases hn; exact Nat.le_refl _
    · exact h
  | resize x n =>
    obtain ⟨s, e, hn⟩ := hl
    unfold World.step
    simp only []
    rw [e]
    exact h.change x (v := some { s with size := n }) (fun _ => rfl) (fun _ _ _ _ _ _ _ e => e) (fun o e => by cases e; exact hn) (fun o p n e' hp hn => by cases e'; exact h.room x s p n e hp hn) (fun o e' hd => by cases e'; exact h.null x s e hd) h.tame
  | close x =>
    unfold World.step
    simp only []
    split
    · next s e =>
      exact h.change x (v := some ⟨none, true, 0, 0⟩) (fun z => by show (if z = x then _ else (w.drop s).objs z) = _; rw [(drop_fields w s).1]) (fun _ _ p n _ _ _ e => drop_le e) (fun o e => (empty o e).1) (fun o p n e hp _ => by rw [(empty o e).2.2] at hp; cases hp) (fun o e _ => (empty o e).2.1)
        (by show (w.drop s).wild = false; rw [(drop_fields w s).2.2.2]; exact h.tame)
    · exact h
  | userAlloc p n =>
    refine ⟨h.size, fun y o k m hy hk e => ?_, h.null, h.tame⟩
    have e : (if k = p then some n else w.heap k) = some m := e
    rw [if_neg (new hy hk hl)] at e
    exact h.room y o k m hy hk e
  | userFree p =>
    refine ⟨h.size, fun y o k m hy hk e => ?_, h.null, h.tame⟩
    have e : (if k = p then none else w.heap k) = some m := e
    split at e
    · cases e
    · exact h.room y o k m hy hk e

theorem start_fits : Fits World.start := ⟨(fun _ _ e => nomatch e), (fun _ _ _ _ e => nomatch e), (fun _ _ e => nomatch e), rfl⟩

theorem run_fits : ∀ {ops : List Op} {w : World}, Owned w → Fits w → Legal w ops → (∀ op ∈ ops, op.Supplied) → Fits (w.run ops)
  | [], _, _, h, _, _ => h
  | op :: ops, w, ho, h, hl, hs => run_fits (ops := ops) (step_owned ho hl.1) (step_fits ho h hl.1 (hs op List.mem_cons_self)) hl.2 (fun o m => hs o (List.mem_cons_of_mem _ m))

/-- Every file fits into its block and all copies are within bounds, unless a copy assignment got no memory. -/
theorem memory_files_fit_partial {ops : List Op} (hl : Legal World.start ops) (hs : ∀ op ∈ ops, op.Supplied) : Fits (World.start.run ops) := run_fits start_owned start_fits hl hs

/-! ### The exception, and an example -/

/-- (defect) A copy assignment that gets no memory leaves a file that says it has bytes where there is no memory: copying it reads from null. -/
theorem assign_without_memory :
    let ops := [.userAlloc 1 8, .over 0 1 8 8 false, .sized 2 4 (some 3), .assign 0 2 none, .copy 4 0 (some 5)]
    Legal World.start ops ∧ (World.start.run ops).wild = true := by
  refine ⟨⟨rfl, ⟨rfl, rfl, ⟨8, rfl, Nat.le_refl _⟩, Nat.le_refl _, (fun q => nomatch q)⟩, ⟨rfl, fun k e => by cases e; rfl⟩, ⟨(fun q => nomatch q), (fun q => nomatch q), fun k e => nomatch e⟩, ⟨rfl, (fun q => nomatch q), fun k e => by cases e; rfl⟩, trivial⟩, rfl⟩

/-- A file over the user's memory is assigned to, one that manages memory is moved, all are destroyed. -/
def exOps : List Op := [.userAlloc 1 8, .over 0 1 8 8 false, .sized 2 4 (some 3), .resize 2 4, .assign 0 2 (some 5), .move 7 2, .reserve 7 100 true (some 3), .moveAssign 0 7, .destroy 0, .destroy 2, .destroy 7]

example : Legal World.start exOps ∧ (∀ op ∈ exOps, op.Supplied) := by
  refine ⟨⟨rfl, ⟨rfl, rfl, ⟨8, rfl, Nat.le_refl _⟩, Nat.le_refl _, (fun q => nomatch q)⟩, ⟨rfl, fun k e => by cases e; rfl⟩, ⟨_, rfl, Nat.le_refl _⟩, ⟨(fun q => nomatch q), (fun q => nomatch q), fun k e => by cases e; rfl⟩, ⟨rfl, (fun q => nomatch q)⟩,
    ⟨(fun q => nomatch q), fun k e => by cases e; exact Or.inr ⟨_, rfl, rfl, rfl⟩⟩, ⟨(fun q => nomatch q), (fun q => nomatch q)⟩, (fun q => nomatch q), (fun q => nomatch q), (fun q => nomatch q), trivial⟩, ?_⟩
  intro op hop
  simp only [exOps, List.mem_cons, List.not_mem_nil, or_false] at hop
  rcases hop with h | h | h | h | h | h | h | h | h | h | h <;> subst h <;> first | trivial | exact Or.inl (fun q => nomatch q)

example : (World.start.run exOps).heap 1 = some 8 ∧ (World.start.run exOps).heap 3 = none ∧ (World.start.run exOps).heap 5 = none := ⟨rfl, rfl, rfl⟩

end Verif.Stream.MemoryOwner
