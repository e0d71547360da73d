/-
Objects that own a handle of the operating system, include/stdex/system.hpp 97-208 and include/stdex/socket.hpp 37-63.
-/
namespace Verif.Sys

/-! ### Model -/

/-- The system and the objects of the program: handles that are open; for every object that exists the handle it holds (`m_h`, `none` for
`invalid_handle`); whether a handle that is not open was closed. -/
structure World where
  opened : List Nat
  objs : Nat → Option (Option Nat)
  stray : Bool

/-- `sys_object_traits::close`, system.hpp 104-115, and `socket_traits::close`, socket.hpp 44-57: a handle that is not open is not reported (`EBADF`). -/
def World.closeHandle (w : World) (h : Nat) : World := if h ∈ w.opened then { w with opened := w.opened.erase h } else { w with stray := true }

/-- An object gets a handle, or none. -/
def World.put (w : World) (x : Nat) (v : Option (Option Nat)) : World := { w with objs := fun y => if y = x then v else w.objs y }

/-- `if (m_h != TR::invalid_handle) TR::close(m_h)`, 151-152, 166-167, 176-177. -/
def World.drop (w : World) (x : Nat) : World :=
  match w.objs x with
  | some (some h) => w.closeHandle h
  | _ => w

/-- What a program does. `dup` is what the system returns for `dup`, `none` for an error; `err` is an error of the system's `close` that is thrown. -/
inductive Op where
  | make (x h : Nat)
  | makeNone (x : Nat)
  | copy (x y : Nat) (dup : Option Nat)
  | assign (x y : Nat) (err : Bool) (dup : Option Nat)
  | move (x y : Nat)
  | moveAssign (x y : Nat)
  | close (x : Nat) (err : Bool)
  | destroy (x : Nat)

/-- `TR::duplicate(other.m_h)` or the invalid handle: `none` if it throws. The duplicate is open. -/
def World.duplicate (w : World) (y : Nat) (dup : Option Nat) : Option (Option Nat × World) :=
  match w.objs y with
  | some (some _) =>
    match dup with
    | some h => some (some h, { w with opened := h :: w.opened })
    | none => none
  | _ => some (none, w)

/-- The operations, 144-189. A thrown exception leaves what was done before. -/
def World.step (w : World) : Op → World
  | .make x h => { w with opened := h :: w.opened }.put x (some (some h)) -- 144, with a handle the caller has opened
  | .makeNone x => w.put x (some none) -- 144
  | .copy x y dup => -- 146
    match w.duplicate y dup with
    | some (h, w) => w.put x (some h)
    | none => w
  | .assign x y err dup => -- 148-156
    if x = y then w
    else
      let w := w.drop x
      if err then w
      else
        match w.duplicate y dup with
        | some (h, w) => w.put x (some h)
        | none => w
  | .move x y => -- 158-161
    let h := (w.objs y).getD none
    (w.put x (some h)).put y (some none)
  | .moveAssign x y => -- 163-172; noexcept
    if x = y then w
    else
      let w := w.drop x
      let h := (w.objs y).getD none
      (w.put x (some h)).put y (some none)
  | .close x err => -- 183-189
    let w' := w.drop x
    if err ∧ (w.objs x).getD none ≠ none then w' else w'.put x (some none)
  | .destroy x => (w.drop x).put x none -- 174-178

def World.run (w : World) (ops : List Op) : World := ops.foldl World.step w

/-- Nothing exists. -/
def World.start : World := ⟨[], fun _ => none, false⟩

/-! ### Specification -/

/-- What the program and the system have to keep: objects that are used exist, those that are made do not; new handles are not among those open. -/
def Op.Legal (w : World) : Op → Prop
  | .make x h => w.objs x = none ∧ h ∉ w.opened
  | .makeNone x => w.objs x = none
  | .copy x y dup => w.objs x = none ∧ w.objs y ≠ none ∧ ∀ h, dup = some h → h ∉ w.opened
  | .assign x y _ dup => w.objs x ≠ none ∧ w.objs y ≠ none ∧ ∀ h, dup = some h → h ∉ w.opened
  | .move x y => w.objs x = none ∧ w.objs y ≠ none
  | .moveAssign x y => w.objs x ≠ none ∧ w.objs y ≠ none
  | .close x _ => w.objs x ≠ none
  | .destroy x => w.objs x ≠ none

/-- The errors after which an object is left with a handle that is closed (see the defects below): of an assignment, once the handle the object had
was closed, and of closing. -/
def Op.Spared (w : World) : Op → Prop
  | .assign x y err dup => x = y ∨ (w.objs x).getD none = none ∨ (err = false ∧ ((w.objs y).getD none = none ∨ dup ≠ none))
  | .close _ err => err = false
  | _ => True

/-- A history that is legal, without those errors. -/
def Legal (w : World) : List Op → Prop
  | [] => True
  | op :: ops => op.Legal w ∧ op.Spared w ∧ Legal (w.step op) ops

/-- Every open handle has exactly one owner, every object's handle is open, and no handle was closed that was not. -/
structure Owned (w : World) : Prop where
  nodup : w.opened.Nodup
  live : ∀ x h, w.objs x = some (some h) → h ∈ w.opened
  one : ∀ x y h, w.objs x = some (some h) → w.objs y = some (some h) → x = y
  owner : ∀ h ∈ w.opened, ∃ x, w.objs x = some (some h)
  clean : w.stray = false

/-! ### Proofs -/

/-- The handles of others: all but what `x` has is as before, and `x` is about to be given something else. -/
structure Apart (w : World) (x : Nat) : Prop where
  nodup : w.opened.Nodup
  live : ∀ y h, y ≠ x → w.objs y = some (some h) → h ∈ w.opened
  one : ∀ y z h, y ≠ x → z ≠ x → w.objs y = some (some h) → w.objs z = some (some h) → y = z
  owner : ∀ h ∈ w.opened, ∃ y, y ≠ x ∧ w.objs y = some (some h)
  clean : w.stray = false

theorem Owned.drop {w : World} (h : Owned w) (x : Nat) : Apart (w.drop x) x ∧ (w.drop x).objs = w.objs ∧ ∀ k, k ∈ (w.drop x).opened → k ∈ w.opened := by
  have same : (∀ k, w.objs x ≠ some (some k)) → Apart w x := fun q =>
    ⟨h.nodup, fun y k _ => h.live y k, fun y z k _ _ => h.one y z k, fun k hk => by
      obtain ⟨y, hy⟩ := h.owner k hk
      exact ⟨y, (fun e => q k (by rw [← e]; exact hy)), hy⟩, h.clean⟩
  cases hx : w.objs x with
  | none =>
    have e : w.drop x = w := by unfold World.drop; rw [hx]
    rw [e]
    exact ⟨same (fun k q => by rw [hx] at q; cases q), rfl, fun _ => id⟩
  | some o =>
    cases o with
    | none =>
      have e : w.drop x = w := by unfold World.drop; rw [hx]
      rw [e]
      exact ⟨same (fun k q => by rw [hx] at q; cases q), rfl, fun _ => id⟩
    | some k =>
      have e : w.drop x = { w with opened := w.opened.erase k } := by
        unfold World.drop; rw [hx]
        show w.closeHandle k = _
        unfold World.closeHandle
        rw [if_pos (h.live x k hx)]
      rw [e]
      refine ⟨⟨h.nodup.erase k, fun y j hy hj => ?_, fun y z j _ _ => h.one y z j, fun j hj => ?_, h.clean⟩, rfl, fun j hj => List.mem_of_mem_erase hj⟩
      · refine (List.mem_erase_of_ne ?_).2 (h.live y j hj)
        intro e
        exact hy (h.one y x k (by rw [e] at hj; exact hj) hx)
      · obtain ⟨y, hy⟩ := h.owner j (List.mem_of_mem_erase hj)
        refine ⟨y, (fun e => ?_), hy⟩
        rw [e, hx] at hy
        cases hy
        exact List.Nodup.not_mem_erase h.nodup hj

theorem Owned.apart {w : World} (h : Owned w) {x : Nat} (hx : w.objs x = none ∨ w.objs x = some none) : Apart w x :=
  ⟨h.nodup, fun y k _ => h.live y k, fun y z k _ _ => h.one y z k, fun k hk => by
    obtain ⟨y, hy⟩ := h.owner k hk
    exact ⟨y, (fun e => by rcases hx with hx | hx <;> rw [e, hx] at hy <;> cases hy), hy⟩, h.clean⟩

/-- Giving `x` no handle. -/
theorem Apart.put_none {w : World} {x : Nat} (h : Apart w x) {v : Option (Option Nat)} (hv : v = none ∨ v = some none) : Owned (w.put x v) := by
  have nv : ∀ k, v ≠ some (some k) := fun k e => by rcases hv with hv | hv <;> rw [hv] at e <;> cases e
  have get : ∀ y k, (w.put x v).objs y = some (some k) → y ≠ x ∧ w.objs y = some (some k) := by
    intro y k e
    unfold World.put at e
    simp only [] at e
    by_cases hy : y = x
    · rw [if_pos hy] at e; exact absurd e (nv k)
    · rw [if_neg hy] at e; exact ⟨hy, e⟩
  refine ⟨h.nodup, fun y k e => ?_, fun y z k e e' => ?_, fun k hk => ?_, h.clean⟩
  · obtain ⟨a, b⟩ := get y k e; exact h.live y k a b
  · obtain ⟨a, b⟩ := get y k e
    obtain ⟨a', b'⟩ := get z k e'
    exact h.one y z k a a' b b'
  · obtain ⟨y, a, b⟩ := h.owner k hk
    exact ⟨y, by unfold World.put; simp only []; rw [if_neg a]; exact b⟩

/-- Giving `x` a handle just opened. -/
theorem Apart.put_new {w : World} {x k : Nat} (h : Apart w x) (hk : k ∉ w.opened) : Owned ({ w with opened := k :: w.opened }.put x (some (some k))) := by
  have get : ∀ y j, ({ w with opened := k :: w.opened }.put x (some (some k))).objs y = some (some j) → (y = x ∧ j = k) ∨ (y ≠ x ∧ w.objs y = some (some j)) := by
    intro y j e
    unfold World.put at e
    simp only [] at e
    by_cases hy : y = x
    · rw [if_pos hy] at e; cases e; exact Or.inl ⟨hy, rfl⟩
    · rw [if_neg hy] at e; exact Or.inr ⟨hy, e⟩
  refine ⟨List.nodup_cons.2 ⟨hk, h.nodup⟩, fun y j e => ?_, fun y z j e e' => ?_, fun j hj => ?_, h.clean⟩
  · rcases get y j e with ⟨-, a⟩ | ⟨a, b⟩
    · rw [a]; exact List.mem_cons_self
    · exact List.mem_cons_of_mem _ (h.live y j a b)
  · rcases get y j e with ⟨a, a2⟩ | ⟨a, b⟩ <;> rcases get z j e' with ⟨a', a2'⟩ | ⟨a', b'⟩
    · rw [a, a']
    · rw [a2] at b'; exact absurd (h.live z k a' b') hk
    · rw [a2'] at b; exact absurd (h.live y k a b) hk
    · exact h.one y z j a a' b b'
  · rcases List.mem_cons.1 hj with q | q
    · exact ⟨x, by unfold World.put; simp only []; rw [if_pos trivial, q]⟩
    · obtain ⟨y, a, b⟩ := h.owner j q
      exact ⟨y, by unfold World.put; simp only []; rw [if_neg a]; exact b⟩

/-- Giving `x` what `y` has, and `y` nothing. -/
theorem Apart.take {w : World} {x y : Nat} (h : Apart w x) (hxy : y ≠ x) (hy : w.objs y ≠ none) : Owned ((w.put x (some ((w.objs y).getD none))).put y (some none)) := by
  have get : ∀ z j, ((w.put x (some ((w.objs y).getD none))).put y (some none)).objs z = some (some j) → (z = x ∧ w.objs y = some (some j)) ∨ (z ≠ x ∧ z ≠ y ∧ w.objs z = some (some j)) := by
    intro z j e
    unfold World.put at e
    simp only [] at e
    by_cases hz : z = y
    · rw [if_pos hz] at e; cases e
    · rw [if_neg hz] at e
      by_cases hzx : z = x
      · rw [if_pos hzx] at e
        refine Or.inl ⟨hzx, ?_⟩
        cases hq : w.objs y with
        | none => exact absurd hq hy
        | some o => rw [hq] at e; exact e
      · rw [if_neg hzx] at e; exact Or.inr ⟨hzx, hz, e⟩
  refine ⟨h.nodup, fun z j e => ?_, fun a b j e e' => ?_, fun j hj => ?_, h.clean⟩
  · rcases get z j e with ⟨-, q⟩ | ⟨q, -, q2⟩
    · exact h.live y j hxy q
    · exact h.live z j q q2
  · rcases get a j e with ⟨q, q2⟩ | ⟨q, q1, q2⟩ <;> rcases get b j e' with ⟨p, p2⟩ | ⟨p, p1, p2⟩
    · rw [q, p]
    · exact absurd (h.one b y j p hxy p2 q2) p1
    · exact absurd (h.one a y j q hxy q2 p2) q1
    · exact h.one a b j q p q2 p2
  · obtain ⟨z, a, b⟩ := h.owner j hj
    by_cases hz : z = y
    · refine ⟨x, ?_⟩
      unfold World.put
      simp only []
      rw [if_neg (Ne.symm hxy), if_pos trivial, ← hz, b]
      rfl
    · refine ⟨z, ?_⟩
      unfold World.put
      simp only []
      rw [if_neg hz, if_neg a]
      exact b

theorem put_self (w : World) (x : Nat) : w.put x (w.objs x) = w := by
  unfold World.put
  cases w
  congr 1
  funext y
  simp only []
  split
  · next e => rw [e]
  · rfl

theorem step_owned {w : World} (h : Owned w) {op : Op} (hl : op.Legal w) (hs : op.Spared w) : Owned (w.step op) := by
  cases op with
  | make x k => exact (h.apart (Or.inl hl.1)).put_new hl.2
  | makeNone x => exact (h.apart (Or.inl hl)).put_none (Or.inr rfl)
  | copy x y dup =>
    obtain ⟨h1, h2, h3⟩ := hl
    have ha := h.apart (Or.inl h1)
    show Owned (match w.duplicate y dup with | some (h, w) => w.put x (some h) | none => w)
    unfold World.duplicate
    cases hy : w.objs y with
    | none => exact ha.put_none (Or.inr rfl)
    | some o =>
      cases o with
      | none => exact ha.put_none (Or.inr rfl)
      | some k =>
        cases hd : dup with
        | none => exact h
        | some j => exact ha.put_new (h3 j hd)
  | assign x y err dup =>
    obtain ⟨h1, h2, h3⟩ := hl
    show Owned (if x = y then w else if err = true then w.drop x else match (w.drop x).duplicate y dup with | some (h, w) => w.put x (some h) | none => w.drop x)
    by_cases hxy : x = y
    · rw [if_pos hxy]; exact h
    · rw [if_neg hxy]
      obtain ⟨ha, ho, hsub⟩ := h.drop x
      have keep : (w.objs x).getD none = none → w.drop x = w := by
        intro q
        unfold World.drop
        cases hx : w.objs x with
        | none => rfl
        | some o =>
          rw [hx] at q
          cases o with
          | none => rfl
          | some k => cases q
      cases he : err with
      | true =>
        rw [if_pos rfl]
        rcases hs with hs | hs | hs
        · exact absurd hs hxy
        · rw [keep hs]; exact h
        · rw [he] at hs; cases hs.1
      | false =>
        rw [if_neg (by decide)]
        unfold World.duplicate
        rw [ho]
        cases hy : w.objs y with
        | none => exact ha.put_none (Or.inr rfl)
        | some o =>
          cases o with
          | none => exact ha.put_none (Or.inr rfl)
          | some k =>
            cases hd : dup with
            | none =>
              rcases hs with hs | hs | hs
              · exact absurd hs hxy
              · show Owned (w.drop x); rw [keep hs]; exact h
              · rcases hs.2 with q | q
                · rw [hy] at q; cases q
                · exact absurd hd q
            | some j =>
              have hz := ha.put_new (fun q => h3 j hd (hsub j q))
              rw [ho] at hz
              exact hz
  | move x y =>
    have hne : y ≠ x := fun e => hl.2 (by rw [e]; exact hl.1)
    exact (h.apart (Or.inl hl.1)).take hne hl.2
  | moveAssign x y =>
    show Owned (if x = y then w else ((w.drop x).put x (some (((w.drop x).objs y).getD none))).put y (some none))
    by_cases hxy : x = y
    · rw [if_pos hxy]; exact h
    · rw [if_neg hxy]
      obtain ⟨ha, ho, hsub⟩ := h.drop x
      exact ha.take (Ne.symm hxy) (by rw [ho]; exact hl.2)
  | close x err =>
    have he : err = false := hs
    show Owned (if err = true ∧ _ then _ else (w.drop x).put x (some none))
    rw [he, if_neg (fun q => nomatch q.1)]
    exact (h.drop x).1.put_none (Or.inr rfl)
  | destroy x => exact (h.drop x).1.put_none (Or.inl rfl)

theorem start_owned : Owned World.start := ⟨List.nodup_nil, (fun _ _ e => nomatch e), (fun _ _ _ e => nomatch e), (fun _ h => nomatch h), rfl⟩

/-! ### Properties -/

/-- In every history, every open handle has exactly one owner, every object's handle is open, and no handle is closed twice. -/
theorem handles_owned_partial : ∀ (ops : List Op) (w : World), Owned w → Legal w ops → Owned (w.run ops) := by
  intro ops
  induction ops with
  | nil => intro w h _; exact h
  | cons op ops ih => intro w h hl; exact ih _ (step_owned h hl.1 hl.2.1) hl.2.2

/-- When all objects are gone, no handle is open. -/
theorem handles_no_leak_partial {ops : List Op} (hl : Legal World.start ops) (hd : ∀ x, (World.start.run ops).objs x = none) : (World.start.run ops).opened = [] ∧ (World.start.run ops).stray = false := by
  have h := handles_owned_partial ops _ start_owned hl
  refine ⟨?_, h.clean⟩
  cases hq : (World.start.run ops).opened with
  | nil => rfl
  | cons k l =>
    obtain ⟨x, hx⟩ := h.owner k (by rw [hq]; exact List.mem_cons_self)
    rw [hd x] at hx; cases hx

/-- Objects other than the two of an operation keep their handles, and those stay open. -/
theorem handles_apart {w : World} (h : Owned w) {op : Op} (hl : op.Legal w) {z k : Nat} (hz : w.objs z = some (some k))
    (hn : match op with | .make x _ | .makeNone x | .close x _ | .destroy x => z ≠ x | .copy x _ _ | .assign x _ _ _ => z ≠ x | .move x y | .moveAssign x y => z ≠ x ∧ z ≠ y) :
    (w.step op).objs z = some (some k) ∧ k ∈ (w.step op).opened := by
  have put : ∀ (w : World) (x : Nat) v, z ≠ x → (w.put x v).objs z = w.objs z := fun w x v hx => by unfold World.put; simp only []; rw [if_neg hx]
  have drop : ∀ x, z ≠ x → (w.drop x).objs z = some (some k) ∧ k ∈ (w.drop x).opened := fun x hx => by
    obtain ⟨ha, ho, -⟩ := h.drop x
    have := ho ▸ hz
    exact ⟨this, ha.live z k hx this⟩
  have dupd : ∀ (w' : World) x y dup, z ≠ x → w'.objs z = some (some k) → k ∈ w'.opened →
      (match w'.duplicate y dup with | some (h, w) => w.put x (some h) | none => w').objs z = some (some k) ∧ k ∈ (match w'.duplicate y dup with | some (h, w) => w.put x (some h) | none => w').opened := by
    intro w' x y dup hx h1 h2
    unfold World.duplicate
    cases w'.objs y with
    | none => exact ⟨by rw [put _ _ _ hx]; exact h1, h2⟩
    | some o =>
      cases o with
      | none => exact ⟨by rw [put _ _ _ hx]; exact h1, h2⟩
      | some j =>
        cases dup with
        | none => exact ⟨h1, h2⟩
        | some i => exact ⟨by rw [put _ _ _ hx]; exact h1, List.mem_cons_of_mem _ h2⟩
  cases op with
  | make x j => exact ⟨by show (World.put _ x _).objs z = _; rw [put _ _ _ hn]; exact hz, List.mem_cons_of_mem _ (h.live z k hz)⟩
  | makeNone x => exact ⟨by show (World.put _ x _).objs z = _; rw [put _ _ _ hn]; exact hz, h.live z k hz⟩
  | copy x y dup => exact dupd w x y dup hn hz (h.live z k hz)
  | assign x y err dup =>
    show (if x = y then w else if err = true then w.drop x else match (w.drop x).duplicate y dup with | some (h, w) => w.put x (some h) | none => w.drop x).objs z = _ ∧ k ∈ (if x = y then w else if err = true then w.drop x else match (w.drop x).duplicate y dup with | some (h, w) => w.put x (some h) | none => w.drop x).opened
    split
    · exact ⟨hz, h.live z k hz⟩
    · split
      · exact drop x hn
      · obtain ⟨a, b⟩ := drop x hn
        exact dupd _ x y dup hn a b
  | move x y =>
    refine ⟨?_, h.live z k hz⟩
    show (World.put (World.put _ x _) y _).objs z = _
    rw [put _ _ _ hn.2, put _ _ _ hn.1]; exact hz
  | moveAssign x y =>
    show (if x = y then w else ((w.drop x).put x (some (((w.drop x).objs y).getD none))).put y (some none)).objs z = _ ∧ k ∈ (if x = y then w else ((w.drop x).put x (some (((w.drop x).objs y).getD none))).put y (some none)).opened
    split
    · exact ⟨hz, h.live z k hz⟩
    · obtain ⟨a, b⟩ := drop x hn.1
      exact ⟨by rw [put _ _ _ hn.2, put _ _ _ hn.1]; exact a, b⟩
  | close x err =>
    obtain ⟨a, b⟩ := drop x hn
    show (if err = true ∧ (w.objs x).getD none ≠ none then w.drop x else (w.drop x).put x (some none)).objs z = _ ∧ k ∈ (if err = true ∧ (w.objs x).getD none ≠ none then w.drop x else (w.drop x).put x (some none)).opened
    split
    · exact ⟨a, b⟩
    · exact ⟨by rw [put _ _ _ hn]; exact a, b⟩
  | destroy x =>
    obtain ⟨a, b⟩ := drop x hn
    exact ⟨by show (World.put _ x _).objs z = _; rw [put _ _ _ hn]; exact a, b⟩

/-- After a move the object has what the other had, and that has none; after a copy it has a handle of its own. -/
theorem handles_moved {w : World} {x y k : Nat} (hxy : x ≠ y) (hy : w.objs y = some (some k)) :
    (w.step (.moveAssign x y)).objs x = some (some k) ∧ (w.step (.moveAssign x y)).objs y = some none ∧ (w.step (.move x y)).objs x = some (some k) ∧ (w.step (.move x y)).objs y = some none ∧
    ∀ j, (w.step (.copy x y (some j))).objs x = some (some j) ∧ (w.step (.assign x y false (some j))).objs x = some (some j) := by
  have hd : ∀ x, (w.drop x).objs = w.objs := fun x => by unfold World.drop World.closeHandle; split <;> (try split) <;> rfl
  refine ⟨?_, ?_, ?_, ?_, fun j => ⟨?_, ?_⟩⟩
  · show (if x = y then w else ((w.drop x).put x (some (((w.drop x).objs y).getD none))).put y (some none)).objs x = _
    rw [if_neg hxy, hd, hy]
    simp [World.put, hxy]
  · show (if x = y then w else ((w.drop x).put x (some (((w.drop x).objs y).getD none))).put y (some none)).objs y = _
    rw [if_neg hxy, hd, hy]
    simp [World.put]
  · show ((w.put x (some ((w.objs y).getD none))).put y (some none)).objs x = _
    rw [hy]; simp [World.put, hxy]
  · show ((w.put x (some ((w.objs y).getD none))).put y (some none)).objs y = _
    simp [World.put]
  · show (match w.duplicate y (some j) with | some (h, w) => w.put x (some h) | none => w).objs x = _
    unfold World.duplicate; rw [hy]; simp [World.put]
  · show (if x = y then w else if false = true then w.drop x else match (w.drop x).duplicate y (some j) with | some (h, w) => w.put x (some h) | none => w.drop x).objs x = _
    rw [if_neg hxy, if_neg (by decide)]
    unfold World.duplicate; rw [hd, hy]; simp [World.put]

/-- A history of every kind of operation, with an error of `dup`. -/
example : Legal World.start [.make 1 5, .copy 2 1 (some 6), .copy 3 1 none, .makeNone 3, .assign 3 2 false (some 7), .moveAssign 1 3, .assign 3 1 false none, .assign 2 2 true none, .move 4 1, .close 2 false, .destroy 1, .destroy 2, .destroy 3, .destroy 4] := by
  simp only [Legal]
  refine ⟨?_, ?_, ?_, ?_, ?_, ?_, ?_, ?_, ?_, ?_, ?_, ?_, ?_, ?_, ?_, ?_, ?_, ?_, ?_, ?_, ?_, ?_, ?_, ?_, ?_, ?_, ?_, ?_, trivial⟩ <;>
    simp [Op.Legal, Op.Spared, World.start, World.step, World.put, World.drop, World.closeHandle, World.duplicate]

/-! ### Defects -/

/-- (defect) If the system cannot duplicate the handle, an assignment leaves the object with the handle it has closed: it is closed again when the
object is destroyed, and if the system has given that number to another object by then, that one's handle is closed. -/
theorem handle_assign_fails : (World.start.run [.make 1 5, .make 2 6, .assign 1 2 false none, .destroy 1]).stray = true ∧
    (World.start.run [.make 1 5, .make 2 6, .assign 1 2 false none, .make 3 5, .destroy 1]).objs 3 = some (some 5) ∧
    5 ∉ (World.start.run [.make 1 5, .make 2 6, .assign 1 2 false none, .make 3 5, .destroy 1]).opened := by
  refine ⟨rfl, rfl, by decide⟩

/-- (defect) The same after an error of closing. -/
theorem handle_close_fails : (World.start.run [.make 1 5, .close 1 true, .destroy 1]).stray = true := rfl

end Verif.Sys
