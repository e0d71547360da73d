import Verif.Stream.Basic
/-
`diag_file` (include/stdex/stream.hpp 4184-4347): does everything on several files and compares what they do.
-/
namespace Verif.Stream
variable {β σ : Type}

/-! ### Model -/

/-- `basic_file`, as far as `diag_file` uses it. Files of different classes: `σ` is their sum. -/
structure Fil (β σ : Type) where
  read : σ → Nat → List β × σ
  write : σ → List β → Nat × σ
  flush : σ → σ
  close : σ → σ
  seek : σ → Int → Nat → Nat × σ
  tell : σ → Nat
  lock : σ → Nat → Nat → σ
  unlock : σ → Nat → Nat → σ
  size : σ → Nat
  truncate : σ → σ
  state : σ → St

/-- The calls. -/
inductive Call (β : Type) where
  | read (n : Nat) | write (d : List β) | flush | close | seek (o : Int) (how : Nat) | tell | lock (o n : Nat) | unlock (o n : Nat) | size | truncate

/-- What a caller sees: the value returned, and the state afterwards. -/
inductive Seen (β : Type) where
  | data (d : List β) (st : St) | count (n : Nat) (st : St) | done (st : St) | value (n : Nat)
deriving DecidableEq

/-- How a call of `diag_file` ends: it throws, is undefined, or returns. -/
inductive Diag (α : Type) where
  | throws | undefined | returns (a : α)

/-- `m_files` and `m_state`. -/
structure DF (σ : Type) where
  files : List σ
  st : St

/-- The loops over the other files: `op` is the call, `same` compares what it returned, `st` is the state to compare with (not for `tell` and
`size`). -/
def others {ρ : Type} [DecidableEq ρ] (F : Fil β σ) (op : σ → ρ × σ) (r : ρ) (st : Option St) : List σ → Option (List σ)
  | [] => some []
  | f :: fs =>
    let q := op f
    if q.1 ≠ r then none
    else if st ≠ none ∧ some (F.state q.2) ≠ st then none
    else (others F op r st fs).map (q.2 :: ·)

/-- A call on all files. -/
def mirror {ρ : Type} [DecidableEq ρ] (F : Fil β σ) (op : σ → ρ × σ) (see : ρ → St → Seen β) (d : DF σ) : Diag (Seen β × DF σ) :=
  match d.files with
  | [] => .undefined
  | f :: fs =>
    let q := op f
    match others F op q.1 (some (F.state q.2)) fs with
    | none => .throws
    | some gs => .returns (see q.1 (F.state q.2), ⟨q.2 :: gs, F.state q.2⟩)

/-- `tell` and `size`, 4281-4291 and 4319-4329. -/
def mirrorGet (F : Fil β σ) (get : σ → Nat) (max : Nat) (d : DF σ) : Diag (Seen β × DF σ) :=
  match d.files with
  | [] => .returns (.value max, d)
  | f :: fs =>
    match others F (fun f => (get f, f)) (get f) none fs with
    | none => .throws
    | some _ => .returns (.value (get f), d)

/-- The calls, 4191-4342. A comparison of data is `result` and `memcmp`, 4205-4206. -/
def diagCall [DecidableEq β] (F : Fil β σ) (d : DF σ) : Call β → Diag (Seen β × DF σ)
  | .read n => if d.files = [] then .returns (.data [] .fail, { d with st := .fail }) else mirror F (F.read · n) .data d
  | .write x => if d.files = [] then .returns (.count 0 .fail, { d with st := .fail }) else mirror F (F.write · x) .count d
  | .flush => if d.files = [] then .returns (.done .ok, { d with st := .ok }) else mirror F (fun f => ((), F.flush f)) (fun _ => .done) d
  | .close => if d.files = [] then .returns (.done .ok, { d with st := .ok }) else mirror F (fun f => ((), F.close f)) (fun _ => .done) d
  | .seek o how => if d.files = [] then .returns (.count (2 ^ 64 - 1) .fail, { d with st := .fail }) else mirror F (F.seek · o how) .count d
  | .tell => mirrorGet F F.tell (2 ^ 64 - 1) d
  | .lock o n => mirror F (fun f => ((), F.lock f o n)) (fun _ => .done) d
  | .unlock o n => mirror F (fun f => ((), F.unlock f o n)) (fun _ => .done) d
  | .size => mirrorGet F F.size (2 ^ 64 - 1) d
  | .truncate => mirror F (fun f => ((), F.truncate f)) (fun _ => .done) d

/-- A history of calls. -/
def diagRun [DecidableEq β] (F : Fil β σ) (d : DF σ) : List (Call β) → Diag (List (Seen β) × DF σ)
  | [] => .returns ([], d)
  | c :: cs =>
    match diagCall F d c with
    | .throws => .throws
    | .undefined => .undefined
    | .returns (x, d) =>
      match diagRun F d cs with
      | .throws => .throws
      | .undefined => .undefined
      | .returns (xs, d) => .returns (x :: xs, d)

/-! ### Specification -/

/-- A call on a single file. -/
def Fil.call (F : Fil β σ) (f : σ) : Call β → Seen β × σ
  | .read n => (.data (F.read f n).1 (F.state (F.read f n).2), (F.read f n).2)
  | .write x => (.count (F.write f x).1 (F.state (F.write f x).2), (F.write f x).2)
  | .flush => (.done (F.state (F.flush f)), F.flush f)
  | .close => (.done (F.state (F.close f)), F.close f)
  | .seek o how => (.count (F.seek f o how).1 (F.state (F.seek f o how).2), (F.seek f o how).2)
  | .tell => (.value (F.tell f), f)
  | .lock o n => (.done (F.state (F.lock f o n)), F.lock f o n)
  | .unlock o n => (.done (F.state (F.unlock f o n)), F.unlock f o n)
  | .size => (.value (F.size f), f)
  | .truncate => (.done (F.state (F.truncate f)), F.truncate f)

/-- A history of calls on a single file. -/
def Fil.alone (F : Fil β σ) (f : σ) : List (Call β) → List (Seen β) × σ
  | [] => ([], f)
  | c :: cs => let q := F.call f c; let r := F.alone q.2 cs; (q.1 :: r.1, r.2)

/-! ### Proofs -/

theorem others_spec {ρ : Type} [DecidableEq ρ] (F : Fil β σ) (op : σ → ρ × σ) (r : ρ) (st : Option St) : ∀ (fs : List σ),
    ((∀ f ∈ fs, (op f).1 = r ∧ (∀ x, st = some x → F.state (op f).2 = x)) → others F op r st fs = some (fs.map fun f => (op f).2)) ∧
    (¬ (∀ f ∈ fs, (op f).1 = r ∧ (∀ x, st = some x → F.state (op f).2 = x)) → others F op r st fs = none) := by
  intro fs
  induction fs with
  | nil => exact ⟨fun _ => rfl, fun h => absurd (fun f hf => nomatch hf) h⟩
  | cons f fs ih =>
    constructor
    · intro h
      obtain ⟨h1, h2⟩ := h f List.mem_cons_self
      rw [others, if_neg (fun c => c h1), if_neg, ih.1 (fun g hg => h g (List.mem_cons_of_mem _ hg))]
      · rfl
      · rintro ⟨c1, c2⟩
        cases st with
        | none => exact c1 rfl
        | some x => exact c2 (by rw [h2 x rfl])
    · intro h
      rw [others]
      by_cases h1 : (op f).1 = r
      · rw [if_neg (fun c => c h1)]
        by_cases h2 : ∀ x, st = some x → F.state (op f).2 = x
        · rw [ih.2, Option.map_none]
          · split <;> rfl
          · intro hall
            refine h (fun g hg => ?_)
            rcases List.mem_cons.1 hg with rfl | hg
            · exact ⟨h1, h2⟩
            · exact hall g hg
        · rw [if_pos]
          cases st with
          | none => exact absurd (fun x hx => nomatch hx) h2
          | some x => exact ⟨by simp, fun c => h2 (fun y hy => by cases hy; exact Option.some.inj c)⟩
      · rw [if_pos h1]

theorem mirror_spec {ρ : Type} [DecidableEq ρ] (F : Fil β σ) (op : σ → ρ × σ) (see : ρ → St → Seen β) (hinj : ∀ a b s t, see a s = see b t ↔ a = b ∧ s = t) (f : σ) (fs : List σ) (st : St) :
    ((∀ g ∈ fs, see (op g).1 (F.state (op g).2) = see (op f).1 (F.state (op f).2)) →
      mirror F op see ⟨f :: fs, st⟩ = .returns (see (op f).1 (F.state (op f).2), ⟨(f :: fs).map fun g => (op g).2, F.state (op f).2⟩)) ∧
    (¬ (∀ g ∈ fs, see (op g).1 (F.state (op g).2) = see (op f).1 (F.state (op f).2)) → mirror F op see ⟨f :: fs, st⟩ = .throws) := by
  obtain ⟨h1, h2⟩ := others_spec F op (op f).1 (some (F.state (op f).2)) fs
  constructor
  · intro h
    unfold mirror
    simp only
    rw [h1 (fun g hg => by
      have := (hinj _ _ _ _).1 (h g hg)
      exact ⟨this.1, fun x hx => by cases hx; exact this.2⟩)]
    rfl
  · intro h
    unfold mirror
    simp only
    rw [h2 (fun c => h (fun g hg => (hinj _ _ _ _).2 ⟨(c g hg).1, (c g hg).2 _ rfl⟩))]

theorem mirrorGet_spec (F : Fil β σ) (get : σ → Nat) (max : Nat) (f : σ) (fs : List σ) (st : St) :
    ((∀ g ∈ fs, get g = get f) → mirrorGet F get max ⟨f :: fs, st⟩ = .returns (.value (get f), ⟨f :: fs, st⟩)) ∧
    (¬ (∀ g ∈ fs, get g = get f) → mirrorGet F get max ⟨f :: fs, st⟩ = .throws) := by
  obtain ⟨h1, h2⟩ := others_spec F (fun f => (get f, f)) (get f) none fs
  constructor
  · intro h
    unfold mirrorGet
    simp only
    rw [h1 (fun g hg => ⟨h g hg, fun x hx => nomatch hx⟩)]
  · intro h
    unfold mirrorGet
    simp only
    rw [h2 (fun c => h (fun g hg => (c g hg).1))]

/-- **C128** One call: if all files do the same, `diag_file` does that; otherwise it throws. -/
theorem diag_call [DecidableEq β] (F : Fil β σ) (f : σ) (fs : List σ) (st : St) (c : Call β) :
    ((∀ g ∈ fs, (F.call g c).1 = (F.call f c).1) → ∃ st', diagCall F ⟨f :: fs, st⟩ c = .returns ((F.call f c).1, ⟨(f :: fs).map fun g => (F.call g c).2, st'⟩)) ∧
    (¬ (∀ g ∈ fs, (F.call g c).1 = (F.call f c).1) → diagCall F ⟨f :: fs, st⟩ c = .throws) := by
  have hdone : ∀ (a b : Unit) (s t : St), (Seen.done s : Seen β) = .done t ↔ a = b ∧ s = t := by intro a b s t; simp
  cases c with
  | read n =>
    have := mirror_spec F (F.read · n) .data (fun a b s t => by simp) f fs st
    simp only [diagCall, Fil.call, reduceCtorEq, if_false]
    exact ⟨fun h => ⟨_, this.1 h⟩, this.2⟩
  | write x =>
    have := mirror_spec F (F.write · x) .count (fun a b s t => by simp) f fs st
    simp only [diagCall, Fil.call, reduceCtorEq, if_false]
    exact ⟨fun h => ⟨_, this.1 h⟩, this.2⟩
  | flush =>
    have := mirror_spec F (fun f => ((), F.flush f)) (fun _ => .done) hdone f fs st
    simp only [diagCall, Fil.call, reduceCtorEq, if_false]
    exact ⟨fun h => ⟨_, this.1 h⟩, this.2⟩
  | close =>
    have := mirror_spec F (fun f => ((), F.close f)) (fun _ => .done) hdone f fs st
    simp only [diagCall, Fil.call, reduceCtorEq, if_false]
    exact ⟨fun h => ⟨_, this.1 h⟩, this.2⟩
  | seek o how =>
    have := mirror_spec F (F.seek · o how) .count (fun a b s t => by simp) f fs st
    simp only [diagCall, Fil.call, reduceCtorEq, if_false]
    exact ⟨fun h => ⟨_, this.1 h⟩, this.2⟩
  | tell =>
    have := mirrorGet_spec F F.tell (2 ^ 64 - 1) f fs st
    simp only [diagCall, Fil.call, Seen.value.injEq, List.map_id'] at *
    exact ⟨fun h => ⟨_, this.1 h⟩, this.2⟩
  | lock o n =>
    have := mirror_spec F (fun f => ((), F.lock f o n)) (fun _ => .done) hdone f fs st
    exact ⟨fun h => ⟨_, this.1 h⟩, this.2⟩
  | unlock o n =>
    have := mirror_spec F (fun f => ((), F.unlock f o n)) (fun _ => .done) hdone f fs st
    exact ⟨fun h => ⟨_, this.1 h⟩, this.2⟩
  | size =>
    have := mirrorGet_spec F F.size (2 ^ 64 - 1) f fs st
    simp only [diagCall, Fil.call, Seen.value.injEq, List.map_id'] at *
    exact ⟨fun h => ⟨_, this.1 h⟩, this.2⟩
  | truncate =>
    have := mirror_spec F (fun f => ((), F.truncate f)) (fun _ => .done) hdone f fs st
    exact ⟨fun h => ⟨_, this.1 h⟩, this.2⟩

/-- **C128** For every history: if each of the files, alone, would do the same, the caller of `diag_file` sees exactly that, and every file is as if
it was used alone; otherwise `diag_file` throws. -/
theorem diag_history [DecidableEq β] (F : Fil β σ) : ∀ (cs : List (Call β)) (f : σ) (fs : List σ) (st : St),
    ((∀ g ∈ fs, (F.alone g cs).1 = (F.alone f cs).1) → ∃ st', diagRun F ⟨f :: fs, st⟩ cs = .returns ((F.alone f cs).1, ⟨(f :: fs).map fun g => (F.alone g cs).2, st'⟩)) ∧
    (¬ (∀ g ∈ fs, (F.alone g cs).1 = (F.alone f cs).1) → diagRun F ⟨f :: fs, st⟩ cs = .throws) := by
  intro cs
  induction cs with
  | nil =>
    intro f fs st
    refine ⟨fun _ => ⟨st, ?_⟩, fun h => absurd (fun g _ => rfl) h⟩
    simp [diagRun, Fil.alone]
  | cons c cs ih =>
    intro f fs st
    obtain ⟨h1, h2⟩ := diag_call F f fs st c
    constructor
    · intro h
      have hc : ∀ g ∈ fs, (F.call g c).1 = (F.call f c).1 := fun g hg => (List.cons.inj (h g hg)).1
      obtain ⟨st', e⟩ := h1 hc
      rw [diagRun, e]
      simp only
      rw [List.map_cons]
      obtain ⟨st2, e2⟩ := (ih (F.call f c).2 (fs.map fun g => (F.call g c).2) st').1 (by
        intro g hg
        obtain ⟨g', hg', rfl⟩ := List.mem_map.1 hg
        exact (List.cons.inj (h g' hg')).2)
      rw [e2]
      refine ⟨st2, ?_⟩
      simp [Fil.alone]
    · intro h
      by_cases hc : ∀ g ∈ fs, (F.call g c).1 = (F.call f c).1
      · obtain ⟨st', e⟩ := h1 hc
        rw [diagRun, e]
        simp only
        rw [List.map_cons, (ih (F.call f c).2 (fs.map fun g => (F.call g c).2) st').2]
        intro hall
        refine h (fun g hg => ?_)
        show _ :: _ = _ :: _
        rw [hc g hg, hall _ (List.mem_map_of_mem hg)]
      · rw [diagRun, h2 hc]

/-- (defect) Without files `lock`, `unlock` and `truncate` set the state to failure and go on to use the first file, that does not exist. -/
theorem diag_empty [DecidableEq β] (F : Fil β σ) (st : St) (o n : Nat) :
    diagCall F ⟨[], st⟩ (.lock o n) = .undefined ∧ diagCall F ⟨[], st⟩ (.unlock o n) = .undefined ∧ diagCall F ⟨[], st⟩ .truncate = .undefined ∧
    diagCall F ⟨[], st⟩ (.read n) = .returns (.data [] .fail, ⟨[], .fail⟩) := ⟨rfl, rfl, rfl, rfl⟩

/-- A case: counters that return how often they were read, one of which stops at 2. -/
def demoFil : Fil Nat (Nat × Nat) :=
  ⟨fun f _ => ([min f.1 f.2], (f.1 + 1, f.2)), fun f _ => (0, f), id, id, fun f _ _ => (0, f), fun f => f.1, fun f _ _ => f, fun f _ _ => f, fun _ => 0, id, fun _ => .ok⟩

example : (∀ g ∈ [(0, 2)], (demoFil.alone g [.read 1, .read 1, .read 1]).1 = (demoFil.alone (0, 9) [.read 1, .read 1, .read 1]).1) ∧
    ¬ (∀ g ∈ [(0, 2)], (demoFil.alone g [.read 1, .read 1, .read 1, .read 1]).1 = (demoFil.alone (0, 9) [.read 1, .read 1, .read 1, .read 1]).1) := by decide

end Verif.Stream
