import Verif.Ring.Props
/-!
What each event of the ring model changes (helper lemmas for `async_reader` and `async_writer`).
-/
namespace Verif.Ring
variable {α : Type}

theorem step_back {N : Nat} {s s' : Sys α} {b : Bool} {r : Res} (h : s.step N (.back b) = some (s', .res r)) :
    r = s.ring.back N b ∧ s'.ring = s.ring ∧ s'.sent = s.sent ∧ s'.got = s.got ∧ s'.cwin = s.cwin ∧
    (∀ off len, r = .window off len → s'.pwin = some (off, len)) := by
  simp only [Sys.step] at h
  split at h
  · rename_i off len e
    simp only [Option.some.injEq, Prod.mk.injEq, Out.res.injEq] at h
    obtain ⟨rfl, rfl⟩ := h
    refine ⟨rfl, rfl, rfl, rfl, rfl, ?_⟩
    intro o l q; rw [e] at q; cases q; rfl
  · rename_i e
    simp only [Option.some.injEq, Prod.mk.injEq, Out.res.injEq] at h
    obtain ⟨rfl, rfl⟩ := h
    exact ⟨rfl, rfl, rfl, rfl, rfl, fun o l q => absurd q (e o l)⟩

theorem step_store {N : Nat} {s s' : Sys α} {i : Nat} {x : α} {o : Out α} (h : s.step N (.store i x) = some (s', o)) :
    s'.ring.head = s.ring.head ∧ s'.ring.size = s.ring.size ∧ s'.ring.quit = s.ring.quit ∧ s'.sent = s.sent ∧ s'.got = s.got ∧
    s'.cwin = s.cwin ∧ s'.pwin = s.pwin ∧ s'.staged = fun j => if j = i then some x else s.staged j := by
  simp only [Sys.step] at h
  split at h
  · split at h
    · simp only [Option.some.injEq, Prod.mk.injEq] at h
      obtain ⟨rfl, rfl⟩ := h
      rename_i e _
      exact ⟨rfl, rfl, rfl, rfl, rfl, rfl, e ▸ rfl, rfl⟩
    · cases h
  · cases h

theorem step_push {N : Nat} {s s' : Sys α} {n : Nat} {o : Out α} (h : s.step N (.push n) = some (s', o)) :
    (∃ xs, collect s.staged n = some xs ∧ s'.sent = s.sent ++ xs) ∧ s'.got = s.got ∧ s'.cwin = s.cwin ∧
    s'.ring.quit = s.ring.quit ∧ s'.pwin = none := by
  simp only [Sys.step] at h
  split at h
  · split at h
    · split at h
      · rename_i xs e
        simp only [Option.some.injEq, Prod.mk.injEq] at h
        obtain ⟨rfl, rfl⟩ := h
        exact ⟨⟨xs, e, rfl⟩, rfl, rfl, rfl, rfl⟩
      · cases h
    · cases h
  · cases h

theorem step_front {N : Nat} {s s' : Sys α} {b : Bool} {r : Res} (h : s.step N (.front b) = some (s', .res r)) :
    r = s.ring.front N b ∧ s'.ring = s.ring ∧ s'.sent = s.sent ∧ s'.got = s.got ∧ s'.pwin = s.pwin ∧ s'.staged = s.staged ∧
    (∀ off len, r = .window off len → s'.cwin = some (off, len)) := by
  simp only [Sys.step] at h
  split at h
  · rename_i off len e
    simp only [Option.some.injEq, Prod.mk.injEq, Out.res.injEq] at h
    obtain ⟨rfl, rfl⟩ := h
    refine ⟨rfl, rfl, rfl, rfl, rfl, rfl, ?_⟩
    intro o l q; rw [e] at q; cases q; rfl
  · rename_i e
    simp only [Option.some.injEq, Prod.mk.injEq, Out.res.injEq] at h
    obtain ⟨rfl, rfl⟩ := h
    exact ⟨rfl, rfl, rfl, rfl, rfl, rfl, fun o l q => absurd q (e o l)⟩

theorem step_load {N : Nat} {s s' : Sys α} {i : Nat} {o : Out α} (h : s.step N (.load i) = some (s', o)) : s' = s := by
  simp only [Sys.step] at h
  split at h
  · split at h
    · simp only [Option.some.injEq, Prod.mk.injEq] at h
      exact h.1.symm
    · cases h
  · cases h

theorem step_pop {N : Nat} {s s' : Sys α} {n : Nat} {o : Out α} (h : s.step N (.pop n) = some (s', o)) :
    s'.sent = s.sent ∧ s'.got.length = s.got.length + n ∧ s'.pwin = s.pwin ∧ s'.staged = s.staged ∧ s'.ring.quit = s.ring.quit ∧
    s'.cwin = none := by
  simp only [Sys.step] at h
  split at h
  · split at h
    · simp only [Option.some.injEq, Prod.mk.injEq] at h
      obtain ⟨rfl, rfl⟩ := h
      exact ⟨rfl, by simp, rfl, rfl, rfl, rfl⟩
    · cases h
  · cases h

theorem step_quit {N : Nat} {s s' : Sys α} {o : Out α} (h : s.step N .quit = some (s', o)) :
    s'.sent = s.sent ∧ s'.got = s.got ∧ s'.pwin = s.pwin ∧ s'.staged = s.staged ∧ s'.cwin = s.cwin ∧ s'.ring.quit = true ∧
    s'.ring.size = s.ring.size := by
  simp only [Sys.step, Option.some.injEq, Prod.mk.injEq] at h
  obtain ⟨rfl, rfl⟩ := h
  exact ⟨rfl, rfl, rfl, rfl, rfl, rfl, rfl⟩

/-- Staged offsets are filled one after the other. -/
theorem collect_step {f : Nat → Option α} {n : Nat} {xs : List α} (h : collect f n = some xs) (x : α) :
    collect (fun j => if j = n then some x else f j) (n + 1) = some (xs ++ [x]) := by
  have key : ∀ m ≤ n, collect (fun j => if j = n then some x else f j) m = collect f m := by
    intro m
    induction m with
    | zero => intro _; rfl
    | succ m ih =>
      intro hm
      simp only [collect]
      rw [ih (by omega)]
      simp only [show m ≠ n by omega, if_false]
  simp only [collect, key n (Nat.le_refl _), h, if_true]
  rfl

/-- `front()` gives null only after quit, with nothing pending. -/
theorem front_null {N : Nat} {r : Ring α} {b : Bool} (h : r.front N b = .null) : r.quit = true ∧ r.size = 0 := by
  unfold Ring.front at h
  by_cases h0 : r.size = 0
  · cases b <;> cases hq : r.quit <;> simp [Ring.empty, h0, hq] at h ⊢
  · cases b <;> cases hq : r.quit <;> simp [Ring.empty, h0, hq] at h

/-- `back()` gives null only after quit. -/
theorem back_null {N : Nat} {r : Ring α} {b : Bool} (h : r.back N b = .null) : r.quit = true := by
  unfold Ring.back at h
  cases b <;> cases hq : r.quit <;> by_cases h0 : N - r.size = 0 <;> simp [Ring.space, h0, hq] at h ⊢

/-- The popped cells, once read, are the oldest pending elements. -/
theorem got_drop {N : Nat} (hN : 0 < N) {s : Sys α} (h : Reach N s) (n : Nat) (hn : s.got.length + n ≤ s.sent.length) {s' : Sys α} {o : Out α}
    (hp : s.step N (.pop n) = some (s', o)) :
    s'.got = s.got ++ (List.range n).map fun i => s.sent[s.got.length + i]? := by
  have h1 := (ring_fifo hN h).1
  have h2 := (ring_fifo hN (Reach.step h hp)).1
  obtain ⟨e1, e2, _⟩ := step_pop hp
  rw [e1, e2] at h2
  rw [h2]
  conv => rhs; rw [h1]
  apply List.ext_getElem?
  intro i
  rw [List.getElem?_map, List.getElem?_take, List.getElem?_append]
  simp only [List.length_map, List.length_take, Nat.min_eq_left (by omega : s.got.length ≤ s.sent.length), List.getElem?_map, List.getElem?_take]
  by_cases c : i < s.got.length
  · simp [c, show i < s.got.length + n by omega]
  · simp only [c, if_false]
    by_cases c2 : i < s.got.length + n
    · rw [if_pos c2, List.getElem?_range (by omega), Option.map_some, show s.got.length + (i - s.got.length) = i by omega,
        List.getElem?_eq_getElem (show i < s.sent.length by omega), Option.map_some]
    · rw [if_neg c2]
      simp [List.getElem?_eq_none (show (List.range n).length ≤ i - s.got.length by simp; omega)]

end Verif.Ring
