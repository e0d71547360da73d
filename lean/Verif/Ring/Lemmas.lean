import Verif.Ring.Model
/-! Helper lemmas for the ring model: the inductive invariant. -/
namespace Verif.Ring
variable {α : Type}

theorem mod_ne {N a b : Nat} (h1 : a < b) (h2 : b < a + N) : b % N ≠ a % N := by
  intro h
  have := Nat.sub_mod_eq_zero_of_mod_eq h
  rw [Nat.mod_eq_of_lt (by omega)] at this
  omega

theorem wrap_lt {N : Nat} (hN : 0 < N) (i : Nat) : wrap N i < N := Nat.mod_lt _ hN

theorem wrap_cases {N h s : Nat} (hh : h < N) (hs : s ≤ N) :
    (h + s < N ∧ wrap N (h + s) = h + s) ∨ (N ≤ h + s ∧ wrap N (h + s) = h + s - N) := by
  unfold wrap
  by_cases hlt : h + s < N
  · exact Or.inl ⟨hlt, Nat.mod_eq_of_lt hlt⟩
  · refine Or.inr ⟨by omega, ?_⟩
    rw [Nat.mod_eq_sub_mod (by omega), Nat.mod_eq_of_lt (by omega)]

theorem collect_spec (f : Nat → Option α) :
    ∀ n xs, collect f n = some xs → xs.length = n ∧ ∀ i (h : i < xs.length), f i = some xs[i] := by
  intro n
  induction n with
  | zero => intro xs h; simp [collect] at h; subst h; simp
  | succ n ih =>
    intro xs h
    simp only [collect] at h
    cases hc : collect f n with
    | none => simp [hc] at h
    | some l =>
      cases hf : f n with
      | none => simp [hc, hf] at h
      | some x =>
        simp [hc, hf] at h
        subst h
        obtain ⟨hl, hi⟩ := ih l hc
        refine ⟨by simp [hl], ?_⟩
        intro i hlt
        by_cases h' : i < l.length
        · rw [List.getElem_append_left h']; exact hi i h'
        · have : i = n := by simp at hlt; omega
          subst this
          rw [List.getElem_append_right (by omega)]
          simp [hf]

/-- The inductive invariant, with the pending contents `q` as witness. -/
structure Inv (N : Nat) (s : Sys α) (q : List α) : Prop where
  head_lt : s.ring.head < N
  size_le : s.ring.size ≤ N
  qlen : q.length = s.ring.size
  cell : ∀ i (h : i < q.length), s.ring.data (wrap N (s.ring.head + i)) = some q[i]
  pw : ∀ off len, s.pwin = some (off, len) →
    off = wrap N (s.ring.head + s.ring.size) ∧ len + s.ring.size ≤ N ∧ off + len ≤ N ∧
    ∀ i x, s.staged i = some x → i < len ∧ s.ring.data (off + i) = some x
  cw : ∀ off len, s.cwin = some (off, len) →
    off = s.ring.head ∧ len ≤ s.ring.size ∧ off + len ≤ N
  log : s.sent.map some = s.got ++ q.map some

theorem inv_init {N : Nat} (hN : 0 < N) : Inv N (Sys.init : Sys α) [] := by
  constructor <;> simp [Sys.init, init, hN]

theorem back_window {N : Nat} {r : Ring α} {w off len} (hh : r.head < N) (hs : r.size ≤ N)
    (h : r.back N w = .window off len) :
    off = wrap N (r.head + r.size) ∧ 0 < len ∧ len + r.size ≤ N ∧ off + len ≤ N := by
  have hlen : off = wrap N (r.head + r.size) ∧ r.size < N ∧
      len = (if r.head ≤ wrap N (r.head + r.size) then N - wrap N (r.head + r.size)
        else r.head - wrap N (r.head + r.size)) := by
    cases w <;> cases hquit : r.quit <;> by_cases hz : N - r.size = 0 <;>
      simp [Ring.back, Ring.space, hquit, hz] at h <;> exact ⟨h.1.symm, by omega, h.2.symm⟩
  obtain ⟨h1, h2, h3⟩ := hlen
  rcases wrap_cases hh hs with ⟨ha, hb⟩ | ⟨ha, hb⟩ <;> rw [hb] at h1 h3 <;> split at h3 <;> omega

theorem front_window {N : Nat} {r : Ring α} {w off len} (hh : r.head < N) (hs : r.size ≤ N)
    (h : r.front N w = .window off len) :
    off = r.head ∧ 0 < len ∧ len ≤ r.size ∧ off + len ≤ N := by
  have hlen : off = r.head ∧ 0 < r.size ∧
      len = (if r.head < wrap N (r.head + r.size) then r.size else N - r.head) := by
    cases w <;> cases hquit : r.quit <;> by_cases hz : r.size = 0 <;>
      simp [Ring.front, Ring.empty, hquit, hz] at h <;> exact ⟨h.1.symm, by omega, h.2.symm⟩
  obtain ⟨h1, h2, h3⟩ := hlen
  rcases wrap_cases hh hs with ⟨ha, hb⟩ | ⟨ha, hb⟩ <;> rw [hb] at h3 <;> split at h3 <;> omega

theorem wrap_add {N a n : Nat} : wrap N (wrap N a + n) = wrap N (a + n) := by
  simp [wrap]

theorem inv_step {N : Nat} (hN : 0 < N) {s s' : Sys α} {q : List α} {op : Op α} {o : Out α}
    (hi : Inv N s q) (h : s.step N op = some (s', o)) : ∃ q', Inv N s' q' := by
  obtain ⟨hh, hs, hq, hc, hp, hcw, hl⟩ := hi
  cases op with
  | back w =>
    simp only [Sys.step] at h
    split at h
    · rename_i off len hr
      simp at h; obtain ⟨rfl, -⟩ := h
      obtain ⟨h1, h2, h3, h4⟩ := back_window hh hs hr
      refine ⟨q, hh, hs, hq, hc, ?_, hcw, hl⟩
      intro off' len' he
      simp at he; obtain ⟨rfl, rfl⟩ := he
      exact ⟨h1, h3, h4, by simp⟩
    · simp at h; obtain ⟨rfl, -⟩ := h
      exact ⟨q, hh, hs, hq, hc, by simp, hcw, hl⟩
  | store i x =>
    simp only [Sys.step] at h
    split at h
    · rename_i off len hr
      split at h
      · rename_i hlt
        simp at h; obtain ⟨rfl, -⟩ := h
        obtain ⟨h1, h2, h3, h4⟩ := hp off len hr
        refine ⟨q, hh, hs, hq, ?_, ?_, hcw, hl⟩
        · intro j hj
          simp only [Ring.store]
          have hne : wrap N (s.ring.head + j) ≠ off + i := by
            have e : off + i = wrap N (s.ring.head + s.ring.size + i) := by
              rw [← wrap_add, ← h1]
              exact (Nat.mod_eq_of_lt (by omega)).symm
            rw [e]
            exact (mod_ne (by omega) (by omega)).symm
          rw [if_neg hne]
          exact hc j hj
        · intro off' len' he
          simp at he
          have := hr.symm.trans he
          simp at this; obtain ⟨rfl, rfl⟩ := this
          refine ⟨h1, h2, h3, ?_⟩
          intro j y hj
          simp only at hj
          split at hj
          · rename_i e; subst e
            simp at hj; subst hj
            exact ⟨hlt, by simp [Ring.store]⟩
          · rename_i e
            obtain ⟨ha, hb⟩ := h4 j y hj
            refine ⟨ha, ?_⟩
            simp only [Ring.store]
            rw [if_neg (by omega)]; exact hb
      · simp at h
    · simp at h
  | push n =>
    simp only [Sys.step] at h
    split at h
    · rename_i off len hr
      split at h
      · rename_i hle
        split at h
        · rename_i xs hxs
          simp at h; obtain ⟨rfl, -⟩ := h
          obtain ⟨h1, h2, h3, h4⟩ := hp off len hr
          obtain ⟨hxl, hxv⟩ := collect_spec _ _ _ hxs
          refine ⟨q ++ xs, hh, ?_, ?_, ?_, by simp, ?_, ?_⟩
          · simp [Ring.push]; omega
          · simp [Ring.push]; omega
          · intro i hlt
            simp only [Ring.push]
            by_cases h' : i < q.length
            · rw [List.getElem_append_left h']; exact hc i h'
            · rw [List.getElem_append_right (by omega)]
              have hx := hxv (i - q.length) (by simp at hlt; omega)
              obtain ⟨ha, hb⟩ := h4 _ _ hx
              rw [← hb]
              have : off + (i - q.length) = wrap N (s.ring.head + i) := by
                have : s.ring.head + i = s.ring.head + s.ring.size + (i - q.length) := by omega
                rw [this, ← wrap_add, ← h1]
                exact (Nat.mod_eq_of_lt (by omega)).symm
              rw [this]
          · intro off' len' he
            obtain ⟨ha, hb, hc⟩ := hcw off' len' he
            exact ⟨ha, by simp [Ring.push]; omega, hc⟩
          · simp [hl]
        · simp at h
      · simp at h
    · simp at h
  | front w =>
    simp only [Sys.step] at h
    split at h
    · rename_i off len hr
      simp at h; obtain ⟨rfl, -⟩ := h
      obtain ⟨h1, h2, h3, h4⟩ := front_window hh hs hr
      refine ⟨q, hh, hs, hq, hc, hp, ?_, hl⟩
      intro off' len' he
      simp at he; obtain ⟨rfl, rfl⟩ := he
      exact ⟨h1, h3, h4⟩
    · simp at h; obtain ⟨rfl, -⟩ := h
      exact ⟨q, hh, hs, hq, hc, hp, by simp, hl⟩
  | load i =>
    simp only [Sys.step] at h
    split at h
    · split at h
      · simp at h; obtain ⟨rfl, -⟩ := h
        exact ⟨q, hh, hs, hq, hc, hp, hcw, hl⟩
      · simp at h
    · simp at h
  | pop n =>
    simp only [Sys.step] at h
    split at h
    · rename_i off len hr
      split at h
      · rename_i hle
        simp at h; obtain ⟨rfl, -⟩ := h
        obtain ⟨h1, h2, h3⟩ := hcw off len hr
        have hsum : wrap N (wrap N (s.ring.head + n) + (s.ring.size - n))
            = wrap N (s.ring.head + s.ring.size) := by
          rw [wrap_add]; congr 1; omega
        refine ⟨q.drop n, wrap_lt hN _, ?_, ?_, ?_, ?_, by simp, ?_⟩
        · simp [Ring.pop]; omega
        · simp [Ring.pop]; omega
        · intro i hlt
          simp only [Ring.pop]
          rw [wrap_add, List.getElem_drop, ← hc, Nat.add_assoc]
        · intro off' len' he
          obtain ⟨ha, hb, hd, he'⟩ := hp off' len' he
          refine ⟨?_, ?_, hd, he'⟩
          · simp only [Ring.pop]; rw [hsum]; exact ha
          · simp [Ring.pop]; omega
        · have : List.map (fun i => s.ring.data (off + i)) (List.range n) = (q.take n).map some := by
            apply List.ext_getElem
            · simp; omega
            · intro i hi1 hi2
              simp at hi1 ⊢
              have := hc i (by omega)
              rw [← this, h1, wrap, Nat.mod_eq_of_lt (by omega)]
          simp [hl, this]
      · simp at h
    · simp at h
  | quit =>
    simp only [Sys.step] at h
    simp at h; obtain ⟨rfl, -⟩ := h
    exact ⟨q, hh, hs, hq, hc, hp, hcw, hl⟩

theorem reach_inv {N : Nat} (hN : 0 < N) {s : Sys α} (h : Reach N s) : ∃ q, Inv N s q := by
  induction h with
  | init => exact ⟨[], inv_init hN⟩
  | step _ hs ih => obtain ⟨q, hq⟩ := ih; exact inv_step hN hq hs

end Verif.Ring
