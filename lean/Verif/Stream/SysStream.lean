import Verif.Stream.Source
/-
Streams over the operating system (include/stdex/stream.hpp): `basic_sys` 2208-2332 and `socket` 2359-2485, POSIX branch. The system calls
are any functions: they may transfer any part of what is asked for, report the end, or fail, and do otherwise at the next call.
-/
namespace Verif.Stream
variable {β ω : Type}

/-! ### Model -/

/-- `::read`/`recv` and `::write`/`send`, `none` for -1. `read` delivers at most as many bytes as asked for, `write` takes at most as many as it is
given (`OsLawful`). -/
structure Os (β ω : Type) where
  read : ω → Nat → Option (List β) × ω
  write : ω → List β → Option Nat × ω

/-- The loop of `read`, 2231-2263 and 2423-2445: (data, system, state); `n` is `length`, `acc` what was read before. -/
def sysReadLoop (os : Os β ω) (block n : Nat) : Nat → List β → ω → Option (List β × ω × St)
  | 0, _, _ => none
  | fuel + 1, acc, w =>
    match os.read w (min (n - acc.length) block) with
    | (none, w) => some (acc, w, if acc.length = 0 then .fail else .ok)
    | (some [], w) => some (acc, w, if acc.length = 0 ∧ n ≠ 0 then .eof else .ok)
    | (some (b :: d), w) =>
      let acc := acc ++ b :: d
      if n - acc.length = 0 then some (acc, w, .ok) else sysReadLoop os block n fuel acc w

/-- The loop of `write`, 2280-2310 and 2453-2471: (count, system, state); `n` is `length`, `d` what is left to write. -/
def sysWriteLoop (os : Os β ω) (block n : Nat) : Nat → List β → ω → Option (Nat × ω × St)
  | 0, _, _ => none
  | fuel + 1, d, w =>
    match os.write w (d.take (min d.length block)) with
    | (none, w) => some (n - d.length, w, .fail)
    | (some k, w) =>
      let d := d.drop k
      if d.length = 0 then some (n, w, .ok) else sysWriteLoop os block n fuel d w

/-- `basic_sys::read` (block: SSIZE_MAX) and `socket::read` (block: 0x10000000). -/
def sysRead (os : Os β ω) (block fuel : Nat) (w : ω) (n : Nat) : Option (List β × ω × St) := sysReadLoop os block n fuel [] w

/-- `basic_sys::write` and `socket::write`. -/
def sysWrite (os : Os β ω) (block fuel : Nat) (w : ω) (d : List β) : Option (Nat × ω × St) := sysWriteLoop os block d.length fuel d w

/-! ### Specification -/

/-- The contract of the system calls. -/
structure OsLawful (os : Os β ω) : Prop where
  read : ∀ w n d, (os.read w n).1 = some d → d.length ≤ n
  write : ∀ w d k, (os.write w d).1 = some k → k ≤ d.length

/-- The system delivered the bytes `d`, in any number of calls. -/
inductive OsDelivers (os : Os β ω) : ω → List β → ω → Prop where
  | nil (w : ω) : OsDelivers os w [] w
  | more {w w1 w2 : ω} {d e : List β} (m : Nat) : OsDelivers os w d w1 → os.read w1 m = (some e, w2) → e ≠ [] → OsDelivers os w (d ++ e) w2

/-- The system accepted the bytes `d`, in any number of calls. -/
inductive OsAccepts (os : Os β ω) : ω → List β → ω → Prop where
  | nil (w : ω) : OsAccepts os w [] w
  | more {w w1 w2 : ω} {d e : List β} {k : Nat} : OsAccepts os w d w1 → os.write w1 e = (some k, w2) → OsAccepts os w (d ++ e.take k) w2

/-! ### Proofs -/

theorem sysReadLoop_spec {os : Os β ω} (ho : OsLawful os) {block n : Nat} {w0 : ω} : ∀ (fuel : Nat) (acc : List β) (w : ω), OsDelivers os w0 acc w → (acc.length < n ∨ acc = [] ∧ n = 0) → n < acc.length + fuel →
    ∃ d w1 st, sysReadLoop os block n fuel acc w = some (d, w1, st) ∧ acc.length ≤ d.length ∧ d.length ≤ n ∧
      ((d.length = n ∧ st = .ok ∧ n ≠ 0 ∧ OsDelivers os w0 d w1) ∨
        ((d.length < n ∨ n = 0) ∧ ∃ w2, OsDelivers os w0 d w2 ∧ ((os.read w2 (min (n - d.length) block) = (none, w1) ∧ st = if d = [] then .fail else .ok) ∨
          (os.read w2 (min (n - d.length) block) = (some [], w1) ∧ st = if d = [] ∧ n ≠ 0 then .eof else .ok)))) := by
  intro fuel
  induction fuel with
  | zero => intro acc w _ h1 h2; rcases h1 with h1 | ⟨h1, h3⟩ <;> simp_all; omega
  | succ fuel ih =>
    intro acc w hd h1 h2
    have hle : acc.length ≤ n := by rcases h1 with h | ⟨h, -⟩; omega; rw [h]; simp
    rw [sysReadLoop]
    cases hr : os.read w (min (n - acc.length) block) with
    | mk x w1 =>
      cases x with
      | none =>
        refine ⟨acc, w1, _, rfl, Nat.le_refl _, hle, Or.inr ⟨?_, w, hd, Or.inl ⟨hr, ?_⟩⟩⟩
        · rcases h1 with h | ⟨-, h⟩; exact Or.inl h; exact Or.inr h
        · simp only [List.length_eq_zero_iff]
      | some e =>
        cases e with
        | nil =>
          refine ⟨acc, w1, _, rfl, Nat.le_refl _, hle, Or.inr ⟨?_, w, hd, Or.inr ⟨hr, ?_⟩⟩⟩
          · rcases h1 with h | ⟨-, h⟩; exact Or.inl h; exact Or.inr h
          · simp only [List.length_eq_zero_iff]
        | cons b e =>
          have hl := ho.read w (min (n - acc.length) block) (b :: e) (by rw [hr])
          rw [List.length_cons] at hl
          have hn : n ≠ 0 := by rintro rfl; simp at hl
          have hal : acc.length < n := by omega
          have hlen : (acc ++ b :: e).length = acc.length + (e.length + 1) := by rw [List.length_append, List.length_cons]
          have hdel : OsDelivers os w0 (acc ++ b :: e) w1 := .more _ hd hr (by simp)
          simp only
          by_cases h0 : n - (acc ++ b :: e).length = 0
          · rw [if_pos h0]
            exact ⟨_, w1, .ok, rfl, by omega, by omega, Or.inl ⟨by omega, rfl, hn, hdel⟩⟩
          · rw [if_neg h0]
            obtain ⟨d, w2, st, k1, k2, k3, k4⟩ := ih (acc ++ b :: e) w1 hdel (Or.inl (by omega)) (by omega)
            exact ⟨d, w2, st, k1, by omega, k3, k4⟩

/-- **C127** `read` of a system stream comes to an end, whatever the system does; its data is exactly what the system delivered, nothing lost and in
order. It is all that was asked for, or the system reported its end or an error; that is told by the state if there was no data before. -/
theorem sys_read {os : Os β ω} (ho : OsLawful os) {block : Nat} (w : ω) {n : Nat} {fuel : Nat} (hf : n < fuel) :
    ∃ d w1 st, sysRead os block fuel w n = some (d, w1, st) ∧ d.length ≤ n ∧
      ((d.length = n ∧ st = .ok ∧ n ≠ 0 ∧ OsDelivers os w d w1) ∨
        ((d.length < n ∨ n = 0) ∧ ∃ w2, OsDelivers os w d w2 ∧ ((os.read w2 (min (n - d.length) block) = (none, w1) ∧ st = if d = [] then .fail else .ok) ∨
          (os.read w2 (min (n - d.length) block) = (some [], w1) ∧ st = if d = [] ∧ n ≠ 0 then .eof else .ok)))) := by
  obtain ⟨d, w1, st, h1, -, h3, h4⟩ := sysReadLoop_spec ho (n := n) fuel [] w (.nil w) (by rcases Nat.eq_zero_or_pos n with h | h; exact Or.inr ⟨rfl, h⟩; exact Or.inl h) (by simpa using hf)
  exact ⟨d, w1, st, h1, h3, h4⟩

theorem OsAccepts.single {os : Os β ω} {w w1 : ω} {e : List β} {k : Nat} (h : os.write w e = (some k, w1)) : OsAccepts os w (e.take k) w1 := by
  have := OsAccepts.more (.nil w) h
  rwa [List.nil_append] at this

theorem sysWriteLoop_spec {os : Os β ω} (ho : OsLawful os) {block : Nat} {data : List β} {w0 : ω} : ∀ (fuel : Nat) (d : List β) (w : ω) (p : List β), data = p ++ d → OsAccepts os w0 p w →
    ∀ {c w1 st}, sysWriteLoop os block data.length fuel d w = some (c, w1, st) →
      c ≤ data.length ∧ ((c = data.length ∧ st = .ok ∧ OsAccepts os w0 data w1) ∨ (st = .fail ∧ ∃ w2, OsAccepts os w0 (data.take c) w2 ∧ os.write w2 ((data.drop c).take (min (data.length - c) block)) = (none, w1))) := by
  intro fuel
  induction fuel with
  | zero => intro d w p _ _ c w1 st h; cases h
  | succ fuel ih =>
    intro d w p hp hacc c w1 st h
    have hlen : data.length = p.length + d.length := by rw [hp, List.length_append]
    rw [sysWriteLoop] at h
    cases hr : os.write w (d.take (min d.length block)) with
    | mk x w2 =>
      rw [hr] at h
      cases x with
      | none =>
        simp only [Option.some.injEq, Prod.mk.injEq] at h
        obtain ⟨rfl, rfl, rfl⟩ := h
        have hc : data.length - d.length = p.length := by omega
        refine ⟨by omega, Or.inr ⟨rfl, w, ?_, ?_⟩⟩
        · rw [hc, hp, List.take_left]; exact hacc
        · rw [hc, show data.length - p.length = d.length by omega, hp, List.drop_left]; exact hr
      | some k =>
        have hk := ho.write w _ k (by rw [hr])
        rw [List.length_take] at hk
        have htk : (d.take (min d.length block)).take k = d.take k := by rw [List.take_take]; congr 1; omega
        have hacc2 : OsAccepts os w0 (p ++ d.take k) w2 := by rw [← htk]; exact .more hacc hr
        simp only at h
        by_cases h0 : (d.drop k).length = 0
        · rw [if_pos h0] at h
          simp only [Option.some.injEq, Prod.mk.injEq] at h
          obtain ⟨rfl, rfl, rfl⟩ := h
          refine ⟨Nat.le_refl _, Or.inl ⟨rfl, rfl, ?_⟩⟩
          rw [List.length_drop] at h0
          rw [List.take_of_length_le (by omega)] at hacc2
          rw [hp]; exact hacc2
        · rw [if_neg h0] at h
          exact ih (d.drop k) w2 (p ++ d.take k) (by rw [List.append_assoc, List.take_append_drop, hp]) hacc2 h

/-- **C127** If `write` returns, then the system accepted exactly as many of the bytes as it says, in order, and it says all of them, or the system
reported an error and the state is failure. -/
theorem sys_write {os : Os β ω} (ho : OsLawful os) {block fuel : Nat} {w : ω} {data : List β} {c : Nat} {w1 : ω} {st : St} (h : sysWrite os block fuel w data = some (c, w1, st)) :
    c ≤ data.length ∧ ((c = data.length ∧ st = .ok ∧ OsAccepts os w data w1) ∨
      (st = .fail ∧ ∃ w2, OsAccepts os w (data.take c) w2 ∧ os.write w2 ((data.drop c).take (min (data.length - c) block)) = (none, w1))) :=
  sysWriteLoop_spec ho fuel data w [] rfl (.nil w) h

/-- **C127** It returns if the system, when it does not fail, accepts at least one byte of any. -/
theorem sys_write_ends {os : Os β ω} (hp : ∀ w d, d ≠ [] → (os.write w d).1 ≠ some 0) {block : Nat} (hb : 0 < block) : ∀ (fuel n : Nat) (d : List β) (w : ω), d.length < fuel → sysWriteLoop os block n fuel d w ≠ none := by
  intro fuel
  induction fuel with
  | zero => intro n d w h; omega
  | succ fuel ih =>
    intro n d w h
    rw [sysWriteLoop]
    cases hr : os.write w (d.take (min d.length block)) with
    | mk x w2 =>
      cases x with
      | none => simp
      | some k =>
        simp only
        by_cases h0 : (d.drop k).length = 0
        · rw [if_pos h0]; simp
        · rw [if_neg h0]
          rw [List.length_drop] at h0
          have hk : k ≠ 0 := by
            rintro rfl
            refine hp w (d.take (min d.length block)) ?_ (by rw [hr])
            intro c
            have := congrArg List.length c
            rw [List.length_take, List.length_nil] at this
            omega
          exact ih n (d.drop k) w2 (by rw [List.length_drop]; omega)

/-- (defect) A system that accepts nothing without an error keeps `write` in its loop for ever. -/
theorem sys_write_hangs {os : Os β ω} (hz : ∀ w d, os.write w d = (some 0, w)) (block n : Nat) {d : List β} (hd : d ≠ []) (w : ω) : ∀ fuel, sysWriteLoop os block n fuel d w = none := by
  intro fuel
  induction fuel with
  | zero => rfl
  | succ fuel ih =>
    rw [sysWriteLoop, hz]
    simp only [List.drop_zero]
    rw [if_neg (by rw [List.length_eq_zero_iff]; exact hd)]
    exact ih

/-! ### As a source and a sink -/

/-- The stream (for its flush see `full` in Ends.lean). -/
def sys (os : Os β ω) (block : Nat) : Strm β (ω × St) where
  read s n := match sysRead os block (n + 1) s.1 n with
    | none => ([], s)
    | some (d, w, st) => (d, w, st)
  write s d := match sysWrite os block (d.length + 1) s.1 d with
    | none => (0, s)
    | some (c, w, st) => (c, w, st)
  close := id
  flush := id
  state := Prod.snd

/-- A system object that has bytes to deliver: at least one at a time, until there are no more. -/
structure OsSource (os : Os β ω) (rem : ω → List β) : Prop where
  some : ∀ w n, ∃ d, (os.read w n).1 = some d ∧ d ++ rem (os.read w n).2 = rem w ∧ (n ≠ 0 → rem w ≠ [] → d ≠ [])

theorem OsDelivers.rem {os : Os β ω} {rem : ω → List β} (hs : OsSource os rem) {w w1 : ω} {d : List β} (h : OsDelivers os w d w1) : d ++ rem w1 = rem w := by
  induction h with
  | nil => rfl
  | more m h hr he ih =>
    rename_i w1 w2 d e
    obtain ⟨x, x1, x2, -⟩ := hs.some w1 m
    rw [hr] at x1 x2
    simp only [Option.some.injEq] at x1
    subst x1
    rw [List.append_assoc, x2, ih]

/-- **C127** From a system object that has bytes, `read` gives as many as were asked for, or all that are left. -/
theorem sys_read_full {os : Os β ω} (ho : OsLawful os) {rem : ω → List β} (hs : OsSource os rem) {block : Nat} (hb : 0 < block) (w : ω) {n : Nat} {fuel : Nat} (hf : n < fuel) :
    ∃ w1, sysRead os block fuel w n = some ((rem w).take n, w1, if n ≠ 0 ∧ rem w = [] then .eof else .ok) ∧ rem w1 = (rem w).drop n := by
  obtain ⟨d, w1, st, h1, h2, h3⟩ := sys_read ho w hf
  rcases h3 with ⟨k1, rfl, k3, k4⟩ | ⟨k1, w2, k2, k3 | k3⟩
  · have hr := k4.rem hs
    refine ⟨w1, ?_, ?_⟩
    · rw [h1, ← hr, List.take_left' k1, if_neg]
      rintro ⟨-, c⟩
      have := congrArg List.length c
      rw [List.length_append, List.length_nil] at this
      omega
    · rw [← hr, List.drop_left' k1]
  · obtain ⟨x, x1, -⟩ := hs.some w2 (min (n - d.length) block)
    rw [k3.1] at x1
    cases x1
  · have hr := k2.rem hs
    obtain ⟨x, x1, x2, x3⟩ := hs.some w2 (min (n - d.length) block)
    rw [k3.1] at x1 x2
    simp only [Option.some.injEq] at x1
    subst x1
    rw [List.nil_append] at x2
    rcases k1 with k1 | k1
    · have hrem : rem w2 = [] := by
        refine Classical.byContradiction fun c => ?_
        exact x3 (by omega) c rfl
      rw [hrem, List.append_nil] at hr
      refine ⟨w1, ?_, ?_⟩
      · rw [h1, ← hr, List.take_of_length_le (by omega), k3.2]
        by_cases hd : d = []
        · rw [if_pos ⟨hd, by omega⟩, if_pos ⟨by omega, hd⟩]
        · rw [if_neg (fun c => hd c.1), if_neg (fun c => hd c.2)]
      · rw [x2, hrem, ← hr, List.drop_of_length_le (by omega)]
    · subst k1
      have hd : d = [] := List.eq_nil_of_length_eq_zero (by omega)
      subst hd
      refine ⟨w1, ?_, ?_⟩
      · rw [h1, k3.2]; simp
      · rw [x2, List.drop_zero, ← hr]; rfl

/-- **C127** So a system stream is a source: all that is proved of sources holds for it (buffers, limiters, windows, lines, copies, hashing). -/
theorem sys_source {os : Os β ω} (ho : OsLawful os) {rem : ω → List β} (hs : OsSource os rem) {block : Nat} (hb : 0 < block) : IsSource (sys os block) (fun s => rem s.1) := by
  have hread : ∀ s n, ∃ w1, (sys os block).read s n = ((rem s.1).take n, w1, if n ≠ 0 ∧ rem s.1 = [] then .eof else .ok) ∧ rem w1 = (rem s.1).drop n := by
    intro s n
    obtain ⟨w1, h1, h2⟩ := sys_read_full ho hs hb s.1 (n := n) (fuel := n + 1) (by omega)
    refine ⟨w1, ?_, h2⟩
    show (match sysRead os block (n + 1) s.1 n with | none => ([], s) | some (d, w, st) => (d, w, st)) = _
    rw [h1]
  refine ⟨?_, ?_, ?_, ?_, ?_⟩
  · intro s n
    obtain ⟨w1, h1, h2⟩ := hread s n
    rw [h1]
    show (rem s.1).take n ++ rem w1 = rem s.1
    rw [h2, List.take_append_drop]
  · intro s n
    obtain ⟨w1, h1, h2⟩ := hread s n
    rw [h1, List.length_take]; omega
  · intro s n hn hr
    obtain ⟨w1, h1, h2⟩ := hread s n
    rw [h1]
    refine ⟨?_, ?_⟩
    · intro c
      have := congrArg List.length c
      rw [List.length_take, List.length_nil] at this
      have := List.length_pos_iff.2 hr
      omega
    · show (if n ≠ 0 ∧ rem s.1 = [] then St.eof else .ok) = _
      rw [if_neg (fun c => hr c.2)]
  · intro s n hn hr
    obtain ⟨w1, h1, h2⟩ := hread s n
    rw [h1]
    show (if n ≠ 0 ∧ rem s.1 = [] then St.eof else .ok) = _
    rw [if_pos ⟨hn, hr⟩]
  · intro s
    left
    obtain ⟨w1, h1, h2⟩ := hread s 0
    rw [h1]
    show (if (0 : Nat) ≠ 0 ∧ rem s.1 = [] then St.eof else .ok) = _
    rw [if_neg (fun c => c.1 rfl)]

/-- A system object that takes bytes: at least one at a time, without errors. -/
structure OsSink (os : Os β ω) (got : ω → List β) : Prop where
  some : ∀ w d, ∃ k, (os.write w d).1 = some k ∧ got (os.write w d).2 = got w ++ d.take k ∧ (d ≠ [] → k ≠ 0)

theorem OsAccepts.got {os : Os β ω} {got : ω → List β} (hs : OsSink os got) {w w1 : ω} {d : List β} (h : OsAccepts os w d w1) : got w1 = got w ++ d := by
  induction h with
  | nil => rw [List.append_nil]
  | more h hr ih =>
    rename_i w1 w2 d e k
    obtain ⟨x, x1, x2, -⟩ := hs.some w1 e
    rw [hr] at x1 x2
    simp only [Option.some.injEq] at x1
    subst x1
    rw [x2, ih, List.append_assoc]

/-- **C127** A system stream on such an object writes everything. -/
theorem sys_reliable {os : Os β ω} (ho : OsLawful os) {got : ω → List β} (hs : OsSink os got) {block : Nat} (hb : 0 < block) : Reliable (sys os block) (fun s => got s.1) := by
  have hw : ∀ s d, ∃ w1, (sys os block).write s d = (d.length, w1, .ok) ∧ got w1 = got s.1 ++ d := by
    intro s d
    have hne := sys_write_ends (os := os) (fun w d hd c => by
      obtain ⟨k, k1, -, k3⟩ := hs.some w d
      rw [k1] at c
      exact k3 hd (Option.some.inj c)) hb (d.length + 1) d.length d s.1 (by omega)
    obtain ⟨⟨c, w1, st⟩, hr⟩ := Option.ne_none_iff_exists'.1 hne
    obtain ⟨-, ⟨rfl, rfl, h3⟩ | ⟨-, w2, -, h3⟩⟩ := sys_write ho hr
    · refine ⟨w1, ?_, h3.got hs⟩
      show (match sysWrite os block (d.length + 1) s.1 d with | none => (0, s) | some (c, w, st) => (c, w, st)) = _
      unfold sysWrite
      rw [hr]
    · obtain ⟨k, k1, -⟩ := hs.some w2 ((d.drop c).take (min (d.length - c) block))
      rw [h3] at k1
      cases k1
  refine ⟨⟨?_, ?_⟩, ?_, ?_⟩
  · intro s d
    obtain ⟨w1, h1, h2⟩ := hw s d
    rw [h1]; exact Nat.le_refl _
  · intro s d
    obtain ⟨w1, h1, h2⟩ := hw s d
    rw [h1]
    show got w1 = got s.1 ++ d.take d.length
    rw [h2, List.take_length]
  · intro s d
    obtain ⟨w1, h1, h2⟩ := hw s d
    rw [h1]
  · intro s d
    obtain ⟨w1, h1, h2⟩ := hw s d
    rw [h1]; rfl

/-- A case: a pipe that delivers two bytes at a time and takes one. -/
def demoOs {β : Type} : Os β (List β × List β) := ⟨fun w n => (some (w.1.take (min n 2)), (w.1.drop (min n 2), w.2)), fun w d => (some (min d.length 1), (w.1, w.2 ++ d.take 1))⟩

theorem demo_os {β : Type} : OsLawful (demoOs (β := β)) ∧ OsSource (demoOs (β := β)) Prod.fst ∧ OsSink (demoOs (β := β)) Prod.snd := by
  refine ⟨⟨?_, ?_⟩, ⟨?_⟩, ⟨?_⟩⟩
  · intro w n d h
    simp only [demoOs, Option.some.injEq] at h
    rw [← h, List.length_take]; omega
  · intro w d k h
    simp only [demoOs, Option.some.injEq] at h
    omega
  · intro w n
    refine ⟨_, rfl, List.take_append_drop _ _, ?_⟩
    intro h1 h2 c
    have h2 := List.length_pos_iff.2 h2
    have := congrArg List.length c
    rw [List.length_take, List.length_nil] at this
    omega
  · intro w d
    refine ⟨_, rfl, ?_, ?_⟩
    · cases d with
      | nil => rfl
      | cons b d => simp [demoOs]
    · intro h c
      have := List.length_pos_iff.2 h
      omega

example : sysRead (demoOs (β := Nat)) 99 9 ([1, 2, 3, 4, 5], []) 4 = some ([1, 2, 3, 4], ([5], []), .ok) ∧ sysWrite (demoOs (β := Nat)) 99 9 ([], []) [7, 8] = some (2, ([], [7, 8]), .ok) := by decide

end Verif.Stream
