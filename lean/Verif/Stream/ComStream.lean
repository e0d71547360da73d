import Verif.Stream.SysStream
/-
Streams over COM objects (include/stdex/stream.hpp): `sequential_stream` 2491-2556 (ISequentialStream) and `asp` 2561-2673 (IRequest and
IResponse), Windows branch. The COM methods are any functions: they may transfer any part of what is asked for, report the end, or fail.
Not modelled: reference counting (`AddRef` in the constructor, `Release` in the destructor) and the conversion of structured exceptions to E_FAIL,
which is the failure of a method.
-/
namespace Verif.Stream
variable {β ω : Type}

/-! ### Model -/

/-- A result: `S_OK`, `S_FALSE`, or failure. -/
inductive Hr where
  | sOk | sFalse | failed
deriving DecidableEq

/-- `ISequentialStream`: `Read` with what it stored, `Write` with the number it took (`none` if it failed; the code ignores the number then). -/
structure Com (β ω : Type) where
  read : ω → Nat → Hr × List β × ω
  write : ω → List β → Option Nat × ω

/-- `ULONG_MAX`. -/
def ulongMax : Nat := 2 ^ 32 - 1

/-- `LONG_MAX`. -/
def longMax : Nat := 2 ^ 31 - 1

/-- The loop of `sequential_stream::read`, 2508-2527: (data, object, state); `n` is `length`, `acc` what was read before. -/
def seqReadLoop (com : Com β ω) (n : Nat) : Nat → List β → ω → Option (List β × ω × St)
  | 0, _, _ => none
  | fuel + 1, acc, w =>
    match com.read w (min (n - acc.length) ulongMax) with
    | (.failed, _, w) => some (acc, w, if acc.length ≠ 0 then .ok else .fail)
    | (.sFalse, d, w) => some (acc ++ d, w, if (acc ++ d).length ≠ 0 ∨ n = 0 then .ok else .eof)
    | (.sOk, d, w) => if n - (acc ++ d).length = 0 then some (acc ++ d, w, .ok) else seqReadLoop com n fuel (acc ++ d) w

/-- `sequential_stream::read`, 2504-2528. -/
def seqRead (com : Com β ω) (fuel : Nat) (w : ω) (n : Nat) : Option (List β × ω × St) := seqReadLoop com n fuel [] w

/-- The loop of `sequential_stream::write`, 2534-2551: (count, object, state); `n` is `length`, `d` what is left to write. -/
def seqWriteLoop (com : Com β ω) (n : Nat) : Nat → List β → ω → Option (Nat × ω × St)
  | 0, _, _ => none
  | fuel + 1, d, w =>
    match com.write w (d.take (min d.length ulongMax)) with
    | (none, w) => some (n - d.length, w, .fail)
    | (some k, w) =>
      let d := d.drop k
      if d.length = 0 then some (n, w, .ok) else seqWriteLoop com n fuel d w

/-- `sequential_stream::write`, 2530-2552. -/
def seqWrite (com : Com β ω) (fuel : Nat) (w : ω) (d : List β) : Option (Nat × ω × St) := seqWriteLoop com d.length fuel d w

/-- `IRequest::BinaryRead` (`none` if it failed; the amount it returns is the length), `IResponse::BinaryWrite`, `Flush` and `End`: true if they
succeeded. -/
structure Asp (β ω : Type) where
  read : ω → Nat → Option (List β) × ω
  write : ω → List β → Bool × ω
  flush : ω → Bool × ω
  fin : ω → ω

/-- The loop of `asp::read`, 2590-2618. -/
def aspReadLoop (a : Asp β ω) (n : Nat) : Nat → List β → ω → Option (List β × ω × St)
  | 0, _, _ => none
  | fuel + 1, acc, w =>
    match a.read w (min (n - acc.length) longMax) with
    | (none, w) => some (acc, w, if acc.length ≠ 0 then .ok else .fail)
    | (some d, w) =>
      if d.length = 0 then some (acc, w, if acc.length ≠ 0 ∨ n = 0 then .ok else .eof)
      else if n - (acc ++ d).length = 0 then some (acc ++ d, w, .ok)
      else aspReadLoop a n fuel (acc ++ d) w

/-- `asp::read`, 2582-2619; `req`: there is a request. -/
def aspRead (a : Asp β ω) (req : Bool) (fuel : Nat) (w : ω) (n : Nat) : Option (List β × ω × St) :=
  if !req then some ([], w, .fail) else aspReadLoop a n fuel [] w

/-- The loop of `asp::write`, 2628-2648. -/
def aspWriteLoop (a : Asp β ω) (n : Nat) : Nat → List β → ω → Option (Nat × ω × St)
  | 0, _, _ => none
  | fuel + 1, d, w =>
    let k := min d.length ulongMax
    match a.write w (d.take k) with
    | (false, w) => some (n - d.length, w, .fail)
    | (true, w) => if (d.drop k).length = 0 then some (n, w, .ok) else aspWriteLoop a n fuel (d.drop k) w

/-- `asp::write`, 2621-2649; `resp`: there is a response. -/
def aspWrite (a : Asp β ω) (resp : Bool) (fuel : Nat) (w : ω) (d : List β) : Option (Nat × ω × St) :=
  if !resp then some (0, w, .fail) else aspWriteLoop a d.length fuel d w

/-- `asp::close`, 2651-2658. -/
def aspClose (a : Asp β ω) (resp : Bool) (s : ω × St) : ω × St := (if resp then a.fin s.1 else s.1, .ok)

/-- `asp::flush`, 2660-2668. -/
def aspFlush (a : Asp β ω) (resp : Bool) (s : ω × St) : ω × St :=
  if resp then ((a.flush s.1).2, if (a.flush s.1).1 then .ok else .fail) else s

/-! ### Specification -/

/-- The contract of `ISequentialStream`. -/
structure ComLawful (com : Com β ω) : Prop where
  read : ∀ w n, (com.read w n).2.1.length ≤ n
  write : ∀ w d k, (com.write w d).1 = some k → k ≤ d.length

/-- The object delivered the bytes `d`, in any number of successful calls. -/
inductive ComDelivers (com : Com β ω) : ω → List β → ω → Prop where
  | nil (w : ω) : ComDelivers com w [] w
  | more {w w1 w2 : ω} {d e : List β} {h : Hr} (m : Nat) : ComDelivers com w d w1 → com.read w1 m = (h, e, w2) → h ≠ .failed →
      ComDelivers com w (d ++ e) w2

/-- The object as a system object: only its `Write`. -/
def Com.os (com : Com β ω) : Os β ω := ⟨fun w _ => (none, w), com.write⟩

/-- A request as a system object to read from. -/
def Asp.req (a : Asp β ω) : Os β ω := ⟨a.read, fun w _ => (none, w)⟩

/-- A response as a system object to write to: it takes all or fails. -/
def Asp.resp (a : Asp β ω) : Os β ω :=
  ⟨fun w _ => (none, w), fun w d => (if (a.write w d).1 then some d.length else none, (a.write w d).2)⟩

/-! ### ISequentialStream: reading -/

theorem seqReadLoop_spec {com : Com β ω} (hl : ComLawful com) {n : Nat} {w0 : ω} : ∀ (fuel : Nat) (acc : List β) (w : ω),
    ComDelivers com w0 acc w → acc.length ≤ n → ∀ {d w1 st}, seqReadLoop com n fuel acc w = some (d, w1, st) →
      d.length ≤ n ∧ ∃ w2, ComDelivers com w0 d w2 ∧
        ((d.length = n ∧ st = .ok ∧ w2 = w1) ∨
          (w2 = w1 ∧ (∃ w3 m p e, ComDelivers com w0 p w3 ∧ com.read w3 m = (.sFalse, e, w1) ∧ d = p ++ e) ∧ st = if d = [] ∧ n ≠ 0 then .eof else .ok) ∨
          ((∃ m e, com.read w2 m = (.failed, e, w1)) ∧ st = if d = [] then .fail else .ok)) := by
  intro fuel
  induction fuel with
  | zero => intro acc w _ _ d w1 st h; cases h
  | succ fuel ih =>
    intro acc w hd ha d w1 st h
    rw [seqReadLoop] at h
    have hle := hl.read w (min (n - acc.length) ulongMax)
    cases hr : com.read w (min (n - acc.length) ulongMax) with
    | mk hr1 r2 =>
      obtain ⟨e, w2⟩ := r2
      rw [hr] at h hle
      simp only at hle
      have hlen : (acc ++ e).length ≤ n := by rw [List.length_append]; omega
      cases hr1 with
      | failed =>
        simp only [Option.some.injEq, Prod.mk.injEq] at h
        obtain ⟨rfl, rfl, rfl⟩ := h
        refine ⟨ha, w, hd, Or.inr (Or.inr ⟨⟨_, _, hr⟩, ?_⟩)⟩
        by_cases h0 : acc = []
        · rw [if_pos h0, if_neg (by simp [h0])]
        · rw [if_neg h0, if_pos (by rw [ne_eq, List.length_eq_zero_iff]; exact h0)]
      | sFalse =>
        simp only [Option.some.injEq, Prod.mk.injEq] at h
        obtain ⟨rfl, rfl, rfl⟩ := h
        refine ⟨hlen, w2, .more _ hd hr (by simp), Or.inr (Or.inl ⟨rfl, ⟨w, _, acc, e, hd, hr, rfl⟩, ?_⟩)⟩
        by_cases h0 : acc ++ e = [] ∧ n ≠ 0
        · rw [if_pos h0, if_neg (by rw [h0.1]; simpa using h0.2)]
        · rw [if_neg h0, if_pos]
          by_cases h1 : n = 0
          · exact Or.inr h1
          · left
            rw [ne_eq, List.length_eq_zero_iff]
            exact fun c => h0 ⟨c, h1⟩
      | sOk =>
        simp only at h
        by_cases h0 : n - (acc ++ e).length = 0
        · rw [if_pos h0] at h
          simp only [Option.some.injEq, Prod.mk.injEq] at h
          obtain ⟨rfl, rfl, rfl⟩ := h
          exact ⟨hlen, w2, .more _ hd hr (by simp), Or.inl ⟨by omega, rfl, rfl⟩⟩
        · rw [if_neg h0] at h
          obtain ⟨k1, w4, k2, k3⟩ := ih (acc ++ e) w2 (.more _ hd hr (by simp)) hlen h
          exact ⟨k1, w4, k2, k3⟩

/-- **C149** If `sequential_stream::read` returns, its data is exactly what the object delivered, in order and never more than asked for. It is all
that was asked for (ok), or the object reported its end with the last bytes (ok if there is data, else end), or the next call failed (ok if there is
data, which is not lost, else failure). -/
theorem seq_read {com : Com β ω} (hl : ComLawful com) {fuel : Nat} {w : ω} {n : Nat} {d : List β} {w1 : ω} {st : St}
    (h : seqRead com fuel w n = some (d, w1, st)) :
    d.length ≤ n ∧ ∃ w2, ComDelivers com w d w2 ∧
      ((d.length = n ∧ st = .ok ∧ w2 = w1) ∨
        (w2 = w1 ∧ (∃ w3 m p e, ComDelivers com w p w3 ∧ com.read w3 m = (.sFalse, e, w1) ∧ d = p ++ e) ∧ st = if d = [] ∧ n ≠ 0 then .eof else .ok) ∨
        ((∃ m e, com.read w2 m = (.failed, e, w1)) ∧ st = if d = [] then .fail else .ok)) :=
  seqReadLoop_spec hl fuel [] w (.nil w) (Nat.zero_le _) h

/-- **C149** It returns if a call that reports `S_OK` delivers at least one byte, where any were asked for. -/
theorem seq_read_ends {com : Com β ω} (hp : ∀ w m, m ≠ 0 → (com.read w m).1 = .sOk → (com.read w m).2.1 ≠ []) : ∀ (fuel n : Nat) (acc : List β) (w : ω),
    n - acc.length < fuel → seqReadLoop com n fuel acc w ≠ none := by
  intro fuel
  induction fuel with
  | zero => intro n acc w h; omega
  | succ fuel ih =>
    intro n acc w h
    rw [seqReadLoop]
    cases hr : com.read w (min (n - acc.length) ulongMax) with
    | mk hr1 r2 =>
      obtain ⟨e, w2⟩ := r2
      cases hr1 with
      | failed => simp
      | sFalse => simp
      | sOk =>
        simp only
        by_cases h0 : n - (acc ++ e).length = 0
        · rw [if_pos h0]; simp
        · rw [if_neg h0]
          apply ih
          rw [List.length_append] at h0 ⊢
          have : e ≠ [] := by
            have := hp w (min (n - acc.length) ulongMax) (by unfold ulongMax; omega) (by rw [hr])
            rwa [hr] at this
          have := List.length_pos_iff.2 this
          omega

/-- (defect) An object that reports `S_OK` with no bytes at its end keeps `read` in its loop for ever. The documentation of
`ISequentialStream::Read` leaves it to the object whether the end is reported by `S_OK` or `S_FALSE`. -/
theorem seq_read_hangs {com : Com β ω} {w : ω} (hz : ∀ m, com.read w m = (.sOk, [], w)) {n : Nat} : ∀ (fuel : Nat) (acc : List β), acc.length < n →
    seqReadLoop com n fuel acc w = none := by
  intro fuel
  induction fuel with
  | zero => intro acc _; rfl
  | succ fuel ih =>
    intro acc h
    rw [seqReadLoop, hz]
    simp only [List.append_nil]
    rw [if_neg (by omega)]
    exact ih acc h

/-! ### ISequentialStream: writing -/

theorem seqWriteLoop_eq (com : Com β ω) (n : Nat) : ∀ (fuel : Nat) (d : List β) (w : ω),
    seqWriteLoop com n fuel d w = sysWriteLoop com.os ulongMax n fuel d w := by
  intro fuel
  induction fuel with
  | zero => intro d w; rfl
  | succ fuel ih =>
    intro d w
    rw [seqWriteLoop, sysWriteLoop]
    show (match com.write w (d.take (min d.length ulongMax)) with | (none, w) => _ | (some k, w) => _) =
      (match com.write w (d.take (min d.length ulongMax)) with | (none, w) => _ | (some k, w) => _)
    cases com.write w (d.take (min d.length ulongMax)) with
    | mk x w2 =>
      cases x with
      | none => rfl
      | some k => simp only [ih]

theorem ComLawful.os {com : Com β ω} (h : ComLawful com) : OsLawful com.os := ⟨(fun _ _ _ e => nomatch e), h.write⟩

/-- **C149** If `sequential_stream::write` returns, then the object accepted exactly as many of the bytes as it says, in order, and it says all of
them, or the object failed and the state is failure. -/
theorem seq_write {com : Com β ω} (hl : ComLawful com) {fuel : Nat} {w : ω} {data : List β} {c : Nat} {w1 : ω} {st : St}
    (h : seqWrite com fuel w data = some (c, w1, st)) :
    c ≤ data.length ∧ ((c = data.length ∧ st = .ok ∧ OsAccepts com.os w data w1) ∨
      (st = .fail ∧ ∃ w2, OsAccepts com.os w (data.take c) w2 ∧ com.write w2 ((data.drop c).take (min (data.length - c) ulongMax)) = (none, w1))) := by
  unfold seqWrite at h
  rw [seqWriteLoop_eq] at h
  exact sys_write hl.os h

/-- **C149** It returns if the object, when it does not fail, accepts at least one byte of any. -/
theorem seq_write_ends {com : Com β ω} (hp : ∀ w d, d ≠ [] → (com.write w d).1 ≠ some 0) (n fuel : Nat) (d : List β) (w : ω) (h : d.length < fuel) :
    seqWriteLoop com n fuel d w ≠ none := by
  rw [seqWriteLoop_eq]
  exact sys_write_ends (os := com.os) hp (by decide) fuel n d w h

/-! ### ISequentialStream as a source -/

/-- The stream; flush of `basic` (132-135). -/
def seqStream (com : Com β ω) : Strm β (ω × St) where
  read s n := match seqRead com (n + 1) s.1 n with
    | none => ([], s)
    | some (d, w, st) => (d, w, st)
  write s d := match seqWrite com (d.length + 1) s.1 d with
    | none => (0, s)
    | some (c, w, st) => (c, w, st)
  close := id
  flush s := (s.1, .ok)
  state := Prod.snd

/-- An object that has bytes to deliver: at least one at a time; the end is reported by `S_FALSE`. -/
structure ComSource (com : Com β ω) (rem : ω → List β) : Prop where
  split : ∀ w n, (com.read w n).2.1 ++ rem (com.read w n).2.2 = rem w
  nofail : ∀ w n, (com.read w n).1 ≠ .failed
  more : ∀ w n, n ≠ 0 → rem w ≠ [] → (com.read w n).2.1 ≠ []
  fin : ∀ w n, n ≠ 0 → rem w = [] → (com.read w n).1 = .sFalse

theorem ComDelivers.rem {com : Com β ω} {rem : ω → List β} (hs : ComSource com rem) {w w1 : ω} {d : List β} (h : ComDelivers com w d w1) :
    d ++ rem w1 = rem w := by
  induction h with
  | nil => rfl
  | more m h hr he ih =>
    rename_i w1 w2 d e x
    have := hs.split w1 m
    rw [hr] at this
    rw [List.append_assoc, this, ih]

theorem seqReadLoop_grows (com : Com β ω) (n : Nat) : ∀ (fuel : Nat) (acc : List β) (w : ω) {d w1 st},
    seqReadLoop com n fuel acc w = some (d, w1, st) → acc.length ≤ d.length := by
  intro fuel
  induction fuel with
  | zero => intro acc w d w1 st h; cases h
  | succ fuel ih =>
    intro acc w d w1 st h
    rw [seqReadLoop] at h
    cases hr : com.read w (min (n - acc.length) ulongMax) with
    | mk hr1 r2 =>
      obtain ⟨e, w2⟩ := r2
      rw [hr] at h
      cases hr1 with
      | failed =>
        simp only [Option.some.injEq, Prod.mk.injEq] at h
        rw [h.1]; exact Nat.le_refl _
      | sFalse =>
        simp only [Option.some.injEq, Prod.mk.injEq] at h
        rw [← h.1, List.length_append]; omega
      | sOk =>
        simp only at h
        by_cases h0 : n - (acc ++ e).length = 0
        · rw [if_pos h0] at h
          simp only [Option.some.injEq, Prod.mk.injEq] at h
          rw [← h.1, List.length_append]; omega
        · rw [if_neg h0] at h
          have := ih _ _ h
          rw [List.length_append] at this
          omega

/-- **C149** So a `sequential_stream` on such an object is a source: all that is proved of sources holds for it. -/
theorem seq_source {com : Com β ω} (hl : ComLawful com) {rem : ω → List β} (hs : ComSource com rem) : IsSource (seqStream com) (fun s => rem s.1) := by
  have hprog : ∀ w m, m ≠ 0 → (com.read w m).1 = .sOk → (com.read w m).2.1 ≠ [] := by
    intro w m hm ho
    refine hs.more w m hm fun c => ?_
    rw [hs.fin w m hm c] at ho
    cases ho
  have hread : ∀ s n, ∃ d w1 st, (seqStream com).read s n = (d, w1, st) ∧ d.length ≤ n ∧ d ++ rem w1 = rem s.1 ∧
      (n ≠ 0 → rem s.1 ≠ [] → d ≠ []) ∧ st = if n ≠ 0 ∧ rem s.1 = [] then .eof else .ok := by
    intro s n
    cases h : seqRead com (n + 1) s.1 n with
    | none => exact absurd h (seq_read_ends hprog _ _ _ _ (by simp))
    | some r =>
      obtain ⟨d, w1, st⟩ := r
      refine ⟨d, w1, st, ?_, ?_⟩
      · show (match seqRead com (n + 1) s.1 n with | none => ([], s) | some (d, w, st) => (d, w, st)) = _
        rw [h]
      · obtain ⟨k1, w2, k2, k3⟩ := seq_read hl h
        have hr := k2.rem hs
        rcases k3 with ⟨q1, q2, rfl⟩ | ⟨rfl, ⟨w3, m, p, e, q1, q2, q3⟩, q4⟩ | ⟨⟨m, e, q1⟩, q2⟩
        · have hne : n ≠ 0 → d ≠ [] := fun h0 c => by rw [c] at q1; exact h0 q1.symm
          refine ⟨k1, hr, fun h0 _ => hne h0, ?_⟩
          rw [q2, if_neg]
          rintro ⟨h0, c⟩
          rw [← hr] at c
          exact hne h0 (List.append_eq_nil_iff.1 c).1
        · have hne : n ≠ 0 → rem s.1 ≠ [] → d ≠ [] := by
            intro h0 hrem c
            -- the first call delivered something
            unfold seqRead at h
            rw [seqReadLoop] at h
            have h1 := hs.more s.1 (min (n - ([] : List β).length) ulongMax) (by unfold ulongMax; simp; omega) hrem
            have hf := hs.nofail s.1 (min (n - ([] : List β).length) ulongMax)
            cases hx : com.read s.1 (min (n - ([] : List β).length) ulongMax) with
            | mk hr1 r2 =>
              obtain ⟨e', w'⟩ := r2
              rw [hx] at h h1 hf
              simp only at h1 hf
              cases hr1 with
              | failed => exact hf rfl
              | sFalse =>
                simp only [List.nil_append, Option.some.injEq, Prod.mk.injEq] at h
                exact h1 (h.1.trans c)
              | sOk =>
                simp only [List.nil_append] at h
                by_cases h2 : n - e'.length = 0
                · rw [if_pos h2] at h
                  simp only [Option.some.injEq, Prod.mk.injEq] at h
                  exact h1 (h.1.trans c)
                · rw [if_neg h2] at h
                  have := seqReadLoop_grows com n n e' w' h
                  rw [c] at this
                  exact h1 (List.length_eq_zero_iff.1 (Nat.le_zero.1 this))
          refine ⟨k1, hr, hne, ?_⟩
          rw [q4]
          by_cases h0 : d = [] ∧ n ≠ 0
          · have hrem : rem s.1 = [] := Classical.byContradiction fun c => hne h0.2 c h0.1
            rw [if_pos h0, if_pos ⟨h0.2, hrem⟩]
          · rw [if_neg h0, if_neg]
            rintro ⟨h1, c⟩
            rw [← hr] at c
            exact h0 ⟨(List.append_eq_nil_iff.1 c).1, h1⟩
        · exact absurd (by rw [q1]) (hs.nofail w2 m)
  refine ⟨?_, ?_, ?_, ?_, ?_⟩
  · intro s n
    obtain ⟨d, w1, st, h1, h2, h3, h4, h5⟩ := hread s n
    rw [h1]; exact h3
  · intro s n
    obtain ⟨d, w1, st, h1, h2, h3, h4, h5⟩ := hread s n
    rw [h1]; exact h2
  · intro s n hn hr
    obtain ⟨d, w1, st, h1, h2, h3, h4, h5⟩ := hread s n
    rw [h1]
    refine ⟨h4 hn hr, ?_⟩
    show st = .ok
    rw [h5, if_neg (fun c => hr c.2)]
  · intro s n hn hr
    obtain ⟨d, w1, st, h1, h2, h3, h4, h5⟩ := hread s n
    rw [h1]
    show st = .eof
    rw [h5, if_pos ⟨hn, hr⟩]
  · intro s
    left
    obtain ⟨d, w1, st, h1, h2, h3, h4, h5⟩ := hread s 0
    rw [h1]
    show st = .ok
    rw [h5, if_neg (fun c => c.1 rfl)]

/-! ### ASP requests and responses -/

theorem aspReadLoop_eq (a : Asp β ω) (n : Nat) : ∀ (fuel : Nat) (acc : List β) (w : ω),
    aspReadLoop a n fuel acc w = sysReadLoop a.req longMax n fuel acc w := by
  intro fuel
  induction fuel with
  | zero => intro d w; rfl
  | succ fuel ih =>
    intro acc w
    rw [aspReadLoop, sysReadLoop]
    show (match a.read w (min (n - acc.length) longMax) with | (none, w) => _ | (some d, w) => _) =
      (match a.read w (min (n - acc.length) longMax) with | (none, w) => _ | (some [], w) => _ | (some (b :: d), w) => _)
    cases a.read w (min (n - acc.length) longMax) with
    | mk x w2 =>
      cases x with
      | none =>
        simp only [Option.some.injEq, Prod.mk.injEq, true_and]
        by_cases h : acc.length = 0
        · rw [if_pos h, if_neg (by simpa using h)]
        · rw [if_neg h, if_pos h]
      | some d =>
        cases d with
        | nil =>
          simp only [List.length_nil, if_true, Option.some.injEq, Prod.mk.injEq, true_and]
          by_cases h : acc.length = 0 ∧ n ≠ 0
          · rw [if_pos h, if_neg (by simpa using h)]
          · rw [if_neg h, if_pos (by by_cases q : acc.length = 0; right; exact Classical.byContradiction fun c => h ⟨q, c⟩; exact Or.inl q)]
        | cons b d =>
          simp only [List.length_cons, Nat.add_one_ne_zero, if_false, ih]

theorem aspWriteLoop_eq (a : Asp β ω) (n : Nat) : ∀ (fuel : Nat) (d : List β) (w : ω),
    aspWriteLoop a n fuel d w = sysWriteLoop a.resp ulongMax n fuel d w := by
  intro fuel
  induction fuel with
  | zero => intro d w; rfl
  | succ fuel ih =>
    intro d w
    rw [aspWriteLoop, sysWriteLoop]
    have hw : a.resp.write w (d.take (min d.length ulongMax)) =
      (if (a.write w (d.take (min d.length ulongMax))).1 then some (d.take (min d.length ulongMax)).length else none, (a.write w (d.take (min d.length ulongMax))).2) := rfl
    rw [hw]
    cases h : a.write w (d.take (min d.length ulongMax)) with
    | mk x w2 =>
      cases x with
      | false => simp
      | true =>
        have : (d.take (min d.length ulongMax)).length = min d.length ulongMax := by rw [List.length_take]; omega
        simp only [if_true, this, ih]

theorem Asp.lawful_req {a : Asp β ω} (h : ∀ w n d, (a.read w n).1 = some d → d.length ≤ n) : OsLawful a.req :=
  ⟨h, (fun _ _ _ e => nomatch e)⟩

theorem Asp.lawful_resp (a : Asp β ω) : OsLawful a.resp :=
  ⟨(fun _ _ _ e => nomatch e), fun w d k e => by
    have : (if (a.write w d).1 then some d.length else none) = some k := e
    by_cases c : (a.write w d).1 = true
    · rw [if_pos c] at this; injection this with this; omega
    · rw [if_neg c] at this; cases this⟩

/-- **C149** `asp::read` comes to an end, whatever the request does; its data is exactly what the request delivered, nothing lost and in order. It is
all that was asked for, or the request has no more or failed; that is told by the state if there was no data before. Without a request it fails. -/
theorem asp_read {a : Asp β ω} (ha : ∀ w n d, (a.read w n).1 = some d → d.length ≤ n) {req : Bool} (w : ω) {n fuel : Nat} (hf : n < fuel) :
    ∃ d w1 st, aspRead a req fuel w n = some (d, w1, st) ∧ d.length ≤ n ∧
      ((req = false ∧ d = [] ∧ w1 = w ∧ st = .fail) ∨
        (req = true ∧ ((d.length = n ∧ st = .ok ∧ n ≠ 0 ∧ OsDelivers a.req w d w1) ∨
          ((d.length < n ∨ n = 0) ∧ ∃ w2, OsDelivers a.req w d w2 ∧ ((a.read w2 (min (n - d.length) longMax) = (none, w1) ∧ st = if d = [] then .fail else .ok) ∨
            (a.read w2 (min (n - d.length) longMax) = (some [], w1) ∧ st = if d = [] ∧ n ≠ 0 then .eof else .ok)))))) := by
  cases req with
  | false => exact ⟨[], w, .fail, rfl, Nat.zero_le _, Or.inl ⟨rfl, rfl, rfl, rfl⟩⟩
  | true =>
    obtain ⟨d, w1, st, h1, h2, h3⟩ := sys_read (Asp.lawful_req ha) (block := longMax) w hf
    refine ⟨d, w1, st, ?_, h2, Or.inr ⟨rfl, h3⟩⟩
    show aspReadLoop a n fuel [] w = _
    rw [aspReadLoop_eq]
    exact h1

/-- **C149** `asp::write` comes to an end: the response got all the bytes, in order (ok), or the first so many as it says and then failed. Without a
response it fails. -/
theorem asp_write {a : Asp β ω} {resp : Bool} (w : ω) (data : List β) {fuel : Nat} (hf : data.length < fuel) :
    ∃ c w1 st, aspWrite a resp fuel w data = some (c, w1, st) ∧ c ≤ data.length ∧
      ((resp = false ∧ c = 0 ∧ w1 = w ∧ st = .fail) ∨
        (resp = true ∧ ((c = data.length ∧ st = .ok ∧ OsAccepts a.resp w data w1) ∨
          (st = .fail ∧ ∃ w2, OsAccepts a.resp w (data.take c) w2 ∧ (a.write w2 ((data.drop c).take (min (data.length - c) ulongMax))) = (false, w1))))) := by
  cases resp with
  | false => exact ⟨0, w, .fail, rfl, Nat.zero_le _, Or.inl ⟨rfl, rfl, rfl, rfl⟩⟩
  | true =>
    have hp : ∀ w d, d ≠ [] → (a.resp.write w d).1 ≠ some 0 := by
      intro w d hd e
      have : (if (a.write w d).1 then some d.length else none) = some 0 := e
      by_cases c : (a.write w d).1 = true
      · rw [if_pos c] at this; injection this with this; exact hd (List.length_eq_zero_iff.1 this)
      · rw [if_neg c] at this; cases this
    have hne := sys_write_ends (os := a.resp) hp (block := ulongMax) (by decide) fuel data.length data w hf
    have heq : aspWrite a true fuel w data = sysWriteLoop a.resp ulongMax data.length fuel data w := aspWriteLoop_eq a data.length fuel data w
    cases h : sysWriteLoop a.resp ulongMax data.length fuel data w with
    | none => exact absurd h hne
    | some r =>
      obtain ⟨c, w1, st⟩ := r
      obtain ⟨k1, k2⟩ := sysWriteLoop_spec (os := a.resp) (block := ulongMax) (data := data) (w0 := w)
        a.lawful_resp fuel data w [] rfl (.nil w) h
      · refine ⟨c, w1, st, heq.trans h, k1, Or.inr ⟨rfl, ?_⟩⟩
        rcases k2 with k2 | ⟨k2, w2, k3, k4⟩
        · exact Or.inl k2
        · refine Or.inr ⟨k2, w2, k3, ?_⟩
          have : (if (a.write w2 ((data.drop c).take (min (data.length - c) ulongMax))).1 then some _ else none, (a.write w2 _).2) = (none, w1) := k4
          injection this with e1 e2
          by_cases q : (a.write w2 ((data.drop c).take (min (data.length - c) ulongMax))).1 = true
          · rw [if_pos q] at e1; cases e1
          · rw [← e2]; exact Prod.ext (by simpa using q) rfl

/-- **C149** `asp::close` ends the response, if there is one, and leaves the stream good; `asp::flush` flushes the response and tells if that
succeeded, and does nothing without one. -/
theorem asp_close_flush (a : Asp β ω) (s : ω × St) :
    aspClose a true s = (a.fin s.1, .ok) ∧ aspClose a false s = (s.1, .ok) ∧ aspFlush a false s = s ∧
    (aspFlush a true s).1 = (a.flush s.1).2 ∧ ((aspFlush a true s).2 = .ok ↔ (a.flush s.1).1 = true) ∧
    ((aspFlush a true s).2 = .fail ↔ (a.flush s.1).1 = false) := by
  refine ⟨rfl, rfl, rfl, rfl, ?_, ?_⟩ <;>
  · show (if (a.flush s.1).1 then St.ok else .fail) = _ ↔ _
    cases (a.flush s.1).1 <;> simp

/-! ### Examples -/

/-- An object that delivers at most two bytes at a time, and reports `S_FALSE` with less than that. -/
def demoCom {β : Type} : Com β (List β) :=
  ⟨fun w n => (if w.length < min n 2 then .sFalse else .sOk, w.take (min n 2), w.drop (min n 2)), fun w d => (some (min d.length 3), w ++ d.take 3)⟩

theorem demo_com {β : Type} : ComLawful (demoCom (β := β)) ∧ ComSource (demoCom (β := β)) id := by
  refine ⟨⟨fun w n => ?_, fun w d k h => ?_⟩, ⟨fun w n => List.take_append_drop _ _, fun w n => ?_, fun w n hn hr => ?_, fun w n hn hr => ?_⟩⟩
  · show (w.take (min n 2)).length ≤ n
    rw [List.length_take]; omega
  · have : some (min d.length 3) = some k := h
    injection this with this; omega
  · show (if w.length < min n 2 then Hr.sFalse else .sOk) ≠ .failed
    split <;> simp
  · show w.take (min n 2) ≠ []
    intro c
    have h1 := congrArg List.length c
    have h2 : 0 < w.length := List.length_pos_iff.2 hr
    rw [List.length_take, List.length_nil] at h1
    omega
  · show (if w.length < min n 2 then Hr.sFalse else .sOk) = .sFalse
    have h2 : w = [] := hr
    rw [h2, if_pos (by simp only [List.length_nil]; omega)]

example : seqRead (demoCom (β := Nat)) 9 [1, 2, 3, 4, 5] 4 = some ([1, 2, 3, 4], [5], .ok) ∧ seqRead (demoCom (β := Nat)) 9 [5] 4 = some ([5], [], .ok) ∧
    seqRead (demoCom (β := Nat)) 9 [] 4 = some ([], [], .eof) ∧ seqWrite (demoCom (β := Nat)) 9 [] [1, 2, 3, 4, 5] = some (5, [1, 2, 3, 4, 5], .ok) := by decide +kernel

/-- The object of `seq_read_hangs`. -/
example : seqRead (⟨fun w _ => (.sOk, [], w), fun w _ => (none, w)⟩ : Com Nat Unit) 100 () 1 = none :=
  seq_read_hangs (fun _ => rfl) 100 [] (by simp)

end Verif.Stream
