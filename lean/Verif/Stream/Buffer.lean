import Verif.Stream.Source
/-
Model of `stdex::stream::buffer` (include/stdex/stream.hpp 1391-1543) over an arbitrary stream.

The read buffer is represented by its unread part `data[head..tail)`, the write buffer by `head` and the
pending part `data[head..tail)`.  Loops carry a bound on the iterations, which is shown to suffice.
-/
namespace Verif.Stream
variable {β σ : Type}

/-- A stream recording the bytes it delivered and the bytes it accepted, otherwise like `S`. -/
def logged (S : Strm β σ) : Strm β (σ × List β × List β) where
  read s n := let r := S.read s.1 n; (r.1, (r.2, s.2.1 ++ r.1, s.2.2))
  write s d := let r := S.write s.1 d; (r.1, (r.2, s.2.1, s.2.2 ++ d.take r.1))
  close s := (S.close s.1, s.2)
  flush s := (S.flush s.1, s.2)
  state s := S.state s.1

/-- The members of `buffer`: `m_source`, the read buffer's unread bytes, head and pending bytes of the
write buffer, `m_state`. -/
structure Buf (β σ : Type) where
  src : σ
  rbuf : List β
  whead : Nat
  wpend : List β
  st : St

/-- The loop of `read`, 1426-1455: `acc` is what is already in the caller's memory, `length` what the
caller asked for. -/
def bufReadLoop (S : Strm β σ) (rcap length : Nat) : Nat → Buf β σ → List β → Nat → Option (List β × Buf β σ)
  | 0, _, _, _ => none
  | fuel + 1, b, acc, to_read =>
    let buffer_size := b.rbuf.length                                       -- 1427
    if to_read ≤ buffer_size then                                          -- 1428
      some (acc ++ b.rbuf.take to_read, { b with rbuf := b.rbuf.drop to_read, st := .ok })
    else
      let acc := acc ++ b.rbuf                                             -- 1434-1438
      let to_read := to_read - buffer_size
      if to_read > rcap then                                               -- 1440
        let r := S.read b.src to_read                                      -- 1443
        let to_read := to_read - r.1.length
        some (acc ++ r.1, { b with src := r.2, rbuf := [], st := if to_read < length then .ok else S.state r.2 })
      else
        let r := S.read b.src rcap                                         -- 1447
        let tail := r.1.length
        if tail < rcap ∧ tail < to_read then                               -- 1448
          let to_read := to_read - tail
          some (acc ++ r.1, { b with src := r.2, rbuf := [], st := if to_read < length then .ok else S.state r.2 })
        else bufReadLoop S rcap length fuel { b with src := r.2, rbuf := r.1 } acc to_read

/-- `read`, 1422-1456. -/
def bufRead (S : Strm β σ) (rcap : Nat) (b : Buf β σ) (length : Nat) : Option (List β × Buf β σ) :=
  bufReadLoop S rcap length 2 b [] length

/-- `flush_write`, 1509-1524. -/
def flushWrite (S : Strm β σ) (b : Buf β σ) : Buf β σ :=
  if b.wpend.length ≠ 0 then                                               -- 1511-1512
    let r := S.write b.src b.wpend                                         -- 1513
    if r.1 = b.wpend.length then { b with src := r.2, whead := 0, wpend := [], st := .ok }   -- 1514-1517, 1523
    else { b with src := r.2, whead := b.whead + r.1, wpend := b.wpend.drop r.1, st := S.state r.2 }   -- 1519
  else { b with st := .ok }

/-- The loop of `write`, 1471-1498: `d` is what `data` points to, of length `to_write`. -/
def bufWriteLoop (S : Strm β σ) (wcap length : Nat) : Nat → Buf β σ → List β → Option (Nat × Buf β σ)
  | 0, _, _ => none
  | fuel + 1, b, d =>
    let available := wcap - (b.whead + b.wpend.length)                     -- 1472
    if d.length ≤ available then                                           -- 1473
      some (length, { b with wpend := b.wpend ++ d, st := .ok })
    else
      let b := { b with wpend := b.wpend ++ d.take available }             -- 1479-1484
      let d := d.drop available
      let direct (b : Buf β σ) : Option (Nat × Buf β σ) :=                 -- 1493-1497
        if d.length > wcap then
          let r := S.write b.src d
          some (length - (d.length - r.1), { b with src := r.2, st := S.state r.2 })
        else bufWriteLoop S wcap length fuel b d
      if b.wpend.length ≠ 0 then                                           -- 1485-1486
        let r := S.write b.src b.wpend                                     -- 1487
        if r.1 = b.wpend.length then direct { b with src := r.2, whead := 0, wpend := [], st := S.state r.2 }
        else some (length - d.length,                                      -- 1491
          { b with src := r.2, whead := b.whead + r.1, wpend := b.wpend.drop r.1, st := S.state r.2 })
      else direct b

/-- `write`, 1458-1499. -/
def bufWrite (S : Strm β σ) (wcap : Nat) (b : Buf β σ) (d : List β) : Option (Nat × Buf β σ) :=
  if d.length = 0 then                                                     -- 1462
    let b := flushWrite S b
    if b.st ≠ .ok then some (0, b)
    else
      let r := S.write b.src []                                            -- 1467
      some (0, { b with src := r.2, st := S.state r.2 })
  else bufWriteLoop S wcap d.length 2 b d

/-- `flush`, 1501-1506. -/
def bufFlush (S : Strm β σ) (b : Buf β σ) : Buf β σ :=
  let b := flushWrite S b
  if b.st = .ok then let s := S.flush b.src; { b with src := s, st := S.state s } else b

/-- `stream::buffer` over a source. `close` is that of `converter` (1065-1069): it does not flush.
(The loops never exhaust their fuel, `bufRead_some`, `bufWrite_some`.) -/
def buffer (S : Strm β σ) (rcap wcap : Nat) : Strm β (Buf β σ) where
  read b n := (bufRead S rcap b n).getD ([], b)
  write b d := (bufWrite S wcap b d).getD (0, b)
  close b := let s := S.close b.src; { b with src := s, st := S.state s }
  flush b := bufFlush S b
  state b := b.st

/-- A new buffer (1410-1414). -/
def Buf.new (S : Strm β σ) (s : σ) : Buf β σ := ⟨s, [], 0, [], S.state s⟩

/-! ### Proofs -/

/-- What one `read` does, in general. -/
theorem bufRead_at (S : Strm β σ) (rcap : Nat) (b : Buf β σ) (hS : ∀ m, (S.read b.src m).1.length ≤ m) (n : Nat) :
    ∃ d b', bufRead S rcap b n = some (d, b') ∧ d.length ≤ n ∧ b'.whead = b.whead ∧ b'.wpend = b.wpend ∧
      ((n ≤ b.rbuf.length ∧ d ++ b'.rbuf = b.rbuf ∧ d.length = n ∧ b'.src = b.src ∧ b'.st = .ok) ∨
       (b.rbuf.length < n ∧ ∃ m, m ≠ 0 ∧
         b'.src = (S.read b.src m).2 ∧ d ++ b'.rbuf = b.rbuf ++ (S.read b.src m).1 ∧
         ((b.rbuf = [] ∧ (S.read b.src m).1 = [] ∧ b'.st = S.state (S.read b.src m).2) ∨
          (d ≠ [] ∧ b'.st = .ok)))) := by
  unfold bufRead
  rw [bufReadLoop]
  by_cases h1 : n ≤ b.rbuf.length
  · rw [if_pos h1]
    refine ⟨_, _, rfl, ?_, rfl, rfl, Or.inl ⟨h1, ?_, ?_, rfl, rfl⟩⟩
    · rw [List.nil_append, List.length_take]; omega
    · rw [List.nil_append]; exact List.take_append_drop _ _
    · rw [List.nil_append, List.length_take]; omega
  · rw [if_neg h1]
    simp only [List.nil_append]
    by_cases h2 : n - b.rbuf.length > rcap
    · rw [if_pos h2]
      have hl := hS (n - b.rbuf.length)
      refine ⟨_, _, rfl, by rw [List.length_append]; omega, rfl, rfl, Or.inr ⟨by omega, n - b.rbuf.length, by omega, rfl, by simp, ?_⟩⟩
      by_cases hz : b.rbuf.length = 0 ∧ (S.read b.src (n - b.rbuf.length)).1.length = 0
      · left
        refine ⟨List.length_eq_zero_iff.1 hz.1, List.length_eq_zero_iff.1 hz.2, ?_⟩
        simp only []
        rw [if_neg (by omega)]
      · right
        refine ⟨?_, ?_⟩
        · intro c
          have := congrArg List.length c
          rw [List.length_append, List.length_nil] at this
          omega
        · simp only []
          rw [if_pos (by omega)]
    · rw [if_neg h2]
      have hl := hS rcap
      by_cases h3 : (S.read b.src rcap).1.length < rcap ∧ (S.read b.src rcap).1.length < n - b.rbuf.length
      · rw [if_pos h3]
        refine ⟨_, _, rfl, by rw [List.length_append]; omega, rfl, rfl, Or.inr ⟨by omega, rcap, by omega, rfl, by simp, ?_⟩⟩
        by_cases hz : b.rbuf.length = 0 ∧ (S.read b.src rcap).1.length = 0
        · left
          refine ⟨List.length_eq_zero_iff.1 hz.1, List.length_eq_zero_iff.1 hz.2, ?_⟩
          simp only []
          rw [if_neg (by omega)]
        · right
          refine ⟨?_, ?_⟩
          · intro c
            have := congrArg List.length c
            rw [List.length_append, List.length_nil] at this
            omega
          · simp only []
            rw [if_pos (by omega)]
      · rw [if_neg h3, bufReadLoop, if_pos (by simp only []; omega)]
        refine ⟨_, _, rfl, ?_, rfl, rfl, Or.inr ⟨by omega, rcap, by omega, rfl, ?_, Or.inr ⟨?_, rfl⟩⟩⟩
        · rw [List.length_append, List.length_take]; omega
        · simp
        · intro c
          have := congrArg List.length c
          rw [List.length_append, List.length_take, List.length_nil] at this
          simp only [] at this
          omega

theorem bufRead_spec (S : Strm β σ) (hS : Lawful S) (rcap : Nat) (b : Buf β σ) (n : Nat) :
    ∃ d b', bufRead S rcap b n = some (d, b') ∧ d.length ≤ n ∧ b'.whead = b.whead ∧ b'.wpend = b.wpend ∧
      ((n ≤ b.rbuf.length ∧ d ++ b'.rbuf = b.rbuf ∧ d.length = n ∧ b'.src = b.src ∧ b'.st = .ok) ∨
       (b.rbuf.length < n ∧ ∃ m, m ≠ 0 ∧
         b'.src = (S.read b.src m).2 ∧ d ++ b'.rbuf = b.rbuf ++ (S.read b.src m).1 ∧
         ((b.rbuf = [] ∧ (S.read b.src m).1 = [] ∧ b'.st = S.state (S.read b.src m).2) ∨
          (d ≠ [] ∧ b'.st = .ok)))) :=
  bufRead_at S rcap b (hS.read_le b.src) n

theorem bufRead_some (S : Strm β σ) (hS : Lawful S) (rcap : Nat) (b : Buf β σ) (n : Nat) :
    bufRead S rcap b n = some ((buffer S rcap wcap).read b n) := by
  obtain ⟨d, b', h, _⟩ := bufRead_spec S hS rcap b n
  show _ = some ((bufRead S rcap b n).getD _)
  rw [h]; rfl

/-- What a stream did with the data handed to it in a list of calls: `acc` are the bytes accepted, in
order. -/
inductive Accepts (S : Strm β σ) : σ → List β → σ → Prop
  | refl (s) : Accepts S s [] s
  | step (s d acc s') : Accepts S (S.write s d).2 acc s' → Accepts S s (d.take (S.write s d).1 ++ acc) s'

/-- The write buffer is within its capacity, and reset when empty. -/
def Buf.Inv (wcap : Nat) (b : Buf β σ) : Prop :=
  b.whead + b.wpend.length ≤ wcap ∧ (b.wpend.length = 0 → b.whead = 0)

theorem Accepts.one (S : Strm β σ) (s : σ) (x : List β) (s' : σ) (e : s' = (S.write s x).2) :
    Accepts S s (x.take (S.write s x).1) s' := by
  subst e
  have := Accepts.step (S := S) s x [] _ (.refl _)
  rwa [List.append_nil] at this

theorem Accepts.trans {S : Strm β σ} {s s1 s2 : σ} {a c : List β} (h1 : Accepts S s a s1) (h2 : Accepts S s1 c s2) :
    Accepts S s (a ++ c) s2 := by
  induction h1 with
  | refl s => exact h2
  | step s d acc s' _ ih => rw [List.append_assoc]; exact .step s d _ _ (ih h2)

theorem flushWrite_spec (S : Strm β σ) (hS : Lawful S) (wcap : Nat) (b : Buf β σ) (hw : b.Inv wcap) :
    (flushWrite S b).rbuf = b.rbuf ∧ (flushWrite S b).Inv wcap ∧
      ∃ acc, Accepts S b.src acc (flushWrite S b).src ∧ acc ++ (flushWrite S b).wpend = b.wpend := by
  obtain ⟨hw, hi⟩ := hw
  unfold flushWrite
  split
  · have hl := hS.write_le b.src b.wpend
    simp only []
    split
    · rename_i h0 h1
      refine ⟨rfl, ⟨by simp, fun _ => rfl⟩, _, .one _ _ _ _ rfl, ?_⟩
      rw [h1, List.take_of_length_le (Nat.le_refl _), List.append_nil]
    · refine ⟨rfl, ⟨by simp only [List.length_drop]; omega, ?_⟩, _, .one _ _ _ _ rfl, List.take_append_drop _ _⟩
      simp only [List.length_drop]; intro _; omega
  · exact ⟨rfl, ⟨hw, hi⟩, [], .refl _, rfl⟩

/-- What one `write` does, in general: of the data it accepts a prefix, and that prefix is then behind the
data that was pending, either accepted by the destination or pending. -/
theorem bufWrite_spec (S : Strm β σ) (hS : Lawful S) (wcap : Nat) (b : Buf β σ) (d : List β)
    (hw0 : b.Inv wcap) :
    ∃ n b', bufWrite S wcap b d = some (n, b') ∧ n ≤ d.length ∧ b'.rbuf = b.rbuf ∧
      b'.Inv wcap ∧
      ∃ acc, Accepts S b.src acc b'.src ∧ acc ++ b'.wpend = b.wpend ++ d.take n := by
  obtain ⟨hw, hi⟩ := hw0
  unfold bufWrite
  by_cases hd : d.length = 0
  · have hdn := List.length_eq_zero_iff.1 hd
    subst hdn
    rw [if_pos List.length_nil]
    obtain ⟨f1, f2, acc, f3, f4⟩ := flushWrite_spec S hS wcap b ⟨hw, hi⟩
    by_cases hst : (flushWrite S b).st ≠ .ok
    · simp only []
      rw [if_pos hst]
      exact ⟨0, _, rfl, Nat.le_refl _, f1, f2, acc, f3, by rw [f4]; simp⟩
    · simp only []
      rw [if_neg hst]
      refine ⟨0, _, rfl, Nat.le_refl _, f1, f2, acc, ?_, by rw [f4]; simp⟩
      have := f3.trans (.one _ _ [] _ rfl)
      simpa using this
  · rw [if_neg hd, bufWriteLoop]
    by_cases h1 : d.length ≤ wcap - (b.whead + b.wpend.length)
    · rw [if_pos h1]
      refine ⟨_, _, rfl, Nat.le_refl _, rfl, ?_, [], .refl _, ?_⟩
      · refine ⟨?_, ?_⟩
        · simp only [List.length_append]; omega
        · simp only [List.length_append]; intro _; omega
      · rw [List.take_of_length_le (Nat.le_refl _)]; rfl
    · rw [if_neg h1]
      simp only []
      generalize hav : wcap - (b.whead + b.wpend.length) = av at *
      have hsplit := List.take_append_drop av d
      have hdl : (d.drop av).length = d.length - av := List.length_drop
      have htl : (d.take av).length = av := by rw [List.length_take]; omega
      have hl := hS.write_le b.src (b.wpend ++ d.take av)
      have hl2 : (b.wpend ++ d.take av).length = b.wpend.length + av := by rw [List.length_append, htl]
      have pre : ∀ m, m ≤ d.length - av → b.wpend ++ d.take av ++ (d.drop av).take m = b.wpend ++ d.take (av + m) := by
        intro m hm
        rw [List.append_assoc, List.take_add]
      by_cases h2 : (b.wpend ++ d.take av).length ≠ 0
      · rw [if_pos h2]
        by_cases h3 : (S.write b.src (b.wpend ++ d.take av)).1 = (b.wpend ++ d.take av).length
        · rw [if_pos h3]
          have a1 := Accepts.one S b.src (b.wpend ++ d.take av) _ rfl
          rw [h3, List.take_of_length_le (Nat.le_refl _)] at a1
          by_cases h4 : (d.drop av).length > wcap
          · rw [if_pos h4]
            have hl3 := hS.write_le (S.write b.src (b.wpend ++ d.take av)).2 (d.drop av)
            refine ⟨_, _, rfl, by omega, rfl, ⟨by simp, fun _ => rfl⟩, _, .step _ _ _ _ (.one _ _ (d.drop av) _ rfl), ?_⟩
            rw [h3, List.take_of_length_le (Nat.le_refl _)]
            simp only [List.append_nil]
            rw [pre _ (by omega)]
            congr 2
            omega
          · rw [if_neg h4, bufWriteLoop, if_pos (by simp only [List.length_nil]; omega)]
            refine ⟨_, _, rfl, Nat.le_refl _, rfl, ?_, _, a1, ?_⟩
            · refine ⟨?_, ?_⟩
              · simp only [List.nil_append]; omega
              · intro _; rfl
            · simp only [List.nil_append]
              rw [List.append_assoc, hsplit, List.take_of_length_le (Nat.le_refl _)]
        · rw [if_neg h3]
          refine ⟨_, _, rfl, by omega, rfl, ?_, _, .one _ _ _ _ rfl, ?_⟩
          · refine ⟨?_, ?_⟩
            · simp only [List.length_drop, hl2]; omega
            · simp only [List.length_drop, hl2]; intro _; omega
          · simp only []
            rw [List.take_append_drop]
            congr 2
            omega
      · rw [if_neg h2]
        have hav0 : av = 0 := by omega
        have hwp : b.wpend = [] := List.length_eq_zero_iff.1 (by omega)
        by_cases h4 : (d.drop av).length > wcap
        · rw [if_pos h4]
          have hl3 := hS.write_le b.src (d.drop av)
          refine ⟨_, _, rfl, by omega, rfl, ?_, _, .one _ _ (d.drop av) _ rfl, ?_⟩
          · refine ⟨?_, ?_⟩
            · simp only []; omega
            · intro _; simp only []; exact hi (by omega)
          · simp only [hwp, hav0, List.take_zero, List.append_nil, List.drop_zero, List.nil_append]
            congr 1
            have hl4 := hS.write_le b.src d
            omega
        · rw [if_neg h4]
          exfalso
          have := hi (by omega)
          omega

theorem bufWrite_some (S : Strm β σ) (hS : Lawful S) (rcap wcap : Nat) (b : Buf β σ) (d : List β) (hw : b.Inv wcap) :
    bufWrite S wcap b d = some ((buffer S rcap wcap).write b d) := by
  obtain ⟨n, b', h, _⟩ := bufWrite_spec S hS wcap b d hw
  show _ = some ((bufWrite S wcap b d).getD _)
  rw [h]; rfl

/-! ### The properties -/

/-- All bytes a caller got from its reads. -/
def readOut : List (Res β) → List β
  | [] => []
  | .read d _ :: r => d ++ readOut r
  | _ :: r => readOut r

/-- All bytes of a caller's writes that were reported as accepted. -/
def writeAcc : List (Op β) → List (Res β) → List β
  | .write d :: ops, .write n _ :: r => d.take n ++ writeAcc ops r
  | _ :: ops, _ :: r => writeAcc ops r
  | _, _ => []

theorem logged_lawful {S : Strm β σ} (hS : Lawful S) : Lawful (logged S) :=
  ⟨fun s n => hS.read_le s.1 n, fun s d => hS.write_le s.1 d⟩

theorem logged_accepts {S : Strm β σ} {s s' : σ × List β × List β} {acc : List β} (h : Accepts (logged S) s acc s') :
    s'.2.2 = s.2.2 ++ acc ∧ s'.2.1 = s.2.1 := by
  induction h with
  | refl s => simp
  | step s d acc s' _ ih =>
    refine ⟨?_, ih.2⟩
    rw [ih.1]
    show s.2.2 ++ d.take (S.write s.1 d).1 ++ acc = _
    rw [List.append_assoc]; rfl

theorem buffer_run (S : Strm β σ) (hS : Lawful S) (rcap wcap : Nat) :
    ∀ (ops : List (Op β)) (b : Buf β (σ × List β × List β)) (out0 acc0 : List β), b.Inv wcap →
      out0 ++ b.rbuf = b.src.2.1 → b.src.2.2 ++ b.wpend = acc0 →
      ((buffer (logged S) rcap wcap).run b ops).2.Inv wcap ∧
      out0 ++ readOut ((buffer (logged S) rcap wcap).run b ops).1 ++ ((buffer (logged S) rcap wcap).run b ops).2.rbuf =
        ((buffer (logged S) rcap wcap).run b ops).2.src.2.1 ∧
      ((buffer (logged S) rcap wcap).run b ops).2.src.2.2 ++ ((buffer (logged S) rcap wcap).run b ops).2.wpend =
        acc0 ++ writeAcc ops ((buffer (logged S) rcap wcap).run b ops).1 := by
  intro ops
  induction ops with
  | nil =>
    intro b out0 acc0 hi h1 h2
    exact ⟨hi, by simpa [Strm.run, readOut] using h1, by simpa [Strm.run, writeAcc] using h2⟩
  | cons op ops ih =>
    intro b out0 acc0 hi h1 h2
    have hL := logged_lawful hS
    cases op with
    | read n =>
      obtain ⟨d, b', e, _, g1, g2, g3⟩ := bufRead_spec (logged S) hL rcap b n
      have est : (buffer (logged S) rcap wcap).step b (.read n) = (.read d b'.st, b') := by
        have : (buffer (logged S) rcap wcap).read b n = (d, b') := by
          show (bufRead (logged S) rcap b n).getD _ = _
          rw [e]; rfl
        show (Res.read ((buffer (logged S) rcap wcap).read b n).1 ((buffer (logged S) rcap wcap).read b n).2.st,
          ((buffer (logged S) rcap wcap).read b n).2) = _
        rw [this]
      have hi' : b'.Inv wcap := by unfold Buf.Inv; rw [g1, g2]; exact hi
      obtain ⟨i1, i2, i3⟩ := ih b' (out0 ++ d) acc0 hi'
        (by
          rcases g3 with ⟨_, q1, _, q2, _⟩ | ⟨_, m, _, q1, q2, _⟩
          · rw [List.append_assoc, q1, q2, h1]
          · rw [List.append_assoc, q2, q1, ← List.append_assoc, h1]; rfl)
        (by
          rw [g2, ← h2]
          rcases g3 with ⟨_, _, _, q2, _⟩ | ⟨_, m, _, q1, _⟩
          · rw [q2]
          · rw [q1]; rfl)
      simp only [Strm.run, est]
      refine ⟨i1, ?_, i3⟩
      show out0 ++ (d ++ readOut _) ++ _ = _
      rw [← List.append_assoc, i2]
    | write d =>
      obtain ⟨n, b', e, _, g1, g2, acc, g3, g4⟩ := bufWrite_spec (logged S) hL wcap b d hi
      have est : (buffer (logged S) rcap wcap).step b (.write d) = (.write n b'.st, b') := by
        have : (buffer (logged S) rcap wcap).write b d = (n, b') := by
          show (bufWrite (logged S) wcap b d).getD _ = _
          rw [e]; rfl
        show (Res.write ((buffer (logged S) rcap wcap).write b d).1 ((buffer (logged S) rcap wcap).write b d).2.st,
          ((buffer (logged S) rcap wcap).write b d).2) = _
        rw [this]
      obtain ⟨l1, l2⟩ := logged_accepts g3
      obtain ⟨i1, i2, i3⟩ := ih b' out0 (acc0 ++ d.take n) g2 (by rw [g1, l2, h1])
        (by rw [l1, List.append_assoc, g4, ← List.append_assoc, h2])
      simp only [Strm.run, est]
      refine ⟨i1, i2, ?_⟩
      rw [i3]
      show acc0 ++ d.take n ++ _ = acc0 ++ (d.take n ++ _)
      rw [List.append_assoc]
    | close =>
      obtain ⟨i1, i2, i3⟩ := ih ((buffer (logged S) rcap wcap).close b) out0 acc0 hi h1 h2
      simp only [Strm.run, Strm.step]
      exact ⟨i1, i2, i3⟩
    | flush =>
      obtain ⟨f1, f2, acc, f3, f4⟩ := flushWrite_spec (logged S) hL wcap b hi
      obtain ⟨l1, l2⟩ := logged_accepts f3
      have key : ∀ b', b' = (buffer (logged S) rcap wcap).flush b → b'.Inv wcap ∧ out0 ++ b'.rbuf = b'.src.2.1 ∧
          b'.src.2.2 ++ b'.wpend = acc0 := by
        intro b' e
        have e : b' = bufFlush (logged S) b := e
        unfold bufFlush at e
        simp only [] at e
        split at e
        · subst e
          refine ⟨f2, ?_, ?_⟩
          · show out0 ++ (flushWrite (logged S) b).rbuf = (flushWrite (logged S) b).src.2.1
            rw [f1, l2, h1]
          · show (flushWrite (logged S) b).src.2.2 ++ (flushWrite (logged S) b).wpend = acc0
            rw [l1, List.append_assoc, f4, h2]
        · subst e
          refine ⟨f2, ?_, ?_⟩
          · rw [f1, l2, h1]
          · rw [l1, List.append_assoc, f4, h2]
      obtain ⟨k1, k2, k3⟩ := key _ rfl
      obtain ⟨i1, i2, i3⟩ := ih _ out0 acc0 k1 k2 k3
      simp only [Strm.run, Strm.step]
      exact ⟨i1, i2, i3⟩

/-- C35.  For every stream (with short and failing reads and writes), all buffer sizes and every history of
calls: what the source delivered is what the caller got followed by what is in the read buffer; and what
the caller was told is accepted is what the destination accepted followed by what is in the write buffer.
So nothing is lost, duplicated or reordered. -/
theorem buffer_exactly_once (S : Strm β σ) (hS : Lawful S) (rcap wcap : Nat) (s : σ) (ops : List (Op β)) :
    let r := (buffer (logged S) rcap wcap).run (Buf.new (logged S) (s, [], [])) ops
    r.2.src.2.1 = readOut r.1 ++ r.2.rbuf ∧
    writeAcc ops r.1 = r.2.src.2.2 ++ r.2.wpend := by
  obtain ⟨_, h1, h2⟩ := buffer_run S hS rcap wcap ops (Buf.new (logged S) (s, [], [])) [] []
    ⟨Nat.zero_le _, fun _ => rfl⟩ rfl rfl
  exact ⟨h1.symm, h2.symm⟩

theorem run_append (S : Strm β σ) (s : σ) (o1 o2 : List (Op β)) :
    S.run s (o1 ++ o2) = ((S.run s o1).1 ++ (S.run (S.run s o1).2 o2).1, (S.run (S.run s o1).2 o2).2) := by
  induction o1 generalizing s with
  | nil => rfl
  | cons op o1 ih => simp only [List.cons_append, Strm.run, ih]

/-- C35.  If the destination reports short writes by its state, then after a `flush` that leaves the
buffer in state ok everything accepted so far is at the destination. -/
theorem buffer_flush_delivers (S : Strm β σ) (hS : Lawful S)
    (hshort : ∀ s d, (S.write s d).1 < d.length → S.state (S.write s d).2 ≠ .ok)
    (rcap wcap : Nat) (s : σ) (ops : List (Op β)) :
    let r := (buffer (logged S) rcap wcap).run (Buf.new (logged S) (s, [], [])) (ops ++ [.flush])
    r.2.st = .ok → r.2.src.2.2 = writeAcc (ops ++ [.flush]) r.1 := by
  intro r hok
  obtain ⟨h1, h2⟩ := buffer_exactly_once S hS rcap wcap s (ops ++ [.flush])
  have hp : r.2.wpend = [] := by
    have e : r.2 = bufFlush (logged S) ((buffer (logged S) rcap wcap).run (Buf.new (logged S) (s, [], [])) ops).2 := by
      show ((buffer (logged S) rcap wcap).run _ (ops ++ [.flush])).2 = _
      rw [run_append]; rfl
    generalize ((buffer (logged S) rcap wcap).run (Buf.new (logged S) (s, [], [])) ops).2 = b at e
    generalize r.2 = q at e hok
    have hfw : (flushWrite (logged S) b).st = .ok → (flushWrite (logged S) b).wpend = [] := by
      unfold flushWrite
      split
      · simp only []
        split
        · intro _; rfl
        · rename_i hne
          intro ho
          have hl := hS.write_le b.src.1 b.wpend
          exact absurd ho (hshort b.src.1 b.wpend (Nat.lt_of_le_of_ne hl hne))
      · rename_i hz
        intro _
        exact List.length_eq_zero_iff.1 (Decidable.not_not.1 hz)
    unfold bufFlush at e
    simp only [] at e
    split at e
    · rename_i ho; subst e; exact hfw ho
    · rename_i ho; subst e; exact hfw hok
  have : writeAcc (ops ++ [.flush]) r.1 = r.2.src.2.2 ++ r.2.wpend := h2
  rw [this, hp, List.append_nil]

/-- C35.  A destination that accepts everything: every write through the buffer is accepted completely. -/
theorem buffer_accepts_all {S : Strm β σ} {got : σ → List β} (hr : Reliable S got) (rcap wcap : Nat)
    (b : Buf β σ) (d : List β) (hi : b.Inv wcap) :
    ((buffer S rcap wcap).write b d).1 = d.length ∧ ((buffer S rcap wcap).write b d).2.st = .ok := by
  have key : ∃ b', bufWrite S wcap b d = some (d.length, b') ∧ b'.st = .ok := by
    unfold bufWrite
    by_cases hd : d.length = 0
    · rw [if_pos hd]
      have hf : (flushWrite S b).st = .ok := by
        unfold flushWrite
        split
        · simp only []
          rw [if_pos (hr.all _ _)]
        · rfl
      simp only []
      rw [hf, if_neg (by decide), hd]
      exact ⟨_, rfl, hr.ok _ _⟩
    · rw [if_neg hd, bufWriteLoop]
      by_cases h1 : d.length ≤ wcap - (b.whead + b.wpend.length)
      · rw [if_pos h1]; exact ⟨_, rfl, rfl⟩
      · rw [if_neg h1]
        simp only []
        generalize hav : wcap - (b.whead + b.wpend.length) = av at *
        have hdl : (d.drop av).length = d.length - av := List.length_drop
        by_cases h2 : (b.wpend ++ d.take av).length ≠ 0
        · rw [if_pos h2, if_pos (hr.all _ _)]
          by_cases h4 : (d.drop av).length > wcap
          · rw [if_pos h4, hr.all, Nat.sub_self]
            exact ⟨_, rfl, hr.ok _ _⟩
          · rw [if_neg h4, bufWriteLoop, if_pos (by simp only [List.length_nil]; omega)]
            exact ⟨_, rfl, rfl⟩
        · rw [if_neg h2]
          rw [List.length_append, List.length_take] at h2
          by_cases h4 : (d.drop av).length > wcap
          · rw [if_pos h4, hr.all, Nat.sub_self]
            exact ⟨_, rfl, hr.ok _ _⟩
          · exfalso
            have := hi.2 (by omega)
            omega
  obtain ⟨b', e, e2⟩ := key
  have : (buffer S rcap wcap).write b d = (d.length, b') := by
    show (bufWrite S wcap b d).getD _ = _
    rw [e]; rfl
  rw [this]
  exact ⟨rfl, e2⟩

/-- C35.  A reachable buffer satisfies the invariant that `buffer_accepts_all` asks for. -/
theorem buffer_inv (S : Strm β σ) (hS : Lawful S) (rcap wcap : Nat) (s : σ) (ops : List (Op β)) :
    ((buffer (logged S) rcap wcap).run (Buf.new (logged S) (s, [], [])) ops).2.Inv wcap :=
  (buffer_run S hS rcap wcap ops (Buf.new (logged S) (s, [], [])) [] [] ⟨Nat.zero_le _, fun _ => rfl⟩ rfl rfl).1

/-- C35.  Over a well-behaved source the buffer is a well-behaved source with the same contents, whatever
its size. -/
theorem buffer_isSource {S : Strm β σ} (hS : Lawful S) {rem : σ → List β} (h : IsSource S rem) (rcap wcap : Nat) :
    IsSource (buffer S rcap wcap) (fun b => b.rbuf ++ rem b.src) := by
  have key : ∀ (b : Buf β σ) (n : Nat), bufRead S rcap b n = some ((buffer S rcap wcap).read b n) :=
    fun b n => bufRead_some S hS rcap b n
  have rd : ∀ (b : Buf β σ) (n : Nat) (d : List β) (b' : Buf β σ), bufRead S rcap b n = some (d, b') →
      (buffer S rcap wcap).read b n = (d, b') := by
    intro b n d b' e
    have := key b n
    rw [e] at this
    exact (Option.some.inj this).symm
  refine ⟨?_, ?_, ?_, ?_, ?_⟩
  · intro b n
    obtain ⟨d, b', e, _, _, _, g⟩ := bufRead_spec S hS rcap b n
    rw [rd _ _ _ _ e]
    show d ++ (b'.rbuf ++ rem b'.src) = _
    rw [← List.append_assoc]
    rcases g with ⟨_, q1, _, q2, _⟩ | ⟨_, m, _, q1, q2, _⟩
    · rw [q1, q2]
    · rw [q2, q1, List.append_assoc, h.split]
  · intro b n
    obtain ⟨d, b', e, hl, _⟩ := bufRead_spec S hS rcap b n
    rw [rd _ _ _ _ e]; exact hl
  · intro b n hn hr
    obtain ⟨d, b', e, hl, _, _, g⟩ := bufRead_spec S hS rcap b n
    rw [rd _ _ _ _ e]
    rcases g with ⟨_, _, q, _, q2⟩ | ⟨_, m, hm, q1, q2, q3⟩
    · refine ⟨?_, q2⟩
      intro c
      have c : d = [] := c
      rw [c, List.length_nil] at q; omega
    · rcases q3 with ⟨z1, z2, _⟩ | q3
      · exfalso
        have : rem b.src ≠ [] := by rw [z1, List.nil_append] at hr; exact hr
        exact (h.more b.src m hm this).1 z2
      · exact q3
  · intro b n hn hr
    obtain ⟨d, b', e, hl, _, _, g⟩ := bufRead_spec S hS rcap b n
    obtain ⟨hr1, hr2⟩ := List.append_eq_nil_iff.1 hr
    rw [rd _ _ _ _ e]
    show b'.st = _
    rcases g with ⟨q, _⟩ | ⟨_, m, hm, q1, q2, q3⟩
    · rw [hr1, List.length_nil] at q; omega
    · have z : (S.read b.src m).1 = [] := by
        have := h.split b.src m
        rw [hr2] at this
        exact (List.append_eq_nil_iff.1 this).1
      rcases q3 with ⟨_, _, q⟩ | ⟨q, _⟩
      · rw [q]; exact h.eof b.src m hm hr2
      · rw [hr1, z] at q2
        exact absurd (List.append_eq_nil_iff.1 q2).1 q
  · intro b
    obtain ⟨d, b', e, hl, _, _, g⟩ := bufRead_spec S hS rcap b 0
    rw [rd _ _ _ _ e]
    rcases g with ⟨_, _, _, _, q⟩ | ⟨q, _⟩
    · exact Or.inl q
    · omega

/-- `close` does not flush: data the caller was told is accepted is still in the buffer after closing
the destination. -/
theorem buffer_close_keeps_data :
    let r := (buffer (logged (pipe 5 : Strm Nat _)) 4 4).run (Buf.new (logged (pipe 5)) (([], [], .ok), [], [])) [.write [1, 2, 3], .close]
    (r.2.src.2.2, r.2.wpend, r.2.st) = ([], [1, 2, 3], .ok) := by decide +kernel

example :
    let ops : List (Op Nat) := [.read 2, .write [7, 8, 9], .read 1, .write [4, 5, 6], .read 9, .flush, .read 1]
    let r := (buffer (logged (pipe 3 : Strm Nat _)) 4 4).run (Buf.new (logged (pipe 3)) (([1, 2, 3, 4, 5], [], .ok), [], [])) ops
    (readOut r.1, r.2.rbuf, r.2.src.2.2, writeAcc ops r.1) = ([1, 2, 3, 4, 5], [], [7, 8, 9, 4, 5, 6], [7, 8, 9, 4, 5, 6]) := by
  decide +kernel

end Verif.Stream
