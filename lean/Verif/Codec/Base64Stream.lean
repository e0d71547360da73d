import Verif.Codec.Base64Props
/-!
# Model of `base64_writer` and `base64_reader` (base64.hpp 174-269, 379-457), property C10

The stream below the writer is a sink that accepts all characters (`room = none`) or only
a given number more (`room = some k`), each write setting the state; the stream below the
reader is the list of the bytes it still has to deliver, end of file after that.
-/
namespace Verif.B64

/-! ## Model: writer -/

/-- The stream below the writer (external): text received, room left, `ok()`. -/
structure Sink where
  out : List Nat
  room : Option Nat
  ok : Bool
deriving DecidableEq, Repr

/-- `write` of the stream below: appends what fits; the state is ok iff everything fit. -/
def Sink.write (s : Sink) (cs : List Nat) : Sink :=
  match s.room with
  | none => { s with out := s.out ++ cs, ok := true }
  | some r => ⟨s.out ++ cs.take r, some (r - cs.length), decide (cs.length ≤ r)⟩

/-- `*m_source << '\n'`, i.e. `write_data`: does nothing if the state is not ok
(stream.hpp 293-304). -/
def Sink.newline (s : Sink) : Sink := if s.ok then s.write [10] else s

/-- `base64_writer`, base64.hpp 174-181, 266-268 (the base class `base64_enc` and the two
block counters) with the sink `m_source`. -/
structure Writer where
  enc : Enc
  maxBlocks : Nat
  numBlocks : Nat
  sink : Sink

/-- Constructor, base64.hpp 177-181. -/
def Writer.init (maxBlocks : Nat) (sink : Sink) : Writer := ⟨Enc.init, maxBlocks, 0, sink⟩

/-- Lines 187-190 and 201-204: count a block, breaking the line before it if necessary. -/
def Writer.countBlock (w : Writer) : Writer :=
  if w.numBlocks + 1 > w.maxBlocks then { w with numBlocks := 1, sink := w.sink.newline }
  else { w with numBlocks := w.numBlocks + 1 }

/-- Lines 200-209: flush a full buffer (without `m_num = 0`, line 210). -/
def Writer.flushBlock (w : Writer) : Writer :=
  let w := w.countBlock
  { w with sink := w.sink.write w.enc.block }

/-- Destructor, base64.hpp 183-193. -/
def Writer.destroy (w : Writer) : Sink :=
  if w.enc.num ≠ 0 then
    let w := w.countBlock
    w.sink.write (w.enc.blockN w.enc.num)
  else w.sink

/-- Loop of `write`, base64.hpp 199-217.  `i` is the loop counter; result: the writer, the
returned count and the writer's `ok()`. -/
def Writer.writeLoop (w : Writer) (len i : Nat) : List UInt8 → Writer × Nat × Bool
  | [] =>
    if w.enc.num ≥ 3 then
      let w := w.flushBlock
      if !w.sink.ok then (w, len - i, false)
      else ({ w with enc := { w.enc with num := 0 } }, len, true)
    else (w, len, true)
  | x :: xs =>
    if w.enc.num ≥ 3 then
      let w := w.flushBlock
      if !w.sink.ok then (w, len - i, false)
      else Writer.writeLoop { w with enc := Enc.put { w.enc with num := 0 } x } len (i + 1) xs
    else Writer.writeLoop { w with enc := w.enc.put x } len (i + 1) xs

/-- `write`, base64.hpp 195-218. -/
def Writer.write (w : Writer) (data : List UInt8) : Writer × Nat × Bool :=
  w.writeLoop data.length 0 data

/-- The text that reaches the stream when `chunks` are written one after the other
and the writer is destroyed. -/
def Writer.session (w : Writer) : List (List UInt8) → Sink
  | [] => w.destroy
  | c :: cs => Writer.session (w.write c).1 cs

/-! ## Model: reader -/

/-- `base64_reader`: the `base64_dec` part, the bytes `m_temp[m_temp_off .. +m_temp_len)`
and what the source has still to deliver. -/
structure Reader where
  dec : Dec
  temp : List UInt8
  src : List Nat
deriving DecidableEq, Repr

/-- Constructor, base64.hpp 382-386. -/
def Reader.init (src : List Nat) : Reader := ⟨Dec.init, [], src⟩

/-- Result of `read`: the bytes counted by the return value, and `ok()`. -/
structure ReadRes where
  reader : Reader
  got : List UInt8
  ok : Bool
deriving DecidableEq, Repr

/-- Lines 408-429 followed by lines 394-407 of the next round, one source byte per step
(`m_num < 4` on entry).  `toRead` is `to_read`, `got` the bytes counted so far.
Lines 420-428 are followed literally: `m_temp_len` is set to 0 *before* it is subtracted
from `to_read`, so the bytes copied there are not counted. -/
def readFill (d : Dec) (toRead : Nat) (got : List UInt8) : List Nat → ReadRes
  | [] => ⟨⟨d, [], []⟩, got, false⟩
  | x :: xs =>
    let d' := d.put x
    if d'.num < 4 then readFill d' toRead got xs
    else
      let temp := d'.block
      let d0 := { d' with num := 0 }
      if temp.length < 3 ∧ toRead ≥ 3 then ⟨⟨d0, [], xs⟩, got, true⟩
      else if temp.length ≥ toRead then ⟨⟨d0, temp.drop toRead, xs⟩, got ++ temp.take toRead, true⟩
      else readFill d0 (toRead - temp.length) (got ++ temp) xs

/-- `read(data, length)`, base64.hpp 389-430. -/
def Reader.read (r : Reader) (length : Nat) : ReadRes :=
  if r.temp.length ≥ length then
    ⟨{ r with temp := r.temp.drop length }, r.temp.take length, true⟩
  else readFill r.dec (length - r.temp.length) r.temp r.src

/-- Successive reads: for each the counted bytes and `ok()`. -/
def Reader.session (r : Reader) : List Nat → List (List UInt8 × Bool)
  | [] => []
  | n :: ns =>
    let res := r.read n
    (res.got, res.ok) :: Reader.session res.reader ns

/-! ## Specification -/

/-- Reading `data` from a stream: each request gets the next bytes, ok iff all of them
were available. -/
def readSpec (data : List UInt8) : List Nat → List (List UInt8 × Bool)
  | [] => []
  | n :: ns => (data.take n, decide (n ≤ data.length)) :: readSpec (data.drop n) ns

/-- All lines (separated by code 10) of `t` have at most `k` characters, `cur` characters
of the current line having been seen. -/
def LinesLe (k : Nat) : Nat → List Nat → Prop
  | cur, [] => cur ≤ k
  | cur, c :: cs => if c = 10 then cur ≤ k ∧ LinesLe k 0 cs else LinesLe k (cur + 1) cs

/-! ## Lemmas: writer -/

def unlimited (w : Writer) : Prop := w.sink.room = none ∧ w.sink.ok = true

theorem filter_nl : [10].filter isB64 = [] := by decide

theorem sink_write {s : Sink} (h : s.room = none) (cs : List Nat) :
    (s.write cs).room = none ∧ (s.write cs).ok = true ∧ (s.write cs).out = s.out ++ cs := by
  simp [Sink.write, h]

theorem countBlock_spec {w : Writer} (h : unlimited w) :
    unlimited w.countBlock ∧ w.countBlock.enc = w.enc ∧ w.countBlock.maxBlocks = w.maxBlocks ∧
    w.countBlock.sink.out.filter isB64 = w.sink.out.filter isB64 := by
  obtain ⟨h1, h2⟩ := h
  unfold Writer.countBlock
  split
  · obtain ⟨a, b, c⟩ := sink_write h1 [10]
    simp [unlimited, Sink.newline, h2, a, b, c, filter_nl]
  · simp [unlimited, h1, h2]

theorem filter_rfc (xs : List UInt8) : (rfc4648 xs).filter isB64 = rfc4648 xs :=
  List.filter_eq_self.mpr (rfc_isB64 xs)

theorem flushBlock_spec {w : Writer} (h : unlimited w) (h3 : w.enc.num = 3) :
    unlimited w.flushBlock ∧ w.flushBlock.enc = w.enc ∧ w.flushBlock.maxBlocks = w.maxBlocks ∧
    w.flushBlock.sink.out.filter isB64 = w.sink.out.filter isB64 ++ rfc4648 w.enc.carry := by
  obtain ⟨h1, h2, h4, h5⟩ := countBlock_spec h
  obtain ⟨a, b, c⟩ := sink_write h1.1 w.countBlock.enc.block
  refine ⟨⟨a, b⟩, h2, h4, ?_⟩
  simp only [Writer.flushBlock]
  rw [c, List.filter_append, h5, h2, block_rfc]
  congr 1
  rw [filter_rfc]; simp [Enc.carry, h3]

/-- Abstraction: text so far (noise removed) followed by the encoding of the carry is the
encoding of all the data accepted so far. -/
theorem writeLoop_spec (data : List UInt8) : ∀ (w : Writer) (len i : Nat) (done : List UInt8),
    unlimited w → w.enc.num ≤ 3 → done.length % 3 = 0 → w.sink.out.filter isB64 = rfc4648 done →
    ∃ done', unlimited (w.writeLoop len i data).1 ∧ (w.writeLoop len i data).1.enc.num < 3 ∧
      (w.writeLoop len i data).1.maxBlocks = w.maxBlocks ∧
      done'.length % 3 = 0 ∧ (w.writeLoop len i data).1.sink.out.filter isB64 = rfc4648 done' ∧
      done' ++ (w.writeLoop len i data).1.enc.carry = done ++ w.enc.carry ++ data ∧
      (w.writeLoop len i data).2 = (len, true) := by
  induction data with
  | nil =>
    intro w len i done hu hn hd hf
    by_cases h : w.enc.num ≥ 3
    · have h3 : w.enc.num = 3 := by omega
      obtain ⟨f1, f2, f3, f4⟩ := flushBlock_spec hu h3
      have hok := f1.2
      refine ⟨done ++ w.enc.carry, ?_, ?_, ?_, ?_, ?_, ?_, ?_⟩ <;>
        try simp only [Writer.writeLoop, h, if_true, hok, Bool.not_true, Bool.false_eq_true, if_false]
      · exact f1
      · simp
      · exact f3
      · simp [carry_length hn, h3]; omega
      · rw [f4, hf, rfc_append _ _ hd]
      · simp [Enc.carry]
    · refine ⟨done, ?_, ?_, ?_, hd, ?_, ?_, ?_⟩ <;> simp only [Writer.writeLoop, h, if_false]
      · exact hu
      · omega
      · exact hf
      · simp
  | cons x xs ih =>
    intro w len i done hu hn hd hf
    by_cases h : w.enc.num ≥ 3
    · have h3 : w.enc.num = 3 := by omega
      obtain ⟨f1, f2, f3, f4⟩ := flushBlock_spec hu h3
      have hok := f1.2
      obtain ⟨p1, p2⟩ := put_carry (e := { w.flushBlock.enc with num := 0 }) (by simp) x
      have e0 : Enc.carry { w.flushBlock.enc with num := 0 } = [] := by simp [Enc.carry]
      obtain ⟨done', a1, a2, a3, a4, a5, a6, a7⟩ := ih
        { w.flushBlock with enc := Enc.put { w.flushBlock.enc with num := 0 } x } len (i + 1)
        (done ++ w.enc.carry) f1 (by rw [p2]; simp) (by simp [carry_length hn, h3]; omega)
        (by rw [f4, hf, rfc_append _ _ hd])
      refine ⟨done', ?_, ?_, ?_, a4, ?_, ?_, ?_⟩ <;>
        simp only [Writer.writeLoop, h, if_true, hok, Bool.not_true, Bool.false_eq_true, if_false]
      · exact a1
      · exact a2
      · rw [a3]; exact f3
      · exact a5
      · rw [a6, p1, e0]; simp
      · exact a7
    · obtain ⟨p1, p2⟩ := put_carry (e := w.enc) (by omega) x
      obtain ⟨done', a1, a2, a3, a4, a5, a6, a7⟩ := ih { w with enc := w.enc.put x } len (i + 1) done
        hu (by simp [p2]; omega) hd hf
      refine ⟨done', ?_, ?_, ?_, a4, ?_, ?_, ?_⟩ <;> simp only [Writer.writeLoop, h, if_false]
      · exact a1
      · exact a2
      · exact a3
      · exact a5
      · rw [a6, p1]; simp
      · exact a7

theorem destroy_spec {w : Writer} {done : List UInt8} (hu : unlimited w) (hn : w.enc.num < 3)
    (hd : done.length % 3 = 0) (hf : w.sink.out.filter isB64 = rfc4648 done) :
    w.destroy.out.filter isB64 = rfc4648 (done ++ w.enc.carry) := by
  unfold Writer.destroy
  split
  · obtain ⟨h1, h2, h4, h5⟩ := countBlock_spec hu
    obtain ⟨a, b, c⟩ := sink_write h1.1 (w.countBlock.enc.blockN w.countBlock.enc.num)
    simp only
    rw [c, List.filter_append, h5, hf, h2, blockN_rfc _ (by omega), filter_rfc, rfc_append _ _ hd]
  · rename_i h
    have : w.enc.carry = [] := by simp at h; simp [Enc.carry, h]
    rw [hf, this, List.append_nil]

theorem wsession_spec (chunks : List (List UInt8)) : ∀ (w : Writer) (done : List UInt8),
    unlimited w → w.enc.num < 3 → done.length % 3 = 0 → w.sink.out.filter isB64 = rfc4648 done →
    (w.session chunks).out.filter isB64 = rfc4648 (done ++ w.enc.carry ++ chunks.flatten) := by
  induction chunks with
  | nil => intro w done hu hn hd hf; simpa [Writer.session] using destroy_spec hu hn hd hf
  | cons c cs ih =>
    intro w done hu hn hd hf
    obtain ⟨done', a1, a2, a3, a4, a5, a6, a7⟩ := writeLoop_spec c w c.length 0 done hu (by omega) hd hf
    have := ih (w.write c).1 done' a1 a2 a4 a5
    simp only [Writer.session]
    rw [this, Writer.write, a6]; simp

/-! Line lengths -/

/-- Length of the current (last) line. -/
def lastRun : Nat → List Nat → Nat
  | cur, [] => cur
  | cur, c :: cs => if c = 10 then lastRun 0 cs else lastRun (cur + 1) cs

theorem lastRun_append_nl (cur : Nat) (a : List Nat) : lastRun cur (a ++ [10]) = 0 := by
  induction a generalizing cur with
  | nil => simp [lastRun]
  | cons c cs ih => simp only [List.cons_append, lastRun]; split <;> exact ih _

theorem lastRun_append (a b : List Nat) (hb : ∀ c ∈ b, c ≠ 10) :
    ∀ cur, lastRun cur (a ++ b) = lastRun cur a + b.length := by
  induction a with
  | nil =>
    simp only [List.nil_append]
    induction b with
    | nil => simp [lastRun]
    | cons x xs ih =>
      intro cur
      simp only [lastRun, hb x (by simp), if_false]
      rw [ih (fun c hc => hb c (by simp [hc]))]; simp [lastRun]; omega
  | cons c cs ih => intro cur; simp only [List.cons_append, lastRun]; split <;> exact ih _

theorem linesLe_app (k : Nat) (a b : List Nat) (hb : ∀ c ∈ b, c ≠ 10) : ∀ cur,
    LinesLe k cur a → lastRun cur a + b.length ≤ k → LinesLe k cur (a ++ b) := by
  induction a with
  | nil =>
    simp only [List.nil_append]
    induction b with
    | nil => simp [LinesLe, lastRun]
    | cons x xs ih =>
      intro cur _ h
      simp only [LinesLe, hb x (by simp), if_false]
      simp [lastRun] at h
      exact ih (fun c hc => hb c (by simp [hc])) (cur + 1) (by simp [LinesLe]; omega)
        (by simp [lastRun]; omega)
  | cons c cs ih =>
    intro cur h1 h2
    simp only [List.cons_append, LinesLe, lastRun] at h1 h2 ⊢
    split
    · rename_i hc; simp only [hc, if_true] at h1 h2; exact ⟨h1.1, ih 0 h1.2 h2⟩
    · rename_i hc; simp only [hc, if_false] at h1 h2; exact ih _ h1 h2

theorem linesLe_nl (k : Nat) (a : List Nat) : ∀ cur, LinesLe k cur a → LinesLe k cur (a ++ [10]) := by
  induction a with
  | nil => intro cur h; simpa [LinesLe] using h
  | cons c cs ih =>
    intro cur h
    simp only [List.cons_append, LinesLe] at h ⊢
    split
    · rename_i hc; simp only [hc, if_true] at h; exact ⟨h.1, ih 0 h.2⟩
    · rename_i hc; simp only [hc, if_false] at h; exact ih _ h

def LineInv (w : Writer) : Prop :=
  unlimited w ∧ 1 ≤ w.maxBlocks ∧ w.numBlocks ≤ w.maxBlocks ∧
  LinesLe (4 * w.maxBlocks) 0 w.sink.out ∧ lastRun 0 w.sink.out = 4 * w.numBlocks

theorem block_no_nl (xs : List UInt8) : ∀ c ∈ rfc4648 xs, c ≠ 10 := by
  intro c hc h; subst h
  exact absurd (rfc_isB64 xs 10 hc) (by decide)

/-- Adding one counted block of four characters keeps the line invariant. -/
theorem lineInv_block {w : Writer} (h : LineInv w) (xs : List UInt8) (hx : (rfc4648 xs).length = 4) :
    LineInv { w.countBlock with sink := w.countBlock.sink.write (rfc4648 xs) } := by
  obtain ⟨hu, h1, h2, h3, h4⟩ := h
  have hnl := block_no_nl xs
  obtain ⟨c1, _, c3, _⟩ := countBlock_spec hu
  obtain ⟨a, b, c⟩ := sink_write c1.1 (rfc4648 xs)
  refine ⟨⟨a, b⟩, by simpa [c3] using h1, ?_, ?_, ?_⟩
  · simp only [c3]; unfold Writer.countBlock; split <;> simp <;> omega
  · simp only [c3]
    rw [c]
    unfold Writer.countBlock
    split
    · obtain ⟨_, _, c'⟩ := sink_write hu.1 [10]
      simp only [Sink.newline, hu.2, if_true, c']
      apply linesLe_app _ _ _ hnl
      · exact linesLe_nl _ _ _ h3
      · rw [lastRun_append_nl, hx]; omega
    · simp only
      apply linesLe_app _ _ _ hnl _ h3
      rw [h4, hx]; omega
  · rw [c, lastRun_append _ _ hnl]
    unfold Writer.countBlock
    split
    · obtain ⟨_, _, c'⟩ := sink_write hu.1 [10]
      simp only [Sink.newline, hu.2, if_true, c', lastRun_append_nl, hx]
    · simp only [h4, hx]; omega

theorem lineInv_flush {w : Writer} (h : LineInv w) (e : Enc) :
    LineInv { w.flushBlock with enc := e } := by
  have hb : w.countBlock.enc.block = rfc4648 [w.countBlock.enc.b0, w.countBlock.enc.b1, w.countBlock.enc.b2] :=
    block_rfc _
  have := lineInv_block h [w.countBlock.enc.b0, w.countBlock.enc.b1, w.countBlock.enc.b2]
    (by rw [rfc_length]; simp)
  rw [← hb] at this
  exact this

theorem writeLoop_lines (data : List UInt8) : ∀ (w : Writer) (len i : Nat), LineInv w →
    LineInv (w.writeLoop len i data).1 := by
  induction data with
  | nil =>
    intro w len i h
    have hok : w.flushBlock.sink.ok = true := (lineInv_flush h w.enc).1.2
    simp only [Writer.writeLoop]
    split
    · simp only [hok, Bool.not_true, Bool.false_eq_true, if_false]; exact lineInv_flush h _
    · exact h
  | cons x xs ih =>
    intro w len i h
    have hok : w.flushBlock.sink.ok = true := (lineInv_flush h w.enc).1.2
    simp only [Writer.writeLoop]
    split
    · simp only [hok, Bool.not_true, Bool.false_eq_true, if_false]
      exact ih _ _ _ (lineInv_flush h _)
    · exact ih _ _ _ h

theorem session_lines (chunks : List (List UInt8)) : ∀ (w : Writer) (done : List UInt8), LineInv w →
    w.enc.num < 3 → done.length % 3 = 0 → w.sink.out.filter isB64 = rfc4648 done →
    LinesLe (4 * w.maxBlocks) 0 (w.session chunks).out := by
  induction chunks with
  | nil =>
    intro w done h hn _ _
    simp only [Writer.session, Writer.destroy]
    split
    · rename_i h0
      have he := (countBlock_spec h.1).2.1
      have hm := (countBlock_spec h.1).2.2.1
      have hb := blockN_rfc w.countBlock.enc (by rw [he]; omega)
      rw [hb]
      have := (lineInv_block h w.countBlock.enc.carry (by
        rw [rfc_length, carry_length (by rw [he]; omega), he]; omega)).2.2.2.1
      simpa [hm] using this
    · exact h.2.2.2.1
  | cons c cs ih =>
    intro w done h hn hd hf
    obtain ⟨done', a1, a2, a3, a4, a5, a6, a7⟩ := writeLoop_spec c w c.length 0 done h.1 (by omega) hd hf
    have := ih (w.write c).1 done' (writeLoop_lines c w _ _ h) a2 a4 a5
    simp only [Writer.write, a3] at this
    exact this

/-! Where the lines are broken -/

/-- `t` with line breaks (code 10): a break is put before a character if and only if the current line, which has `cur` characters already, has `k` of them. -/
def wrapAt (k : Nat) : Nat → List Nat → List Nat
  | _, [] => []
  | cur, c :: cs => if cur = k then 10 :: c :: wrapAt k 1 cs else c :: wrapAt k (cur + 1) cs

/-- Length of the last line of `wrapAt`. -/
def wrapCur (k : Nat) : Nat → List Nat → Nat
  | cur, [] => cur
  | cur, _ :: cs => if cur = k then wrapCur k 1 cs else wrapCur k (cur + 1) cs

theorem wrapAt_append (k : Nat) : ∀ (a b : List Nat) (cur : Nat), wrapAt k cur (a ++ b) = wrapAt k cur a ++ wrapAt k (wrapCur k cur a) b
  | [], _, _ => rfl
  | c :: cs, b, cur => by
    simp only [List.cons_append, wrapAt, wrapCur]
    split <;> simp [wrapAt_append k cs b]

theorem wrapCur_append (k : Nat) : ∀ (a b : List Nat) (cur : Nat), wrapCur k cur (a ++ b) = wrapCur k (wrapCur k cur a) b
  | [], _, _ => rfl
  | c :: cs, b, cur => by
    simp only [List.cons_append, wrapCur]
    split <;> exact wrapCur_append k cs b _

theorem wrap_short (k : Nat) : ∀ (b : List Nat) (cur : Nat), cur + b.length ≤ k → wrapAt k cur b = b ∧ wrapCur k cur b = cur + b.length
  | [], _, _ => ⟨rfl, rfl⟩
  | c :: cs, cur, h => by
    simp only [List.length_cons] at h ⊢
    obtain ⟨i, j⟩ := wrap_short k cs (cur + 1) (by omega)
    simp only [wrapAt, wrapCur]
    rw [if_neg (by omega), if_neg (by omega), i, j]
    exact ⟨rfl, by omega⟩

theorem wrap_full (k : Nat) {b : List Nat} (hb : b ≠ []) (h : b.length ≤ k) : wrapAt k k b = 10 :: b ∧ wrapCur k k b = b.length := by
  cases b with
  | nil => exact absurd rfl hb
  | cons c cs =>
    simp only [List.length_cons] at h ⊢
    obtain ⟨i, j⟩ := wrap_short k cs 1 (by omega)
    simp only [wrapAt, wrapCur, if_true]
    rw [i, j]
    exact ⟨rfl, by omega⟩

def WrapInv (w : Writer) : Prop :=
  unlimited w ∧ 1 ≤ w.maxBlocks ∧ w.numBlocks ≤ w.maxBlocks ∧
  w.sink.out = wrapAt (4 * w.maxBlocks) 0 (w.sink.out.filter isB64) ∧ wrapCur (4 * w.maxBlocks) 0 (w.sink.out.filter isB64) = 4 * w.numBlocks

theorem wrapInv_block {w : Writer} (h : WrapInv w) (xs : List UInt8) (hx : (rfc4648 xs).length = 4) :
    WrapInv { w.countBlock with sink := w.countBlock.sink.write (rfc4648 xs) } := by
  obtain ⟨hu, h1, h2, h3, h4⟩ := h
  obtain ⟨c1, _, c3, c4⟩ := countBlock_spec hu
  obtain ⟨a, b, c⟩ := sink_write c1.1 (rfc4648 xs)
  have hne : rfc4648 xs ≠ [] := by intro e; rw [e] at hx; simp at hx
  have hf : (w.countBlock.sink.out ++ rfc4648 xs).filter isB64 = w.sink.out.filter isB64 ++ rfc4648 xs := by
    rw [List.filter_append, c4, filter_rfc]
  refine ⟨⟨a, b⟩, by simpa [c3] using h1, ?_, ?_, ?_⟩
  · simp only [c3]; unfold Writer.countBlock; split <;> simp <;> omega
  · simp only [c3]
    rw [c, hf, wrapAt_append, ← h3, h4]
    unfold Writer.countBlock
    split
    · rename_i hc
      obtain ⟨_, _, c'⟩ := sink_write hu.1 [10]
      have e : w.numBlocks = w.maxBlocks := by omega
      rw [e, (wrap_full _ hne (by omega)).1]
      simp only [Sink.newline, hu.2, if_true, c', List.append_assoc, List.singleton_append]
    · rw [(wrap_short _ _ _ (by omega)).1]
  · simp only [c3]
    rw [c, hf, wrapCur_append, h4]
    unfold Writer.countBlock
    split
    · have e : w.numBlocks = w.maxBlocks := by omega
      rw [e, (wrap_full _ hne (by omega)).2, hx]; rfl
    · rw [(wrap_short _ _ _ (by omega)).2, hx]; show _ = 4 * (w.numBlocks + 1); omega

theorem wrapInv_flush {w : Writer} (h : WrapInv w) (e : Enc) :
    WrapInv { w.flushBlock with enc := e } := by
  have hb : w.countBlock.enc.block = rfc4648 [w.countBlock.enc.b0, w.countBlock.enc.b1, w.countBlock.enc.b2] :=
    block_rfc _
  have := wrapInv_block h [w.countBlock.enc.b0, w.countBlock.enc.b1, w.countBlock.enc.b2]
    (by rw [rfc_length]; simp)
  rw [← hb] at this
  exact this

theorem writeLoop_wraps (data : List UInt8) : ∀ (w : Writer) (len i : Nat), WrapInv w →
    WrapInv (w.writeLoop len i data).1 := by
  induction data with
  | nil =>
    intro w len i h
    have hok : w.flushBlock.sink.ok = true := (wrapInv_flush h w.enc).1.2
    simp only [Writer.writeLoop]
    split
    · simp only [hok, Bool.not_true, Bool.false_eq_true, if_false]; exact wrapInv_flush h _
    · exact h
  | cons x xs ih =>
    intro w len i h
    have hok : w.flushBlock.sink.ok = true := (wrapInv_flush h w.enc).1.2
    simp only [Writer.writeLoop]
    split
    · simp only [hok, Bool.not_true, Bool.false_eq_true, if_false]
      exact ih _ _ _ (wrapInv_flush h _)
    · exact ih _ _ _ h

theorem session_wraps (chunks : List (List UInt8)) : ∀ (w : Writer) (done : List UInt8), WrapInv w →
    w.enc.num < 3 → done.length % 3 = 0 → w.sink.out.filter isB64 = rfc4648 done →
    (w.session chunks).out = wrapAt (4 * w.maxBlocks) 0 ((w.session chunks).out.filter isB64) := by
  induction chunks with
  | nil =>
    intro w done h hn _ _
    simp only [Writer.session, Writer.destroy]
    split
    · rename_i h0
      have he := (countBlock_spec h.1).2.1
      have hm := (countBlock_spec h.1).2.2.1
      have hb := blockN_rfc w.countBlock.enc (by rw [he]; omega)
      rw [hb]
      have := (wrapInv_block h w.countBlock.enc.carry (by
        rw [rfc_length, carry_length (by rw [he]; omega), he]; omega)).2.2.2.1
      simp only [hm] at this
      exact this
    · exact h.2.2.2.1
  | cons c cs ih =>
    intro w done h hn hd hf
    obtain ⟨done', a1, a2, a3, a4, a5, a6, a7⟩ := writeLoop_spec c w c.length 0 done h.1 (by omega) hd hf
    have := ih (w.write c).1 done' (writeLoop_wraps c w _ _ h) a2 a4 a5
    simp only [Writer.write, a3] at this
    exact this

/-! ## Lemmas: reader -/

/-- Decode group by group without stopping. -/
def gAll : List Nat → List UInt8
  | a :: b :: c :: d :: rest => group [a, b, c, d] ++ gAll rest
  | _ => []

/-- All complete groups are unpadded. -/
def allFull : List Nat → Prop
  | a :: b :: c :: d :: rest => (group [a, b, c, d]).length = 3 ∧ allFull rest
  | _ => True

def codesOf (d : Dec) (src : List Nat) : List Nat := d.carry ++ (src.filter isB64).map dec

theorem group_len (a b c d : Nat) : 1 ≤ (group [a, b, c, d]).length ∧ (group [a, b, c, d]).length ≤ 3 := by
  simp only [group, Dec.block]
  split
  · split <;> simp
  · simp

theorem readFill_spec (src : List Nat) : ∀ (d : Dec) (toRead : Nat) (got : List UInt8),
    d.num < 4 → 0 < toRead → (allFull (codesOf d src) ∨ toRead < 3) →
    let res := readFill d toRead got src
    res.got = got ++ (gAll (codesOf d src)).take toRead ∧
    res.reader.dec.num < 4 ∧
    (res.ok = decide (toRead ≤ (gAll (codesOf d src)).length)) ∧
    res.reader.temp ++ gAll (codesOf res.reader.dec res.reader.src) = (gAll (codesOf d src)).drop toRead ∧
    (allFull (codesOf d src) → allFull (codesOf res.reader.dec res.reader.src)) := by
  induction src with
  | nil =>
    intro d toRead got hd ht hf
    have hl : d.carry.length < 4 := by simp [Dec.carry]; omega
    have hg : gAll d.carry = [] := by
      revert hl; generalize d.carry = l; intro hl
      match l, hl with
      | [], _ => rfl
      | [_], _ => rfl
      | [_, _], _ => rfl
      | [_, _, _], _ => rfl
    simp [readFill, codesOf, hg, hd]; omega
  | cons x xs ih =>
    intro d toRead got hd ht hf
    have hp := dput_carry (d := d) hd x
    have hcodes : codesOf (d.put x) xs = codesOf d (x :: xs) := by
      cases hx : isB64 x
      · simp [codesOf, (hp.2 hx).1, hx]
      · simp [codesOf, (hp.1 hx).1, hx]
    simp only [readFill]
    by_cases h4 : (d.put x).num < 4
    · simp only [h4, if_true]
      have := ih (d.put x) toRead got h4 ht (by rw [hcodes]; exact hf)
      rw [hcodes] at this
      exact this
    · simp only [h4, if_false]
      have hnum : (d.put x).num = 4 := by
        cases hx : isB64 x
        · rw [(hp.2 hx).2] at h4; omega
        · rw [(hp.1 hx).2] at h4 ⊢; omega
      have hb := block_group hnum
      obtain ⟨a, b, c, e, hc⟩ : ∃ a b c e, (d.put x).carry = [a, b, c, e] :=
        ⟨(d.put x).b0, (d.put x).b1, (d.put x).b2, (d.put x).b3, by simp [Dec.carry, hnum]⟩
      rw [hc] at hb
      have hcodes2 : codesOf d (x :: xs) = a :: b :: c :: e :: (xs.filter isB64).map dec := by
        rw [← hcodes]; simp [codesOf, hc]
      have e0 : codesOf { d.put x with num := 0 } xs = (xs.filter isB64).map dec := by
        simp [codesOf, Dec.carry]
      have hgl := group_len a b c e
      have hga : gAll (codesOf d (x :: xs)) = group [a, b, c, e] ++ gAll ((xs.filter isB64).map dec) := by
        rw [hcodes2]; rfl
      rw [hb, hga]
      have hnl : ¬ ((group [a, b, c, e]).length < 3 ∧ toRead ≥ 3) := by
        rcases hf with hf | hf
        · rw [hcodes2] at hf; have := hf.1; omega
        · omega
      rw [if_neg hnl]
      by_cases hge : (group [a, b, c, e]).length ≥ toRead
      · rw [if_pos hge]
        refine ⟨?_, by simp, ?_, ?_, ?_⟩
        · rw [List.take_append_of_le_length hge]
        · simp; omega
        · simp only [e0]
          rw [List.drop_append_of_le_length hge]
        · intro hfull; simp only [e0]; rw [hcodes2] at hfull; exact hfull.2
      · rw [if_neg hge]
        have hf' : allFull (codesOf { d.put x with num := 0 } xs) ∨
            toRead - (group [a, b, c, e]).length < 3 := by
          rcases hf with hf | hf
          · left; rw [e0]; rw [hcodes2] at hf; exact hf.2
          · right; omega
        obtain ⟨i1, i2, i3, i4, i5⟩ := ih { d.put x with num := 0 } (toRead - (group [a, b, c, e]).length)
          (got ++ group [a, b, c, e]) (by simp) (by omega) hf'
        rw [e0] at i1 i3 i4 i5
        refine ⟨?_, i2, ?_, ?_, ?_⟩
        · rw [i1, List.append_assoc]
          congr 1
          rw [List.take_append]
          rw [List.take_of_length_le (show (group [a, b, c, e]).length ≤ toRead by omega)]
        · rw [i3]; congr 1; simp; omega
        · rw [i4, List.drop_append, List.drop_of_length_le (show (group [a, b, c, e]).length ≤ toRead by omega)]
          simp
        · intro hfull; rw [hcodes2] at hfull; exact i5 hfull.2

/-- Bytes the reader has still to deliver. -/
def Reader.rest (r : Reader) : List UInt8 := r.temp ++ gAll (codesOf r.dec r.src)

theorem read_spec (r : Reader) (n : Nat) (hd : r.dec.num < 4)
    (hf : allFull (codesOf r.dec r.src) ∨ n ≤ 2) :
    (r.read n).got = r.rest.take n ∧ (r.read n).ok = decide (n ≤ r.rest.length) ∧
    (r.read n).reader.rest = r.rest.drop n ∧ (r.read n).reader.dec.num < 4 ∧
    (allFull (codesOf r.dec r.src) →
      allFull (codesOf (r.read n).reader.dec (r.read n).reader.src)) := by
  unfold Reader.read
  by_cases h : r.temp.length ≥ n
  · rw [if_pos h]
    refine ⟨?_, ?_, ?_, hd, fun x => x⟩
    · simp only [Reader.rest]; rw [List.take_append_of_le_length h]
    · simp [Reader.rest]; omega
    · simp only [Reader.rest]; rw [List.drop_append_of_le_length h]
  · rw [if_neg h]
    obtain ⟨i1, i2, i3, i4, i5⟩ := readFill_spec r.src r.dec (n - r.temp.length) r.temp hd (by omega)
      (hf.imp (fun x => x) (fun x => by omega))
    refine ⟨?_, ?_, ?_, i2, i5⟩
    · rw [i1, Reader.rest, List.take_append, List.take_of_length_le (show r.temp.length ≤ n by omega)]
    · rw [i3, Reader.rest]; congr 1; simp; omega
    · simp only [Reader.rest] at i4 ⊢
      rw [i4, List.drop_append, List.drop_of_length_le (show r.temp.length ≤ n by omega)]; simp

theorem rsession_spec (ns : List Nat) : ∀ r : Reader, r.dec.num < 4 →
    (allFull (codesOf r.dec r.src) ∨ ∀ n ∈ ns, n ≤ 2) → r.session ns = readSpec r.rest ns := by
  induction ns with
  | nil => intro r _ _; rfl
  | cons n ns ih =>
    intro r hd hf
    obtain ⟨h1, h2, h3, h4, h5⟩ := read_spec r n hd (hf.imp (fun x => x) (fun x => x n (by simp)))
    simp only [Reader.session, readSpec]
    rw [h1, h2, ih _ h4 (hf.imp h5 (fun x m hm => x m (by simp [hm]))), h3]

theorem gAll_rfc (xs : List UInt8) :
    gAll ((rfc4648 xs).map dec) = xs ∧ (xs.length % 3 = 0 → allFull ((rfc4648 xs).map dec)) := by
  match xs with
  | [] => simp [rfc4648, gAll, allFull]
  | [a] =>
    have := group_one a
    simp only [rfc4648, List.map_cons, List.map_nil] at this ⊢
    exact ⟨by simp [gAll, this], by simp⟩
  | [a, b] =>
    have := group_two a b
    simp only [rfc4648, List.map_cons, List.map_nil] at this ⊢
    exact ⟨by simp [gAll, this], by simp⟩
  | a :: b :: c :: rest =>
    have h := group_full a b c
    obtain ⟨i1, i2⟩ := gAll_rfc rest
    simp only [rfc4648, List.map_cons, List.map_nil] at h ⊢
    refine ⟨by simp [gAll, h, i1], ?_⟩
    intro hl
    refine ⟨by rw [h]; rfl, i2 (by simp at hl; omega)⟩

end Verif.B64

namespace Verif.B64

/-! ## Property C10 -/

/-- **C10** (writer) On a stream that accepts everything, for any sequence of write
lengths: the base64 characters of the text are the RFC 4648 encoding of all bytes
written. -/
theorem b64_writer_text (chunks : List (List UInt8)) (maxBlocks : Nat) :
    ((Writer.init maxBlocks ⟨[], none, true⟩).session chunks).out.filter isB64 =
      rfc4648 chunks.flatten := by
  have := wsession_spec chunks (Writer.init maxBlocks ⟨[], none, true⟩) [] ⟨rfl, rfl⟩
    (by simp [Writer.init, Enc.init]) rfl (by simp [Writer.init, rfc4648])
  simpa [Writer.init, Enc.carry, Enc.init] using this

/-- **C10** (writer) No line is longer than `max_blocks` blocks of four characters. -/
theorem b64_writer_lines (chunks : List (List UInt8)) (maxBlocks : Nat) (h : 1 ≤ maxBlocks) :
    LinesLe (4 * maxBlocks) 0 ((Writer.init maxBlocks ⟨[], none, true⟩).session chunks).out :=
  session_lines chunks (Writer.init maxBlocks ⟨[], none, true⟩) []
    ⟨⟨rfl, rfl⟩, h, Nat.zero_le _, by simp [Writer.init, LinesLe], rfl⟩
    (by simp [Writer.init, Enc.init]) rfl (by simp [Writer.init, rfc4648])

/-- **C10** (writer) The text is the encoding with a line break after every `max_blocks` blocks of four characters, and nowhere else: not after the last block. -/
theorem b64_writer_exact (chunks : List (List UInt8)) (maxBlocks : Nat) (h : 1 ≤ maxBlocks) :
    ((Writer.init maxBlocks ⟨[], none, true⟩).session chunks).out = wrapAt (4 * maxBlocks) 0 (rfc4648 chunks.flatten) := by
  have := session_wraps chunks (Writer.init maxBlocks ⟨[], none, true⟩) []
    ⟨⟨rfl, rfl⟩, h, Nat.zero_le _, rfl, rfl⟩
    (by simp [Writer.init, Enc.init]) rfl (by simp [Writer.init, rfc4648])
  rw [b64_writer_text] at this
  exact this

example : wrapAt 4 0 (rfc4648 [1, 2, 3, 4, 5, 6]) = [65, 81, 73, 68, 10, 66, 65, 85, 71] := by decide +kernel

/-- **C10** (round trip, partial) Write in any chunks with any line length, destroy the
writer, read with any sequence of request lengths: each request gets the next bytes of
what was written and is ok iff all of them existed - provided that the number of bytes
written is a multiple of 3 *or* no request asks for more than 2 bytes.

Full claim: without that proviso.  It is false, see `b64_reader_loses_tail`. -/
theorem b64_stream_roundtrip_partial (chunks : List (List UInt8)) (maxBlocks : Nat) (reads : List Nat)
    (h : chunks.flatten.length % 3 = 0 ∨ ∀ n ∈ reads, n ≤ 2) :
    (Reader.init ((Writer.init maxBlocks ⟨[], none, true⟩).session chunks).out).session reads =
      readSpec chunks.flatten reads := by
  have ht := b64_writer_text chunks maxBlocks
  generalize ((Writer.init maxBlocks ⟨[], none, true⟩).session chunks).out = text at ht
  have hc : codesOf (Reader.init text).dec (Reader.init text).src = (rfc4648 chunks.flatten).map dec := by
    simp [codesOf, Reader.init, Dec.carry, Dec.init, ht]
  obtain ⟨g1, g2⟩ := gAll_rfc chunks.flatten
  rw [rsession_spec reads (Reader.init text) (by simp [Reader.init, Dec.init]) (by
    rw [hc]; exact h.imp g2 (fun x => x))]
  have : (Reader.init text).rest = chunks.flatten := by
    rw [Reader.rest, hc, g1]; simp [Reader.init]
  rw [this]

/-- **C10 is violated** (base64.hpp 420-428): write the single byte 1, read it back with
a request for 3 bytes.  The read is "ok", returns 0 bytes, and the byte is gone: the next
request finds the end of the stream. -/
theorem b64_reader_loses_tail :
    (Reader.init ((Writer.init 19 ⟨[], none, true⟩).session [[1]]).out).session [3, 1] =
      [([], true), ([], false)] ∧
    readSpec [1] [3, 1] = [([1], false), ([], false)] := by
  decide +kernel

/-- The loss in general: if a request of at least `n + 3` bytes is made for a message of
`n` bytes, `n` not a multiple of 3, the last `n % 3` bytes are not delivered. -/
theorem b64_reader_drops_padded_block (data : List UInt8) (text : List Nat) (n : Nat)
    (ht : text.filter isB64 = rfc4648 data) (h3 : data.length % 3 ≠ 0) (hn : data.length + 3 ≤ n) :
    ((Reader.init text).read n).got = data.take (data.length - data.length % 3) ∧
    ((Reader.init text).read n).ok = true := by
  have key : ∀ (src : List Nat) (data : List UInt8) (d : Dec) (toRead : Nat) (got : List UInt8),
      d.num < 4 → codesOf d src = (rfc4648 data).map dec → data.length % 3 ≠ 0 →
      data.length + 3 ≤ toRead →
      (readFill d toRead got src).got = got ++ data.take (data.length - data.length % 3) ∧
      (readFill d toRead got src).ok = true := by
    intro src
    induction src with
    | nil =>
      intro data d toRead got hd hc h3 hn
      exfalso
      have hl := congrArg List.length hc
      simp [codesOf, rfc_length, Dec.carry] at hl
      omega
    | cons x xs ih =>
      intro data d toRead got hd hc h3 hn
      have hp := dput_carry (d := d) hd x
      have hcodes : codesOf (d.put x) xs = codesOf d (x :: xs) := by
        cases hx : isB64 x
        · simp [codesOf, (hp.2 hx).1, hx]
        · simp [codesOf, (hp.1 hx).1, hx]
      simp only [readFill]
      by_cases h4 : (d.put x).num < 4
      · simp only [h4, if_true]
        exact ih data (d.put x) toRead got h4 (hcodes.trans hc) h3 hn
      · simp only [h4, if_false]
        have hnum : (d.put x).num = 4 := by
          cases hx : isB64 x
          · rw [(hp.2 hx).2] at h4; omega
          · rw [(hp.1 hx).2] at h4 ⊢; omega
        have hb := block_group hnum
        have hc4 : (d.put x).carry.length = 4 := by simp [Dec.carry, hnum]
        rw [← hcodes] at hc
        have hcar : (d.put x).carry = ((rfc4648 data).map dec).take 4 := by
          rw [← hc, codesOf, List.take_append_of_le_length (by omega), List.take_of_length_le (by omega)]
        have hrest : (xs.filter isB64).map dec = ((rfc4648 data).map dec).drop 4 := by
          rw [← hc, codesOf, List.drop_append_of_le_length (by omega), List.drop_of_length_le (by omega)]
          simp
        rw [hb, hcar]
        match data, h3, hn with
        | [], h3, _ => simp at h3
        | [a], _, hn =>
          have e : List.take 4 ((rfc4648 [a]).map dec) = (rfc4648 [a]).map dec := by simp [rfc4648]
          rw [e, group_one]
          simp at hn
          rw [if_pos (by simp; omega)]; simp
        | [a, b], _, hn =>
          have e : List.take 4 ((rfc4648 [a, b]).map dec) = (rfc4648 [a, b]).map dec := by simp [rfc4648]
          rw [e, group_two]
          simp at hn
          rw [if_pos (by simp; omega)]; simp
        | a :: b :: c :: rest, h3, hn =>
          have e : List.take 4 ((rfc4648 (a :: b :: c :: rest)).map dec) = (rfc4648 [a, b, c]).map dec := by
            simp [rfc4648]
          rw [e, group_full]
          simp at hn h3
          rw [if_neg (by simp), if_neg (by simp; omega)]
          have := ih rest { d.put x with num := 0 } (toRead - 3) (got ++ [a, b, c]) (by simp) (by
            rw [codesOf, hrest]; simp [Dec.carry, rfc4648]) (by omega) (by omega)
          simp only [List.length_cons, List.length_nil]
          refine ⟨?_, this.2⟩
          rw [this.1, List.append_assoc]
          congr 1
          have e2 : (rest.length + 1 + 1 + 1) - (rest.length + 1 + 1 + 1) % 3 =
            (rest.length - rest.length % 3) + 1 + 1 + 1 := by omega
          rw [e2]; simp
  have := key text data Dec.init n [] (by simp [Dec.init]) (by
    simp [codesOf, Dec.carry, Dec.init, ht]) h3 hn
  unfold Reader.read
  rw [if_neg (by simp [Reader.init]; omega)]
  simpa [Reader.init] using this

/-- Also wrong: the count returned when the stream below fails (base64.hpp 208).  Eight
bytes, the stream below accepts nothing: the writer took three bytes into its buffer
before it failed, yet returns 8 - 3 = 5. -/
theorem b64_writer_failure_count :
    ((Writer.init 19 ⟨[], some 0, true⟩).write [1, 2, 3, 4, 5, 6, 7, 8]).2 = (5, false) ∧
    ((Writer.init 19 ⟨[], some 0, true⟩).write [1, 2, 3, 4, 5, 6, 7, 8]).1.sink.out = [] := by
  decide +kernel

/-! ## Non-vacuity -/

example : (Reader.init ((Writer.init 1 ⟨[], none, true⟩).session [[1, 2], [], [3, 4, 5, 6]]).out).session [4, 1, 9]
    = [([1, 2, 3, 4], true), ([5], true), ([6], false)] := by decide +kernel
example : [[1, 2], [], [3, 4, 5, (6 : UInt8)]].flatten.length % 3 = 0 := by decide
example : LinesLe 4 0 ((Writer.init 1 ⟨[], none, true⟩).session [[1, 2, 3, 4, 5, 6]]).out ∧
    10 ∈ ((Writer.init 1 ⟨[], none, true⟩).session [[1, 2, 3, 4, 5, 6]]).out :=
  ⟨b64_writer_lines _ 1 (by decide), by decide +kernel⟩

end Verif.B64
