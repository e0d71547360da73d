/-
Base64 between a program and any stream: base64.hpp, `base64_writer` (174-269) and `base64_reader` (379-457) over an arbitrary source
(Codec/Base64Stream.lean has them over a fixed one).
-/
import Verif.Codec.Base64Stream
import Verif.Stream.Program

namespace Verif.B64Pipe
open Verif.B64 Verif.Stream Verif.Stack
variable {α σ τ H : Type}

/-! ### The writer -/

/-- `base64_writer` without the stream: 166-168 (`base64_enc`), 266-268. -/
structure Core where
  enc : Enc
  maxBlocks : Nat
  numBlocks : Nat

/-- Constructor, base64.hpp 177-181. -/
def Core.init (maxBlocks : Nat) : Core := ⟨Enc.init, maxBlocks, 0⟩

/-- Characters (all of them are ASCII) as bytes. -/
def chars (l : List Nat) : List Byte := l.map (BitVec.ofNat 8)

/-- Count a block, breaking the line before it if necessary, base64.hpp 187-190 and 201-204: what is done to `m_source`. -/
def count (w : Core) : Prog Core :=
  if w.numBlocks + 1 > w.maxBlocks then (dataProg 1 10).bind fun _ => .ret { w with numBlocks := 1 }
  else .ret { w with numBlocks := w.numBlocks + 1 }

/-- `m_source->write_array(out, 1, 4)`, base64.hpp 231 and 262. -/
def emit (w : Core) (cs : List Nat) : Prog Core := .write (chars cs) fun _ => .ret w

/-- Base64.hpp 201-205. -/
def flushBlock (w : Core) : Prog Core := (count w).bind fun w => emit w w.enc.block

/-- Loop of `write`, base64.hpp 199-217: count returned, writer, `m_state`. -/
def writeLoop (w : Core) (len i : Nat) : List Byte → Prog (Nat × Core × St)
  | [] =>
    if w.enc.num ≥ 3 then
      (flushBlock w).bind fun w => .state fun st =>
        if st ≠ .ok then .ret (len - i, w, st) else .ret (len, { w with enc := { w.enc with num := 0 } }, .ok)
    else .ret (len, w, .ok)
  | x :: xs =>
    if w.enc.num ≥ 3 then
      (flushBlock w).bind fun w => .state fun st =>
        if st ≠ .ok then .ret (len - i, w, st)
        else writeLoop { w with enc := Enc.put { w.enc with num := 0 } (UInt8.ofBitVec x) } len (i + 1) xs
    else writeLoop { w with enc := w.enc.put (UInt8.ofBitVec x) } len (i + 1) xs

/-- Destructor, base64.hpp 183-193. -/
def destroy (w : Core) : Prog Core :=
  if w.enc.num ≠ 0 then (count w).bind fun w => emit w (w.enc.blockN w.enc.num) else .ret w

/-- `base64_writer` over the stream `S`: the writer, `m_state`, and the state of `S`. Reading, closing and flushing are `converter`'s. -/
def writer (S : Strm Byte σ) : Strm Byte ((Core × St) × σ) where
  read x n := let r := S.read x.2 n; (r.1, ((x.1.1, S.state r.2), r.2))
  write x d := let r := (writeLoop x.1.1 d.length 0 d).run S x.2; (r.1.1, ((r.1.2.1, r.1.2.2), r.2))
  close x := let r := S.close x.2; ((x.1.1, S.state r), r)
  flush x := let r := S.flush x.2; ((x.1.1, S.state r), r)
  state x := x.1.2

/-- A new writer over a stream. -/
def writerOn (S : Strm Byte σ) (maxBlocks : Nat) (s : σ) : (Core × St) × σ := ((Core.init maxBlocks, S.state s), s)

/-- The state of the stream after the writer is destroyed. -/
def writerEnd (S : Strm Byte σ) (x : (Core × St) × σ) : σ := ((destroy x.1.1).run S x.2).2

/-! ### Specification -/

/-- The text of some bytes: RFC 4648, with a line break after every `maxBlocks` groups of four characters (but not at the end). -/
def base64Text (maxBlocks : Nat) (bytes : List Byte) : List Byte := chars (wrapAt (4 * maxBlocks) 0 (rfc4648 (bytes.map UInt8.ofBitVec)))

/-! ### Proofs: writing -/

/-- What a program that writes through the writer does to the stream below. -/
def below (w : Core) (st : St) : Prog α → Prog (α × Core × St)
  | .ret a => .ret (a, w, st)
  | .write d k => (writeLoop w d.length 0 d).bind fun r => below r.2.1 r.2.2 (k r.1)
  | .flush k => .flush (.state fun st => below w st k)
  | .state k => below w st (k st)

theorem run_writer (S : Strm Byte σ) : ∀ (p : Prog α) (w : Core) (st : St) (s : σ),
    p.run (writer S) ((w, st), s) = (((below w st p).run S s).1.1, (((below w st p).run S s).1.2, ((below w st p).run S s).2))
  | .ret a, _, _, _ => rfl
  | .write d k, w, st, s => by
    show (k ((writeLoop w d.length 0 d).run S s).1.1).run (writer S) ((_, _), _) = _
    rw [run_writer S (k _)]
    simp only [below]
    rw [run_bind]
  | .flush k, w, st, s => run_writer S k w _ _
  | .state k, w, st, s => run_writer S (k st) w st s

/-- The writer with a stream that has accepted `out`. -/
def over (w : Core) (out : List Nat) : Writer := ⟨w.enc, w.maxBlocks, w.numBlocks, ⟨out, none, true⟩⟩

theorem chars_append (a b : List Nat) : chars (a ++ b) = chars a ++ chars b := List.map_append

theorem count_ideal (w : Core) (out : List Nat) : ∃ w' out', (count w).run ideal (chars out) = (w', chars out') ∧ (over w out).countBlock = over w' out' := by
  unfold count Writer.countBlock
  by_cases h : w.numBlocks + 1 > w.maxBlocks
  · refine ⟨{ w with numBlocks := 1 }, out ++ [10], ?_, ?_⟩
    · rw [if_pos h, run_bind, chars_append]; rfl
    · rw [if_pos (show (over w out).numBlocks + 1 > (over w out).maxBlocks from h)]; rfl
  · refine ⟨{ w with numBlocks := w.numBlocks + 1 }, out, ?_, ?_⟩
    · rw [if_neg h]; rfl
    · rw [if_neg (show ¬ (over w out).numBlocks + 1 > (over w out).maxBlocks from h)]; rfl

theorem emit_ideal (w : Core) (cs out : List Nat) : (emit w cs).run ideal (chars out) = (w, chars (out ++ cs)) := by
  rw [chars_append]; rfl

theorem flushBlock_ideal (w : Core) (out : List Nat) : ∃ w' out', (flushBlock w).run ideal (chars out) = (w', chars out') ∧ (over w out).flushBlock = over w' out' := by
  obtain ⟨w', out', a, b⟩ := count_ideal w out
  refine ⟨w', out' ++ w'.enc.block, ?_, ?_⟩
  · unfold flushBlock
    rw [run_bind, a, emit_ideal]
  · unfold Writer.flushBlock
    rw [b]; rfl

theorem writeLoop_ideal (len : Nat) : ∀ (d : List Byte) (w : Core) (out : List Nat) (i : Nat), ∃ w' out',
    (writeLoop w len i d).run ideal (chars out) = ((len, w', .ok), chars out') ∧
    (over w out).writeLoop len i (d.map UInt8.ofBitVec) = (over w' out', len, true) := by
  intro d
  induction d with
  | nil =>
    intro w out i
    by_cases h : w.enc.num ≥ 3
    · obtain ⟨w', out', a, b⟩ := flushBlock_ideal w out
      refine ⟨{ w' with enc := { w'.enc with num := 0 } }, out', ?_, ?_⟩
      · rw [writeLoop, if_pos h, run_bind, a]; rfl
      · rw [List.map_nil, Writer.writeLoop, if_pos (show (over w out).enc.num ≥ 3 from h), b]; rfl
    · refine ⟨w, out, ?_, ?_⟩
      · rw [writeLoop, if_neg h]; rfl
      · rw [List.map_nil, Writer.writeLoop, if_neg (show ¬ (over w out).enc.num ≥ 3 from h)]
  | cons x xs ih =>
    intro w out i
    by_cases h : w.enc.num ≥ 3
    · obtain ⟨w', out', a, b⟩ := flushBlock_ideal w out
      obtain ⟨w2, out2, c, e⟩ := ih { w' with enc := Enc.put { w'.enc with num := 0 } (UInt8.ofBitVec x) } out' (i + 1)
      refine ⟨w2, out2, ?_, ?_⟩
      · rw [writeLoop, if_pos h, run_bind, a]; exact c
      · rw [List.map_cons, Writer.writeLoop, if_pos (show (over w out).enc.num ≥ 3 from h), b]; exact e
    · obtain ⟨w2, out2, c, e⟩ := ih { w with enc := w.enc.put (UInt8.ofBitVec x) } out (i + 1)
      refine ⟨w2, out2, ?_, ?_⟩
      · rw [writeLoop, if_neg h]; exact c
      · rw [List.map_cons, Writer.writeLoop, if_neg (show ¬ (over w out).enc.num ≥ 3 from h)]; exact e

theorem below_ideal : ∀ (p : Prog α) (w : Core) (out : List Nat), ∃ w' out' chunks,
    (below w .ok p).run ideal (chars out) = ((p.result, w', .ok), chars out') ∧ chunks.flatten = p.output.map UInt8.ofBitVec ∧
    (over w out).session chunks = (over w' out').session []
  | .ret a, w, out => ⟨w, out, [], rfl, rfl, rfl⟩
  | .write d k, w, out => by
    obtain ⟨w1, out1, a, b⟩ := writeLoop_ideal d.length d w out 0
    obtain ⟨w2, out2, chunks, c, e, f⟩ := below_ideal (k d.length) w1 out1
    obtain ⟨r1, r2⟩ := ideal_shift (k d.length) d
    refine ⟨w2, out2, d.map UInt8.ofBitVec :: chunks, ?_, ?_, ?_⟩
    · show ((writeLoop w d.length 0 d).bind fun r => below r.2.1 r.2.2 (k r.1)).run ideal (chars out) = _
      rw [run_bind, a]
      show (below w1 .ok (k d.length)).run ideal (chars out1) = _
      rw [c, show (Prog.write d k).result = (k d.length).result from r1]
    · rw [List.flatten_cons, e, ← List.map_append, show (Prog.write d k).output = d ++ (k d.length).output from r2]
    · show ((over w out).writeLoop (d.map UInt8.ofBitVec).length 0 (d.map UInt8.ofBitVec)).1.session chunks = _
      rw [List.length_map, b]; exact f
  | .flush k, w, out => below_ideal k w out
  | .state k, w, out => below_ideal (k .ok) w out

/-- A program through the writer, and the end of the writer: what is done to the stream below. -/
def encoded (maxBlocks : Nat) (p : Prog α) : Prog α :=
  (below (Core.init maxBlocks) .ok p).bind fun r => (destroy r.2.1).bind fun _ => .ret r.1

theorem destroy_ideal (w : Core) (out : List Nat) : ((destroy w).run ideal (chars out)).2 = chars ((over w out).session []).out := by
  unfold destroy
  rw [Writer.session, Writer.destroy]
  by_cases hn : w.enc.num ≠ 0
  · obtain ⟨w', out', a, b⟩ := count_ideal w out
    rw [if_pos hn, if_pos (show (over w out).enc.num ≠ 0 from hn), run_bind, a, b, emit_ideal]; rfl
  · rw [if_neg hn, if_neg (show ¬ (over w out).enc.num ≠ 0 from hn)]; rfl

theorem encoded_ideal (maxBlocks : Nat) (h : 1 ≤ maxBlocks) (p : Prog α) :
    (encoded maxBlocks p).result = p.result ∧ (encoded maxBlocks p).output = base64Text maxBlocks p.output := by
  obtain ⟨w, out, chunks, a, b, c⟩ := below_ideal p (Core.init maxBlocks) []
  have e := b64_writer_exact chunks maxBlocks h
  rw [show Writer.init maxBlocks ⟨[], none, true⟩ = over (Core.init maxBlocks) [] from rfl, c, b] at e
  have hd := destroy_ideal w out
  unfold encoded Prog.result Prog.output base64Text
  rw [run_bind, show ([] : List Byte) = chars [] from rfl, a]
  dsimp only
  rw [run_bind]
  refine ⟨rfl, ?_⟩
  show ((destroy w).run ideal (chars out)).2 = _
  rw [hd, e]
  rfl

/-- **C157** (writing) A program that writes through a base64 writer over any pile of filters is told and returns the same as on a plain stream, and after
the end of the writer and a flush the stream below has got the base64 text of what the program writes. -/
theorem program_through_base64 (p : Prog α) {maxBlocks : Nat} (hb : 1 ≤ maxBlocks) {D : Strm Byte σ} {got : σ → List Byte} (hd : Sinks D got) {t : σ}
    (ht : D.state t = .ok) {fs : List (Filter H)} (hf : ∀ f ∈ fs, f.Ok ∧ f.Fits (base64Text maxBlocks p.output).length) {P : Pile H}
    (hP : P = stack fs (bare D t got)) :
    (p.run (writer P.S) (writerOn P.S maxBlocks P.s)).1 = p.result ∧
    P.got (P.S.flush (writerEnd P.S (p.run (writer P.S) (writerOn P.S maxBlocks P.s)).2)) = got t ++ base64Text maxBlocks p.output ∧
    P.S.state (P.S.flush (writerEnd P.S (p.run (writer P.S) (writerOn P.S maxBlocks P.s)).2)) = .ok := by
  obtain ⟨i1, i2⟩ := encoded_ideal maxBlocks hb p
  obtain ⟨a, b, c, d, -⟩ := program_through_stack (encoded maxBlocks p) hd ht (fs := fs) (by rw [i2]; exact hf)
  rw [← hP] at a b c
  have hs : P.S.state P.s = .ok := by rw [hP]; exact stack_state ht got fs
  have hrun : (encoded maxBlocks p).run P.S P.s = ((p.run (writer P.S) (writerOn P.S maxBlocks P.s)).1,
      writerEnd P.S (p.run (writer P.S) (writerOn P.S maxBlocks P.s)).2) := by
    unfold encoded writerOn
    rw [run_bind, hs, run_writer, run_bind]
    rfl
  rw [hrun] at a b c
  have hres : ((encoded maxBlocks p).run D t).1 = (encoded maxBlocks p).result := by
    have := run_accepting (done := fun _ _ => True) (S := D) (R := fun x G _ => got x = got t ++ G) ⟨fun {s G c} hx d _ => ⟨hd.all s d, hd.ok s d, by rw [hd.got, hx, List.append_assoc]⟩,
      fun {s G c} hx => ⟨(hd.flush s).1, (hd.flush s).2.trans hx, trivial⟩⟩ (encoded maxBlocks p) (s := t) (G := []) (c := (encoded maxBlocks p).output.length) (List.append_nil _).symm ht (Nat.le_refl _)
    exact this.1
  refine ⟨a.trans (hres.trans i1), ?_, b⟩
  rw [c, d, i2]

/-! ### The reader -/

/-- One byte: `*m_source >> x`, base64.hpp 410-411 (`x` is not used unless it is read). -/
def next (S : Strm Byte σ) (fuel : Nat) (s : σ) : Option (Nat × σ) := readData S fuel [] s 1

/-- Lines 408-429 followed by lines 394-407 of the next round, one byte of the source per step, as `B64.readFill`. The loop ends after at most `fuel` bytes of the source
(the code's loop has no bound: an endless source without base64 characters keeps it forever; here it is a failure). Bytes counted, decoder, `m_temp`, `m_state`. -/
def fill (S : Strm Byte σ) (one : Nat) : Nat → Dec → Nat → List UInt8 → σ → (List UInt8 × Dec × List UInt8 × St) × σ
  | 0, d, _, got, s => ((got, d, [], .fail), s)
  | fuel + 1, d, toRead, got, s =>
    match next S one s with
    | none => ((got, d, [], .fail), s)
    | some (x, s') =>
      if S.state s' ≠ .ok then ((got, d, [], S.state s'), s')
      else
        let d' := d.put x
        if d'.num < 4 then fill S one fuel d' toRead got s'
        else
          let temp := d'.block
          let d0 := { d' with num := 0 }
          if temp.length < 3 ∧ toRead ≥ 3 then ((got, d0, [], .ok), s')
          else if temp.length ≥ toRead then ((got ++ temp.take toRead, d0, temp.drop toRead, .ok), s')
          else fill S one fuel d0 (toRead - temp.length) (got ++ temp) s'

/-- `base64_reader` over the stream `S`, base64.hpp 379-457: decoder, `m_temp`, `m_state`, and the state of `S`. -/
def reader (S : Strm Byte σ) (fuel : Nat) : Strm Byte (((Dec × List UInt8) × St) × σ) where
  read x n :=
    if x.1.1.2.length ≥ n then ((x.1.1.2.take n).map UInt8.toBitVec, (((x.1.1.1, x.1.1.2.drop n), .ok), x.2))
    else
      let r := fill S fuel fuel x.1.1.1 (n - x.1.1.2.length) x.1.1.2 x.2
      (r.1.1.map UInt8.toBitVec, (((r.1.2.1, r.1.2.2.1), r.1.2.2.2), r.2))
  write x d := let r := S.write x.2 d; (r.1, ((x.1.1, S.state r.2), r.2))
  close x := let r := S.close x.2; ((x.1.1, S.state r), r)
  flush x := let r := S.flush x.2; ((x.1.1, S.state r), r)
  state x := x.1.2

/-- A new reader over a stream. -/
def readerOn (S : Strm Byte σ) (s : σ) : ((Dec × List UInt8) × St) × σ := (((Dec.init, []), S.state s), s)

/-! ### Proofs: a base64 text read within its length -/

/-- As long as no more is asked for than the text holds, the reader delivers it. -/
theorem readFill_rfc (src : List Nat) : ∀ (data : List UInt8) (d : Dec) (toRead : Nat) (got : List UInt8),
    d.num < 4 → codesOf d src = (rfc4648 data).map dec → 0 < toRead → toRead ≤ data.length → ∃ data',
    (readFill d toRead got src).got = got ++ data.take toRead ∧ (readFill d toRead got src).ok = true ∧
    (readFill d toRead got src).reader.dec.num < 4 ∧
    codesOf (readFill d toRead got src).reader.dec (readFill d toRead got src).reader.src = (rfc4648 data').map dec ∧
    (readFill d toRead got src).reader.temp ++ data' = data.drop toRead := by
  induction src with
  | nil =>
    intro data d toRead got hd hc h0 hn
    exfalso
    have hl := congrArg List.length hc
    simp [codesOf, rfc_length, Dec.carry] at hl
    omega
  | cons x xs ih =>
    intro data d toRead got hd hc h0 hn
    have hp := dput_carry (d := d) hd x
    have hcodes : codesOf (d.put x) xs = codesOf d (x :: xs) := by
      cases hx : isB64 x
      · simp [codesOf, (hp.2 hx).1, hx]
      · simp [codesOf, (hp.1 hx).1, hx]
    simp only [readFill]
    by_cases h4 : (d.put x).num < 4
    · simp only [h4, if_true]
      exact ih data (d.put x) toRead got h4 (hcodes.trans hc) h0 hn
    · simp only [h4, if_false]
      have hnum : (d.put x).num = 4 := by
        cases hx : isB64 x
        · rw [(hp.2 hx).2] at h4; omega
        · rw [(hp.1 hx).2] at h4 ⊢; omega
      have hb := block_group hnum
      have hc4 : (d.put x).carry.length = 4 := by simp [Dec.carry, hnum]
      rw [← hcodes] at hc
      have hcar : (d.put x).carry = ((rfc4648 data).map dec).take 4 := by
        rw [← hc, codesOf, List.take_append_of_le_length (by omega), List.take_of_length_le (by omega)]
      have hrest : (xs.filter isB64).map dec = ((rfc4648 data).map dec).drop 4 := by
        rw [← hc, codesOf, List.drop_append_of_le_length (by omega), List.drop_of_length_le (by omega)]
        simp
      have fin : ∀ rest : List UInt8, ((rfc4648 data).map dec).drop 4 = (rfc4648 rest).map dec →
          codesOf { d.put x with num := 0 } xs = (rfc4648 rest).map dec := by
        intro rest e
        rw [codesOf, hrest, e]; rfl
      rw [hb, hcar]
      match data, hn, fin with
      | [], hn, _ => simp at hn; omega
      | [a], hn, fin =>
        have e : List.take 4 ((rfc4648 [a]).map dec) = (rfc4648 [a]).map dec := by simp [rfc4648]
        rw [e, group_one]
        simp at hn
        obtain rfl : toRead = 1 := by omega
        rw [if_neg (by simp), if_pos (by simp)]
        exact ⟨[], rfl, rfl, by simp, fin [] (by simp [rfc4648]), rfl⟩
      | [a, b], hn, fin =>
        have e : List.take 4 ((rfc4648 [a, b]).map dec) = (rfc4648 [a, b]).map dec := by simp [rfc4648]
        rw [e, group_two]
        simp at hn
        rw [if_neg (by simp; omega), if_pos (by simp; omega)]
        exact ⟨[], rfl, rfl, by simp, fin [] (by simp [rfc4648]), by simp⟩
      | a :: b :: c :: rest, hn, fin =>
        have e : List.take 4 ((rfc4648 (a :: b :: c :: rest)).map dec) = (rfc4648 [a, b, c]).map dec := by
          simp [rfc4648]
        have e4 : List.drop 4 ((rfc4648 (a :: b :: c :: rest)).map dec) = (rfc4648 rest).map dec := by
          simp [rfc4648]
        rw [e, group_full]
        simp at hn
        rw [if_neg (by simp)]
        by_cases h3 : [a, b, c].length ≥ toRead
        · rw [if_pos h3]
          have h3' : toRead ≤ 3 := h3
          refine ⟨rest, ?_, rfl, by simp, fin rest e4, ?_⟩
          · show got ++ _ = got ++ List.take toRead ([a, b, c] ++ rest)
            rw [List.take_append_of_le_length h3]
          · show _ = List.drop toRead ([a, b, c] ++ rest)
            rw [List.drop_append_of_le_length h3]
        · rw [if_neg h3]
          have h3' : 3 < toRead := Nat.lt_of_not_le h3
          obtain ⟨data', i1, i2, i3, i4, i5⟩ := ih rest { d.put x with num := 0 } (toRead - 3) (got ++ [a, b, c]) (by simp) (fin rest e4) (by omega) (by omega)
          refine ⟨data', ?_, i2, i3, i4, ?_⟩
          · refine i1.trans ?_
            obtain ⟨k, rfl⟩ : ∃ k, toRead = k + 3 := ⟨toRead - 3, by omega⟩
            simp
          · refine i5.trans ?_
            obtain ⟨k, rfl⟩ : ∃ k, toRead = k + 3 := ⟨toRead - 3, by omega⟩
            simp

theorem byte_enc (b : Byte) : leEnc 1 b.toNat = [b] := by
  show [BitVec.ofNat 8 _] = [b]
  simp

theorem next_source {S : Strm Byte σ} {rem : σ → List Byte} (h : IsSource S rem) (s : σ) (hs : S.state s = .ok) {one : Nat} (h1 : 1 < one) :
    ∃ x s', next S one s = some (x, s') ∧ (rem s = [] → S.state s' = .eof ∧ rem s' = []) ∧
      ∀ b l, rem s = b :: l → x = b.toNat ∧ S.state s' = .ok ∧ rem s' = l := by
  cases hr : rem s with
  | nil =>
    obtain ⟨s', e1, e2, e3⟩ := readOne_source h s one h1
    rw [hr] at e1 e2 e3
    refine ⟨0, s', ?_, fun _ => ⟨by simpa using e3, by simpa using e2⟩, fun b l c => by cases c⟩
    unfold next readData
    rw [hs, if_neg (by decide), e1]
    rfl
  | cons b l =>
    obtain ⟨s', e1, e2, e3⟩ := readData_source h s hs one [] 1 b.toNat (by decide) (by simpa using b.isLt) l (by rw [byte_enc, hr]; rfl) h1
    refine ⟨_, s', e1, ?_, ?_⟩
    · intro c; cases c
    · intro b' l' c; cases c; exact ⟨rfl, e3, e2⟩

/-- The reader over a source is the reader over its contents. -/
theorem fill_source {S : Strm Byte σ} {rem : σ → List Byte} (h : IsSource S rem) {one : Nat} (h1 : 1 < one) :
    ∀ (fuel : Nat) (s : σ) (d : Dec) (toRead : Nat) (got : List UInt8), S.state s = .ok → (rem s).length < fuel → ∃ s' st,
      fill S one fuel d toRead got s = (((readFill d toRead got ((rem s).map BitVec.toNat)).got, (readFill d toRead got ((rem s).map BitVec.toNat)).reader.dec,
        (readFill d toRead got ((rem s).map BitVec.toNat)).reader.temp, st), s') ∧
      (rem s').map BitVec.toNat = (readFill d toRead got ((rem s).map BitVec.toNat)).reader.src ∧ (rem s').length ≤ (rem s).length ∧
      st = (if (readFill d toRead got ((rem s).map BitVec.toNat)).ok then .ok else .eof) ∧ S.state s' = st := by
  intro fuel
  induction fuel with
  | zero => intro s d toRead got _ hf; omega
  | succ fuel ih =>
    intro s d toRead got hs hf
    obtain ⟨x, s', e0, e1, e2⟩ := next_source h s hs h1
    unfold fill
    rw [e0]
    dsimp only
    cases hr : rem s with
    | nil =>
      obtain ⟨c1, c2⟩ := e1 hr
      rw [if_pos (by rw [c1]; decide), c1]
      refine ⟨s', .eof, rfl, ?_, by rw [c2]; exact Nat.le_refl _, rfl, c1⟩
      rw [c2]; rfl
    | cons b l =>
      obtain ⟨c0, c1, c2⟩ := e2 b l hr
      subst c0
      rw [if_neg (fun c => c c1), List.map_cons]
      rw [hr] at hf
      have hf' : (rem s').length < fuel := by rw [c2]; exact Nat.lt_of_succ_lt_succ hf
      unfold readFill
      dsimp only
      by_cases h4 : (d.put b.toNat).num < 4
      · simp only [h4, if_true]
        obtain ⟨s2, st, i1, i2, i3, i4, i5⟩ := ih s' (d.put b.toNat) toRead got c1 hf'
        rw [c2] at i1 i2 i3 i4
        exact ⟨s2, st, i1, i2, Nat.le_succ_of_le i3, i4, i5⟩
      · simp only [h4, if_false]
        by_cases ha : (d.put b.toNat).block.length < 3 ∧ toRead ≥ 3
        · rw [if_pos ha, if_pos ha]
          exact ⟨s', .ok, rfl, by rw [c2], by rw [c2]; exact Nat.le_succ _, rfl, c1⟩
        · rw [if_neg ha, if_neg ha]
          by_cases hb : (d.put b.toNat).block.length ≥ toRead
          · rw [if_pos hb, if_pos hb]
            exact ⟨s', .ok, rfl, by rw [c2], by rw [c2]; exact Nat.le_succ _, rfl, c1⟩
          · rw [if_neg hb, if_neg hb]
            obtain ⟨s2, st, i1, i2, i3, i4, i5⟩ := ih s' { d.put b.toNat with num := 0 } (toRead - (d.put b.toNat).block.length) (got ++ (d.put b.toNat).block) c1 hf'
            rw [c2] at i1 i2 i3 i4
            exact ⟨s2, st, i1, i2, Nat.le_succ_of_le i3, i4, i5⟩

/-- `S` delivers what is asked for, as long as there is as much: `R s l` says that `l` is what is left. -/
def Exact (S : Strm Byte σ) (R : σ → List Byte → Prop) : Prop :=
  ∀ s l n, R s l → n ≤ l.length → ∃ s', S.read s n = (l.take n, s') ∧ R s' (l.drop n) ∧ S.state s' = .ok

theorem readArray_exact {S : Strm Byte σ} {R : σ → List Byte → Prop} (h : Exact S R) {s : σ} {l : List Byte} (hr : R s l) (size count fuel : Nat) (hf : 0 < fuel)
    (hle : size * count ≤ l.length) : ∃ s', readArray S fuel s size count = some (l.take (size * count), count, s') ∧ R s' (l.drop (size * count)) ∧ S.state s' = .ok := by
  obtain ⟨s', e1, e2, e3⟩ := h s l (size * count) hr hle
  refine ⟨s', ?_, e2, e3⟩
  obtain ⟨f, rfl⟩ : ∃ f, fuel = f + 1 := ⟨fuel - 1, by omega⟩
  unfold readArray readLoop
  rw [e1]
  dsimp only
  rw [List.length_take, Nat.min_eq_left hle, Nat.sub_self, if_pos rfl]
  rfl

theorem readData_exact {S : Strm Byte σ} {R : σ → List Byte → Prop} (h : Exact S R) (s : σ) (hs : S.state s = .ok)
    (fuel : Nat) (old : List Byte) (k v : Nat) (hk : 0 < k) (hv : v < 256 ^ k) (rest : List Byte)
    (hr : R s (leEnc k v ++ rest)) (hf : k < fuel) :
    ∃ s', readData S fuel old s k = some (v, s') ∧ R s' rest ∧ S.state s' = .ok := by
  have hl := leEnc_length k v
  obtain ⟨s', e1, e2, e3⟩ := readArray_exact h hr k 1 fuel (by omega) (by rw [List.length_append, hl, Nat.mul_one]; omega)
  rw [Nat.mul_one] at e1 e2
  have ht : (leEnc k v ++ rest).take k = leEnc k v := by
    rw [List.take_append, hl, Nat.sub_self, List.take_zero, List.append_nil, List.take_of_length_le (by omega)]
  have hd : (leEnc k v ++ rest).drop k = rest := by
    rw [List.drop_append, hl, Nat.sub_self, List.drop_zero, List.drop_eq_nil_of_le (by omega), List.nil_append]
  rw [ht] at e1
  rw [hd] at e2
  refine ⟨s', ?_, e2, e3⟩
  unfold readData
  rw [hs, if_neg (by decide), e1]
  show (if 1 = 1 then some (leDec ((leEnc k v ++ old.drop (leEnc k v).length).take k), s') else _) = _
  rw [if_pos rfl, List.take_append, hl, Nat.sub_self, List.take_zero, List.append_nil,
    List.take_of_length_le (by omega), leDec_enc k v hv]

theorem readStrLoop_exact {S : Strm Byte σ} {R : σ → List Byte → Prop} (h : Exact S R) (buf : List Byte) (k : Nat)
    (hk : 0 < k) :
    ∀ (fuel : Nat) (s : σ) (data cs : List Nat) (rest : List Byte), S.state s = .ok →
      (∀ c ∈ cs, c < 256 ^ k) → R s (cs.flatMap (leEnc k) ++ rest) → cs.length + k * 1024 < fuel →
      ∃ s', readStrLoop S buf k fuel s data cs.length = some (data ++ cs, s') ∧ R s' rest ∧ S.state s' = .ok := by
  intro fuel
  induction fuel with
  | zero => intro _ _ _ _ _ _ _ hf; omega
  | succ fuel ih =>
    intro s data cs rest hs hc hr hf
    have hb : k * min cs.length 1024 ≤ k * 1024 := Nat.mul_le_mul_left k (Nat.min_le_right _ _)
    have hsplit : cs.take (min cs.length 1024) ++ cs.drop (min cs.length 1024) = cs := List.take_append_drop _ _
    have htl : (cs.take (min cs.length 1024)).length = min cs.length 1024 := by rw [List.length_take]; omega
    have hfl := flatMap_enc_length k (cs.take (min cs.length 1024))
    rw [htl] at hfl
    have hr' : R s ((cs.take (min cs.length 1024)).flatMap (leEnc k) ++
        ((cs.drop (min cs.length 1024)).flatMap (leEnc k) ++ rest)) := by
      rw [← List.append_assoc, ← List.flatMap_append, hsplit]; exact hr
    obtain ⟨s1, e1, e2, e3⟩ := readArray_exact h hr' k (min cs.length 1024) (fuel + 1) (by omega) (by rw [List.length_append, hfl]; omega)
    rw [List.take_append, hfl, Nat.sub_self, List.take_zero, List.append_nil, List.take_of_length_le (by omega)] at e1
    rw [List.drop_append, hfl, Nat.sub_self, List.drop_zero, List.drop_eq_nil_of_le (by omega), List.nil_append] at e2
    rw [readStrLoop, e1]
    have hcs := leChars_enc k (cs.take (min cs.length 1024)) (fun c hm => hc c (List.mem_of_mem_take hm))
      (buf.drop ((cs.take (min cs.length 1024)).flatMap (leEnc k)).length)
    rw [htl] at hcs
    show ∃ s', (if cs.length - min cs.length 1024 = 0 ∨ S.state s1 ≠ .ok then
        some (data ++ leChars k (min cs.length 1024) (_ ++ buf.drop _), s1) else
        readStrLoop S buf k fuel s1 (data ++ leChars k (min cs.length 1024) (_ ++ buf.drop _)) (cs.length - min cs.length 1024)) = _ ∧ _
    rw [hcs, e3]
    by_cases h0 : cs.length - min cs.length 1024 = 0
    · rw [if_pos (Or.inl h0)]
      refine ⟨s1, ?_, ?_, e3⟩
      · rw [List.take_of_length_le (by omega)]
      · rw [List.drop_eq_nil_of_le (by omega)] at e2; exact e2
    · rw [if_neg (fun c => c.elim h0 (fun c => c rfl))]
      obtain ⟨s', i1, i2, i3⟩ := ih s1 (data ++ cs.take (min cs.length 1024)) (cs.drop (min cs.length 1024)) rest e3
        (fun c hm => hc c (List.mem_of_mem_drop hm)) e2 (by rw [List.length_drop]; omega)
      rw [List.length_drop] at i1
      refine ⟨s', ?_, i2, i3⟩
      rw [i1, List.append_assoc, hsplit]

theorem readMsetLoop_exact {S : Strm Byte σ} {R : σ → List Byte → Prop} (h : Exact S R) (fuel : Nat) (old : List Byte)
    (k : Nat) (hk : 0 < k) (hf : k < fuel) (rest : List Byte) :
    ∀ (xs : List Nat) (s : σ) (data : List Nat), S.state s = .ok →
      (∀ c ∈ xs, c < 256 ^ k) → (data ++ xs).Pairwise (· ≤ ·) → R s (xs.flatMap (leEnc k) ++ rest) →
      ∃ s', readMsetLoop S fuel old k xs.length s data = some (data ++ xs, s') ∧ R s' rest ∧ S.state s' = .ok := by
  intro xs
  induction xs with
  | nil => intro s data hs _ _ hr; exact ⟨s, by simp [readMsetLoop], hr, hs⟩
  | cons x xs ih =>
    intro s data hs hc hp hr
    rw [List.flatMap_cons, List.append_assoc] at hr
    obtain ⟨s1, e1, e2, e3⟩ := readData_exact h s hs fuel old k x hk (hc x (by simp)) _ hr hf
    have hins : msInsert x data = data ++ [x] := by
      apply msInsert_last
      intro y hy
      exact (List.pairwise_append.1 hp).2.2 y hy x (by simp)
    obtain ⟨s', i1, i2, i3⟩ := ih s1 (data ++ [x]) e3 (fun c hm => hc c (List.mem_cons_of_mem _ hm))
      (by rw [List.append_assoc]; exact hp) e2
    refine ⟨s', ?_, i2, i3⟩
    rw [List.length_cons, readMsetLoop, e1]
    show (if S.state s1 ≠ .ok then _ else readMsetLoop S fuel old k xs.length s1 (msInsert x data)) = _
    rw [e3, if_neg (by decide), hins, i1, List.append_assoc]; rfl

theorem get_exact {S : Strm Byte σ} {R : σ → List Byte → Prop} (h : Exact S R) (s : σ) (hs : S.state s = .ok)
    (fuel : Nat) (old buf : List Byte) (v : Val) (hv : v.Ok) (rest : List Byte)
    (hr : R s (wire v ++ rest)) (hf : need v < fuel) :
    ∃ s', get S fuel old buf s v.kind = some (v, s') ∧ R s' rest ∧ S.state s' = .ok := by
  cases v with
  | num k v =>
    obtain ⟨s', e1, e2, e3⟩ := readData_exact h s hs fuel old k v hv.1 hv.2 rest hr
      (by simp only [need] at hf; omega)
    exact ⟨s', by simp only [Stream.get, Val.kind, e1, Option.map_some], e2, e3⟩
  | str k cs =>
    obtain ⟨hk, hc, hn⟩ := hv
    simp only [need] at hf
    rw [wire, List.append_assoc] at hr
    obtain ⟨s1, e1, e2, e3⟩ := readData_exact h s hs fuel old 4 cs.length (by decide) (by rw [pow4]; omega) _ hr (by omega)
    obtain ⟨s', i1, i2, i3⟩ := readStrLoop_exact h buf k hk fuel s1 [] cs rest e3 hc e2 (by omega)
    refine ⟨s', ?_, i2, i3⟩
    show (readStr S fuel old buf s k).map _ = _
    unfold readStr
    rw [hs, if_neg (by decide), e1]
    show (if S.state s1 ≠ .ok then _ else readStrLoop S buf k fuel s1 [] cs.length).map _ = _
    rw [e3, if_neg (by decide), i1]; rfl
  | mset k xs =>
    obtain ⟨hk, hc, hn, hp⟩ := hv
    simp only [need] at hf
    rw [wire, List.append_assoc] at hr
    obtain ⟨s1, e1, e2, e3⟩ := readData_exact h s hs fuel old 4 xs.length (by decide) (by rw [pow4]; omega) _ hr (by omega)
    obtain ⟨s', i1, i2, i3⟩ := readMsetLoop_exact h fuel old k hk (by omega) rest xs s1 [] e3 hc hp e2
    refine ⟨s', ?_, i2, i3⟩
    show (readMset S fuel old s k).map _ = _
    unfold readMset
    rw [e1]
    show (if S.state s1 ≠ .ok then _ else readMsetLoop S fuel old k xs.length s1 []).map _ = _
    rw [e3, if_neg (by decide), i1]; rfl

theorem getAll_exact {S : Strm Byte σ} {R : σ → List Byte → Prop} (h : Exact S R) (fuel : Nat) (old buf rest : List Byte) :
    ∀ (vs : List Val) (s : σ), S.state s = .ok → (∀ v ∈ vs, v.Ok ∧ need v < fuel) → R s (vs.flatMap wire ++ rest) →
      ∃ s', getAll S fuel old buf s (vs.map Val.kind) = some (vs, s') ∧ R s' rest ∧ S.state s' = .ok := by
  intro vs
  induction vs with
  | nil => intro s hs _ hr; exact ⟨s, rfl, hr, hs⟩
  | cons v vs ih =>
    intro s hs hv hr
    rw [List.flatMap_cons, List.append_assoc] at hr
    obtain ⟨s1, e1, e2, e3⟩ := get_exact h s hs fuel old buf v (hv v (by simp)).1 _ hr (hv v (by simp)).2
    obtain ⟨s', i1, i2, i3⟩ := ih s1 e3 (fun w hw => hv w (List.mem_cons_of_mem _ hw)) e2
    refine ⟨s', ?_, i2, i3⟩
    rw [List.map_cons, getAll, e1]
    show (getAll S fuel old buf s1 (vs.map Val.kind)).map _ = _
    rw [i1]; rfl

theorem filter_wrapAt (k : Nat) : ∀ (l : List Nat) (cur : Nat), (∀ c ∈ l, isB64 c = true) → (wrapAt k cur l).filter isB64 = l := by
  intro l
  induction l with
  | nil => intro cur _; rfl
  | cons c l ih =>
    intro cur h
    have hc := h c (by simp)
    have hn : isB64 10 = false := by decide
    have hl := fun cur => ih cur fun c m => h c (List.mem_cons_of_mem _ m)
    unfold wrapAt
    split <;> simp [List.filter, hc, hn, hl]

/-- The characters of the text, as numbers. -/
theorem base64Text_codes (maxBlocks : Nat) (bytes : List Byte) :
    ((base64Text maxBlocks bytes).map BitVec.toNat).filter isB64 = rfc4648 (bytes.map UInt8.ofBitVec) := by
  unfold base64Text chars
  have h : ∀ l : List Nat, ((l.map (BitVec.ofNat 8)).map BitVec.toNat) = l.map (· % 256) := by
    intro l; rw [List.map_map]; rfl
  rw [h]
  have hw : ∀ (l : List Nat) (cur : Nat), (∀ c ∈ l, c < 256) → (wrapAt (4 * maxBlocks) cur l).map (· % 256) = wrapAt (4 * maxBlocks) cur l := by
    intro l
    induction l with
    | nil => intro _ _; rfl
    | cons c l ih =>
      intro cur hl
      have hc : c % 256 = c := Nat.mod_eq_of_lt (hl c (by simp))
      have := fun cur => ih cur fun c m => hl c (List.mem_cons_of_mem _ m)
      unfold wrapAt
      split <;> simp [hc, this]
  rw [hw _ _ fun c m => isB64_lt (rfc_isB64 _ c m), filter_wrapAt _ _ _ (rfc_isB64 _)]

/-- What a reader on a source has left: the bytes of the text not yet delivered. -/
def Left (S : Strm Byte σ) (rem : σ → List Byte) (fuel : Nat) (x : ((Dec × List UInt8) × St) × σ) (l : List Byte) : Prop :=
  ∃ data, x.1.1.1.num < 4 ∧ codesOf x.1.1.1 ((rem x.2).map BitVec.toNat) = (rfc4648 data).map dec ∧ l = (x.1.1.2 ++ data).map UInt8.toBitVec ∧
    S.state x.2 = .ok ∧ (rem x.2).length < fuel

theorem reader_exact {S : Strm Byte σ} {rem : σ → List Byte} (h : IsSource S rem) {fuel : Nat} (h1 : 1 < fuel) : Exact (reader S fuel) (Left S rem fuel) := by
  rintro ⟨⟨⟨d, temp⟩, st⟩, s⟩ l n ⟨data, a1, a2, rfl, a4, a5⟩ hn
  dsimp only at a1 a2 a4 a5
  rw [List.length_map, List.length_append] at hn
  replace hn : n ≤ temp.length + data.length := hn
  by_cases ht : temp.length ≥ n
  · refine ⟨(((d, temp.drop n), .ok), s), ?_, ⟨data, a1, a2, ?_, a4, a5⟩, rfl⟩
    · show (if temp.length ≥ n then _ else _) = _
      rw [if_pos ht, ← List.map_take, List.take_append_of_le_length ht]
    · rw [← List.map_drop, List.drop_append_of_le_length ht]
  · obtain ⟨data', b1, b2, b3, b4, b5⟩ := readFill_rfc ((rem s).map BitVec.toNat) data d (n - temp.length) temp a1 a2 (by omega) (by omega)
    obtain ⟨s', st', c1, c2, c3, c4, c5⟩ := fill_source h h1 fuel s d (n - temp.length) temp a4 a5
    rw [b2, if_pos rfl] at c4
    rw [c4] at c5
    subst c4
    refine ⟨((((readFill d (n - temp.length) temp ((rem s).map BitVec.toNat)).reader.dec, (readFill d (n - temp.length) temp ((rem s).map BitVec.toNat)).reader.temp), .ok), s'), ?_,
      ⟨data', b3, ?_, ?_, c5, Nat.lt_of_le_of_lt c3 a5⟩, rfl⟩
    · show (if temp.length ≥ n then _ else _) = _
      rw [if_neg ht, ← List.map_take, List.take_append, List.take_of_length_le (by omega : temp.length ≤ n), ← b1]
      dsimp only
      rw [c1]
    · rw [c2]; exact b4
    · rw [← List.map_drop, List.drop_append, List.drop_eq_nil_of_le (by omega : temp.length ≤ n), List.nil_append, ← b5]

variable {S : Strm Byte σ} {T : Strm Byte τ} {φ : σ → τ}

theorem fill_hom (h : Record.Hom S T φ) (one : Nat) : ∀ (fuel : Nat) (d : Dec) (toRead : Nat) (got : List UInt8) (s : σ),
    fill T one fuel d toRead got (φ s) = ((fill S one fuel d toRead got s).1, φ (fill S one fuel d toRead got s).2)
  | 0, _, _, _, _ => rfl
  | fuel + 1, d, toRead, got, s => by
    unfold fill next
    rw [Record.readData_hom h]
    cases readData S one [] s 1 with
    | none => rfl
    | some r =>
      dsimp only [Option.map_some]
      rw [h.state]
      split
      · rfl
      · split
        · exact fill_hom h one fuel _ _ _ _
        · split
          · rfl
          · split
            · rfl
            · exact fill_hom h one fuel _ _ _ _

theorem reader_hom (h : Record.Hom S T φ) (fuel : Nat)   : Record.Hom (reader S fuel) (reader T fuel) (fun x => (x.1, φ x.2)) := by
  refine ⟨fun x n => ?_, fun x => rfl⟩
  show (if _ then _ else _) = _
  unfold reader
  dsimp only
  split
  · rfl
  · rw [fill_hom h]

theorem left_start {S : Strm Byte σ} {rem : σ → List Byte} {fuel : Nat} {s : σ} (hs : S.state s = .ok) {maxBlocks : Nat} {bytes : List Byte}
    (hr : rem s = base64Text maxBlocks bytes) (hf : (rem s).length < fuel) : Left S rem fuel (readerOn S s) bytes := by
  refine ⟨bytes.map UInt8.ofBitVec, Nat.succ_pos 3, ?_, ?_, hs, hf⟩
  · show codesOf Dec.init ((rem s).map BitVec.toNat) = _
    rw [hr, codesOf, base64Text_codes]; rfl
  · show bytes = (([] : List UInt8) ++ bytes.map UInt8.ofBitVec).map UInt8.toBitVec
    rw [List.nil_append, List.map_map]
    exact (List.map_id _).symm

/-- **C157** (reading) Over any source whose contents are the base64 text of some bytes, a reader from which no more is read than there are bytes delivers them, however the requests are cut: the next
`n` bytes, state ok. -/
theorem base64_reads {S : Strm Byte σ} {rem : σ → List Byte} (h : IsSource S rem) {s : σ} (hs : S.state s = .ok) {maxBlocks : Nat} {bytes : List Byte} (hr : rem s = base64Text maxBlocks bytes)
    {fuel : Nat} (h1 : 1 < fuel) (hf : (rem s).length < fuel) : ∀ ns : List Nat, ns.sum ≤ bytes.length →
    let x := ns.foldl (fun x n => ((reader S fuel).read x n).2) (readerOn S s)
    ∀ n, ns.sum + n ≤ bytes.length → ((reader S fuel).read x n).1 = (bytes.drop ns.sum).take n ∧ (reader S fuel).state ((reader S fuel).read x n).2 = .ok := by
  have key : ∀ (ns : List Nat) (x : ((Dec × List UInt8) × St) × σ) (l : List Byte), Left S rem fuel x l → ns.sum ≤ l.length →
      Left S rem fuel (ns.foldl (fun x n => ((reader S fuel).read x n).2) x) (l.drop ns.sum) := by
    intro ns
    induction ns with
    | nil => intro x l h _; exact h
    | cons n ns ih =>
      intro x l hl hn
      rw [List.sum_cons] at hn ⊢
      obtain ⟨x', e1, e2, -⟩ := reader_exact h h1 x l n hl (by omega)
      rw [List.foldl_cons, e1, ← List.drop_drop]
      exact ih x' _ e2 (by rw [List.length_drop]; omega)
  intro ns hns x n hn
  obtain ⟨x', e1, -, e3⟩ := reader_exact h h1 x _ n (key ns _ bytes (left_start hs hr hf) hns) (by rw [List.length_drop]; omega)
  rw [e1]
  exact ⟨rfl, e3⟩

/-- **C157** (values) Values written through a base64 writer over any pile of filters, and read through a base64 reader over any other pile on the text. -/
theorem values_through_base64 {D : Strm Byte τ} {got : τ → List Byte} (hd : Sinks D got) {t : τ} (ht : D.state t = .ok) (h0 : got t = []) {vs : List Val} (hv : ∀ v ∈ vs, v.Ok)
    {maxBlocks : Nat} (hb : 1 ≤ maxBlocks) {fs gs : List (Filter H)} (hf : ∀ f ∈ fs, f.Ok ∧ f.Fits (base64Text maxBlocks (vs.flatMap wire)).length) (hg : ∀ f ∈ gs, f.Ok)
    {P : Pile H} (hP : P = stack fs (bare D t got)) :
    ∃ x, putAll (writer P.S) (writerOn P.S maxBlocks P.s) vs = some x ∧
      P.S.state (P.S.flush (writerEnd P.S x)) = .ok ∧ P.got (P.S.flush (writerEnd P.S x)) = base64Text maxBlocks (vs.flatMap wire) ∧
      ∀ {σ : Type} {S : Strm Byte σ} {rem : σ → List Byte}, IsSource S rem → ∀ (got' : σ → List Byte) (s : σ), S.state s = .ok →
        rem s = P.got (P.S.flush (writerEnd P.S x)) → view gs (rem s) = rem s → ∀ Q : Pile H, Q = stack gs (bare S s got') →
        ∀ (fuel : Nat), (∀ v ∈ vs, need v < fuel) → 1 < fuel → (rem s).length < fuel → ∀ old buf : List Byte,
        ∃ y, getAll (reader Q.S fuel) fuel old buf (readerOn Q.S Q.s) (vs.map Val.kind) = some (vs, y) ∧ (reader Q.S fuel).state y = .ok := by
  obtain ⟨o1, o2⟩ := vals_output hv
  rw [← o2] at hf
  obtain ⟨a1, a2, a3⟩ := program_through_base64 (valsProg vs) hb hd ht hf hP
  rw [o1] at a1
  rw [h0, List.nil_append, o2] at a2
  refine ⟨_, ?_, a3, a2, ?_⟩
  · rw [vals_program, thrown, if_pos a1]
  · intro σ S rem h got' s hs hr hw Q hQ fuel hfu h1 hfl old buf
    rw [a2] at hr
    obtain ⟨κ, T, left, φ, z, s1, -, s2, s3, s4, s5⟩ := stack_source (H := H) h hs got' hg
    rw [hw] at s4
    obtain ⟨y, b1, -, b3⟩ := getAll_exact (reader_exact s1 h1) fuel old buf [] vs (readerOn T z) s5 (fun v m => ⟨hv v m, hfu v m⟩)
      (by rw [List.append_nil]; exact left_start s5 (s4.trans hr) (by rw [s4]; exact hfl))
    have hh := reader_hom s2 fuel
    have := Stack.getAll_hom hh fuel old buf (vs.map Val.kind) (readerOn T z)
    rw [b1] at this
    subst hQ
    refine ⟨(y.1, φ y.2), ?_, ?_⟩
    · have e : readerOn (stack gs (bare S s got')).S (stack gs (bare S s got')).s = ((readerOn T z).1, φ (readerOn T z).2) := by
        unfold readerOn
        rw [← s3, s2.state]
      rw [e]
      exact this
    · exact b3

/-! ### Examples -/

/-- `threeVals` as base64 text of four blocks a line. -/
def threeText : List Byte := base64Text 4 threeBytes

example : threeText.length = 25 ∧ threeText.take 5 = [101, 70, 89, 48, 69] ∧ threeText.drop 16 = [10, 65, 65, 65, 66, 65, 65, 73, 66] ∧ threeVals.flatMap wire = threeBytes := by decide +kernel

example : (∀ v ∈ threeVals, v.Ok) ∧ (∀ f ∈ six 25, f.Ok ∧ f.Fits (base64Text 4 (threeVals.flatMap wire)).length) ∧ (∀ v ∈ threeVals, need v < 2000) := by
  refine ⟨?_, ?_, by decide +kernel⟩
  · intro v hv
    simp only [threeVals, List.mem_cons, List.not_mem_nil, or_false] at hv
    rcases hv with rfl | rfl | rfl <;> simp [Val.Ok]
  · rw [show (base64Text 4 (threeVals.flatMap wire)).length = 25 by decide +kernel]
    simp [six, Filter.Ok, Filter.Fits, fsizeMax]

/-- The values of `threeVals` written over five filters: the writer, the end of it, and the flush. -/
example : (putAll (writer (stack (six 25) (bare (flushing 3) ([], [], .ok) (fun s => s.2.1))).S)
      (writerOn (stack (six 25) (bare (flushing 3) ([], [], .ok) (fun s => s.2.1))).S 4 (stack (six 25) (bare (flushing 3) ([], [], .ok) (fun s => s.2.1))).s) threeVals).map (fun x =>
      (stack (six 25) (bare (flushing 3) ([], [], .ok) (fun s => s.2.1))).got ((stack (six 25) (bare (flushing 3) ([], [], .ok) (fun s => s.2.1))).S.flush
        (writerEnd (stack (six 25) (bare (flushing 3) ([], [], .ok) (fun s => s.2.1))).S x))) = some threeText := by decide +kernel

/-- And read back. -/
example : (getAll (reader (stack (six 25) (bare (flushing 3) (threeText, [], .ok) (fun s => s.2.1))).S 50) 50 [] (List.replicate 2048 0)
    (readerOn (stack (six 25) (bare (flushing 3) (threeText, [], .ok) (fun s => s.2.1))).S (stack (six 25) (bare (flushing 3) (threeText, [], .ok) (fun s => s.2.1))).s) (threeVals.map Val.kind)).map (·.1)
    = some threeVals := by decide +kernel

end Verif.B64Pipe
