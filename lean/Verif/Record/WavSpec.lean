import Verif.Record.Wav
/-
Chunks of WAV files: round trips.
-/
namespace Verif.Record.Wav
open Verif.Stream Verif.Stream.MemoryFile Verif.Record
variable {σ τ α β : Type}

/-! ### Readers only read -/

theorem bind_hom {φ : σ → τ} (x : Option (α × σ)) {k : α × σ → Option (β × σ)} {k' : α × τ → Option (β × τ)}
    (hk : ∀ a s, k' (a, φ s) = (k (a, s)).map fun r => (r.1, φ r.2)) :
    (x.map fun r => (r.1, φ r.2)).bind k' = (x.bind k).map fun r => (r.1, φ r.2) := by
  cases x with
  | none => rfl
  | some r => exact hk r.1 r.2

theorem map_hom {φ : σ → τ} (x : Option (α × σ)) {k : α × σ → β × σ} {k' : α × τ → β × τ}
    (hk : ∀ a s, k' (a, φ s) = ((k (a, s)).1, φ (k (a, s)).2)) :
    (x.map fun r => (r.1, φ r.2)).map k' = (x.map k).map fun r => (r.1, φ r.2) := by
  cases x with
  | none => rfl
  | some r => exact congrArg some (hk r.1 r.2)

theorem num_hom {S : Strm Byte σ} {T : Strm Byte τ} {φ : σ → τ} (h : Hom S T φ) (s : σ) (k : Nat) :
    num T (φ s) k = (num S s k).map fun r => (r.1, φ r.2) := readData_hom h _ _ _ _

theorem refill_hom {S : Strm Byte σ} {T : Strm Byte τ} {φ : σ → τ} (h : Hom S T φ) (fuel : Nat) (f : MF Byte) (s : σ) (n : Option Nat) :
    refill T fuel f (φ s) n = (refill S fuel f s n).map fun r => (r.1, φ r.2) := by
  unfold refill
  cases f.seek 0 .beg with
  | none => rfl
  | some q =>
    simp only [Option.bind_some]
    rw [writeStream_hom h, Option.map_map, Option.map_map]; rfl

theorem header_natural : Reader.Natural readHeader := by
  intro σ τ S T φ h s
  unfold readHeader
  dsimp only
  rw [num_hom h]
  refine bind_hom _ fun v s => ?_
  simp only []
  rw [h.state]
  split <;> rfl

theorem format_natural (fuel : Nat) (x : Format) : Reader.Natural (readFormat fuel x) := by
  intro σ τ S T φ h s
  unfold readFormat
  dsimp only
  rw [num_hom h]
  refine bind_hom _ fun v s => ?_
  simp only []
  rw [h.state]
  split
  · rw [Option.map_map]; rfl
  · rw [num_hom h]; refine bind_hom _ fun v s => ?_
    simp only []
    rw [num_hom h]; refine bind_hom _ fun v s => ?_
    simp only []
    rw [num_hom h]; refine bind_hom _ fun v s => ?_
    simp only []
    rw [num_hom h]; refine bind_hom _ fun v s => ?_
    simp only []
    rw [num_hom h]; refine bind_hom _ fun v s => ?_
    simp only []
    rw [num_hom h]; refine bind_hom _ fun v s => ?_
    simp only []
    rw [h.state]
    split
    · rw [Option.map_map]; rfl
    · rw [refill_hom h]
      exact map_hom _ fun a s => rfl

theorem content_natural (fuel : Nat) (x : Data) : Reader.Natural (readContent fuel x) := by
  intro σ τ S T φ h s
  unfold readContent
  dsimp only
  rw [refill_hom h]
  exact map_hom _ fun a s => rfl

theorem silence_natural : Reader.Natural readSilence := by
  intro σ τ S T φ h s
  exact num_hom h s 4

theorem cues_natural (fuel : Nat) (x : List Cue) : Reader.Natural (readCues fuel x) := by
  intro σ τ S T φ h s
  unfold readCues
  dsimp only
  rw [num_hom h]
  refine bind_hom _ fun v s => ?_
  simp only []
  rw [h.state]
  split
  · rfl
  · rw [readArray_hom h, Option.map_map, Option.map_map]; rfl

theorem text_natural (fuel : Nat) : Reader.Natural (readText fuel) := by
  intro σ τ S T φ h s
  unfold readText
  dsimp only
  rw [h.state]
  split
  · rw [readRemainder_hom h]
    exact map_hom _ fun a s => rfl
  · rfl

theorem ltxt_natural (fuel : Nat) : Reader.Natural (readLtxt fuel) := by
  intro σ τ S T φ h s
  unfold readLtxt
  dsimp only
  rw [num_hom h]; refine bind_hom _ fun v s => ?_
  simp only []
  rw [num_hom h]; refine bind_hom _ fun v s => ?_
  simp only []
  rw [num_hom h]; refine bind_hom _ fun v s => ?_
  simp only []
  rw [num_hom h]; refine bind_hom _ fun v s => ?_
  simp only []
  rw [num_hom h]; refine bind_hom _ fun v s => ?_
  simp only []
  rw [num_hom h]; refine bind_hom _ fun v s => ?_
  simp only []
  rw [num_hom h]; refine bind_hom _ fun v s => ?_
  simp only []
  have ht : readText fuel T (φ s) = (readText fuel S s).map fun r => (r.1, φ r.2) := text_natural fuel h s
  rw [ht]
  exact map_hom _ fun a s => rfl

theorem label_natural (fuel : Nat) : Reader.Natural (readLabel fuel) := by
  intro σ τ S T φ h s
  unfold readLabel
  dsimp only
  rw [num_hom h]; refine bind_hom _ fun v s => ?_
  simp only []
  have ht : readText fuel T (φ s) = (readText fuel S s).map fun r => (r.1, φ r.2) := text_natural fuel h s
  rw [ht]
  exact map_hom _ fun a s => rfl

/-! ### What readers get -/

theorem num_source {S : Strm Byte σ} {rem : σ → List Byte} (h : IsSource S rem) {s : σ} (hs : S.state s = .ok) {k v : Nat} (hk : 0 < k) (hv : v < 256 ^ k) {rest : List Byte}
    (hr : rem s = leEnc k v ++ rest) : ∃ s', num S s k = some (v, s') ∧ rem s' = rest ∧ S.state s' = .ok :=
  readData_source h s hs (k + 1) [] k v hk hv rest hr (Nat.lt_succ_self k)

theorem num2 {S : Strm Byte σ} {rem : σ → List Byte} (h : IsSource S rem) {s : σ} (hs : S.state s = .ok) {v : Nat} (hv : v < 65536) {rest : List Byte}
    (hr : rem s = leEnc 2 v ++ rest) : ∃ s', num S s 2 = some (v, s') ∧ rem s' = rest ∧ S.state s' = .ok :=
  num_source h hs (by omega) (by rw [show (256 : Nat) ^ 2 = 65536 from rfl]; exact hv) hr

theorem num4 {S : Strm Byte σ} {rem : σ → List Byte} (h : IsSource S rem) {s : σ} (hs : S.state s = .ok) {v : Nat} (hv : v < 4294967296) {rest : List Byte}
    (hr : rem s = leEnc 4 v ++ rest) : ∃ s', num S s 4 = some (v, s') ∧ rem s' = rest ∧ S.state s' = .ok :=
  num_source h hs (by omega) (by rw [show (256 : Nat) ^ 4 = 4294967296 from rfl]; exact hv) hr

/-- A number from an exhausted stream. -/
theorem num_none {S : Strm Byte σ} {rem : σ → List Byte} (h : IsSource S rem) {s : σ} (hs : S.state s = .ok) {k : Nat} (hk : 0 < k) (hr : rem s = []) :
    ∃ s', num S s k = some (0, s') ∧ rem s' = [] ∧ S.state s' = .eof := by
  obtain ⟨s', e1, e2, -, e4, -⟩ := readLoop_source h (k + 1) s (k * 1) (by omega)
  rw [hr] at e1 e2 e4
  refine ⟨s', ?_, by rw [e2]; simp, e4 (by simpa using hk)⟩
  unfold num readData
  rw [hs, if_neg (by decide)]
  unfold readArray
  rw [e1, Option.map_some]
  simp only [List.take_nil, List.length_nil, Nat.mul_one, Nat.sub_zero]
  rw [if_neg (show ¬ k = 0 by omega), Nat.div_self hk]
  rfl

theorem seek_zero {f : MF Byte} : f.seek 0 .beg = some (some 0, { f with offset := 0, st := .ok }) := by
  unfold MF.seek MF.target
  simp

theorem truncate_ok {f : MF Byte} {b : List Byte} (h : Ok f b) (hp : f.offset ≤ b.length) :
    Ok (f.truncate true) (b.take f.offset) ∧ (f.truncate true).st = .ok ∧ (f.truncate true).manage = f.manage ∧ (f.truncate true).offset = f.offset := by
  have hl := h.len
  have hs := h.size_le
  have e : f.truncate true = { f with size := f.offset, st := .ok } := by
    unfold MF.truncate MF.reserve
    rw [if_pos (by simp only [MF.reserved, Bool.not_false, Bool.true_or, Bool.and_true]; exact decide_eq_true (show f.offset ≤ f.mem.length by omega))]
  rw [e]
  refine ⟨⟨by show f.offset ≤ f.mem.length; omega, h.cap, h.off, ?_⟩, rfl, rfl, rfl⟩
  show f.mem.take f.offset = (b.take f.offset).map some
  rw [List.map_take, ← h.contents, List.take_take, Nat.min_eq_left (by omega)]

theorem blank_ok {f : MF Byte} {b : List Byte} (h : Ok f b) : ∃ f', blank f = some f' ∧ Ok f' [] ∧ f'.st = .ok ∧ f'.manage = f.manage := by
  unfold blank
  rw [seek_zero, Option.map_some]
  obtain ⟨q1, q2, q3, -⟩ := truncate_ok (f := { f with offset := 0, st := .ok }) (h.move (by omega) .ok) (Nat.zero_le _)
  exact ⟨_, rfl, q1, q2, q3⟩

theorem refill_some {S : Strm Byte σ} {rem : σ → List Byte} (h : IsSource S rem) {f : MF Byte} {b : List Byte} (hf : Ok f b) (hm : f.manage = true) {n : Nat} (hn : n < 2 ^ 61) (s : σ) {fuel : Nat} (hfu : n < fuel) :
    ∃ f' s', refill S fuel f s (some n) = some (f', s') ∧ Ok f' ((rem s).take n) ∧ f'.st = .ok ∧ f'.manage = true := by
  unfold refill
  rw [seek_zero, Option.bind_some]
  have hr : Rel ({ f with offset := 0, st := .ok } : MF Byte) ⟨b, 0⟩ := ⟨hf.move (by omega) .ok, rfl⟩
  obtain ⟨f', s', e1, e2, e3, e4, e5⟩ := write_stream_amount h hr hm (Nat.zero_le _) (n := n) (by simpa using hn) s hfu
  rw [e1, Option.map_some]
  have hp := e4.pos
  simp only [Nat.zero_add] at hp
  have hol := overwrite_length b 0 ((rem s).take n) (Nat.zero_le _)
  obtain ⟨q1, q2, q3, -⟩ := truncate_ok e4.ok (by rw [hp]; simp only; omega)
  refine ⟨_, _, rfl, ?_, q2, by rw [q3]; exact e3⟩
  rw [hp] at q1
  have : (overwrite b 0 ((rem s).take n)).take ((rem s).take n).length = (rem s).take n := by
    unfold overwrite
    rw [List.take_zero, List.nil_append, List.take_left]
  simp only at q1
  rw [this] at q1
  exact q1

theorem refill_none {S : Strm Byte σ} {rem : σ → List Byte} (h : IsSource S rem) {f : MF Byte} {b : List Byte} (hf : Ok f b) (hm : f.manage = true) (s : σ) (hn : (rem s).length + 65536 < 2 ^ 61) {fuel : Nat} (hfu : (rem s).length < fuel) :
    ∃ f' s', refill S fuel f s none = some (f', s') ∧ Ok f' (rem s) ∧ f'.st = .ok ∧ f'.manage = true := by
  unfold refill
  rw [seek_zero, Option.bind_some]
  have hr : Rel ({ f with offset := 0, st := .ok } : MF Byte) ⟨b, 0⟩ := ⟨hf.move (by omega) .ok, rfl⟩
  obtain ⟨f', s', d, e1, e2, e3, e4, e5, e6⟩ := write_stream_all h hr (Nat.zero_le _) s (by simpa using hn) (fun _ => true) hfu
  rw [e1, Option.map_some]
  have hd : d = rem s := e4 (e5 hm (fun _ => rfl))
  subst hd
  have hp := e3.pos
  simp only [Nat.zero_add] at hp
  have hol := overwrite_length b 0 (rem s) (Nat.zero_le _)
  obtain ⟨q1, q2, q3, -⟩ := truncate_ok e3.ok (by rw [hp]; simp only; omega)
  refine ⟨_, _, rfl, ?_, q2, by rw [q3, e6]; exact hm⟩
  rw [hp] at q1
  have : (overwrite b 0 (rem s)).take (rem s).length = rem s := by
    unfold overwrite
    rw [List.take_zero, List.nil_append, List.take_left]
  simp only at q1
  rw [this] at q1
  exact q1

theorem header_gets {h : Header} (hh : h.type < 4294967296) : Reader.Gets readHeader (leEnc 4 h.type) (· = h) := by
  intro σ S rem hs s hst hr
  obtain ⟨s', e1, e2, e3⟩ := num4 hs hst hh (rest := []) (by rw [hr, List.append_nil])
  refine ⟨h, s', ?_, rfl⟩
  unfold readHeader
  dsimp only
  rw [e1]
  simp only [Option.bind_some]
  rw [if_neg (by simp [e3])]

theorem silence_gets {n : Nat} (hh : n < 4294967296) : Reader.Gets readSilence (leEnc 4 n) (· = n) := by
  intro σ S rem hs s hst hr
  obtain ⟨s', e1, e2, e3⟩ := num4 hs hst hh (rest := []) (by rw [hr, List.append_nil])
  exact ⟨n, s', e1, rfl⟩

theorem content_gets {fuel : Nat} {x : Data} {b0 c : List Byte} (hx : Ok x.content b0) (hm : x.content.manage = true) (hc : c.length + 65536 < 2 ^ 61) (hf : c.length < fuel) :
    Reader.Gets (readContent fuel x) c (fun y => Ok y.content c) := by
  intro σ S rem hs s hst hr
  obtain ⟨f', s', e1, e2, -, -⟩ := refill_none hs hx hm s (by rw [hr]; exact hc) (fuel := fuel) (by rw [hr]; exact hf)
  refine ⟨⟨f'⟩, s', ?_, by rw [← hr]; exact e2⟩
  unfold readContent
  dsimp only
  rw [e1]; rfl

theorem format_gets {fuel : Nat} {x y : Format} {b0 e : List Byte} (hx : Ok x.extra b0) (hm : x.extra.manage = true) (hy : y.Fits) (he : e.length ≤ 65535) (hf : e.length < fuel) :
    Reader.Gets (readFormat fuel x) (formatBytes y e) (fun z => (z.compression = y.compression ∧ z.numChannels = y.numChannels ∧ z.sampleRate = y.sampleRate ∧ z.bytesPerSecond = y.bytesPerSecond ∧
      z.blockAlign = y.blockAlign ∧ z.bitsPerChannel = y.bitsPerChannel) ∧ Ok z.extra e) := by
  intro σ S rem hs s hst hr
  obtain ⟨h1, h2, h3, h4, h5, h6⟩ := hy
  unfold formatBytes at hr
  obtain ⟨s1, a1, b1, c1⟩ := num2 hs hst h1 hr
  obtain ⟨s2, a2, b2, c2⟩ := num2 hs c1 h2 b1
  obtain ⟨s3, a3, b3, c3⟩ := num4 hs c2 h3 b2
  obtain ⟨s4, a4, b4, c4⟩ := num4 hs c3 h4 b3
  obtain ⟨s5, a5, b5, c5⟩ := num2 hs c4 h5 b4
  obtain ⟨s6, a6, b6, c6⟩ := num2 hs c5 h6 b5
  unfold readFormat
  dsimp only
  rw [a1]
  simp only [Option.bind_some]
  rw [if_neg (by simp [c1]), a2]
  simp only [Option.bind_some]
  rw [a3]
  simp only [Option.bind_some]
  rw [a4]
  simp only [Option.bind_some]
  rw [a5]
  simp only [Option.bind_some]
  rw [a6]
  simp only [Option.bind_some]
  unfold extraBytes at b6
  by_cases hn : e = []
  · rw [if_pos hn] at b6
    obtain ⟨s7, a7, b7, c7⟩ := num_none hs c6 (k := 2) (by omega) b6
    rw [a7]
    simp only [Option.bind_some]
    rw [if_pos (Or.inr trivial)]
    obtain ⟨f', g1, g2, -, -⟩ := blank_ok hx
    rw [g1]
    exact ⟨_, _, rfl, ⟨rfl, rfl, rfl, rfl, rfl, rfl⟩, by rw [hn]; exact g2⟩
  · rw [if_neg hn] at b6
    have hl : e.length ≠ 0 := fun c => hn (List.eq_nil_of_length_eq_zero c)
    obtain ⟨s7, a7, b7, c7⟩ := num2 hs c6 (v := e.length) (by omega) b6
    rw [a7]
    simp only [Option.bind_some]
    rw [if_neg (by simp [c7, hn])]
    obtain ⟨f', s', g1, g2, -, -⟩ := refill_some hs hx hm (n := e.length) (by omega) s7 hf
    rw [g1]
    refine ⟨_, _, rfl, ⟨rfl, rfl, rfl, rfl, rfl, rfl⟩, ?_⟩
    rw [b7, List.take_of_length_le (Nat.le_refl _)] at g2
    exact g2

theorem takeWhile_text {x : List Byte} (hx : (0 : Byte) ∉ x) : (textBytes x).takeWhile (· ≠ 0) = x := by
  unfold textBytes
  by_cases h : x = []
  · rw [if_pos h, h]; rfl
  · rw [if_neg h, List.takeWhile_append_of_pos (fun a ha => by simpa using fun c : a = 0 => hx (c ▸ ha))]
    simp

theorem text_source {S : Strm Byte σ} {rem : σ → List Byte} (h : IsSource S rem) {s : σ} (hs : S.state s = .ok) {fuel : Nat} (hl : (rem s).length < 2 ^ 63) (hf : (rem s).length + 65537 < fuel) :
    ∃ s', readText fuel S s = some ((rem s).takeWhile (· ≠ 0), s') := by
  unfold readText
  dsimp only
  rw [if_pos hs]
  obtain ⟨s', e1, -⟩ := readRemainder_source h s (2 ^ 64 - 1) fuel hf
  rw [e1, List.take_of_length_le (by omega)]
  exact ⟨s', rfl⟩

/-- A label or note: its identifier and the text up to the first zero, whatever follows. -/
theorem label_gets_any {fuel i : Nat} {t : List Byte} (hi : i < 4294967296) (hl : t.length < 2 ^ 63) (hf : t.length + 65537 < fuel) :
    Reader.Gets (readLabel fuel) (leEnc 4 i ++ t) (· = ⟨i, t.takeWhile (· ≠ 0)⟩) := by
  intro σ S rem hs s hst hr
  obtain ⟨s1, a1, b1, c1⟩ := num4 hs hst hi hr
  obtain ⟨s2, a2⟩ := text_source hs c1 (fuel := fuel) (by rw [b1]; exact hl) (by rw [b1]; exact hf)
  rw [b1] at a2
  refine ⟨_, s2, ?_, rfl⟩
  unfold readLabel
  dsimp only
  rw [a1]
  simp only [Option.bind_some]
  rw [a2]
  rfl

theorem label_gets {fuel : Nat} {x : Label} (hx : x.Fits) (hl : x.text.length < 2 ^ 62) (hf : x.text.length + 65538 < fuel) :
    Reader.Gets (readLabel fuel) (labelBytes x) (· = x) := by
  have ht : (textBytes x.text).length ≤ x.text.length + 1 := by
    unfold textBytes; split <;> simp
  have : Reader.Gets (readLabel fuel) (labelBytes x) (· = ⟨x.id, (textBytes x.text).takeWhile (· ≠ 0)⟩) := label_gets_any (fuel := fuel) (t := textBytes x.text) hx.1 (by omega) (by omega)
  rw [takeWhile_text hx.2] at this
  intro σ S rem hs s hst hr
  exact this hs s hst hr

theorem ltxt_gets {fuel : Nat} {x : Ltxt} (hx : x.Fits) (hl : x.description.length < 2 ^ 62) (hf : x.description.length + 65538 < fuel) :
    Reader.Gets (readLtxt fuel) (ltxtBytes x) (· = x) := by
  intro σ S rem hs s hst hr
  have ht : (textBytes x.description).length ≤ x.description.length + 1 := by
    unfold textBytes; split <;> simp
  obtain ⟨h1, h2, h3, h4, h5, h6, h7, h8⟩ := hx
  unfold ltxtBytes at hr
  obtain ⟨s1, a1, b1, c1⟩ := num4 hs hst h1 hr
  obtain ⟨s2, a2, b2, c2⟩ := num4 hs c1 h2 b1
  obtain ⟨s3, a3, b3, c3⟩ := num4 hs c2 h3 b2
  obtain ⟨s4, a4, b4, c4⟩ := num2 hs c3 h4 b3
  obtain ⟨s5, a5, b5, c5⟩ := num2 hs c4 h5 b4
  obtain ⟨s6, a6, b6, c6⟩ := num2 hs c5 h6 b5
  obtain ⟨s7, a7, b7, c7⟩ := num2 hs c6 h7 b6
  obtain ⟨s8, a8⟩ := text_source hs c7 (fuel := fuel) (by rw [b7]; omega) (by rw [b7]; omega)
  rw [b7, takeWhile_text h8] at a8
  refine ⟨x, s8, ?_, rfl⟩
  unfold readLtxt
  dsimp only
  rw [a1]
  simp only [Option.bind_some]
  rw [a2]
  simp only [Option.bind_some]
  rw [a3]
  simp only [Option.bind_some]
  rw [a4]
  simp only [Option.bind_some]
  rw [a5]
  simp only [Option.bind_some]
  rw [a6]
  simp only [Option.bind_some]
  rw [a7]
  simp only [Option.bind_some]
  rw [a8]
  rfl

theorem cueMem_length (c : Cue) : (cueMem c).length = 24 := by
  unfold cueMem; simp only [List.length_append, leEnc_length]

theorem cueOf_mem {c : Cue} (h : c.Fits) : cueOf (cueMem c) = c := by
  obtain ⟨h1, h2, h3, h4, h5, h6⟩ := h
  have p : (256 : Nat) ^ 4 = 4294967296 := rfl
  have t : ∀ (v : Nat) (r : List Byte), v < 4294967296 → leDec ((leEnc 4 v ++ r).take 4) = v := by
    intro v r hv
    rw [List.take_left' (leEnc_length 4 v), leDec_enc 4 v (by rw [p]; exact hv)]
  have d : ∀ (v k : Nat) (r : List Byte), (leEnc 4 v ++ r).drop (k + 4) = r.drop k := by
    intro v k r
    rw [Nat.add_comm, ← List.drop_drop, List.drop_left' (leEnc_length 4 v)]
  unfold cueOf cueMem
  rw [t _ _ h1, show (4 : Nat) = 0 + 4 from rfl, show (8 : Nat) = 0 + 4 + 4 from rfl, show (12 : Nat) = 0 + 4 + 4 + 4 from rfl, show (16 : Nat) = 0 + 4 + 4 + 4 + 4 from rfl,
    show (20 : Nat) = 0 + 4 + 4 + 4 + 4 + 4 from rfl]
  simp only [d, List.drop_zero]
  have t' := t c.blockOffset [] h6
  rw [List.append_nil] at t'
  simp only [Nat.zero_add, t _ _ h2, t _ _ h3, t _ _ h4, t _ _ h5, t']

theorem cuesOf_mem : ∀ {x : List Cue} (_ : ∀ c ∈ x, c.Fits) (rest : List Byte), cuesOf x.length (x.flatMap cueMem ++ rest) = x := by
  intro x
  induction x with
  | nil => intro _ rest; rfl
  | cons c x ih =>
    intro h rest
    rw [List.length_cons, cuesOf, List.flatMap_cons, List.append_assoc, List.take_left' (cueMem_length c), List.drop_left' (cueMem_length c),
      cueOf_mem (h c List.mem_cons_self), ih (fun d hd => h d (List.mem_cons_of_mem _ hd)) rest]

theorem flatMap_cueMem_length (x : List Cue) : (x.flatMap cueMem).length = 24 * x.length := by
  induction x with
  | nil => rfl
  | cons c x ih => rw [List.flatMap_cons, List.length_append, cueMem_length, ih, List.length_cons]; omega

theorem resize_self (z : α) (l : List α) : resize z l.length l = l := by
  unfold resize; simp

theorem cues_gets {fuel : Nat} {x0 x : List Cue} (hx : ∀ c ∈ x, c.Fits) (hn : x.length ≤ 4294967295) (hf : 24 * x.length < fuel) :
    Reader.Gets (readCues fuel x0) (cuesBytes x) (· = x) := by
  intro σ S rem hs s hst hr
  unfold cuesBytes at hr
  obtain ⟨s1, a1, b1, c1⟩ := num4 hs hst (v := x.length) (by omega) hr
  unfold readCues
  dsimp only
  rw [a1]
  simp only [Option.bind_some]
  rw [if_neg (by simp [c1])]
  have hl := flatMap_cueMem_length x
  obtain ⟨s2, e1, -⟩ := readLoop_source hs fuel s1 (24 * x.length) hf
  unfold readArray
  rw [e1, b1, List.take_of_length_le (by omega), hl, Nat.sub_self]
  simp only [Option.map_some]
  rw [if_pos trivial, cuesOf_mem hx, resize_self]
  exact ⟨_, _, rfl, rfl⟩

/-! ### What writers write -/

theorem writeData_end (chunk : Nat) (b : List Byte) (k v : Nat) : writeData (file chunk) (atEnd b) k v = atEnd (b ++ leEnc k v) := wrNum_end chunk b k v

theorem write_end (chunk : Nat) (b d : List Byte) : ((file chunk).write (atEnd b) d).2 = atEnd (b ++ d) := by
  show (fwrite ⟨b, b.length, .ok⟩ d).2 = _
  rw [fwrite_end]; rfl

theorem state_end (chunk : Nat) (b : List Byte) : (file chunk).state (atEnd b) = .ok := rfl

theorem peek_all {f : MF Byte} {b : List Byte} (h : Ok f b) : peek f 0 f.size = some b := by
  have hl := h.len
  rw [peek_ok h (by omega), List.drop_zero, List.take_of_length_le (by omega)]

theorem header_writes (chunk : Nat) (h : Header) (b : List Byte) : writeHeader (file chunk) h (atEnd b) = some (atEnd (b ++ leEnc 4 h.type)) := by
  unfold writeHeader; rw [writeData_end]

theorem silence_writes (chunk n : Nat) (b : List Byte) : writeSilence (file chunk) n (atEnd b) = some (atEnd (b ++ leEnc 4 n)) := by
  unfold writeSilence; rw [writeData_end]

theorem content_writes (chunk : Nat) {x : Data} {c : List Byte} (hx : Ok x.content c) (b : List Byte) : writeContent (file chunk) x (atEnd b) = some (atEnd (b ++ c)) := by
  unfold writeContent
  rw [state_end, if_neg (by decide), peek_all hx, Option.map_some, write_end]

theorem format_writes (chunk : Nat) {x : Format} {e : List Byte} (hx : Ok x.extra e) (he : e.length ≤ 65535) (b : List Byte) :
    writeFormat (file chunk) x (atEnd b) = some (atEnd (b ++ formatBytes x e)) := by
  have hl := hx.len
  unfold writeFormat formatBytes extraBytes
  simp only [writeData_end]
  by_cases h : e = []
  · rw [if_neg (by rw [← hl, h]; simp), if_pos h]
    simp only [List.append_assoc, List.append_nil]
  · have : e.length ≠ 0 := fun c => h (List.eq_nil_of_length_eq_zero c)
    rw [if_pos (by omega), if_neg (by omega), state_end, if_pos rfl, peek_all hx, Option.map_some, write_end, if_neg h, hl]
    simp only [List.append_assoc]

/-- Too much additional data is refused. -/
theorem format_refuses (chunk : Nat) {x : Format} (h : 65535 < x.extra.size) (t : File) : writeFormat (file chunk) x t = none := by
  unfold writeFormat
  simp only []
  rw [if_pos (by omega), if_pos h]

theorem cues_writes (chunk : Nat) {x : List Cue} (hn : x.length ≤ 4294967295) (b : List Byte) : writeCues (file chunk) x (atEnd b) = some (atEnd (b ++ cuesBytes x)) := by
  unfold writeCues cuesBytes
  rw [if_neg (by omega)]
  simp only [writeData_end, state_end, if_true, write_end, List.append_assoc]

theorem text_writes (chunk : Nat) (x b : List Byte) : writeText (file chunk) x (atEnd b) = atEnd (b ++ textBytes x) := by
  unfold writeText textBytes
  by_cases h : x = []
  · rw [if_neg (by rw [h]; simp), if_pos h, List.append_nil]
  · have : x.length ≠ 0 := fun c => h (List.eq_nil_of_length_eq_zero c)
    rw [if_pos ⟨this, state_end chunk b⟩, if_neg h, write_end, writeData_end, List.append_assoc]
    rfl

theorem ltxt_writes (chunk : Nat) (x : Ltxt) (b : List Byte) : writeLtxt (file chunk) x (atEnd b) = some (atEnd (b ++ ltxtBytes x)) := by
  unfold writeLtxt ltxtBytes
  simp only [writeData_end, text_writes, List.append_assoc]

theorem label_writes (chunk : Nat) (x : Label) (b : List Byte) : writeLabel (file chunk) x (atEnd b) = some (atEnd (b ++ labelBytes x)) := by
  unfold writeLabel labelBytes
  simp only [writeData_end, text_writes, List.append_assoc]

/-! ### Round trips -/

/-- A file of chunks with other identifiers, to which a chunk is added: the sizes fit. -/
def Fresh (rs : List (Nat × List Byte)) (id : Nat) (payload : List Byte) : Prop :=
  (∀ r ∈ rs, Fits 4 4 2 r.1 r.2 ∧ r.1 ≠ id) ∧ payload.length < 4294967295 ∧ (records 4 4 2 rs ++ record 4 4 2 id payload).length < 2 ^ 63

/-- Writing a chunk with identifier `id` at the end of a file of chunks, then looking for it from the beginning and reading it:
the bytes written are the chunk, the value read satisfies `Q`, and the file is positioned behind the chunk again. -/
def RoundTrip (chunk id : Nat) (payload : List Byte) (data : File → Option File) (rd : Reader α) (rs : List (Nat × List Byte)) (Q : α → Prop) : Prop :=
  ∃ f g v, writeRecOf chunk 4 4 2 id data (atEnd (records 4 4 2 rs)) = some f ∧ f.bytes = records 4 4 2 rs ++ record 4 4 2 id payload ∧
    find chunk 4 4 2 none id (rs.length + 1) { f with pos := 0 } = some (true, g) ∧ readRecOf chunk 4 2 rd g = some (some v, f) ∧ Q v

theorem round_trip {chunk : Nat} (hc : 0 < chunk) {id : Nat} {payload : List Byte} {data : File → Option File} (hd : ∀ b, data (atEnd b) = some (atEnd (b ++ payload)))
    {rd : Reader α} (hn : rd.Natural) {Q : α → Prop} (hg : rd.Gets payload Q) {rs : List (Nat × List Byte)} (hid : id < 4294967296) (hr : Fresh rs id payload) :
    RoundTrip chunk id payload data rd rs Q := by
  obtain ⟨h1, h2, h3⟩ := hr
  have hp : padding 2 payload.length < 2 := padding_lt (by omega) _
  have p4 : (256 : Nat) ^ 4 = 4294967296 := rfl
  have hf : Fits 4 4 2 id payload := by
    refine ⟨by rw [p4]; exact hid, ?_⟩
    rw [p4]
    unfold padding at hp ⊢
    omega
  have hw := writeRecOf_spec (chunk := chunk) hd hf (records 4 4 2 rs) h3
  have hfi := find_found (chunk := chunk) hc (by omega) (e := none) (pre := []) (rest := []) h1 hf (by simpa using h3) (fun x hx => nomatch hx) (Nat.lt_succ_self rs.length)
  obtain ⟨v, r1, r2⟩ := readRecOf_spec (chunk := chunk) hc (pre := records 4 4 2 rs) (rest := []) hf (by unfold fsizeMax; omega) h3 hn hg
  simp only [List.nil_append, List.append_nil, List.length_nil] at hfi r1
  exact ⟨_, _, v, hw, rfl, hfi, r1, r2⟩

/-- **C123** Headers: RIFF, WAVE and LIST chunks. -/
theorem header_round_trip {chunk : Nat} (hc : 0 < chunk) {id : Nat} (hid : id = idRIFF ∨ id = idWAVE ∨ id = idLIST) {h : Header} (hh : h.type < 4294967296) {rs : List (Nat × List Byte)} (hr : Fresh rs id (leEnc 4 h.type)) :
    RoundTrip chunk id (leEnc 4 h.type) (writeHeader (file chunk) h) readHeader rs (· = h) :=
  round_trip hc (header_writes chunk h) header_natural (header_gets hh) (by rcases hid with rfl | rfl | rfl <;> decide) hr

/-- **C123** Formats, with their additional data; `x0` is the value read into. -/
theorem format_round_trip {chunk : Nat} (hc : 0 < chunk) {x x0 : Format} {e e0 : List Byte} (hx : x.Fits) (he : Ok x.extra e) (hl : e.length ≤ 65535)
    (h0 : Ok x0.extra e0) (hm : x0.extra.manage = true) {fuel : Nat} (hf : e.length < fuel) {rs : List (Nat × List Byte)} (hr : Fresh rs idFmt (formatBytes x e)) :
    RoundTrip chunk idFmt (formatBytes x e) (writeFormat (file chunk) x) (readFormat fuel x0) rs
      (fun z => (z.compression = x.compression ∧ z.numChannels = x.numChannels ∧ z.sampleRate = x.sampleRate ∧ z.bytesPerSecond = x.bytesPerSecond ∧
        z.blockAlign = x.blockAlign ∧ z.bitsPerChannel = x.bitsPerChannel) ∧ Ok z.extra e) :=
  round_trip hc (format_writes chunk he hl) (format_natural fuel x0) (format_gets h0 hm hx hl hf) (by decide) hr

/-- **C123** Waveforms. -/
theorem data_round_trip {chunk : Nat} (hc : 0 < chunk) {x x0 : Data} {c c0 : List Byte} (hx : Ok x.content c) (h0 : Ok x0.content c0) (hm : x0.content.manage = true) {fuel : Nat} (hf : c.length < fuel)
    {rs : List (Nat × List Byte)} (hr : Fresh rs idData c) : RoundTrip chunk idData c (writeContent (file chunk) x) (readContent fuel x0) rs (fun z => Ok z.content c) :=
  round_trip hc (content_writes chunk hx) (content_natural fuel x0) (content_gets h0 hm (by have := hr.2.1; omega) hf) (by decide) hr

/-- **C123** Silence. -/
theorem silence_round_trip {chunk : Nat} (hc : 0 < chunk) {n : Nat} (hn : n < 4294967296) {rs : List (Nat × List Byte)} (hr : Fresh rs idSlnt (leEnc 4 n)) :
    RoundTrip chunk idSlnt (leEnc 4 n) (writeSilence (file chunk) n) readSilence rs (· = n) :=
  round_trip hc (silence_writes chunk n) silence_natural (silence_gets hn) (by decide) hr

/-- **C123** Cue points; `x0` is the vector read into. -/
theorem cues_round_trip {chunk : Nat} (hc : 0 < chunk) {x x0 : List Cue} (hx : ∀ c ∈ x, c.Fits) {fuel : Nat} (hf : 24 * x.length < fuel) {rs : List (Nat × List Byte)} (hr : Fresh rs idCue (cuesBytes x)) :
    RoundTrip chunk idCue (cuesBytes x) (writeCues (file chunk) x) (readCues fuel x0) rs (· = x) := by
  have hn : x.length ≤ 4294967295 := by
    have := hr.2.1
    unfold cuesBytes at this
    rw [List.length_append, flatMap_cueMem_length] at this
    omega
  exact round_trip hc (cues_writes chunk hn) (cues_natural fuel x0) (cues_gets hx hn hf) (by decide) hr

/-- **C123** Labeled texts. -/
theorem ltxt_round_trip {chunk : Nat} (hc : 0 < chunk) {x : Ltxt} (hx : x.Fits) {fuel : Nat} (hf : x.description.length + 65538 < fuel) {rs : List (Nat × List Byte)} (hr : Fresh rs idLtxt (ltxtBytes x)) :
    RoundTrip chunk idLtxt (ltxtBytes x) (writeLtxt (file chunk) x) (readLtxt fuel) rs (· = x) := by
  have hl : x.description.length < 2 ^ 62 := by
    have := hr.2.1
    have h2 : x.description.length ≤ (textBytes x.description).length := by
      unfold textBytes
      split
      · rename_i h; rw [h]; exact Nat.le_refl _
      · simp
    unfold ltxtBytes at this
    simp only [List.length_append, leEnc_length] at this
    omega
  exact round_trip hc (ltxt_writes chunk x) (ltxt_natural fuel) (ltxt_gets hx hl hf) (by decide) hr

/-- **C123** Labels and notes. -/
theorem label_round_trip {chunk : Nat} (hc : 0 < chunk) {id : Nat} (hid : id = idLabl ∨ id = idNote) {x : Label} (hx : x.Fits) {fuel : Nat} (hf : x.text.length + 65538 < fuel)
    {rs : List (Nat × List Byte)} (hr : Fresh rs id (labelBytes x)) : RoundTrip chunk id (labelBytes x) (writeLabel (file chunk) x) (readLabel fuel) rs (· = x) := by
  have hl : x.text.length < 2 ^ 62 := by
    have := hr.2.1
    have h2 : x.text.length ≤ (textBytes x.text).length := by
      unfold textBytes
      split
      · rename_i h; rw [h]; exact Nat.le_refl _
      · simp
    unfold labelBytes at this
    simp only [List.length_append, leEnc_length] at this
    omega
  exact round_trip hc (label_writes chunk x) (label_natural fuel) (label_gets hx hl hf) (by rcases hid with rfl | rfl <;> decide) hr

/-- The identifiers are the four characters they are named after. -/
theorem ids_spelled : ([idRIFF, idWAVE, idFmt, idData, idSlnt, idCue, idLtxt, idLabl, idNote, idLIST].map fun i => (leEnc 4 i).map fun b => Char.ofNat b.toNat) =
    ["RIFF", "WAVE", "fmt ", "data", "slnt", "cue ", "ltxt", "labl", "note", "LIST"].map String.toList := by decide +kernel

/-! ### Cases -/

/-- A text with a zero is cut there. -/
theorem label_cut : (readLabel 65600 (pipe 3) (labelBytes ⟨7, [65, 0, 66]⟩, [], .ok)).map Prod.fst = some ⟨7, [65]⟩ := by decide +kernel

/-- A list of cues that is cut short: the cue that is incomplete is taken for complete. -/
theorem cues_truncated : (readCues 100 [] (pipe 9) (leEnc 4 2 ++ cueMem ⟨1, 2, 3, 4, 5, 6⟩ ++ [7, 0], [], .ok)).map Prod.fst = some [⟨1, 2, 3, 4, 5, 6⟩, ⟨7, 0, 0, 0, 0, 0⟩] := by decide +kernel

example : Fresh [(idFmt, [1, 2, 3])] idLtxt (ltxtBytes ⟨1, 2, 3, 4, 5, 6, 7, [65, 66]⟩) := by
  refine ⟨?_, by decide, by decide⟩
  intro r hr
  rw [List.mem_singleton] at hr
  subst hr
  exact ⟨⟨by decide, by decide⟩, by decide⟩

example : Ltxt.Fits ⟨1, 2, 3, 4, 5, 6, 7, [65, 66]⟩ := by unfold Ltxt.Fits; decide
example : (⟨1, 2, 44100, 176400, 4, 16, MF.empty⟩ : Format).Fits := by unfold Format.Fits; decide
example : Ok (MF.over [1, 2, 3] 3 false : MF Byte) [1, 2, 3] := (rel_over [1, 2, 3] 3 false (by decide) (by decide)).ok
example : Ok (MF.empty : MF Byte) [] ∧ (MF.empty : MF Byte).manage = true := ⟨rel_empty.ok, rfl⟩

end Verif.Record.Wav
