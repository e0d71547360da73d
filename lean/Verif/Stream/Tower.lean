/-
Filters, base64 and compression on top of each other, in any order and number: stream.hpp `converter`, `buffer`, `limiter`, hash.hpp `basic_hash_op`, base64.hpp
`base64_writer`, `base64_reader`, zlib.hpp `zlib_writer`, `zlib_reader`.
-/
import Verif.Stream.Base64Pipe
import Verif.Stream.Zlib

namespace Verif.Tower
open Verif.Stream Verif.Stack
variable {α β σ τ κ δ ι H : Type}

/-! ### Writers that translate -/

/-- A writer that translates: what it does to the stream below when it is written to (what it returns, itself, `m_state`) and in its destructor. -/
structure Codec (κ : Type) where
  init : κ
  write : κ → List Byte → Prog (Nat × κ × St)
  close : κ → Prog Unit

/-- The writer over the stream `S`: the writer, `m_state` and the state of `S`. Reading, closing and flushing are `converter`'s (stream.hpp 1019-1079); in
particular, `flush` does not pass on what the writer holds back. -/
def Codec.strm (C : Codec κ) (S : Strm Byte σ) : Strm Byte ((κ × St) × σ) where
  read x n := let r := S.read x.2 n; (r.1, ((x.1.1, S.state r.2), r.2))
  write x d := let r := (C.write x.1.1 d).run S x.2; (r.1.1, ((r.1.2.1, r.1.2.2), r.2))
  close x := let r := S.close x.2; ((x.1.1, S.state r), r)
  flush x := let r := S.flush x.2; ((x.1.1, S.state r), r)
  state x := x.1.2

/-- A new writer over a stream. -/
def Codec.start (C : Codec κ) (S : Strm Byte σ) (s : σ) : (κ × St) × σ := ((C.init, S.state s), s)

/-- The state of the stream below after the destructor. -/
def Codec.fin (C : Codec κ) (S : Strm Byte σ) (x : (κ × St) × σ) : σ := ((C.close x.1.1).run S x.2).2

/-- `base64_writer`, base64.hpp 174-269. -/
def base64Codec (maxBlocks : Nat) : Codec B64Pipe.Core where
  init := B64Pipe.Core.init maxBlocks
  write w d := B64Pipe.writeLoop w d.length 0 d
  close w := (B64Pipe.destroy w).bind fun _ => .ret ()

/-- It is the writer of Base64Pipe.lean. -/
theorem base64_codec (maxBlocks : Nat) (S : Strm Byte σ) (s : σ) :
    (base64Codec maxBlocks).strm S = B64Pipe.writer S ∧ (base64Codec maxBlocks).start S s = B64Pipe.writerOn S maxBlocks s ∧
    ∀ x, (base64Codec maxBlocks).fin S x = B64Pipe.writerEnd S x := by
  refine ⟨rfl, rfl, fun x => ?_⟩
  show (((B64Pipe.destroy x.1.1).bind fun _ => Prog.ret ()).run S x.2).2 = _
  rw [run_bind]; rfl

/-- `zout`, as a program on the sink. -/
def zoutP (dz : Deflater Byte δ) (block : Nat) (fin : Bool) : Nat → δ → List Byte → Prog (Option (Option (Bool × δ)))
  | 0, _, _ => .ret none
  | fuel + 1, z, inp =>
    match dz.call z inp fin block with
    | none => .ret (some none)
    | some (k, o, z) =>
      if fin || decide (o.length ≠ 0) then
        .write o fun _ => .state fun st =>
          if st ≠ .ok then .ret (some (some (false, z)))
          else if block - o.length = 0 then zoutP dz block fin fuel z (inp.drop k) else .ret (some (some (true, z)))
      else if block - o.length = 0 then zoutP dz block fin fuel z (inp.drop k) else .ret (some (some (true, z)))

theorem zout_program (dz : Deflater Byte δ) (D : Strm Byte τ) (block : Nat) (fin : Bool) : ∀ (fuel : Nat) (z : δ) (inp : List Byte) (t : τ),
    zout dz D block fin fuel z inp t = ((zoutP dz block fin fuel z inp).run D t).1.map (Option.map fun r => (r.1, r.2, ((zoutP dz block fin fuel z inp).run D t).2))
  | 0, _, _, _ => rfl
  | fuel + 1, z, inp, t => by
    unfold zout zoutP
    cases hc : dz.call z inp fin block with
    | none => rfl
    | some r =>
      obtain ⟨k, o, z1⟩ := r
      dsimp only
      by_cases hw : (fin || decide (o.length ≠ 0)) = true
      · rw [if_pos hw, if_pos hw]
        by_cases hs : D.state (D.write t o).2 ≠ .ok
        · rw [if_pos ⟨hw, hs⟩]
          simp only [Prog.run]
          rw [if_pos hs]; rfl
        · rw [if_neg (fun c => hs c.2)]
          simp only [Prog.run]
          rw [if_neg hs]
          by_cases hb : block - o.length = 0
          · rw [if_pos hb, if_pos hb]; exact zout_program dz D block fin fuel _ _ _
          · rw [if_neg hb, if_neg hb]; rfl
      · rw [if_neg hw, if_neg hw, if_neg (fun c => hw c.1)]
        by_cases hb : block - o.length = 0
        · rw [if_pos hb, if_pos hb]; exact zout_program dz D block fin fuel _ _ _
        · rw [if_neg hb, if_neg hb]; rfl

/-- `zwrite`, as a program on the sink. -/
def zwriteP (dz : Deflater Byte δ) (block chunk : Nat) : Nat → Nat → δ → List Byte → Prog (Option (Option (Nat × St × δ)))
  | 0, _, _, _ => .ret none
  | fuel + 1, n, z, data =>
    if data.length = 0 then .ret (some (some (n, .ok, z)))
    else
      (zoutP dz block false fuel z (data.take (min data.length chunk))).bind fun r =>
        match r with
        | none => .ret none
        | some none => .ret (some none)
        | some (some (false, z)) => .state fun st => .ret (some (some (n, st, z)))
        | some (some (true, z)) => zwriteP dz block chunk fuel (n + min data.length chunk) z (data.drop (min data.length chunk))

theorem zwrite_program (dz : Deflater Byte δ) (D : Strm Byte τ) (block chunk : Nat) : ∀ (fuel n : Nat) (z : δ) (data : List Byte) (t : τ),
    zwrite dz D block chunk fuel n z data t =
      ((zwriteP dz block chunk fuel n z data).run D t).1.map (Option.map fun r => (r.1, r.2.1, r.2.2, ((zwriteP dz block chunk fuel n z data).run D t).2))
  | 0, _, _, _, _ => rfl
  | fuel + 1, n, z, data, t => by
    unfold zwrite zwriteP
    by_cases h0 : data.length = 0
    · rw [if_pos h0, if_pos h0]; rfl
    · rw [if_neg h0, if_neg h0, run_bind]
      dsimp only
      rw [zout_program]
      cases hr : ((zoutP dz block false fuel z (data.take (min data.length chunk))).run D t).1 with
      | none => rfl
      | some r =>
        cases r with
        | none => rfl
        | some r =>
          obtain ⟨b, z1⟩ := r
          cases b with
          | false => rfl
          | true => exact zwrite_program dz D block chunk fuel _ _ _ _

open Classical in
/-- As many rounds as the library needs: what it does is not changed by the sink, which can only end the loops earlier. -/
noncomputable def rounds (p : Nat → Prog (Option α)) : Nat := if h : ∃ N, (p N).result.isSome = true then Classical.choose h else 0

/-- `zlib_writer`, zlib.hpp 47-114; `UINT_MAX` of 86. An exception of `write` counts as failure (with nothing written); one of the destructor is not told
(it would end the program, see `zclose`), nor are loops that never end. -/
noncomputable def zlibCodec (dz : Deflater Byte δ) (block : Nat) : Codec δ where
  init := dz.initial
  write z d := (zwriteP dz block 4294967295 (rounds fun N => zwriteP dz block 4294967295 N 0 z d) 0 z d).bind fun r =>
    match r with
    | some (some (n, st, z)) => .ret (n, z, st)
    | _ => .ret (0, z, .fail)
  close z := (zoutP dz block true (rounds fun N => zoutP dz block true N z []) z []).bind fun _ => .ret ()

/-! ### Specification of a translation -/

/-- The writer translates whatever is written to it, in any pieces, to a text (`Text bytes text`): `inv k G out` holds of the writer after `G` was written and `out` was passed on. -/
structure Codec.Ok (C : Codec κ) (Text : List Byte → List Byte → Prop) (inv : κ → List Byte → List Byte → Prop) : Prop where
  init : inv C.init [] []
  write : ∀ {k G out}, inv k G out → ∀ d, ∃ k', (C.write k d).result = (d.length, k', .ok) ∧ inv k' (G ++ d) (out ++ (C.write k d).output)
  close : ∀ {k G out}, inv k G out → Text G (out ++ (C.close k).output)

/-! ### Proofs -/

theorem bind_ideal (p : Prog α) (f : α → Prog β) : (p.bind f).result = (f p.result).result ∧ (p.bind f).output = p.output ++ (f p.result).output := by
  unfold Prog.result Prog.output
  rw [run_bind]
  exact ⟨(ideal_shift _ _).1, (ideal_shift _ _).2⟩

/-- What a program that writes through the writer does to the stream below. -/
def Codec.under (C : Codec κ) (k : κ) (st : St) : Prog α → Prog (α × κ × St)
  | .ret a => .ret (a, k, st)
  | .write d f => (C.write k d).bind fun r => C.under r.2.1 r.2.2 (f r.1)
  | .flush f => .flush (.state fun st => C.under k st f)
  | .state f => C.under k st (f st)

theorem under_run (C : Codec κ) (S : Strm Byte σ) : ∀ (p : Prog α) (k : κ) (st : St) (s : σ),
    p.run (C.strm S) ((k, st), s) = (((C.under k st p).run S s).1.1, (((C.under k st p).run S s).1.2, ((C.under k st p).run S s).2))
  | .ret a, _, _, _ => rfl
  | .write d f, k, st, s => by
    show (f ((C.write k d).run S s).1.1).run (C.strm S) ((_, _), _) = _
    rw [under_run C S (f _)]
    simp only [Codec.under]
    rw [run_bind]
  | .flush f, k, st, s => under_run C S f k _ _
  | .state f, k, st, s => under_run C S (f st) k st s

/-- A program through the writer, and the destructor: what is done to the stream below. -/
def Codec.enc (C : Codec κ) (p : Prog α) : Prog α := (C.under C.init .ok p).bind fun r => (C.close r.2.1).bind fun _ => .ret r.1

theorem enc_run (C : Codec κ) {S : Strm Byte σ} {s : σ} (hs : S.state s = .ok) (p : Prog α) :
    (C.enc p).run S s = ((p.run (C.strm S) (C.start S s)).1, C.fin S (p.run (C.strm S) (C.start S s)).2) := by
  unfold Codec.enc Codec.start
  rw [run_bind, hs, under_run, run_bind]
  rfl

variable {C : Codec κ} {Text : List Byte → List Byte → Prop} {inv : κ → List Byte → List Byte → Prop}

theorem under_ideal (h : C.Ok Text inv) : ∀ (p : Prog α) {k : κ} {G out : List Byte}, inv k G out → ∃ k',
    (C.under k .ok p).result = (p.result, k', .ok) ∧ inv k' (G ++ p.output) (out ++ (C.under k .ok p).output)
  | .ret a, k, G, out, hk => ⟨k, rfl, by show inv k (G ++ []) (out ++ []); rw [List.append_nil, List.append_nil]; exact hk⟩
  | .write d f, k, G, out, hk => by
    obtain ⟨k1, a, b⟩ := h.write hk d
    obtain ⟨r1, r2⟩ := ideal_shift (f d.length) d
    obtain ⟨k2, c, e⟩ := under_ideal h (f d.length) b
    obtain ⟨b1, b2⟩ := bind_ideal (C.write k d) fun r => C.under r.2.1 r.2.2 (f r.1)
    rw [a] at b1 b2
    refine ⟨k2, ?_, ?_⟩
    · show ((C.write k d).bind fun r => C.under r.2.1 r.2.2 (f r.1)).result = _
      rw [b1, show (Prog.write d f).result = (f d.length).result from r1]; exact c
    · rw [show (Prog.write d f).output = d ++ (f d.length).output from r2, ← List.append_assoc]
      show inv k2 _ (out ++ ((C.write k d).bind fun r => C.under r.2.1 r.2.2 (f r.1)).output)
      rw [b2, ← List.append_assoc]; exact e
  | .flush f, k, G, out, hk => under_ideal h f hk
  | .state f, k, G, out, hk => under_ideal h (f .ok) hk

theorem enc_ideal (h : C.Ok Text inv) (p : Prog α) : (C.enc p).result = p.result ∧ Text p.output (C.enc p).output := by
  obtain ⟨k, a, b⟩ := under_ideal h p h.init
  obtain ⟨b1, b2⟩ := bind_ideal (C.under C.init .ok p) fun r => (C.close r.2.1).bind fun _ => .ret r.1
  obtain ⟨c1, c2⟩ := bind_ideal (C.close k) fun _ => (.ret p.result : Prog α)
  rw [a] at b1 b2
  refine ⟨b1.trans c1, ?_⟩
  have e := h.close b
  show Text _ ((C.under C.init .ok p).bind fun r => (C.close r.2.1).bind fun _ => .ret r.1).output
  rw [b2]
  dsimp only
  rw [c2]
  show Text _ (_ ++ (_ ++ []))
  rw [List.append_nil]
  exact e

/-- A writer that translates, as a pile: `got` and `taps` are what is below after its destructor and a flush. -/
def Codec.on (C : Codec κ) (p : Pile H) : Pile H :=
  ⟨(κ × St) × p.σ, C.strm p.S, C.start p.S p.s, fun x => p.got (p.S.flush (C.fin p.S x)), fun x => p.taps (p.S.flush (C.fin p.S x))⟩

theorem writes_codec (h : C.Ok Text inv) {D : List Byte → List (Tap H × H) → List Byte → Prop} {p : Pile H} (hp : p.S.state p.s = .ok) {n m : Nat}
    (hm : ∀ G c : List Byte, G.length ≤ n → Text G c → c.length ≤ m) (hw : WritesAs D p m) : WritesAs (fun out taps G => ∃ c, Text G c ∧ D out taps c) (C.on p) n := by
  obtain ⟨R, h1, h2⟩ := hw
  have step : ∀ {α : Type} (q : Prog α), q.output.length ≤ n → (q.run (C.strm p.S) (C.start p.S p.s)).1 = q.result ∧
      R (C.fin p.S (q.run (C.strm p.S) (C.start p.S p.s)).2) (C.enc q).output (m - (C.enc q).output.length) ∧ Text q.output (C.enc q).output := by
    intro α q hq
    obtain ⟨i1, i2⟩ := enc_ideal h q
    obtain ⟨a, b, -⟩ := run_accepting h1 (C.enc q) h2 hp (hm _ _ hq i2)
    rw [enc_run C hp] at a b
    exact ⟨a.trans i1, b, i2⟩
  refine ⟨fun x G c => ∃ q : Prog Unit, q.output = G ∧ G.length + c ≤ n ∧ x = (q.run (C.strm p.S) (C.start p.S p.s)).2, ⟨?_, ?_⟩, ⟨.ret (), rfl, by simp, rfl⟩⟩
  · rintro x G c ⟨q, rfl, hc, rfl⟩ d hd
    have e : (q.bind fun _ => .write d fun k => .state fun st => (.ret (k, st) : Prog (Nat × St))).output = q.output ++ d := (bind_ideal q _).2
    obtain ⟨a, -, -⟩ := step (q.bind fun _ => .write d fun k => .state fun st => .ret (k, st)) (by rw [e, List.length_append]; omega)
    rw [run_bind] at a
    have a' : ((C.strm p.S).write (q.run (C.strm p.S) (C.start p.S p.s)).2 d).1 = d.length ∧ (C.strm p.S).state ((C.strm p.S).write (q.run (C.strm p.S) (C.start p.S p.s)).2 d).2 = .ok :=
      Prod.mk.inj (a.trans (bind_ideal q _).1)
    refine ⟨a'.1, a'.2, q.bind fun _ => .write d fun _ => .ret (), (bind_ideal q _).2, by rw [List.length_append]; omega, ?_⟩
    rw [run_bind]; rfl
  · rintro x G c ⟨q, rfl, hc, rfl⟩
    have e : (q.bind fun _ => .flush (.state fun st => (.ret st : Prog St))).output = q.output := ((bind_ideal q _).2).trans (List.append_nil _)
    obtain ⟨a, b, t⟩ := step (q.bind fun _ => .flush (.state fun st => .ret st)) (by rw [e]; omega)
    rw [run_bind] at a b
    rw [e] at t
    refine ⟨a.trans (bind_ideal q _).1, ⟨q.bind fun _ => .flush (.ret ()), ((bind_ideal q _).2).trans (List.append_nil _), hc, ?_⟩, _, t, (h1.flush b).2.2⟩
    rw [run_bind]; rfl

/-! ### The two translations -/

theorem base64_ok {maxBlocks : Nat} (hb : 1 ≤ maxBlocks) : (base64Codec maxBlocks).Ok (fun G c => c = B64Pipe.base64Text maxBlocks G)
    (fun w G out => ∃ cs, out = B64Pipe.chars cs ∧
      ∀ chunks : List (List UInt8), ((B64Pipe.over w cs).session chunks).out = B64.wrapAt (4 * maxBlocks) 0 (B64.rfc4648 (G.map UInt8.ofBitVec ++ chunks.flatten))) := by
  have shift : ∀ {α : Type} {p : Prog α} {G out : List Byte} {r : α}, p.run ideal G = (r, out) → p.result = r ∧ G ++ p.output = out := by
    intro α p G out r h
    obtain ⟨a, b⟩ := ideal_shift p G
    rw [h] at a b
    exact ⟨a.symm, b.symm⟩
  refine ⟨⟨[], rfl, ?_⟩, ?_, ?_⟩
  · intro chunks
    rw [List.map_nil, List.nil_append]
    exact B64.b64_writer_exact chunks maxBlocks hb
  · rintro w G out ⟨cs, rfl, hk⟩ d
    obtain ⟨w', cs', a, b⟩ := B64Pipe.writeLoop_ideal d.length d w cs 0
    obtain ⟨a1, a2⟩ := shift a
    refine ⟨w', a1, cs', a2, ?_⟩
    intro chunks
    have := hk (d.map UInt8.ofBitVec :: chunks)
    rw [List.flatten_cons, ← List.append_assoc, ← List.map_append] at this
    rw [← this]
    show _ = (((B64Pipe.over w cs).writeLoop (d.map UInt8.ofBitVec).length 0 (d.map UInt8.ofBitVec)).1.session chunks).out
    rw [List.length_map, b]
  · rintro w G out ⟨cs, rfl, hk⟩
    have hk := hk []
    rw [List.flatten_nil, List.append_nil] at hk
    unfold B64Pipe.base64Text
    rw [← hk]
    have hd : ((B64Pipe.destroy w).run ideal (B64Pipe.chars cs)).2 = B64Pipe.chars ((B64Pipe.over w cs).session []).out := B64Pipe.destroy_ideal w cs
    rw [← hd, (ideal_shift _ _).2]
    show _ ++ ((B64Pipe.destroy w).bind fun _ => .ret ()).output = _
    rw [(bind_ideal _ _).2]
    exact congrArg _ (List.append_nil _)

theorem rounds_spec {p : Nat → Prog (Option α)} {N : Nat} {r : α} (h : (p N).result = some r) : ((p (rounds p)).result).isSome = true := by
  unfold rounds
  rw [dif_pos ⟨N, by rw [h]; rfl⟩]
  exact Classical.choose_spec (⟨N, by rw [h]; rfl⟩ : ∃ N, (p N).result.isSome = true)

theorem zlib_ok {dz : Deflater Byte δ} {Comp : List Byte → List Byte → Prop} {run fin : δ → List Byte → List Byte → Prop} {full : δ → Prop} {work : Bool → δ → List Byte → Nat}
    (hz : DeflaterOk dz Comp run fin full work) {block : Nat} (hb : block ≠ 0) : (zlibCodec dz block).Ok (fun G c => Comp c G) (fun z G out => run z G out) := by
  refine ⟨hz.initial, ?_, ?_⟩
  · intro z G out hk d
    obtain ⟨N, z1, t1, o, e1, e2, e3⟩ := zwrite_run hz ideal_reliable hb (by decide : 4294967295 ≠ 0) _ d 0 z [] G out (Nat.le_refl _) hk
    -- the loops end after `N` rounds, and so they do after any number of rounds that suffices
    have e0 : ∃ r, (zwriteP dz block 4294967295 N 0 z d).result = some r := by
      have e1 := e1
      rw [zwrite_program] at e1
      unfold Prog.result
      cases hr : ((zwriteP dz block 4294967295 N 0 z d).run ideal []).1 with
      | none => rw [hr] at e1; cases e1
      | some r => exact ⟨r, rfl⟩
    obtain ⟨r0, e0⟩ := e0
    generalize hM : rounds (fun N => zwriteP dz block 4294967295 N 0 z d) = M
    have hs := rounds_spec (p := fun N => zwriteP dz block 4294967295 N 0 z d) e0
    rw [hM] at hs
    have both : ∀ (A : Nat) r, zwrite dz ideal block 4294967295 A 0 z d [] = some r → ∀ (B : Nat) r', zwrite dz ideal block 4294967295 B 0 z d [] = some r' → r = r' := by
      intro A r ha B r' hb
      have := zwrite_mono dz ideal block 4294967295 A B _ _ _ _ _ ha
      rw [Nat.add_comm, zwrite_mono dz ideal block 4294967295 B A _ _ _ _ _ hb] at this
      exact (Option.some.inj this).symm
    have e4 : (zwriteP dz block 4294967295 M 0 z d).result = some (some (d.length, .ok, z1)) ∧ (zwriteP dz block 4294967295 M 0 z d).output = o := by
      have hp := zwrite_program dz ideal block 4294967295 M 0 z d []
      obtain ⟨r, hr⟩ := Option.isSome_iff_exists.1 hs
      have hr' : ((zwriteP dz block 4294967295 M 0 z d).run ideal []).1 = some r := hr
      rw [hr', Option.map_some] at hp
      have := both _ _ e1 _ _ hp
      cases r with
      | none => cases this
      | some r =>
        obtain ⟨n, st, z2⟩ := r
        have := Option.some.inj this
        rw [Nat.zero_add] at this
        simp only [Prod.mk.injEq] at this
        obtain ⟨q1, q2, q3, q4⟩ := this
        rw [hr, ← q1, ← q2, ← q3]
        refine ⟨rfl, ?_⟩
        show ((zwriteP dz block 4294967295 M 0 z d).run ideal []).2 = o
        rw [← q4]; exact e3
    refine ⟨z1, ?_, ?_⟩
    · show ((zwriteP dz block 4294967295 (rounds fun N => zwriteP dz block 4294967295 N 0 z d) 0 z d).bind _).result = _
      rw [hM, (bind_ideal _ _).1, e4.1]; rfl
    · show run z1 (G ++ d) (out ++ ((zwriteP dz block 4294967295 (rounds fun N => zwriteP dz block 4294967295 N 0 z d) 0 z d).bind _).output)
      rw [hM, (bind_ideal _ _).2, e4.1, e4.2]
      show run z1 _ (out ++ (o ++ []))
      rw [List.append_nil]; exact e2
  · intro z G out hk
    obtain ⟨z1, t1, o, e1, e2, e3⟩ := zout_fin hz ideal_reliable hb _ z [] G out (Or.inl hk) (Nat.lt_succ_self _)
    have e0 : ∃ r, (zoutP dz block true (work true z [] + 1) z []).result = some r := by
      have e1 := e1
      rw [zout_program] at e1
      unfold Prog.result
      cases hr : ((zoutP dz block true (work true z [] + 1) z []).run ideal []).1 with
      | none => rw [hr] at e1; cases e1
      | some r => exact ⟨r, rfl⟩
    obtain ⟨r0, e0⟩ := e0
    generalize hM : rounds (fun N => zoutP dz block true N z []) = M
    have hs := rounds_spec (p := fun N => zoutP dz block true N z []) e0
    rw [hM] at hs
    have e4 : (zoutP dz block true M z []).output = o := by
      have hp := zout_program dz ideal block true M z [] []
      obtain ⟨r, hr⟩ := Option.isSome_iff_exists.1 hs
      have hr' : ((zoutP dz block true M z []).run ideal []).1 = some r := hr
      rw [hr', Option.map_some] at hp
      have this := zout_mono dz ideal block true _ M _ _ _ _ e1
      rw [Nat.add_comm, zout_mono dz ideal block true M _ _ _ _ _ hp] at this
      cases r with
      | none => cases this
      | some r =>
        have := Option.some.inj (Option.some.inj this)
        simp only [Prod.mk.injEq] at this
        show ((zoutP dz block true M z []).run ideal []).2 = o
        rw [this.2.2]; exact e3
    show Comp (out ++ ((zoutP dz block true (rounds fun N => zoutP dz block true N z []) z []).bind _).output) G
    rw [hM, (bind_ideal _ _).2, e4]
    show Comp (out ++ (o ++ [])) G
    rw [List.append_nil]; exact e2

/-! ### Towers -/

/-- A filter, or a translation with its constructor's arguments. -/
inductive Layer (H : Type) where
  | filter (f : Filter H)
  | base64 (maxBlocks : Nat)
  | zlib (block : Nat)

/-- A layer over a stream. -/
noncomputable def Layer.on (dz : Deflater Byte δ) : Layer H → Pile H → Pile H
  | .filter f, p => f.on p
  | .base64 mb, p => (base64Codec mb).on p
  | .zlib block, p => (zlibCodec dz block).on p

/-- The layers on top of each other, the first one on top. -/
noncomputable def tower (dz : Deflater Byte δ) (ls : List (Layer H)) (p : Pile H) : Pile H := ls.foldr (Layer.on dz) p

/-- What has arrived (at the bottom, and in every hash) when the bytes `G` were written at the top: every hash has got what passed its place, once and in order; below a translation it is
the text; at the bottom it is behind what was there. -/
def Arrived (Comp : List Byte → List Byte → Prop) (g0 : List Byte) : List (Layer H) → List Byte → List (Tap H × H) → List Byte → Prop
  | [], out, taps, G => out = g0 ++ G ∧ taps = []
  | .filter (.hasher t) :: ls, out, taps, G => ∃ h taps', taps = (t, h) :: taps' ∧ Fed (t, h) G ∧ Arrived Comp g0 ls out taps' G
  | .filter _ :: ls, out, taps, G => Arrived Comp g0 ls out taps G
  | .base64 mb :: ls, out, taps, G => Arrived Comp g0 ls out taps (B64Pipe.base64Text mb G)
  | .zlib _ :: ls, out, taps, G => ∃ c, Comp c G ∧ Arrived Comp g0 ls out taps c

/-- `n` bytes may be written: the limits are not less than what may come to them, the arguments are possible, and the bottom has room. -/
def FitsIn (Comp : List Byte → List Byte → Prop) (room : Nat → Prop) : List (Layer H) → Nat → Prop
  | [], n => room n
  | .filter f :: ls, n => f.Ok ∧ f.Fits n ∧ FitsIn Comp room ls n
  | .base64 mb :: ls, n => 1 ≤ mb ∧ ∃ m, (∀ G : List Byte, G.length ≤ n → (B64Pipe.base64Text mb G).length ≤ m) ∧ FitsIn Comp room ls m
  | .zlib block :: ls, n => block ≠ 0 ∧ ∃ m, (∀ G c : List Byte, G.length ≤ n → Comp c G → c.length ≤ m) ∧ FitsIn Comp room ls m

/-- The bottom takes everything. -/
abbrev Fits (Comp : List Byte → List Byte → Prop) (ls : List (Layer H)) (n : Nat) : Prop := FitsIn Comp (fun _ => True) ls n

/-- A bottom with state ok that takes as many bytes as it has room for, behind what is there (`g0`). -/
structure Takes (g0 : List Byte) (room : Nat → Prop) (b : Pile H) : Prop where
  ok : b.S.state b.s = .ok
  writes : ∀ n, room n → WritesAs (fun out taps G => out = g0 ++ G ∧ taps = []) b n

theorem writes_hash {D : List Byte → List (Tap H × H) → List Byte → Prop} {p : Pile H} {c : Nat} (t : Tap H) (h : WritesAs D p c) :
    WritesAs (fun out taps G => ∃ h taps', taps = (t, h) :: taps' ∧ Fed (t, h) G ∧ D out taps' G) ((Filter.hasher t).on p) c := by
  obtain ⟨R, h, hs⟩ := h
  refine ⟨fun x G c => R x.1.1 G c ∧ Fed (t, x.2) G, ⟨?_, ?_⟩, hs, fed_init t⟩
  · intro x G c r d hd
    obtain ⟨a, b, e⟩ := h.write r.1 d hd
    refine ⟨a, b, e, ?_⟩
    show Fed (t, t.upd x.2 (d.take (p.S.write x.1.1 d).1)) _
    rw [a, List.take_of_length_le (Nat.le_refl _)]
    exact fed_more r.2 d
  · intro x G c r
    obtain ⟨a, b, e⟩ := h.flush r.1
    exact ⟨a, ⟨b, r.2⟩, x.2, _, rfl, r.2, e⟩

theorem tower_state (dz : Deflater Byte δ) {p : Pile H} (hp : p.S.state p.s = .ok) : ∀ ls : List (Layer H), (tower dz ls p).S.state (tower dz ls p).s = .ok
  | [] => hp
  | l :: ls => by
    have ih := tower_state dz hp ls
    cases l with
    | filter f => cases f <;> exact ih
    | base64 mb => exact ih
    | zlib b => exact ih

theorem writes_tower {dz : Deflater Byte δ} {Comp : List Byte → List Byte → Prop} {run fin : δ → List Byte → List Byte → Prop} {full : δ → Prop} {work : Bool → δ → List Byte → Nat}
    (hz : DeflaterOk dz Comp run fin full work) {g0 : List Byte} {room : Nat → Prop} {b : Pile H} (h : Takes g0 room b) : ∀ (ls : List (Layer H)) (n : Nat), FitsIn Comp room ls n →
    WritesAs (Arrived Comp g0 ls) (tower dz ls b) n
  | [], n, hn => h.writes n hn
  | .filter f :: ls, n, hf => by
    obtain ⟨f1, f2, f3⟩ := hf
    have ih := writes_tower hz h ls n f3
    cases f with
    | plain => exact writes_plain ih
    | hasher t => exact writes_hash t ih
    | buffer r w => exact writes_buffer ih
    | limit r w => exact writes_limit f1.2 f2 ih
  | .base64 mb :: ls, n, hf => by
    obtain ⟨f1, m, f2, f3⟩ := hf
    obtain ⟨R, a, b⟩ := writes_codec (base64_ok f1) (tower_state dz h.ok ls) (n := n) (m := m) (fun G c hG hc => by rw [hc]; exact f2 G hG) (writes_tower hz h ls m f3)
    refine ⟨R, ⟨fun r => a.write r, fun r => ⟨(a.flush r).1, (a.flush r).2.1, ?_⟩⟩, b⟩
    obtain ⟨c, e, q⟩ := (a.flush r).2.2
    rw [e] at q
    exact q
  | .zlib block :: ls, n, hf => by
    obtain ⟨f1, m, f2, f3⟩ := hf
    exact writes_codec (zlib_ok hz f1) (tower_state dz h.ok ls) (n := n) (m := m) f2 (writes_tower hz h ls m f3)

/-- A stream that takes everything is such a bottom. -/
theorem takes_all {S : Strm Byte σ} {got : σ → List Byte} (h : Sinks S got) {s : σ} (hs : S.state s = .ok) : Takes (H := H) (got s) (fun _ => True) (bare S s got) :=
  ⟨hs, fun n _ => by
    obtain ⟨R, a, b⟩ := writes_bare (H := H) h s n
    exact ⟨R, ⟨fun r => a.write r, fun r => ⟨(a.flush r).1, (a.flush r).2.1, (a.flush r).2.2.1, rfl⟩⟩, b⟩⟩

/-- **C159** (writing) A program that writes through any tower on any bottom that has room for what arrives there. -/
theorem program_through_tower_on {dz : Deflater Byte δ} {Comp : List Byte → List Byte → Prop} {run fin : δ → List Byte → List Byte → Prop} {full : δ → Prop} {work : Bool → δ → List Byte → Nat}
    (hz : DeflaterOk dz Comp run fin full work) (p : Prog α) {g0 : List Byte} {room : Nat → Prop} {b : Pile H} (h : Takes g0 room b) {ls : List (Layer H)} (hf : FitsIn Comp room ls p.output.length)
    {P : Pile H} (hP : P = tower dz ls b) :
    (p.run P.S P.s).1 = p.result ∧ P.S.state (P.S.flush (p.run P.S P.s).2) = .ok ∧ Arrived Comp g0 ls (P.got (P.S.flush (p.run P.S P.s).2)) (P.taps (P.S.flush (p.run P.S P.s).2)) p.output := by
  subst hP
  obtain ⟨R, h1, h2⟩ := writes_tower hz h ls _ hf
  obtain ⟨a, b, -⟩ := run_accepting h1 p h2 (tower_state dz h.ok ls) (Nat.le_refl _)
  obtain ⟨c, -, d⟩ := h1.flush b
  exact ⟨a, c, d⟩

/-- **C158** (writing) A program that writes through any tower of filters, base64 writers and zlib writers is told and returns the same as on a stream that takes everything, and when the tower is taken
down from the top, what it wrote has arrived as it should. -/
theorem program_through_tower {dz : Deflater Byte δ} {Comp : List Byte → List Byte → Prop} {run fin : δ → List Byte → List Byte → Prop} {full : δ → Prop} {work : Bool → δ → List Byte → Nat}
    (hz : DeflaterOk dz Comp run fin full work) (p : Prog α) {S : Strm Byte σ} {got : σ → List Byte} (h : Sinks S got) {s : σ} (hs : S.state s = .ok) {ls : List (Layer H)} (hf : Fits Comp ls p.output.length)
    {P : Pile H} (hP : P = tower dz ls (bare S s got)) :
    (p.run P.S P.s).1 = p.result ∧ P.S.state (P.S.flush (p.run P.S P.s).2) = .ok ∧ Arrived Comp (got s) ls (P.got (P.S.flush (p.run P.S P.s).2)) (P.taps (P.S.flush (p.run P.S P.s).2)) p.output :=
  program_through_tower_on hz p (takes_all h hs) hf hP


/-! ### Reading -/

/-- `zlib_reader` over the stream `S`, zlib.hpp 116-180: the library, what is left of the block, `m_state`, and the state of `S`. `UINT_MAX` of 143. An exception counts as failure (with nothing read);
`fuel + n` are the rounds of the loops, see `Seen`. -/
def zreader (iz : Inflater Byte ι) (block fuel : Nat) (S : Strm Byte σ) : Strm Byte (((ι × List Byte) × St) × σ) where
  read x n :=
    match zread iz S block 4294967295 (fuel + n) [] x.1.1.1 x.1.1.2 x.2 n with
    | some (some (d, st, y, buf, s)) => (d, (((y, buf), st), s))
    | _ => ([], ((x.1.1, .fail), x.2))
  write x d := let r := S.write x.2 d; (r.1, ((x.1.1, S.state r.2), r.2))
  close x := let r := S.close x.2; ((x.1.1, S.state r), r)
  flush x := let r := S.flush x.2; ((x.1.1, S.state r), r)
  state x := x.1.2

/-- A new reader on a pile. Hashes below it are not looked at any more: they have got the compressed stream. -/
def zreadOn (iz : Inflater Byte ι) (block fuel : Nat) (p : Pile H) : Pile H :=
  ⟨((ι × List Byte) × St) × p.σ, zreader iz block fuel p.S, (((iz.initial, []), p.S.state p.s), p.s), fun x => p.got x.2, fun _ => []⟩

theorem zfill_hom {S : Strm Byte σ} {T : Strm Byte τ} {φ : σ → τ} (h : Record.Hom S T φ) (iz : Inflater Byte ι) (block : Nat) : ∀ (fuel : Nat) (y : ι) (buf : List Byte) (s : σ) (room : Nat) (acc : List Byte),
    zfill iz T block fuel y buf (φ s) room acc = (zfill iz S block fuel y buf s room acc).map (Option.map fun r => (r.1, r.2.1, r.2.2.1, r.2.2.2.1, φ r.2.2.2.2))
  | 0, _, _, _, _, _ => rfl
  | fuel + 1, y, buf, s, room, acc => by
    unfold zfill
    have e : (if buf.length = 0 then T.read (φ s) block else (buf, φ s)) = ((if buf.length = 0 then S.read s block else (buf, s)).1, φ (if buf.length = 0 then S.read s block else (buf, s)).2) := by
      by_cases h0 : buf.length = 0
      · rw [if_pos h0, if_pos h0, h.read]
      · rw [if_neg h0, if_neg h0]
    rw [e]
    generalize (if buf.length = 0 then S.read s block else (buf, s)) = r
    obtain ⟨b, s1⟩ := r
    dsimp only
    by_cases hb : b.length = 0
    · rw [if_pos hb, if_pos hb]; rfl
    · rw [if_neg hb, if_neg hb]
      cases hc : iz.call y b room with
      | none => rfl
      | some q =>
        obtain ⟨k, o, y1⟩ := q
        dsimp only
        by_cases hr : room - o.length = 0
        · rw [if_pos hr, if_pos hr]; rfl
        · rw [if_neg hr, if_neg hr]; exact zfill_hom h iz block fuel _ _ _ _ _

theorem zread_hom {S : Strm Byte σ} {T : Strm Byte τ} {φ : σ → τ} (h : Record.Hom S T φ) (iz : Inflater Byte ι) (block chunk : Nat) : ∀ (fuel : Nat) (got : List Byte) (y : ι) (buf : List Byte) (s : σ) (n : Nat),
    zread iz T block chunk fuel got y buf (φ s) n = (zread iz S block chunk fuel got y buf s n).map (Option.map fun r => (r.1, r.2.1, r.2.2.1, r.2.2.2.1, φ r.2.2.2.2))
  | 0, _, _, _, _, _ => rfl
  | fuel + 1, got, y, buf, s, n => by
    unfold zread
    by_cases h0 : n = 0
    · rw [if_pos h0, if_pos h0]; rfl
    · rw [if_neg h0, if_neg h0]
      dsimp only
      rw [zfill_hom h]
      cases zfill iz S block fuel y buf s (min n chunk) [] with
      | none => rfl
      | some r =>
        cases r with
        | none => rfl
        | some r =>
          obtain ⟨d, b, y1, buf1, s1⟩ := r
          cases b with
          | true => dsimp only [Option.map]; rw [h.state]
          | false => exact zread_hom h iz block chunk fuel _ _ _ _ _

/-- On a pile that delivers a compressed stream, the reader is a pile that delivers what was compressed. -/
theorem reads_zlib {iz : Inflater Byte ι} {Comp : List Byte → List Byte → Prop} {reach : ι → List Byte → List Byte → Prop} (hi : InflaterOk iz Comp reach) {L0 c d : List Byte} {p : Pile H} (hp : Reads L0 p c)
    (hc : Comp c d) {block fuel : Nat} (hb : block ≠ 0) (hf : c.length < fuel) : Reads d (zreadOn iz block fuel p) d := by
  obtain ⟨R, h0, h2, -⟩ := hp
  have h1 := live_const h0 c
  have hS := ghost_source h1
  have hh := ghost_hom h1
  -- one read
  have step : ∀ (x : ((ι × List Byte) × St) × p.σ) (C L : List Byte) (g : { x : p.σ × List Byte × List Byte // R x.1 x.2.1 x.2.2 ∧ x.2.1 ++ x.2.2 = c }) (f : List Byte),
      g.1.1 = x.2 → reach x.1.1.1 f C → f ++ x.1.1.2 ++ g.1.2.2 = c → d = C ++ L → ∀ n,
      ((zreader iz block fuel p.S).read x n).1 = L.take n ∧ ((zreader iz block fuel p.S).read x n).2.1.2 = (if n ≠ 0 ∧ L.length = 0 then .eof else .ok) ∧
      ∃ (g' : { x : p.σ × List Byte × List Byte // R x.1 x.2.1 x.2.2 ∧ x.2.1 ++ x.2.2 = c }) (f' : List Byte), g'.1.1 = ((zreader iz block fuel p.S).read x n).2.2 ∧
        reach ((zreader iz block fuel p.S).read x n).2.1.1.1 f' (C ++ L.take n) ∧ f' ++ ((zreader iz block fuel p.S).read x n).2.1.1.2 ++ g'.1.2.2 = c := by
    rintro ⟨⟨⟨y, buf⟩, st⟩, s⟩ C L g f rfl hr hs hd n
    obtain ⟨y1, buf1, g1, f1, e1, e2, e3⟩ := zread_spec hi hS hb (by decide : 4294967295 ≠ 0) hc (fuel + n) n [] y buf g f C L hr hs hd (by omega)
    have e4 := zread_hom hh iz block 4294967295 (fuel + n) [] y buf g n
    rw [e1, List.nil_append] at e4
    have e5 : (zreader iz block fuel p.S).read (((y, buf), st), g.1.1) n = (L.take n, (((y1, buf1), if n ≠ 0 ∧ L.length = 0 then .eof else .ok), g1.1.1)) := by
      unfold zreader
      dsimp only
      rw [e4]; rfl
    rw [e5]
    exact ⟨rfl, rfl, g1, f1, rfl, e2, e3⟩
  refine ⟨fun x C L => ∃ (g : { x : p.σ × List Byte × List Byte // R x.1 x.2.1 x.2.2 ∧ x.2.1 ++ x.2.2 = c }) (f : List Byte),
    g.1.1 = x.2 ∧ reach x.1.1.1 f C ∧ f ++ x.1.1.2 ++ g.1.2.2 = c ∧ d = C ++ L ∧ x.1.2 ≠ .fail, ⟨?_, ?_, ?_, ?_, ?_, ?_, ?_, ?_⟩, ?_, ?_⟩
  · intro x C L _ t ht; cases ht
  · rintro x C L ⟨g, f, -, -, -, -, h⟩; exact h
  · rintro x C L ⟨g, f, a1, a2, a3, a4, a5⟩ n
    rw [show ((zreadOn iz block fuel p).S.read x n).1 = L.take n from (step x C L g f a1 a2 a3 a4 n).1, List.length_take]
    exact Nat.min_le_left _ _
  · rintro x C L ⟨g, f, a1, a2, a3, a4, a5⟩ n
    rw [show ((zreadOn iz block fuel p).S.read x n).1 = L.take n from (step x C L g f a1 a2 a3 a4 n).1, List.length_take, ← List.take_take, List.take_length]
  · rintro x C L ⟨g, f, a1, a2, a3, a4, a5⟩ n
    obtain ⟨b1, b2, g', f', b3, b4, b5⟩ := step x C L g f a1 a2 a3 a4 n
    have b1' : ((zreadOn iz block fuel p).S.read x n).1 = L.take n := b1
    rw [b1']
    refine ⟨g', f', b3, b4, b5, ?_, ?_⟩
    · rw [a4, List.append_assoc]
      congr 1
      rw [List.length_take]
      conv => lhs; rw [← List.take_append_drop n L]
      congr 1
      rcases Nat.le_total n L.length with q | q
      · rw [Nat.min_eq_left q]
      · rw [Nat.min_eq_right q, List.drop_eq_nil_of_le q, List.drop_eq_nil_of_le (Nat.le_refl _)]
    · show ((zreader iz block fuel p.S).read x n).2.1.2 ≠ .fail
      rw [b2]; split <;> decide
  · rintro x C L ⟨g, f, a1, a2, a3, a4, a5⟩ n hn hL
    obtain ⟨b1, b2, -⟩ := step x C L g f a1 a2 a3 a4 n
    have hl : L.length ≠ 0 := fun q => hL (List.length_eq_zero_iff.1 q)
    refine ⟨?_, b2.trans (if_neg fun q => hl q.2)⟩
    rw [show ((zreadOn iz block fuel p).S.read x n).1 = L.take n from b1]
    intro q
    have := congrArg List.length q
    rw [List.length_take, List.length_nil] at this
    omega
  · rintro x C L ⟨g, f, a1, a2, a3, a4, a5⟩ n hn hL
    exact (step x C L g f a1 a2 a3 a4 n).2.1.trans (if_pos ⟨hn, by rw [hL]; rfl⟩)
  · rintro x C L ⟨g, f, a1, a2, a3, a4, a5⟩
    exact Or.inl ((step x C L g f a1 a2 a3 a4 0).2.1.trans (if_neg fun q => q.1 rfl))
  · exact ⟨⟨(p.s, [], c), h2, rfl⟩, [], rfl, hi.initial, rfl, rfl, h0.nofail h2⟩
  · rintro x C L ⟨g, f, a1, a2, a3, a4, a5⟩
    rw [← a4]; exact List.prefix_refl _

/-- A filter, or a decompression with the size of its blocks. -/
inductive RLayer (H : Type) where
  | filter (f : Filter H)
  | zlib (block : Nat)

/-- A layer over a stream. -/
def RLayer.on (iz : Inflater Byte ι) (fuel : Nat) : RLayer H → Pile H → Pile H
  | .filter f, p => f.on p
  | .zlib block, p => zreadOn iz block fuel p

/-- The layers on top of each other, the first one on top. -/
def rtower (iz : Inflater Byte ι) (fuel : Nat) (gs : List (RLayer H)) (p : Pile H) : Pile H := gs.foldr (RLayer.on iz fuel) p

/-- Possible arguments. -/
def RLayer.Ok : RLayer H → Prop
  | .filter f => f.Ok
  | .zlib block => block ≠ 0

/-- `L` is what is to be seen at the top when `out` is at the bottom: a decompression gives what was compressed, a limit shows the beginning. -/
def Seen (Comp : List Byte → List Byte → Prop) : List (RLayer H) → List Byte → List Byte → Prop
  | [], L, out => L = out
  | .filter f :: gs, L, out => ∃ L', L = f.view L' ∧ Seen Comp gs L' out
  | .zlib _ :: gs, L, out => ∃ c, Comp c L ∧ Seen Comp gs c out

/-- On a source, a tower is a pile that delivers what is to be seen, if the loops may go round often enough. -/
theorem reads_tower {iz : Inflater Byte ι} {Comp : List Byte → List Byte → Prop} {reach : ι → List Byte → List Byte → Prop} (hi : InflaterOk iz Comp reach) {L00 out : List Byte} {b : Pile H}
    (h : Reads L00 b out) : ∀ {gs : List (RLayer H)} {L : List Byte}, (∀ g ∈ gs, g.Ok) → Seen Comp gs L out →
    ∃ F L0, ∀ fuel, F ≤ fuel → Reads L0 (rtower iz fuel gs b) L
  | [], L, _, e => ⟨0, L00, fun _ _ => by rw [show L = out from e]; exact h⟩
  | .filter f :: gs, L, hg, ⟨L', e, hL⟩ => by
    obtain ⟨F, L0, ih⟩ := reads_tower hi h (fun g hm => hg g (List.mem_cons_of_mem _ hm)) hL
    have hf : f.Ok := hg _ List.mem_cons_self
    refine ⟨F, L0, fun fuel hF => ?_⟩
    have ih := ih fuel hF
    subst e
    cases f with
    | plain => exact reads_plain ih
    | hasher t => exact reads_hasher t ih
    | buffer r w => exact reads_buffer ih
    | limit r w => exact reads_limit hf.1 ih
  | .zlib block :: gs, L, hg, ⟨c, hc, hL⟩ => by
    obtain ⟨F, L0, ih⟩ := reads_tower hi h (fun g hm => hg g (List.mem_cons_of_mem _ hm)) hL
    exact ⟨F + c.length + 1, L, fun fuel hF => reads_zlib hi (ih fuel (by omega)) hc (hg _ List.mem_cons_self) (by omega)⟩


theorem rtower_state (iz : Inflater Byte ι) (fuel : Nat) {p : Pile H} (hp : p.S.state p.s = .ok) : ∀ gs : List (RLayer H), (rtower iz fuel gs p).S.state (rtower iz fuel gs p).s = .ok
  | [] => hp
  | g :: gs => by
    have ih := rtower_state iz fuel hp gs
    cases g with
    | filter f => cases f <;> exact ih
    | zlib b => exact ih

/-- **C159** (reading) A tower over any bottom that delivers `out` is a source of what is to be seen at its top. -/
theorem tower_is_source_on {iz : Inflater Byte ι} {Comp : List Byte → List Byte → Prop} {reach : ι → List Byte → List Byte → Prop} (hi : InflaterOk iz Comp reach) {L00 out : List Byte} {b : Pile H}
    (h : Reads L00 b out) (hs : b.S.state b.s = .ok) {gs : List (RLayer H)} {L : List Byte} (hg : ∀ g ∈ gs, g.Ok) (hL : Seen Comp gs L out) :
    ∃ F, ∀ fuel, F ≤ fuel → ∀ Q : Pile H, Q = rtower iz fuel gs b →
      ∃ (τ : Type) (T : Strm Byte τ) (left : τ → List Byte) (φ : τ → Q.σ) (t : τ), IsSource T left ∧ Record.Hom T Q.S φ ∧ φ t = Q.s ∧ left t = L ∧ T.state t = .ok := by
  obtain ⟨F, L0, a⟩ := reads_tower hi h hg hL
  refine ⟨F, fun fuel hF Q hQ => ?_⟩
  have b := a fuel hF
  rw [← hQ] at b
  obtain ⟨R, h1, h2, -⟩ := b
  refine ⟨_, ghost h1, fun x => x.1.2.2, fun x => x.1.1, ⟨(_, [], _), h2⟩, ghost_source h1, ghost_hom h1, rfl, rfl, ?_⟩
  show Q.S.state Q.s = .ok
  subst hQ
  exact rtower_state iz fuel hs gs

/-- **C158** (reading) A tower of filters and decompressions over a source is a source of what is to be seen at its top: in order, each byte once, the end reported at the end. -/
theorem tower_is_source {iz : Inflater Byte ι} {Comp : List Byte → List Byte → Prop} {reach : ι → List Byte → List Byte → Prop} (hi : InflaterOk iz Comp reach) {S : Strm Byte σ} {rem : σ → List Byte}
    (h : IsSource S rem) {s : σ} (hs : S.state s = .ok) (got : σ → List Byte) {gs : List (RLayer H)} {L : List Byte} (hg : ∀ g ∈ gs, g.Ok) (hL : Seen Comp gs L (rem s)) :
    ∃ F, ∀ fuel, F ≤ fuel → ∀ Q : Pile H, Q = rtower iz fuel gs (bare S s got) →
      ∃ (τ : Type) (T : Strm Byte τ) (left : τ → List Byte) (φ : τ → Q.σ) (t : τ), IsSource T left ∧ Record.Hom T Q.S φ ∧ φ t = Q.s ∧ left t = L ∧ T.state t = .ok :=
  tower_is_source_on hi (reads_bare h (by rw [hs]; decide) got) hs hg hL

/-! ### There and back -/

/-- Filters and compressions only. -/
def Layer.Binary : Layer H → Prop
  | .base64 _ => False
  | _ => True

/-- How many compressions there are. -/
def zips : List (Layer H) → Nat
  | [] => 0
  | .zlib _ :: ls => zips ls + 1
  | _ :: ls => zips ls

/-- How many decompressions there are. -/
def unzips : List (RLayer H) → Nat
  | [] => 0
  | .zlib _ :: gs => unzips gs + 1
  | .filter _ :: gs => unzips gs

/-- The limits show all of it. -/
def Shown (Comp : List Byte → List Byte → Prop) : List (RLayer H) → List Byte → Prop
  | [], _ => True
  | .filter f :: gs, L => f.view L = L ∧ Shown Comp gs L
  | .zlib _ :: gs, L => ∀ c, Comp c L → Shown Comp gs c

/-- `out` is `G` compressed so many times. -/
def Chain (Comp : List Byte → List Byte → Prop) : Nat → List Byte → List Byte → Prop
  | 0, G, out => out = G
  | k + 1, G, out => ∃ c, Comp c G ∧ Chain Comp k c out

theorem arrived_chain {Comp : List Byte → List Byte → Prop} {out : List Byte} : ∀ {ls : List (Layer H)} {taps : List (Tap H × H)} {G : List Byte}, (∀ l ∈ ls, l.Binary) → Arrived Comp [] ls out taps G → Chain Comp (zips ls) G out
  | [], _, _, _, h => h.1
  | .filter f :: ls, taps, G, hb, h => by
    have hb' : ∀ l ∈ ls, l.Binary := fun l hl => hb l (List.mem_cons_of_mem _ hl)
    cases f with
    | hasher t => obtain ⟨x, taps', -, -, h⟩ := h; exact arrived_chain (ls := ls) hb' h
    | plain => exact arrived_chain (ls := ls) (taps := taps) hb' h
    | buffer r w => exact arrived_chain (ls := ls) (taps := taps) hb' h
    | limit r w => exact arrived_chain (ls := ls) (taps := taps) hb' h
  | .zlib b :: ls, taps, G, hb, ⟨c, h1, h2⟩ => ⟨c, h1, arrived_chain (ls := ls) (taps := taps) (fun l hl => hb l (List.mem_cons_of_mem _ hl)) h2⟩
  | .base64 mb :: ls, _, _, hb, _ => (hb _ List.mem_cons_self).elim

theorem chain_seen {Comp : List Byte → List Byte → Prop} {out : List Byte} : ∀ {gs : List (RLayer H)} {G : List Byte}, Shown Comp gs G → Chain Comp (unzips gs) G out → Seen Comp gs G out
  | [], _, _, h => h.symm
  | .filter f :: gs, G, h, c => ⟨G, h.1.symm, chain_seen h.2 c⟩
  | .zlib b :: gs, G, h, ⟨c, h1, h2⟩ => ⟨c, h1, chain_seen (h c h1) h2⟩

theorem needs_bounded : ∀ vs : List Val, ∃ N, ∀ v ∈ vs, need v < N
  | [] => ⟨0, fun _ h => by cases h⟩
  | v :: vs => by
    obtain ⟨N, h⟩ := needs_bounded vs
    refine ⟨N + need v + 1, fun w hw => ?_⟩
    rcases List.mem_cons.1 hw with e | hw
    · rw [e]; omega
    · have := h w hw; omega

theorem putAll_tower {dz : Deflater Byte δ} {Comp : List Byte → List Byte → Prop} {run fin : δ → List Byte → List Byte → Prop} {full : δ → Prop} {work : Bool → δ → List Byte → Nat}
    (hz : DeflaterOk dz Comp run fin full work) {g0 : List Byte} {room : Nat → Prop} {d : Pile H} (h : Takes g0 room d) {vs : List Val} (hv : ∀ v ∈ vs, v.Ok) {ls : List (Layer H)}
    (hf : FitsIn Comp room ls (vs.flatMap wire).length) {P : Pile H} (hP : P = tower dz ls d) :
    ∃ x, putAll P.S P.s vs = some x ∧ P.S.state (P.S.flush x) = .ok ∧ Arrived Comp g0 ls (P.got (P.S.flush x)) (P.taps (P.S.flush x)) (vs.flatMap wire) := by
  obtain ⟨o1, o2⟩ := vals_output hv
  rw [← o2] at hf
  obtain ⟨a, b, c⟩ := program_through_tower_on hz (valsProg vs) h hf hP
  rw [o2] at c
  exact ⟨_, by rw [vals_program, thrown, if_pos (a.trans o1)], b, c⟩

/-- **C159** (values) Values written through any tower of filters and compressions on any bottom with room, and read through any other with as many decompressions, over any bottom that delivers what arrived, are the
same values: no exception is thrown, and both ends are in state ok. Missing: base64 below other layers, see `base64_below_loses`; on top of them, see `values_through_base64_towers_on_partial`. -/
theorem values_through_towers_on_partial {dz : Deflater Byte δ} {iz : Inflater Byte ι} {Comp : List Byte → List Byte → Prop} {run fin : δ → List Byte → List Byte → Prop} {full : δ → Prop}
    {work : Bool → δ → List Byte → Nat} {reach : ι → List Byte → List Byte → Prop} (hz : DeflaterOk dz Comp run fin full work) (hi : InflaterOk iz Comp reach)
    {room : Nat → Prop} {d : Pile H} (hd : Takes [] room d) {vs : List Val} (hv : ∀ v ∈ vs, v.Ok) {ls : List (Layer H)} (hl : ∀ l ∈ ls, l.Binary)
    (hf : FitsIn Comp room ls (vs.flatMap wire).length) {gs : List (RLayer H)} (hg : ∀ g ∈ gs, g.Ok) (hn : unzips gs = zips ls) (hsh : Shown Comp gs (vs.flatMap wire)) {P : Pile H} (hP : P = tower dz ls d) :
    ∃ x, putAll P.S P.s vs = some x ∧ P.S.state (P.S.flush x) = .ok ∧
      ∀ (r : Pile H) {L0 : List Byte}, Reads L0 r (P.got (P.S.flush x)) → r.S.state r.s = .ok →
        ∃ F, ∀ fuel, F ≤ fuel → ∀ Q : Pile H, Q = rtower iz fuel gs r → ∀ old buf : List Byte,
          ∃ y, getAll Q.S fuel old buf Q.s (vs.map Val.kind) = some (vs, y) ∧ Q.S.state y = .ok := by
  obtain ⟨x, a, b, c⟩ := putAll_tower hz hd hv hf hP
  refine ⟨x, a, b, ?_⟩
  intro r L0 hr hs
  have hc := arrived_chain hl c
  rw [← hn] at hc
  obtain ⟨F, k⟩ := tower_is_source_on hi hr hs hg (chain_seen hsh hc)
  obtain ⟨N, hN⟩ := needs_bounded vs
  refine ⟨F + N, fun fuel hF Q hQ old buf => ?_⟩
  obtain ⟨τ', T, left, φ, z, s1, s2, s3, s4, s5⟩ := k fuel (by omega) Q hQ
  obtain ⟨y, b1, -, b3⟩ := getAll_source s1 fuel old buf [] vs z s5 (fun v m => ⟨hv v m, by have := hN v m; omega⟩) (by rw [s4, List.append_nil])
  have e := getAll_hom s2 fuel old buf (vs.map Val.kind) z
  rw [b1, s3] at e
  exact ⟨φ y, e, by rw [s2.state]; exact b3⟩

/-- **C158** (values) The same from a stream that takes everything to a source. -/
theorem values_through_towers_partial {dz : Deflater Byte δ} {iz : Inflater Byte ι} {Comp : List Byte → List Byte → Prop} {run fin : δ → List Byte → List Byte → Prop} {full : δ → Prop}
    {work : Bool → δ → List Byte → Nat} {reach : ι → List Byte → List Byte → Prop} (hz : DeflaterOk dz Comp run fin full work) (hi : InflaterOk iz Comp reach)
    {D : Strm Byte τ} {got : τ → List Byte} (hd : Sinks D got) {t : τ} (ht : D.state t = .ok) (h0 : got t = []) {vs : List Val} (hv : ∀ v ∈ vs, v.Ok) {ls : List (Layer H)} (hl : ∀ l ∈ ls, l.Binary)
    (hf : Fits Comp ls (vs.flatMap wire).length) {gs : List (RLayer H)} (hg : ∀ g ∈ gs, g.Ok) (hn : unzips gs = zips ls) (hsh : Shown Comp gs (vs.flatMap wire)) {P : Pile H} (hP : P = tower dz ls (bare D t got)) :
    ∃ x, putAll P.S P.s vs = some x ∧ P.S.state (P.S.flush x) = .ok ∧
      ∀ {σ : Type} {S : Strm Byte σ} {rem : σ → List Byte}, IsSource S rem → ∀ (got' : σ → List Byte) (s : σ), S.state s = .ok → rem s = P.got (P.S.flush x) →
        ∃ F, ∀ fuel, F ≤ fuel → ∀ Q : Pile H, Q = rtower iz fuel gs (bare S s got') → ∀ old buf : List Byte,
          ∃ y, getAll Q.S fuel old buf Q.s (vs.map Val.kind) = some (vs, y) ∧ Q.S.state y = .ok := by
  obtain ⟨x, a, b, c⟩ := values_through_towers_on_partial hz hi (d := bare D t got) (h0 ▸ takes_all hd ht) hv hl hf hg hn hsh hP
  refine ⟨x, a, b, ?_⟩
  intro σ S rem h got' s hs hr
  exact c (bare S s got') (hr ▸ reads_bare h (by rw [hs]; decide) got') hs

/-- **C159** (values in base64) The same with base64 on top of both towers. -/
theorem values_through_base64_towers_on_partial {dz : Deflater Byte δ} {iz : Inflater Byte ι} {Comp : List Byte → List Byte → Prop} {run fin : δ → List Byte → List Byte → Prop} {full : δ → Prop}
    {work : Bool → δ → List Byte → Nat} {reach : ι → List Byte → List Byte → Prop} (hz : DeflaterOk dz Comp run fin full work) (hi : InflaterOk iz Comp reach)
    {room : Nat → Prop} {d : Pile H} (hd : Takes [] room d) {vs : List Val} (hv : ∀ v ∈ vs, v.Ok) {maxBlocks : Nat} {ls : List (Layer H)} (hl : ∀ l ∈ ls, l.Binary)
    (hf : FitsIn Comp room (.base64 maxBlocks :: ls) (vs.flatMap wire).length) {gs : List (RLayer H)} (hg : ∀ g ∈ gs, g.Ok) (hn : unzips gs = zips ls)
    (hsh : Shown Comp gs (B64Pipe.base64Text maxBlocks (vs.flatMap wire))) {P : Pile H} (hP : P = tower dz (.base64 maxBlocks :: ls) d) :
    ∃ x, putAll P.S P.s vs = some x ∧ P.S.state (P.S.flush x) = .ok ∧
      ∀ (r : Pile H) {L0 : List Byte}, Reads L0 r (P.got (P.S.flush x)) → r.S.state r.s = .ok →
        ∃ F, ∀ fuel, F ≤ fuel → ∀ Q : Pile H, Q = rtower iz fuel gs r → ∀ old buf : List Byte,
          ∃ y, getAll (B64Pipe.reader Q.S fuel) fuel old buf (B64Pipe.readerOn Q.S Q.s) (vs.map Val.kind) = some (vs, y) ∧ (B64Pipe.reader Q.S fuel).state y = .ok := by
  obtain ⟨x, a, b, c⟩ := putAll_tower hz hd hv hf hP
  refine ⟨x, a, b, ?_⟩
  intro r L0 hr hs
  have hc := arrived_chain (G := B64Pipe.base64Text maxBlocks (vs.flatMap wire)) hl c
  rw [← hn] at hc
  obtain ⟨F, k⟩ := tower_is_source_on hi hr hs hg (chain_seen hsh hc)
  obtain ⟨N, hN⟩ := needs_bounded vs
  refine ⟨F + N + (B64Pipe.base64Text maxBlocks (vs.flatMap wire)).length + 2, fun fuel hF Q hQ old buf => ?_⟩
  obtain ⟨τ', T, left, φ, z, s1, s2, s3, s4, s5⟩ := k fuel (by omega) Q hQ
  obtain ⟨y, b1, -, b3⟩ := B64Pipe.getAll_exact (B64Pipe.reader_exact s1 (fuel := fuel) (by omega)) fuel old buf [] vs (B64Pipe.readerOn T z) s5 (fun v m => ⟨hv v m, by have := hN v m; omega⟩)
    (by rw [List.append_nil]; exact B64Pipe.left_start s5 s4 (by rw [s4]; omega))
  have e := getAll_hom (B64Pipe.reader_hom s2 fuel) fuel old buf (vs.map Val.kind) (B64Pipe.readerOn T z)
  rw [b1] at e
  refine ⟨(y.1, φ y.2), ?_, b3⟩
  have e2 : B64Pipe.readerOn Q.S Q.s = ((B64Pipe.readerOn T z).1, φ (B64Pipe.readerOn T z).2) := by
    unfold B64Pipe.readerOn
    rw [← s3, s2.state]
  rw [e2]
  exact e

/-- **C158** (values in base64) The same from a stream that takes everything to a source. -/
theorem values_through_base64_towers_partial {dz : Deflater Byte δ} {iz : Inflater Byte ι} {Comp : List Byte → List Byte → Prop} {run fin : δ → List Byte → List Byte → Prop} {full : δ → Prop}
    {work : Bool → δ → List Byte → Nat} {reach : ι → List Byte → List Byte → Prop} (hz : DeflaterOk dz Comp run fin full work) (hi : InflaterOk iz Comp reach)
    {D : Strm Byte τ} {got : τ → List Byte} (hd : Sinks D got) {t : τ} (ht : D.state t = .ok) (h0 : got t = []) {vs : List Val} (hv : ∀ v ∈ vs, v.Ok) {maxBlocks : Nat} {ls : List (Layer H)} (hl : ∀ l ∈ ls, l.Binary)
    (hf : Fits Comp (.base64 maxBlocks :: ls) (vs.flatMap wire).length) {gs : List (RLayer H)} (hg : ∀ g ∈ gs, g.Ok) (hn : unzips gs = zips ls)
    (hsh : Shown Comp gs (B64Pipe.base64Text maxBlocks (vs.flatMap wire))) {P : Pile H} (hP : P = tower dz (.base64 maxBlocks :: ls) (bare D t got)) :
    ∃ x, putAll P.S P.s vs = some x ∧ P.S.state (P.S.flush x) = .ok ∧
      ∀ {σ : Type} {S : Strm Byte σ} {rem : σ → List Byte}, IsSource S rem → ∀ (got' : σ → List Byte) (s : σ), S.state s = .ok → rem s = P.got (P.S.flush x) →
        ∃ F, ∀ fuel, F ≤ fuel → ∀ Q : Pile H, Q = rtower iz fuel gs (bare S s got') → ∀ old buf : List Byte,
          ∃ y, getAll (B64Pipe.reader Q.S fuel) fuel old buf (B64Pipe.readerOn Q.S Q.s) (vs.map Val.kind) = some (vs, y) ∧ (B64Pipe.reader Q.S fuel).state y = .ok := by
  obtain ⟨x, a, b, c⟩ := values_through_base64_towers_on_partial hz hi (d := bare D t got) (h0 ▸ takes_all hd ht) hv hl hf hg hn hsh hP
  refine ⟨x, a, b, ?_⟩
  intro σ S rem h got' s hs hr
  exact c (bare S s got') (hr ▸ reads_bare h (by rw [hs]; decide) got') hs


/-! ### What gets lost -/

/-- A stream with these contents, through a base64 reader. -/
def demoSource (text : List Byte) : Pile (List Byte) := bare (B64Pipe.reader (pipe 9) 99) (B64Pipe.readerOn (pipe 9) (text, [], .ok)) (fun _ => [])

/-- (defect) A base64 reader loses the end of its text when more is asked for than there is (C10, C11), and whatever reads in blocks does so: through a buffer, or a decompression, over a base64 reader the end of
what was written is lost. 4 bytes in base64, of which a buffer delivers 3 and then the end; 2 bytes compressed in base64, of which the decompression delivers 1 and then the end. -/
theorem base64_below_loses :
    (let p := (Filter.buffer 8 8).on (demoSource (B64Pipe.base64Text 9 [7, 8, 9, 10])); let r := p.S.read p.s 4; (r.1, p.S.state r.2, (p.S.read r.2 1).1, p.S.state (p.S.read r.2 1).2)) = ([7, 8, 9], .ok, [], .eof) ∧
    demoComp [1, 7, 1, 8, 0] ([7, 8] : List Byte) ∧
    (let p := zreadOn demoInflater 8 50 (demoSource (B64Pipe.base64Text 9 [1, 7, 1, 8, 0])); let r := p.S.read p.s 4; (r.1, p.S.state r.2, (p.S.read r.2 1).1, p.S.state (p.S.read r.2 1).2)) = ([7], .ok, [], .eof) := by
  refine ⟨by decide +kernel, rfl, by decide +kernel⟩

/-! ### Examples -/

theorem wrap_length (k : Nat) : ∀ (l : List Nat) (cur : Nat), (B64.wrapAt k cur l).length ≤ 2 * l.length
  | [], _ => Nat.zero_le _
  | c :: cs, cur => by
    have a := wrap_length k cs 1
    have b := wrap_length k cs (cur + 1)
    unfold B64.wrapAt
    split <;> simp only [List.length_cons] <;> omega

theorem rfc_length : ∀ l : List UInt8, (B64.rfc4648 l).length ≤ 4 * l.length
  | [] => Nat.le_refl _
  | [_] => Nat.le_refl 4
  | [_, _] => by show 4 ≤ 8; decide
  | a :: b :: c :: l => by
    have := rfc_length l
    show (B64.rfc4648 l).length + 4 ≤ 4 * (l.length + 3)
    omega

/-- There always is a limit that lets a base64 text pass. -/
theorem base64_bound (mb : Nat) (G : List Byte) : (B64Pipe.base64Text mb G).length ≤ 8 * G.length := by
  unfold B64Pipe.base64Text B64Pipe.chars
  have a := wrap_length (4 * mb) (B64.rfc4648 (G.map UInt8.ofBitVec)) 0
  have b := rfc_length (G.map UInt8.ofBitVec)
  rw [List.length_map] at b ⊢
  omega

theorem demo_bound {c G : List Byte} (h : demoComp c G) : c.length = 2 * G.length + 1 := by
  rw [show c = demoEnc G ++ [0] from h]
  unfold demoEnc
  rw [List.length_append]
  show _ + 1 = _
  congr 1
  clear h
  induction G with
  | nil => rfl
  | cons b G ih => rw [List.flatMap_cons, List.length_append, ih]; show 2 + 2 * G.length = 2 * (G.length + 1); omega

/-- Seven layers: two compressions, base64, hashes above and below them, buffers, and a limit just large enough for 9 bytes. -/
def seven : List (Layer (List Byte)) :=
  [.filter (.hasher ⟨fun h d => h ++ d, []⟩), .zlib 3, .filter (.buffer 4 4), .base64 4, .zlib 5, .filter (.limit 0 305), .filter (.hasher ⟨fun h d => h ++ d, []⟩)]

example : Fits demoComp seven 9 := by
  have h1 : ∀ G c : List Byte, G.length ≤ 9 → demoComp c G → c.length ≤ 19 := fun G c hG hc => by rw [demo_bound hc]; omega
  have h2 : ∀ G : List Byte, G.length ≤ 19 → (B64Pipe.base64Text 4 G).length ≤ 152 := fun G hG => Nat.le_trans (base64_bound 4 G) (by omega)
  have h3 : ∀ G c : List Byte, G.length ≤ 152 → demoComp c G → c.length ≤ 305 := fun G c hG hc => by rw [demo_bound hc]; omega
  exact ⟨trivial, trivial, by decide, 19, h1, trivial, trivial, by decide, 152, h2, by decide, 305, h3, ⟨by decide, by decide⟩, Or.inr (by decide), trivial, trivial, trivial⟩

/-- The same without base64, and a tower to read through: other filters and sizes. -/
def six' (n : Nat) : List (Layer (List Byte)) :=
  [.filter (.hasher ⟨fun h d => h ++ d, []⟩), .zlib 3, .filter (.buffer 4 4), .zlib 5, .filter (.limit 0 n), .filter (.hasher ⟨fun h d => h ++ d, []⟩)]

def readSix : List (RLayer (List Byte)) := [.filter (.buffer 3 0), .zlib 2, .filter .plain, .filter (.hasher ⟨fun h d => h ++ d, []⟩), .zlib 7, .filter (.limit fsizeMax 0)]

example : (∀ v ∈ threeVals, v.Ok) ∧ (∀ l ∈ six' 75, l.Binary) ∧ Fits demoComp (six' 75) (threeVals.flatMap wire).length ∧ (∀ g ∈ readSix, g.Ok) ∧ unzips readSix = zips (six' 75) ∧ Shown demoComp readSix (threeVals.flatMap wire) := by
  refine ⟨?_, ?_, ?_, ?_, rfl, ?_⟩
  · intro v hv
    simp only [threeVals, List.mem_cons, List.not_mem_nil, or_false] at hv
    rcases hv with rfl | rfl | rfl <;> simp [Val.Ok]
  · intro l hl
    simp only [six', List.mem_cons, List.not_mem_nil, or_false] at hl
    rcases hl with rfl | rfl | rfl | rfl | rfl | rfl <;> trivial
  · rw [show (threeVals.flatMap wire).length = 18 by decide +kernel]
    have h1 : ∀ G c : List Byte, G.length ≤ 18 → demoComp c G → c.length ≤ 37 := fun G c hG hc => by rw [demo_bound hc]; omega
    have h2 : ∀ G c : List Byte, G.length ≤ 37 → demoComp c G → c.length ≤ 75 := fun G c hG hc => by rw [demo_bound hc]; omega
    exact ⟨trivial, trivial, by decide, 37, h1, trivial, trivial, by decide, 75, h2, ⟨by decide, by decide⟩, Or.inr (by decide), trivial, trivial, trivial⟩
  · intro g hg
    simp only [readSix, List.mem_cons, List.not_mem_nil, or_false] at hg
    rcases hg with rfl | rfl | rfl | rfl | rfl | rfl <;> first | trivial | exact (fun q : _ = 0 => nomatch q) | exact ⟨by decide, by decide⟩
  · refine ⟨rfl, fun c _ => ⟨rfl, rfl, fun c _ => ⟨show (if fsizeMax = fsizeMax then c else c.take fsizeMax) = c from if_pos rfl, trivial⟩⟩⟩

/-- Read through `readSix`. -/
example : (getAll (rtower demoInflater 99 readSix (bare (pipe 9) (demoEnc (demoEnc threeBytes ++ [0]) ++ [0], [], .ok) (fun _ => []))).S 50 [] (List.replicate 2048 0)
    (rtower demoInflater 99 readSix (bare (pipe 9) (demoEnc (demoEnc threeBytes ++ [0]) ++ [0], [], .ok) (fun _ => []))).s (threeVals.map Val.kind)).map (·.1) = some threeVals := by decide +kernel

/-- The library is there, and the stream at the bottom. -/
example : DeflaterOk (demoDeflater (γ := Byte)) demoComp demoRun demoFin (fun z => z.2.2 = true) demoWork ∧ InflaterOk (demoInflater (γ := Byte)) demoComp (fun y f g => demoDec false f = (g, y)) ∧
    Sinks (flushing 3) (fun s => s.2.1) ∧ (flushing 3).state ([], [], .ok) = .ok := ⟨demo_deflater, demo_inflater (by decide), flushing_sinks 3, rfl⟩

end Verif.Tower
