import Verif.Stream.Stack
import Verif.Stream.Text
import Verif.Record.StreamRec
import Verif.Record.WavSpec
import Verif.Hash.Stream
/-
Programs that write to a stream, through any pile of filters (include/stdex/stream.hpp 293-304, 504-680, 742-751; include/stdex/idrec.hpp 458-471; include/stdex/hash.hpp 286-290):
what arrives at the bottom, and what a program that reads gets from it through another pile.
-/
namespace Verif.Stack
open Verif.Stream Verif.Record

variable {H α β : Type}

/-! ### Programs that write -/

/-- A program that writes, flushes and asks for the state, and goes on according to what it is told, until it returns. -/
inductive Prog (α : Type) where
  | ret (a : α)
  | write (d : List Byte) (k : Nat → Prog α)
  | flush (k : Prog α)
  | state (k : St → Prog α)

/-- The program on a stream: what it returns, and the stream. -/
def Prog.run {σ : Type} (S : Strm Byte σ) : Prog α → σ → α × σ
  | .ret a, s => (a, s)
  | .write d k, s => (k (S.write s d).1).run S (S.write s d).2
  | .flush k, s => k.run S (S.flush s)
  | .state k, s => (k (S.state s)).run S s

/-- One program after another. -/
def Prog.bind (p : Prog α) (f : α → Prog β) : Prog β :=
  match p with
  | .ret a => f a
  | .write d k => .write d fun n => (k n).bind f
  | .flush k => .flush (k.bind f)
  | .state k => .state fun s => (k s).bind f

/-- A stream that takes everything at once. -/
def ideal : Strm Byte (List Byte) := ⟨fun s _ => ([], s), fun s d => (d.length, s ++ d), id, id, fun _ => .ok⟩

/-- What the program returns if nothing goes wrong. -/
def Prog.result (p : Prog α) : α := (p.run ideal []).1

/-- What it writes if nothing goes wrong. -/
def Prog.output (p : Prog α) : List Byte := (p.run ideal []).2

theorem run_bind {σ : Type} (S : Strm Byte σ) (f : α → Prog β) : ∀ (p : Prog α) (s : σ), (p.bind f).run S s = (f (p.run S s).1).run S (p.run S s).2
  | .ret _, _ => rfl
  | .write d k, s => run_bind S f (k (S.write s d).1) (S.write s d).2
  | .flush k, s => run_bind S f k (S.flush s)
  | .state k, s => run_bind S f (k (S.state s)) s

theorem ideal_shift : ∀ (p : Prog α) (G : List Byte), (p.run ideal G).1 = p.result ∧ (p.run ideal G).2 = G ++ p.output
  | .ret a, G => ⟨rfl, (List.append_nil G).symm⟩
  | .write d k, G => by
    have a := ideal_shift (k d.length) (G ++ d)
    have b := ideal_shift (k d.length) ([] ++ d)
    refine ⟨a.1.trans b.1.symm, ?_⟩
    show ((k d.length).run ideal (G ++ d)).2 = G ++ ((k d.length).run ideal ([] ++ d)).2
    rw [a.2, b.2, List.nil_append, List.append_assoc]
  | .flush k, G => ideal_shift k G
  | .state k, G => ideal_shift (k .ok) G

/-- On a stream that accepts as much as the program writes, it goes as on one that accepts everything. -/
theorem run_accepting {σ : Type} {S : Strm Byte σ} {done : σ → List Byte → Prop} {R : σ → List Byte → Nat → Prop} (h : Accepting S done R) : ∀ (p : Prog α) {s : σ} {G : List Byte} {c : Nat},
    R s G c → S.state s = .ok → p.output.length ≤ c →
    (p.run S s).1 = p.result ∧ R (p.run S s).2 (G ++ p.output) (c - p.output.length) ∧ S.state (p.run S s).2 = .ok
  | .ret a, s, G, c, hr, hs, _ => ⟨rfl, by show R s (G ++ []) (c - 0); rw [List.append_nil]; exact hr, hs⟩
  | .write d k, s, G, c, hr, _, hc => by
    have e : (Prog.write d k).output = d ++ (k d.length).output := by
      show ((k d.length).run ideal ([] ++ d)).2 = _
      rw [(ideal_shift _ _).2]; rfl
    have e' : (Prog.write d k).result = (k d.length).result := (ideal_shift (k d.length) ([] ++ d)).1
    rw [e, List.length_append] at hc
    obtain ⟨a, b, r⟩ := h.write hr d (by omega)
    obtain ⟨i1, i2, i3⟩ := run_accepting h (k d.length) r b (by omega)
    rw [e, e', ← List.append_assoc, List.length_append, ← Nat.sub_sub]
    show ((k (S.write s d).1).run S (S.write s d).2).1 = _ ∧ R ((k (S.write s d).1).run S (S.write s d).2).2 _ _ ∧ S.state ((k (S.write s d).1).run S (S.write s d).2).2 = .ok
    rw [a]
    exact ⟨i1, i2, i3⟩
  | .flush k, s, G, c, hr, _, hc => run_accepting h k (h.flush hr).2.1 (h.flush hr).1 hc
  | .state k, s, G, c, hr, hs, hc => by
    show ((k (S.state s)).run S s).1 = (k .ok).result ∧ R ((k (S.state s)).run S s).2 (G ++ (k .ok).output) (c - (k .ok).output.length) ∧ S.state ((k (S.state s)).run S s).2 = .ok
    rw [hs]
    exact run_accepting h (k .ok) hr hs hc

theorem stack_state {σ : Type} {S : Strm Byte σ} {s : σ} (hs : S.state s = .ok) (got : σ → List Byte) : ∀ fs : List (Filter H), (stack fs (bare S s got)).S.state (stack fs (bare S s got)).s = .ok
  | [] => hs
  | f :: fs => by
    have ih := stack_state hs got fs
    cases f <;> exact ih

/-- **C155** Whatever a program writes to a stream, it can write through any pile of filters over the stream, if the limits allow for it: the program is told the same and returns
the same, and after a flush the same has arrived in the stream, and in every hash of the pile. -/
theorem program_through_stack (p : Prog α) {σ : Type} {D : Strm Byte σ} {got : σ → List Byte} (hd : Sinks D got) {t : σ} (ht : D.state t = .ok) {fs : List (Filter H)}
    (hf : ∀ f ∈ fs, f.Ok ∧ f.Fits p.output.length) :
    (p.run (stack fs (bare D t got)).S (stack fs (bare D t got)).s).1 = (p.run D t).1 ∧
    (stack fs (bare D t got)).S.state ((stack fs (bare D t got)).S.flush (p.run (stack fs (bare D t got)).S (stack fs (bare D t got)).s).2) = .ok ∧
    (stack fs (bare D t got)).got ((stack fs (bare D t got)).S.flush (p.run (stack fs (bare D t got)).S (stack fs (bare D t got)).s).2) = got (p.run D t).2 ∧
    got (p.run D t).2 = got t ++ p.output ∧
    ∀ x ∈ (stack fs (bare D t got)).taps ((stack fs (bare D t got)).S.flush (p.run (stack fs (bare D t got)).S (stack fs (bare D t got)).s).2), Fed x p.output := by
  obtain ⟨R, h1, h2⟩ := writes_stack (writes_bare (H := H) hd t p.output.length) hf
  obtain ⟨a, b, -⟩ := run_accepting h1 p h2 (stack_state ht got fs) (Nat.le_refl _)
  obtain ⟨e, -, g1, g2⟩ := h1.flush b
  obtain ⟨R', k1, k2⟩ := writes_bare (H := H) hd t p.output.length
  have below : ∀ (p : Prog α) (t : σ), D.state t = .ok → (p.run D t).1 = p.result ∧ got (p.run D t).2 = got t ++ p.output := by
    intro p t ht
    have := run_accepting (done := fun _ _ => True) (S := D) (R := fun x G _ => got x = got t ++ G) ⟨fun {s G c} hx d _ => ⟨hd.all s d, hd.ok s d, by rw [hd.got, hx, List.append_assoc]⟩,
      fun {s G c} hx => ⟨(hd.flush s).1, (hd.flush s).2.trans hx, trivial⟩⟩ p (s := t) (G := []) (c := p.output.length) (List.append_nil _).symm ht (Nat.le_refl _)
    exact ⟨this.1, this.2.1⟩
  obtain ⟨c1, c2⟩ := below p t ht
  refine ⟨a.trans c1.symm, e, ?_, c2, g2⟩
  rw [c2]
  exact g1

theorem ideal_reliable : Reliable ideal (fun s => s) := ⟨⟨fun _ _ => Nat.le_refl _, fun t d => by show t ++ d = t ++ d.take d.length; rw [List.take_length]⟩, fun _ _ => rfl, fun _ _ => rfl⟩

/-! ### The operators of the library are such programs -/

/-- `write_data` 293-304. -/
def dataProg (k v : Nat) : Prog Unit := .state fun st => if st ≠ .ok then .ret () else .write (leEnc k v) fun _ => .ret ()

theorem data_program {σ : Type} (D : Strm Byte σ) (t : σ) (k v : Nat) : ((dataProg k v).run D t).2 = writeData D t k v := by
  show ((if D.state t ≠ .ok then Prog.ret () else .write (leEnc k v) fun _ => .ret ()).run D t).2 = _
  unfold writeData
  split <;> rfl

/-- Values one after another, of the same type. -/
def datasProg (k : Nat) : List Nat → Prog Unit
  | [] => .ret ()
  | x :: xs => (dataProg k x).bind fun _ => datasProg k xs

theorem datas_program {σ : Type} (D : Strm Byte σ) (k : Nat) : ∀ (xs : List Nat) (t : σ), ((datasProg k xs).run D t).2 = xs.foldl (fun t x => writeData D t k x) t
  | [], _ => rfl
  | x :: xs, t => by
    show (((dataProg k x).bind fun _ => datasProg k xs).run D t).2 = _
    rw [run_bind, data_program, datas_program D k xs]
    rfl

/-- `stream << value`, 625-680, 742; it returns whether it did not throw. -/
def valProg : Val → Prog Bool
  | .num k v => (dataProg k v).bind fun _ => .ret true
  | .str k cs => if cs.length > 4294967295 then .ret false else
      (dataProg 4 cs.length).bind fun _ => .state fun st => if st ≠ .ok then .ret true else .write (cs.flatMap (leEnc k)) fun _ => .ret true
  | .mset k xs => if xs.length > 4294967295 then .ret false else (dataProg 4 xs.length).bind fun _ => (datasProg k xs).bind fun _ => .ret true

/-- A result of a program as the functions of the model have it: `none` if it threw. -/
def thrown {σ : Type} (r : Bool × σ) : Option σ := if r.1 then some r.2 else none

theorem val_program {σ : Type} (D : Strm Byte σ) (t : σ) (v : Val) : put D t v = thrown ((valProg v).run D t) := by
  cases v with
  | num k v =>
    show some (writeData D t k v) = thrown (((dataProg k v).bind fun _ => .ret true).run D t)
    rw [run_bind, data_program]
    rfl
  | str k cs =>
    show writeStr D t k cs = thrown ((if cs.length > 4294967295 then Prog.ret false else
      (dataProg 4 cs.length).bind fun _ => .state fun st => if st ≠ .ok then .ret true else .write (cs.flatMap (leEnc k)) fun _ => .ret true).run D t)
    unfold writeStr
    split
    · rfl
    · rw [run_bind, data_program]
      show (if D.state (writeData D t 4 cs.length) ≠ .ok then some (writeData D t 4 cs.length) else some (D.write (writeData D t 4 cs.length) (cs.flatMap (leEnc k))).2) =
        thrown ((if D.state (writeData D t 4 cs.length) ≠ .ok then Prog.ret true else .write (cs.flatMap (leEnc k)) fun _ => .ret true).run D (writeData D t 4 cs.length))
      split <;> rfl
  | mset k xs =>
    show writeMset D t k xs = thrown ((if xs.length > 4294967295 then Prog.ret false else (dataProg 4 xs.length).bind fun _ => (datasProg k xs).bind fun _ => .ret true).run D t)
    unfold writeMset
    split
    · rfl
    · rw [run_bind, run_bind, data_program, datas_program]
      rfl

/-- `stream << v1 << v2 << ...` -/
def valsProg : List Val → Prog Bool
  | [] => .ret true
  | v :: vs => (valProg v).bind fun ok => if ok then valsProg vs else .ret false

theorem vals_program {σ : Type} (D : Strm Byte σ) : ∀ (vs : List Val) (t : σ), putAll D t vs = thrown ((valsProg vs).run D t)
  | [], _ => rfl
  | v :: vs, t => by
    show (match put D t v with | none => none | some t => putAll D t vs) = thrown (((valProg v).bind fun ok => if ok then valsProg vs else .ret false).run D t)
    rw [run_bind, val_program]
    cases hv : ((valProg v).run D t).1 with
    | false => simp only [thrown, hv, Bool.false_eq_true, if_false]; rfl
    | true => simp only [thrown, hv, if_true]; exact vals_program D vs _

/-- What it writes: the values as the wire has them. -/
theorem vals_output {vs : List Val} (hv : ∀ v ∈ vs, v.Ok) : (valsProg vs).result = true ∧ (valsProg vs).output = vs.flatMap wire := by
  obtain ⟨t', a, b, -⟩ := putAll_reliable ideal_reliable vs [] rfl hv
  rw [vals_program] at a
  unfold thrown at a
  split at a
  · next q => injection a with a; subst a; exact ⟨q, b⟩
  · cases a

/-! ### Reading values -/

section
variable {σ τ : Type} {S : Strm Byte σ} {T : Strm Byte τ} {φ : σ → τ}

theorem readStrLoop_hom (h : Hom S T φ) (buf : List Byte) (k : Nat) : ∀ (fuel : Nat) (s : σ) (data : List Nat) (n : Nat), readStrLoop T buf k fuel (φ s) data n = (readStrLoop S buf k fuel s data n).map fun r => (r.1, φ r.2)
  | 0, _, _, _ => rfl
  | fuel + 1, s, data, n => by
    unfold readStrLoop
    rw [readArray_hom h]
    cases readArray S (fuel + 1) s k (min n 1024) with
    | none => rfl
    | some r =>
      obtain ⟨d, m, s'⟩ := r
      simp only [Option.map_some, h.state]
      split
      · rfl
      · exact readStrLoop_hom h buf k fuel s' _ _

theorem readMsetLoop_hom (h : Hom S T φ) (fuel : Nat) (old : List Byte) (k : Nat) : ∀ (n : Nat) (s : σ) (data : List Nat), readMsetLoop T fuel old k n (φ s) data = (readMsetLoop S fuel old k n s data).map fun r => (r.1, φ r.2)
  | 0, _, _ => rfl
  | n + 1, s, data => by
    unfold readMsetLoop
    rw [readData_hom h]
    cases readData S fuel old s k with
    | none => rfl
    | some r =>
      simp only [Option.map_some, h.state]
      split
      · rfl
      · exact readMsetLoop_hom h fuel old k n r.2 _

theorem get_hom (h : Hom S T φ) (fuel : Nat) (old buf : List Byte) (s : σ) (k : Kind) : get T fuel old buf (φ s) k = (get S fuel old buf s k).map fun r => (r.1, φ r.2) := by
  cases k with
  | num k => show (readData T fuel old (φ s) k).map _ = ((readData S fuel old s k).map _).map _; rw [readData_hom h, Option.map_map, Option.map_map]; rfl
  | str k =>
    show (readStr T fuel old buf (φ s) k).map _ = ((readStr S fuel old buf s k).map _).map _
    have : readStr T fuel old buf (φ s) k = (readStr S fuel old buf s k).map fun r => (r.1, φ r.2) := by
      unfold readStr
      rw [h.state, readData_hom h]
      split
      · rfl
      · cases readData S fuel old s 4 with
        | none => rfl
        | some r =>
          simp only [Option.map_some, h.state]
          split
          · rfl
          · exact readStrLoop_hom h buf k fuel r.2 [] r.1
    rw [this, Option.map_map, Option.map_map]; rfl
  | mset k =>
    show (readMset T fuel old (φ s) k).map _ = ((readMset S fuel old s k).map _).map _
    have : readMset T fuel old (φ s) k = (readMset S fuel old s k).map fun r => (r.1, φ r.2) := by
      unfold readMset
      rw [readData_hom h]
      cases readData S fuel old s 4 with
      | none => rfl
      | some r =>
        simp only [Option.map_some, h.state]
        split
        · rfl
        · exact readMsetLoop_hom h fuel old k r.1 r.2 []
    rw [this, Option.map_map, Option.map_map]; rfl

theorem getAll_hom (h : Hom S T φ) (fuel : Nat) (old buf : List Byte) : ∀ (ks : List Kind) (s : σ), getAll T fuel old buf (φ s) ks = (getAll S fuel old buf s ks).map fun r => (r.1, φ r.2)
  | [], _ => rfl
  | k :: ks, s => by
    unfold getAll
    rw [get_hom h]
    cases get S fuel old buf s k with
    | none => rfl
    | some r =>
      show (getAll T fuel old buf (φ r.2) ks).map _ = ((getAll S fuel old buf r.2 ks).map _).map _
      rw [getAll_hom h fuel old buf ks, Option.map_map, Option.map_map]; rfl

end

/-- **C155** Values written through any pile of filters, and read through any other pile from a stream that has what arrived, are the same values; no exception is thrown, and the stream
is in state ok. The limits allow for all of it. -/
theorem values_through_stacks {σ τ : Type} {D : Strm Byte τ} {got : τ → List Byte} (hd : Sinks D got) {t : τ} (ht : D.state t = .ok) (h0 : got t = []) {vs : List Val} (hv : ∀ v ∈ vs, v.Ok)
    {fs gs : List (Filter H)} (hf : ∀ f ∈ fs, f.Ok ∧ f.Fits (vs.flatMap wire).length) (hg : ∀ f ∈ gs, f.Ok) :
    ∃ t', putAll (stack fs (bare D t got)).S (stack fs (bare D t got)).s vs = some t' ∧
      (stack fs (bare D t got)).S.state ((stack fs (bare D t got)).S.flush t') = .ok ∧
      ∀ {S : Strm Byte σ} {rem : σ → List Byte}, IsSource S rem → ∀ (got' : σ → List Byte) (s : σ), S.state s = .ok →
        rem s = (stack fs (bare D t got)).got ((stack fs (bare D t got)).S.flush t') → view gs (rem s) = rem s → ∀ (fuel : Nat), (∀ v ∈ vs, need v < fuel) → ∀ old buf : List Byte,
        ∃ s', getAll (stack gs (bare S s got')).S fuel old buf (stack gs (bare S s got')).s (vs.map Val.kind) = some (vs, s') ∧ (stack gs (bare S s got')).S.state s' = .ok := by
  obtain ⟨o1, o2⟩ := vals_output hv
  rw [← o2] at hf
  obtain ⟨a1, a2, a3, a4, -⟩ := program_through_stack (H := H) (valsProg vs) hd ht hf
  have key : (stack fs (bare D t got)).got ((stack fs (bare D t got)).S.flush ((valsProg vs).run (stack fs (bare D t got)).S (stack fs (bare D t got)).s).2) = vs.flatMap wire := by
    rw [a3, a4, h0, o2]; rfl
  have ok : ((valsProg vs).run (stack fs (bare D t got)).S (stack fs (bare D t got)).s).1 = true := by
    obtain ⟨R, h1, h2⟩ := writes_stack (writes_bare (H := H) hd t (valsProg vs).output.length) hf
    exact (run_accepting h1 (valsProg vs) h2 (stack_state ht got fs) (Nat.le_refl _)).1.trans o1
  refine ⟨_, ?_, a2, ?_⟩
  · rw [vals_program, thrown, if_pos ok]
  · intro S rem h got' s hs hr hw fuel hfu old buf
    rw [key] at hr
    obtain ⟨τ', T, left, φ, x, s1, s2, s3, s4, -⟩ := stack_is_source (H := H) h (by rw [hs]; decide) got' hg
    have st : T.state x = .ok := by rw [← s2.state, s3]; exact stack_state hs got' gs
    obtain ⟨x', b1, -, b3⟩ := getAll_source s1 fuel old buf [] vs x st (fun v m => ⟨hv v m, hfu v m⟩) (by rw [s4, hw, hr, List.append_nil])
    have := getAll_hom s2 fuel old buf (vs.map Val.kind) x
    rw [b1, s3] at this
    exact ⟨φ x', this, by rw [s2.state]; exact b3⟩

/-! ### Copying streams, and records -/

/-- The loop of `write_stream`, 565-578, from a stream `S`: what it returns, and the source. -/
def copyProg {σ : Type} (S : Strm Byte σ) : Nat → σ → Nat → Nat → Prog (Option (Nat × St × σ))
  | 0, _, _, _ => .ret none
  | fuel + 1, s, copied, n =>
    if n = 0 then .ret (some (copied, .ok, s))
    else .write (S.read s (min 65536 n)).1 fun w =>
      if S.state (S.read s (min 65536 n)).2 = .eof then .ret (some (copied + w, .ok, (S.read s (min 65536 n)).2))
      else if S.state (S.read s (min 65536 n)).2 ≠ .ok then .ret (some (copied + w, S.state (S.read s (min 65536 n)).2, (S.read s (min 65536 n)).2))
      else copyProg S fuel (S.read s (min 65536 n)).2 (copied + w) (n - w)

theorem copy_program {σ τ : Type} (S : Strm Byte σ) (D : Strm Byte τ) : ∀ (fuel : Nat) (s : σ) (t : τ) (copied n : Nat),
    writeStreamLoop S D fuel s t copied n = ((copyProg S fuel s copied n).run D t).1.map fun r => (r.1, r.2.1, r.2.2, ((copyProg S fuel s copied n).run D t).2)
  | 0, _, _, _, _ => rfl
  | fuel + 1, s, t, copied, n => by
    unfold writeStreamLoop copyProg
    split
    · rfl
    · simp only [Prog.run]
      split
      · rfl
      · split
        · rfl
        · exact copy_program S D fuel _ _ _ _

/-- `operator <<(basic&, record)`, idrec.hpp 458-471; it returns whether it did not throw. -/
def recProg (chunk fuel ki ks N id : Nat) (data : File → Option File) : Prog Bool :=
  let o := openRec chunk ki ks id (atEnd [])
  if o.2.st ≠ .ok then .ret true
  else match (data o.2).bind fun g => (closeRec chunk ki ks N o.1 g).bind fun c => seekbeg c.2 0 with
    | none => .ret false
    | some f => (copyProg (file chunk) fuel f 0 fsizeMax).bind fun r => .ret r.isSome

theorem rec_program {τ : Type} (D : Strm Byte τ) (chunk fuel ki ks N id : Nat) (data : File → Option File) (t : τ) :
    writeRecS D chunk fuel ki ks N id data t = thrown ((recProg chunk fuel ki ks N id data).run D t) := by
  unfold writeRecS recProg
  simp only
  split
  · rfl
  · have copied : ∀ f : File, (writeStream (file chunk) D fuel f t fsizeMax).map (fun w => w.2.2.2) = thrown (((copyProg (file chunk) fuel f 0 fsizeMax).bind fun r => .ret r.isSome).run D t) := by
      intro f
      rw [run_bind]
      unfold writeStream
      rw [copy_program, Option.map_map]
      generalize (copyProg (file chunk) fuel f 0 fsizeMax).run D t = r
      obtain ⟨r, t'⟩ := r
      cases r <;> rfl
    cases data (openRec chunk ki ks id (atEnd [])).2 with
    | none => rfl
    | some g =>
      simp only [Option.bind_some]
      cases closeRec chunk ki ks N (openRec chunk ki ks id (atEnd [])).1 g with
      | none => rfl
      | some c =>
        simp only [Option.bind_some]
        cases seekbeg c.2 0 with
        | none => rfl
        | some f =>
          simp only [Option.bind_some]
          exact copied f

/-- Records one after another. -/
def recsProg (chunk fuel ki ks N : Nat) : List (Nat × (File → Option File)) → Prog Bool
  | [] => .ret true
  | r :: rs => (recProg chunk fuel ki ks N r.1 r.2).bind fun ok => if ok then recsProg chunk fuel ki ks N rs else .ret false

theorem recs_program {τ : Type} (D : Strm Byte τ) (chunk fuel ki ks N : Nat) : ∀ (rs : List (Nat × (File → Option File))) (t : τ),
    writeAllS D chunk fuel ki ks N rs t = thrown ((recsProg chunk fuel ki ks N rs).run D t)
  | [], _ => rfl
  | r :: rs, t => by
    show (writeRecS D chunk fuel ki ks N r.1 r.2 t).bind (writeAllS D chunk fuel ki ks N rs) = thrown (((recProg chunk fuel ki ks N r.1 r.2).bind fun ok => if ok then recsProg chunk fuel ki ks N rs else .ret false).run D t)
    rw [run_bind, rec_program]
    cases hv : ((recProg chunk fuel ki ks N r.1 r.2).run D t).1 with
    | false => simp only [thrown, hv, Bool.false_eq_true, if_false]; rfl
    | true => simp only [thrown, hv, if_true, Option.bind_some]; exact recs_program D chunk fuel ki ks N rs _

/-- A limiter over a stream that behaves as another. -/
theorem limiter_hom {σ τ : Type} {S : Strm Byte σ} {T : Strm Byte τ} {φ : σ → τ} (h : Hom S T φ) : Hom (limiter S) (limiter T) (fun l => ⟨φ l.src, l.st, l.rl, l.wl⟩) := by
  refine ⟨fun l n => ?_, fun _ => rfl⟩
  show limRead T ⟨φ l.src, l.st, l.rl, l.wl⟩ n = ((limRead S l n).1, (⟨φ (limRead S l n).2.src, (limRead S l n).2.st, (limRead S l n).2.rl, (limRead S l n).2.wl⟩ : Lim τ))
  unfold limRead
  simp only [h.read, h.state]
  repeat' split
  all_goals rfl

theorem readRecS_hom {σ τ : Type} {S : Strm Byte σ} {T : Strm Byte τ} {φ : σ → τ} (h : Hom S T φ) (fuel ks N : Nat) {rd : Reader α} (hn : rd.Natural) (s : σ) :
    readRecS T fuel ks N rd (φ s) = (readRecS S fuel ks N rd s).map fun r => (r.1, φ r.2) := by
  unfold readRecS
  rw [readData_hom h]
  refine Wav.bind_hom _ fun n s1 => ?_
  simp only [h.state]
  split
  · rfl
  · have e : Lim.new T (φ s1) n 0 = (fun l : Lim σ => (⟨φ l.src, l.st, l.rl, l.wl⟩ : Lim τ)) (Lim.new S s1 n 0) := by
      unfold Lim.new; rw [h.state]
    rw [e, hn (limiter_hom h)]
    cases rd (limiter S) (Lim.new S s1 n 0) with
    | none => rfl
    | some d =>
      simp only [Option.map_some, Option.bind_some]
      split
      · rfl
      · have e := skip_hom (limiter_hom h) fuel d.2 d.2.rl
        have e : skip (limiter T) fuel ⟨φ d.2.src, d.2.st, d.2.rl, d.2.wl⟩ d.2.rl = _ := e
        rw [e]
        cases skip (limiter S) fuel d.2 d.2.rl with
        | none => rfl
        | some k =>
          simp only [Option.map_some, Option.bind_some]
          split
          · rfl
          · rw [skip_hom h]
            cases skip S fuel k.2.src (padding N n) with
            | none => rfl
            | some p =>
              simp only [Option.map_some, Option.bind_some]
              split <;> rfl

theorem readAllS_hom {σ τ : Type} {S : Strm Byte σ} {T : Strm Byte τ} {φ : σ → τ} (h : Hom S T φ) (fuel ki ks N : Nat) {rd : Reader α} (hn : rd.Natural) : ∀ (n : Nat) (s : σ),
    readAllS T fuel ki ks N rd n (φ s) = (readAllS S fuel ki ks N rd n s).map fun r => (r.1, φ r.2)
  | 0, _ => rfl
  | n + 1, s => by
    show ((readData T fuel [] (φ s) ki).bind fun i => (readRecS T fuel ks N rd i.2).bind fun r => r.1.bind fun v => (readAllS T fuel ki ks N rd n r.2).map fun t => ((i.1, v) :: t.1, t.2)) =
      ((readData S fuel [] s ki).bind fun i => (readRecS S fuel ks N rd i.2).bind fun r => r.1.bind fun v => (readAllS S fuel ki ks N rd n r.2).map fun t => ((i.1, v) :: t.1, t.2)).map fun r => (r.1, φ r.2)
    rw [readData_hom h]
    refine Wav.bind_hom _ fun i s1 => ?_
    simp only
    rw [readRecS_hom h fuel ks N hn]
    refine Wav.bind_hom _ fun v s2 => ?_
    simp only
    cases v with
    | none => rfl
    | some v =>
      simp only [Option.bind_some]
      rw [readAllS_hom h fuel ki ks N hn n, Option.map_map, Option.map_map]
      rfl

/-- A pile over a source is a source that keeps to the contract of `read` and `write`. -/
theorem stack_source {σ : Type} {S : Strm Byte σ} {rem : σ → List Byte} (h : IsSource S rem) {s : σ} (hs : S.state s = .ok) (got : σ → List Byte) {gs : List (Filter H)} (hg : ∀ f ∈ gs, f.Ok) :
    ∃ (τ : Type) (T : Strm Byte τ) (left : τ → List Byte) (φ : τ → (stack gs (bare S s got)).σ) (x : τ), IsSource T left ∧ Lawful T ∧ Hom T (stack gs (bare S s got)).S φ ∧
      φ x = (stack gs (bare S s got)).s ∧ left x = view gs (rem s) ∧ T.state x = .ok := by
  obtain ⟨R, h0, h2, -⟩ := reads_stack (reads_bare h (by rw [hs]; decide) got) hg
  have h1 := live_const h0 (view gs (rem s))
  exact ⟨_, ghost h1, fun x => x.1.2.2, fun x => x.1.1, ⟨(_, [], _), h2, rfl⟩, ghost_source h1, ⟨fun x n => (ghost_source h1).le x n, fun _ _ => Nat.zero_le _⟩, ghost_hom h1, rfl, rfl, stack_state hs got gs⟩

/-- The data of a record written with an operator that cannot fail. -/
abbrev Entry := Nat × List Byte

/-- The records as the program is given them. -/
def entries (rs : List Entry) : List (Nat × (File → Option File)) := rs.map fun r => (r.1, fun f => some (atEnd (f.bytes ++ r.2)))

theorem recs_output {chunk ki ks N : Nat} (hc : 0 < chunk) {fuel : Nat} (rs : List Entry) (hf : ∀ r ∈ rs, Fits ki ks N r.1 r.2) (hl : (records ki ks N rs).length < 2 ^ 63) (hfu : (records ki ks N rs).length < fuel) :
    (recsProg chunk fuel ki ks N (entries rs)).result = true ∧ (recsProg chunk fuel ki ks N (entries rs)).output = records ki ks N rs := by
  obtain ⟨t', a, b⟩ := stream_write_records ideal_reliable hc (fuel := fuel) rs hf hl hfu []
  have a : writeAllS ideal chunk fuel ki ks N (entries rs) [] = some t' := a
  rw [recs_program] at a
  unfold thrown at a
  split at a
  · next q => injection a with a; subst a; exact ⟨q, b⟩
  · cases a

/-- **C155** Records written through any pile of filters, and read through any other pile, are the same records, with their ids, in order; nothing throws. -/
theorem records_through_stacks {σ τ : Type} {D : Strm Byte τ} {got : τ → List Byte} (hd : Sinks D got) {t : τ} (ht : D.state t = .ok) (h0 : got t = [])
    {chunk ki ks N : Nat} (hc : 0 < chunk) (hki : 0 < ki) (hks : 0 < ks) {fuel max : Nat} (rs : List Entry) (hfit : ∀ r ∈ rs, Fits ki ks N r.1 r.2)
    (hm : ∀ r ∈ rs, r.2.length ≤ max) (hl : (records ki ks N rs).length < 2 ^ 63) (hfu : ki + ks + (records ki ks N rs).length + 65538 < fuel)
    {fs gs : List (Filter H)} (hf : ∀ f ∈ fs, f.Ok ∧ f.Fits (records ki ks N rs).length) (hg : ∀ f ∈ gs, f.Ok) :
    ∃ t', writeAllS (stack fs (bare D t got)).S chunk fuel ki ks N (entries rs) (stack fs (bare D t got)).s = some t' ∧
      (stack fs (bare D t got)).S.state ((stack fs (bare D t got)).S.flush t') = .ok ∧
      ∀ {S : Strm Byte σ} {rem : σ → List Byte}, IsSource S rem → ∀ (got' : σ → List Byte) (s : σ), S.state s = .ok →
        rem s = (stack fs (bare D t got)).got ((stack fs (bare D t got)).S.flush t') → view gs (rem s) = rem s →
        ∃ s', readAllS (stack gs (bare S s got')).S fuel ki ks N (restOf fuel max) rs.length (stack gs (bare S s got')).s = some (rs, s') := by
  obtain ⟨o1, o2⟩ := recs_output (chunk := chunk) (fuel := fuel) hc rs hfit hl (by omega)
  rw [← o2] at hf
  obtain ⟨a1, a2, a3, a4, -⟩ := program_through_stack (H := H) (recsProg chunk fuel ki ks N (entries rs)) hd ht hf
  have key : (stack fs (bare D t got)).got ((stack fs (bare D t got)).S.flush ((recsProg chunk fuel ki ks N (entries rs)).run (stack fs (bare D t got)).S (stack fs (bare D t got)).s).2) = records ki ks N rs := by
    rw [a3, a4, h0, o2]; rfl
  have ok : ((recsProg chunk fuel ki ks N (entries rs)).run (stack fs (bare D t got)).S (stack fs (bare D t got)).s).1 = true := by
    obtain ⟨R, h1, h2⟩ := writes_stack (writes_bare (H := H) hd t (recsProg chunk fuel ki ks N (entries rs)).output.length) hf
    exact (run_accepting h1 _ h2 (stack_state ht got fs) (Nat.le_refl _)).1.trans o1
  refine ⟨_, ?_, a2, ?_⟩
  · rw [recs_program, thrown, if_pos ok]
  · intro S rem h got' s hs hr hw
    rw [key] at hr
    obtain ⟨τ', T, left, φ, x, s1, sl, s2, s3, s4, st⟩ := stack_source (H := H) h hs got' hg
    obtain ⟨t2, b1, b2⟩ := stream_records_round_trip ideal_reliable s1 sl hc hki hks rs hfit hm hl hfu (t := []) rfl
    obtain ⟨t3, c1, c2⟩ := stream_write_records ideal_reliable hc (fuel := fuel) rs hfit hl (by omega) []
    have e : t2 = t3 := Option.some.inj (b1.symm.trans c1)
    obtain ⟨x', d1, -⟩ := b2 x st (by rw [s4, hw, hr, e, c2]; rfl)
    have := readAllS_hom s2 fuel ki ks N (restOf_natural fuel max) rs.length x
    rw [d1, s3] at this
    exact ⟨φ x', this⟩

/-! ### Hash values and marks of character sets -/

/-- `operator<<` of a hash value, hash.hpp 286-290. -/
def hashProg (d : List Byte) : Prog Unit := .state fun st => if st ≠ .ok then .ret () else .write d fun _ => .ret ()

theorem hash_program {σ : Type} (D : Strm Byte σ) (t : σ) (d : List Byte) : ((hashProg d).run D t).2 = HashStream.putHash D t d := by
  show ((if D.state t ≠ .ok then Prog.ret () else .write d fun _ => .ret ()).run D t).2 = _
  unfold HashStream.putHash
  split <;> rfl

/-- `write_charset`, 585-593. -/
def markProg : Charset → Prog Unit
  | .utf32 => dataProg 4 0xfeff
  | .utf16 => dataProg 2 0xfeff
  | .utf8 => .write [0xef, 0xbb, 0xbf] fun _ => .ret ()
  | .system => .ret ()

theorem mark_program {σ : Type} (D : Strm Byte σ) (t : σ) (c : Charset) : ((markProg c).run D t).2 = writeCharset D t c := by
  cases c
  all_goals first | rfl | exact data_program D t _ _

/-! ### Examples -/

/-- A number, a string and a multiset. -/
def threeVals : List Val := [.num 4 305419896, .str 1 [104, 105], .mset 2 [1, 258]]

/-- Two buffers, a hash, and limits of just the size. -/
def six (n : Nat) : List (Filter (List Byte)) := [.buffer 3 5, .limit n n, .hasher ⟨fun h d => h ++ d, []⟩, .buffer 1 2, .plain]

example : (∀ v ∈ threeVals, v.Ok) ∧ (threeVals.flatMap wire).length = 18 ∧ (∀ f ∈ six 18, f.Ok ∧ f.Fits 18) ∧ (∀ v ∈ threeVals, need v < 2000) := by
  refine ⟨?_, by decide +kernel, by simp [six, Filter.Ok, Filter.Fits, fsizeMax], by decide +kernel⟩
  intro v hv
  simp only [threeVals, List.mem_cons, List.not_mem_nil, or_false] at hv
  rcases hv with rfl | rfl | rfl <;> simp [Val.Ok]

/-- What `threeVals` is at the bottom, and that the hash got it. -/
def threeBytes : List Byte := [0x78, 0x56, 0x34, 0x12, 2, 0, 0, 0, 104, 105, 2, 0, 0, 0, 1, 0, 2, 1]

example : (putAll (stack (six 18) (bare (flushing 3) ([], [], .ok) (fun s => s.2.1))).S (stack (six 18) (bare (flushing 3) ([], [], .ok) (fun s => s.2.1))).s threeVals).map (fun t =>
      ((stack (six 18) (bare (flushing 3) ([], [], .ok) (fun s => s.2.1))).got ((stack (six 18) (bare (flushing 3) ([], [], .ok) (fun s => s.2.1))).S.flush t),
       ((stack (six 18) (bare (flushing 3) ([], [], .ok) (fun s => s.2.1))).taps ((stack (six 18) (bare (flushing 3) ([], [], .ok) (fun s => s.2.1))).S.flush t)).map (·.2))) =
    some (threeBytes, [threeBytes]) := by decide +kernel

example : (getAll (stack (six 18) (bare (flushing 3) (threeBytes, [], .ok) (fun s => s.2.1))).S 50 [] (List.replicate 2048 0) (stack (six 18) (bare (flushing 3) (threeBytes, [], .ok) (fun s => s.2.1))).s
    (threeVals.map Val.kind)).map (·.1) = some threeVals := by decide +kernel

/-- Two records, the second one with padding to 4, and that they fit their fields. -/
example : (∀ r ∈ ([(1, [10, 20, 30, 40]), (7, [5])] : List Entry), Fits 4 4 4 r.1 r.2) ∧ (records 4 4 4 [(1, [10, 20, 30, 40]), (7, [5])]).length = 24 := by
  refine ⟨?_, by decide +kernel⟩
  unfold Fits
  decide +kernel

end Verif.Stack
