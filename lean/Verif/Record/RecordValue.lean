import Verif.Record.IdRec
import Verif.Stream.MemoryStream
/-
Records whose data is read and written by operators of its own (include/stdex/idrec.hpp 438-530 with any `T`): what such an
operator sees of the file.
-/
namespace Verif.Record
open Verif.Stream Verif.Stream.MemoryFile
variable {β σ τ α : Type}

/-! ### Streams that behave as another -/

/-- `T` in state `φ s` answers reads as `S` in state `s` does. -/
structure Hom (S : Strm β σ) (T : Strm β τ) (φ : σ → τ) : Prop where
  read : ∀ s n, T.read (φ s) n = ((S.read s n).1, φ (S.read s n).2)
  state : ∀ s, T.state (φ s) = S.state s

variable {S : Strm β σ} {T : Strm β τ} {φ : σ → τ}

theorem readLoop_hom (h : Hom S T φ) : ∀ (fuel : Nat) (s : σ) (n : Nat),
    readLoop T fuel (φ s) n = (readLoop S fuel s n).map fun r => (r.1, r.2.1, φ r.2.2) := by
  intro fuel
  induction fuel with
  | zero => intro s n; rfl
  | succ fuel ih =>
    intro s n
    unfold readLoop
    simp only [h.read, h.state]
    split
    · rfl
    · split
      · rfl
      · rw [ih, Option.map_map, Option.map_map]; rfl

theorem readArray_hom (h : Hom S T φ) (fuel : Nat) (s : σ) (size count : Nat) :
    readArray T fuel (φ s) size count = (readArray S fuel s size count).map fun r => (r.1, r.2.1, φ r.2.2) := by
  unfold readArray
  rw [readLoop_hom h, Option.map_map, Option.map_map]; rfl

theorem readData_hom {S : Strm Byte σ} {T : Strm Byte τ} (h : Hom S T φ) (fuel : Nat) (old : List Byte) (s : σ) (k : Nat) :
    readData T fuel old (φ s) k = (readData S fuel old s k).map fun r => (r.1, φ r.2) := by
  unfold readData
  rw [h.state, readArray_hom h]
  split
  · rfl
  · cases readArray S fuel s k 1 with
    | none => rfl
    | some r =>
      obtain ⟨d, c, s'⟩ := r
      simp only [Option.map_some]
      split <;> rfl

theorem readRemLoop_hom (h : Hom S T φ) (max : Nat) : ∀ (fuel : Nat) (res : List β) (len : Nat) (s : σ),
    readRemLoop T max fuel res len (φ s) = (readRemLoop S max fuel res len s).map fun r => (r.1, φ r.2) := by
  intro fuel
  induction fuel with
  | zero => intro res len s; rfl
  | succ fuel ih =>
    intro res len s
    unfold readRemLoop
    simp only []
    split
    · rw [readArray_hom h]
      cases readArray S (fuel + 1) s 1 (min len max - res.length) with
      | none => rfl
      | some r =>
        obtain ⟨d, c, s'⟩ := r
        simp only [Option.map_some]
        rw [h.state]
        split
        · rfl
        · exact ih _ _ _
    · rfl

theorem readRemainder_hom (h : Hom S T φ) (fuel : Nat) (s : σ) (max : Nat) :
    readRemainder T fuel (φ s) max = (readRemainder S fuel s max).map fun r => (r.1, φ r.2) := readRemLoop_hom h max fuel [] 65536 s

theorem mwsLoop_hom {S : Strm Byte σ} {T : Strm Byte τ} (h : Hom S T φ) : ∀ (fuel : Nat) (f : MF Byte) (dst copied : Nat) (s : σ) (n : Nat),
    mwsLoop T fuel f dst copied (φ s) n = (mwsLoop S fuel f dst copied s n).map fun r => (r.1, r.2.1, r.2.2.1, φ r.2.2.2) := by
  intro fuel
  induction fuel with
  | zero => intro f dst copied s n; rfl
  | succ fuel ih =>
    intro f dst copied s n
    unfold mwsLoop
    simp only [h.read, h.state]
    split
    · rfl
    · split
      · rfl
      · cases wrMem f.mem dst ((S.read s n).1.map some) with
        | none => rfl
        | some m =>
          simp only [Option.bind_some]
          split
          · rfl
          · exact ih _ _ _ _ _

theorem mwsAll_hom {S : Strm Byte σ} {T : Strm Byte τ} (h : Hom S T φ) (alloc : Nat → Bool) : ∀ (fuel : Nat) (f : MF Byte) (sz dst copied : Nat) (s : σ) (n : Nat),
    mwsAll T alloc fuel f sz dst copied (φ s) n = (mwsAll S alloc fuel f sz dst copied s n).map fun r => (r.1, r.2.1, r.2.2.1, φ r.2.2.2) := by
  intro fuel
  induction fuel with
  | zero => intro f sz dst copied s n; rfl
  | succ fuel ih =>
    intro f sz dst copied s n
    unfold mwsAll
    simp only [h.read, h.state]
    split
    · rfl
    · split
      · rfl
      · split
        · rfl
        · split
          · rfl
          · generalize wrMem _ dst _ = w
            cases w with
            | none => rfl
            | some m =>
              simp only [Option.bind_some]
              split
              · rfl
              · exact ih _ _ _ _ _ _

theorem writeStream_hom {S : Strm Byte σ} {T : Strm Byte τ} (h : Hom S T φ) (alloc : Nat → Bool) (fuel : Nat) (f : MF Byte) (s : σ) (amount : Option Nat) :
    f.writeStream T alloc fuel (φ s) amount = (f.writeStream S alloc fuel s amount).map fun r => (r.1, r.2.1, φ r.2.2) := by
  unfold MF.writeStream
  cases amount with
  | none =>
    simp only []
    rw [mwsAll_hom h, Option.map_map, Option.map_map]; rfl
  | some n =>
    simp only []
    split
    · rfl
    · split
      · rfl
      · rw [mwsLoop_hom h, Option.map_map, Option.map_map]; rfl

/-! ### The file, and the file through the limiter, as sources -/

/-- What is left of the file. -/
def frem (f : File) : List Byte := f.bytes.drop f.pos

theorem file_lawful (chunk : Nat) : Lawful (file chunk) :=
  ⟨fun s n => by show (List.take (min n chunk) (s.bytes.drop s.pos)).length ≤ n; rw [List.length_take]; omega, fun s d => Nat.le_refl _⟩

theorem fread_eq (chunk : Nat) (f : File) (n : Nat) : (file chunk).read f n = ((frem f).take (min n chunk), ⟨f.bytes, f.pos + ((frem f).take (min n chunk)).length, if n ≠ 0 ∧ (frem f).take (min n chunk) = [] then .eof else .ok⟩) := rfl

theorem fread_zero (chunk : Nat) (f : File) : (file chunk).state ((file chunk).read f 0).2 = .ok := by
  rw [fread_eq]
  show (if 0 ≠ 0 ∧ (frem f).take (min 0 chunk) = [] then St.eof else St.ok) = .ok
  exact if_neg (fun c => c.1 rfl)

theorem file_source {chunk : Nat} (hc : 0 < chunk) : IsSource (file chunk) frem := by
  refine ⟨?_, (file_lawful chunk).read_le, ?_, ?_, ?_⟩
  · intro f n
    rw [fread_eq]
    show (frem f).take (min n chunk) ++ f.bytes.drop (f.pos + ((frem f).take (min n chunk)).length) = frem f
    rw [← List.drop_drop]
    show (frem f).take (min n chunk) ++ (frem f).drop ((frem f).take (min n chunk)).length = frem f
    rw [List.length_take]
    rcases Nat.le_total (min n chunk) (frem f).length with h | h
    · rw [Nat.min_eq_left h, List.take_append_drop]
    · rw [Nat.min_eq_right h, List.drop_length, List.take_of_length_le h, List.append_nil]
  · intro f n hn hr
    have ht : (frem f).take (min n chunk) ≠ [] := by
      intro c
      rcases List.take_eq_nil_iff.1 c with c | c
      · omega
      · exact hr c
    rw [fread_eq]
    exact ⟨ht, if_neg (fun c => ht c.2)⟩
  · intro f n hn hr
    rw [fread_eq]
    exact if_pos ⟨hn, by rw [hr, List.take_nil]⟩
  · intro f
    exact Or.inl (fread_zero chunk f)

/-- A limiter over an unchanged, working file. -/
def InRec (b : List Byte) (l : Lim File) : Prop := l.src.bytes = b ∧ l.src.st ≠ .fail ∧ l.st ≠ .fail ∧ l.rl < fsizeMax

theorem inRec_read {chunk : Nat} {b : List Byte} {l : Lim File} (h : InRec b l) (n : Nat) : InRec b (limRead (file chunk) l n).2 := by
  obtain ⟨h1, h2, h3, h4⟩ := h
  obtain ⟨-, a2, -, a4⟩ := limRead_spec (file chunk) (file_lawful chunk) l n (by omega)
  have hst : ∀ m, ((file chunk).read l.src m).2.st ≠ .fail := by
    intro m
    rw [fread_eq]
    show (if m ≠ 0 ∧ (frem l.src).take (min m chunk) = [] then St.eof else St.ok) ≠ .fail
    split <;> exact fun c => nomatch c
  rcases a4 with ⟨-, -, -, q2, q3⟩ | ⟨-, -, q2, q3⟩
  · exact ⟨by rw [q2]; exact h1, by rw [q2]; exact h2, by rw [q3]; exact (fun c => nomatch c), by omega⟩
  · exact ⟨by rw [q2, fread_eq]; exact h1, by rw [q2]; exact hst _, by rw [q3]; exact hst _, by omega⟩

/-- The limiter on such states. -/
def limSub (chunk : Nat) (b : List Byte) : Strm Byte { l : Lim File // InRec b l } where
  read l n := ((limRead (file chunk) l.1 n).1, ⟨(limRead (file chunk) l.1 n).2, inRec_read l.2 n⟩)
  write l _ := (0, l)
  close l := l
  flush l := l
  state l := l.1.st

theorem limSub_hom (chunk : Nat) (b : List Byte) : Hom (limSub chunk b) (limiter (file chunk)) Subtype.val := ⟨fun _ _ => rfl, fun _ => rfl⟩

theorem limSub_source {chunk : Nat} (hc : 0 < chunk) (b : List Byte) : IsSource (limSub chunk b) (fun l => (frem l.1.src).take l.1.rl) := by
  have hne : ∀ l : { l : Lim File // InRec b l }, l.1.rl ≠ fsizeMax := fun l => Nat.ne_of_lt l.2.2.2.2
  refine ⟨?_, ?_, ?_, ?_, ?_⟩
  · intro l n
    exact (limRead_source (file_source hc) (file_lawful chunk) l.1 n (hne l)).1
  · intro l n
    have := limRead_spec (file chunk) (file_lawful chunk) l.1 n (hne l)
    show (limRead (file chunk) l.1 n).1.length ≤ n
    rcases this.2.2.2 with ⟨-, -, q, -⟩ | ⟨-, q, -⟩
    · rw [q]; exact Nat.zero_le _
    · rw [q]
      exact Nat.le_trans ((file_lawful chunk).read_le _ _) (Nat.min_le_left _ _)
  · intro l n hn hr
    exact (limRead_source (file_source hc) (file_lawful chunk) l.1 n (hne l)).2.1 hn hr
  · intro l n hn hr
    exact ((limRead_source (file_source hc) (file_lawful chunk) l.1 n (hne l)).2.2 hn hr).2
  · intro l
    have := limRead_spec (file chunk) (file_lawful chunk) l.1 0 (hne l)
    rcases this.2.2.2 with ⟨q, -⟩ | ⟨-, -, -, q⟩
    · exact absurd rfl q
    · left
      show (limRead (file chunk) l.1 0).2.st = .ok
      rw [q, Nat.zero_min]
      exact fread_zero chunk l.1.src

/-! ### Records with any data -/

/-- A data operator `stream >> data`, for any stream. -/
def Reader (α : Type) := ∀ {σ : Type}, Strm Byte σ → σ → Option (α × σ)

/-- The operator only reads from the stream and asks for its state. -/
def Reader.Natural (rd : Reader α) : Prop := ∀ {σ τ : Type} {S : Strm Byte σ} {T : Strm Byte τ} {φ : σ → τ}, Hom S T φ → ∀ s, rd T (φ s) = (rd S s).map fun r => (r.1, φ r.2)

/-- From a stream that has exactly `payload` the operator gets the value `v` (up to `Q`). -/
def Reader.Gets (rd : Reader α) (payload : List Byte) (Q : α → Prop) : Prop :=
  ∀ {σ : Type} {S : Strm Byte σ} {rem : σ → List Byte}, IsSource S rem → ∀ s, S.state s = .ok → rem s = payload → ∃ v s', rd S s = some (v, s') ∧ Q v

/-- `operator >>` of a record, idrec.hpp 509-530, with the data's operator: (data, or `none` when the size could not be read; file). -/
def readRecOf (chunk ks N : Nat) (rd : Reader α) (f : File) : Option (Option α × File) :=
  match rdNum chunk f ks with
  | none => none
  | some (size, f) =>
    if f.st ≠ .ok then some (none, f)
    else
      (rd (limiter (file chunk)) (Lim.new (file chunk) f size 0)).bind fun r =>
        if r.2.st = .fail then some (some r.1, r.2.src)
        else (seekbeg r.2.src (f.pos + padded ks N size)).map fun f => (some r.1, f)

/-- `operator <<` of a record, 438-448, with a data operator that may throw. -/
def writeRecOf (chunk ki ks N id : Nat) (data : File → Option File) (f : File) : Option File :=
  let o := openRec chunk ki ks id f
  if o.2.st ≠ .ok then some o.2 else (data o.2).bind fun g => (closeRec chunk ki ks N o.1 g).map Prod.snd

/-- Writing a record at the end of a file. -/
theorem writeRecOf_spec {chunk ki ks N : Nat} {id : Nat} {payload : List Byte} {data : File → Option File}
    (hd : ∀ b, data (atEnd b) = some (atEnd (b ++ payload))) (hf : Fits ki ks N id payload) (b : List Byte)
    (hl : (b ++ record ki ks N id payload).length < 2 ^ 63) :
    writeRecOf chunk ki ks N id data (atEnd b) = some (atEnd (b ++ record ki ks N id payload)) := by
  have h := write_spec (chunk := chunk) (data := fun f => atEnd (f.bytes ++ payload)) (fun b => rfl) hf b hl
  rw [← h]
  unfold writeRecOf writeRec openRec
  simp only
  rw [wrNum_end, wrNum_end, if_neg (by simp [atEnd]), if_neg (by simp [atEnd]), hd]
  rfl

/-- Reading a record of a file: the data's operator gets exactly the record's data, and the file is positioned behind the record
with its padding. -/
theorem readRecOf_spec {chunk ki ks N : Nat} (hc : 0 < chunk) {id : Nat} {payload : List Byte} {pre rest : List Byte} (hf : Fits ki ks N id payload)
    (hsz : payload.length < fsizeMax) (hl : (pre ++ record ki ks N id payload).length < 2 ^ 63) {rd : Reader α} (hn : rd.Natural) {Q : α → Prop} (hg : rd.Gets payload Q) :
    ∃ v, readRecOf chunk ks N rd ⟨pre ++ record ki ks N id payload ++ rest, pre.length + ki, .ok⟩ =
        some (some v, ⟨pre ++ record ki ks N id payload ++ rest, (pre ++ record ki ks N id payload).length, .ok⟩) ∧ Q v := by
  have e : (pre ++ record ki ks N id payload).length = pre.length + ki + ks + payload.length + padding N payload.length := by
    rw [List.length_append, record_length]; omega
  have hb : pre ++ record ki ks N id payload ++ rest =
      (pre ++ leEnc ki id) ++ (leEnc ks payload.length ++ (payload ++ List.replicate (padding N payload.length) 0 ++ rest)) := by
    simp [record]
  have hrd : rdNum chunk ⟨pre ++ record ki ks N id payload ++ rest, pre.length + ki, .ok⟩ ks =
      some (payload.length, ⟨pre ++ record ki ks N id payload ++ rest, pre.length + ki + ks, .ok⟩) := by
    refine rdNum_ok (rest := payload ++ List.replicate (padding N payload.length) 0 ++ rest) hc rfl (by have := hf.2; omega) ?_
    simp only
    rw [hb, List.drop_left' (by rw [List.length_append, leEnc_length])]
  let l0 : { l : Lim File // InRec (pre ++ record ki ks N id payload ++ rest) l } :=
    ⟨Lim.new (file chunk) ⟨pre ++ record ki ks N id payload ++ rest, pre.length + ki + ks, .ok⟩ payload.length 0, rfl, (fun c => nomatch c), (fun c => nomatch c), hsz⟩
  obtain ⟨v, l', g1, g2⟩ := hg (limSub_source hc _) l0 rfl (by
    show (List.drop (pre.length + ki + ks) (pre ++ record ki ks N id payload ++ rest)).take payload.length = payload
    rw [hb, show (pre ++ leEnc ki id) ++ (leEnc ks payload.length ++ (payload ++ List.replicate (padding N payload.length) 0 ++ rest)) =
      (pre ++ leEnc ki id ++ leEnc ks payload.length) ++ (payload ++ (List.replicate (padding N payload.length) 0 ++ rest)) by simp]
    rw [List.drop_left' (by rw [List.length_append, List.length_append, leEnc_length, leEnc_length]), List.take_left])
  have hh := hn (limSub_hom chunk (pre ++ record ki ks N id payload ++ rest)) l0
  rw [g1, Option.map_some] at hh
  refine ⟨v, ?_, g2⟩
  unfold readRecOf
  rw [hrd]
  simp only
  rw [if_neg (by simp)]
  show (rd (limiter (file chunk)) l0.1).bind _ = _
  rw [hh, Option.bind_some]
  obtain ⟨i1, i2, i3, i4⟩ := l'.2
  simp only
  rw [if_neg i3]
  unfold seekbeg padded
  rw [Nat.mod_eq_of_lt hf.2, if_pos (by omega), i1, e]
  simp only [Option.map_some]
  rw [Nat.add_assoc (pre.length + ki + ks)]

end Verif.Record
