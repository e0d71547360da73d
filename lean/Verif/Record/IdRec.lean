import Verif.Stream.Serialize
import Verif.Stream.Limiter
/-
Records with identifiers (include/stdex/idrec.hpp), on a random-access file: the overloads for `stdex::stream::basic_file`, which those for
`std::istream`/`std::ostream` repeat. `ki`, `ks` are the sizes of the identifier and of the size field, `N` is the alignment.
-/
namespace Verif.Record
open Verif.Stream

/-- A file as the operating system provides it: contents, position, state. -/
structure File where
  bytes : List Byte
  pos : Nat
  st : St

/-- Reads deliver at most `chunk` bytes at a time. -/
def fread (chunk : Nat) (f : File) (n : Nat) : List Byte × File :=
  let d := (f.bytes.drop f.pos).take (min n chunk)
  (d, { f with pos := f.pos + d.length, st := if n ≠ 0 ∧ d = [] then .eof else .ok })

/-- A write beyond the end fills the gap with zeros. -/
def fwrite (f : File) (d : List Byte) : Nat × File :=
  let b := f.bytes ++ List.replicate (f.pos - f.bytes.length) 0
  (d.length, ⟨b.take f.pos ++ d ++ b.drop (f.pos + d.length), f.pos + d.length, .ok⟩)

/-- The file as a stream. -/
def file (chunk : Nat) : Strm Byte File := ⟨fread chunk, fwrite, id, id, File.st⟩

/-- `seekbeg`, stream.hpp 842-845; `none`: the offset is not a `foff_t`. -/
def seekbeg (f : File) (p : Nat) : Option File := if p < 2 ^ 63 then some { f with pos := p, st := .ok } else none

/-- `basic_file::skip`, stream.hpp 861-866; `none`: it throws, or the position is not a `foff_t`. -/
def fskip (f : File) (n : Nat) : Option File := seekbeg f (f.pos + n)

/-- `stream >> number` of `k` bytes. -/
def rdNum (chunk : Nat) (f : File) (k : Nat) : Option (Nat × File) := readData (file chunk) (k + 1) [] f k

/-- `stream << number`. -/
def wrNum (chunk : Nat) (f : File) (k v : Nat) : File := writeData (file chunk) f k v

/-- `padding`, idrec.hpp 65-69. -/
def padding (N size : Nat) : Nat := (N - size % N) % N

/-- `size += padding(size)`, in `ks` bytes. -/
def padded (ks N size : Nat) : Nat := (size + padding N size) % 256 ^ ks

/-- `ignore`, 105-119. -/
def ignore (chunk ks N : Nat) (f : File) : Option (Bool × File) :=
  match rdNum chunk f ks with
  | none => none
  | some (size, f) =>
    if f.st ≠ .ok then some (false, f)
    else (fskip f (padded ks N size)).map fun f => (decide (f.st = .ok), f)

/-- `find`, 159-173; `e` is `end`. The loop is bounded by `fuel`. -/
def find (chunk ki ks N : Nat) (e : Option Nat) (id : Nat) : Nat → File → Option (Bool × File)
  | 0, _ => none
  | fuel + 1, f =>
    if e = none ∨ (∃ x, e = some x ∧ f.pos < x) then
      match rdNum chunk f ki with
      | none => none
      | some (v, f) =>
        if f.st ≠ .ok then some (false, f)
        else if v = id then some (true, f)
        else
          match ignore chunk ks N f with
          | none => none
          | some (_, f) => find chunk ki ks N e id fuel f
    else some (false, f)

/-- `read_id`, 48-56. -/
def readId (chunk ki : Nat) (e : Option Nat) (f : File) : Option (Option Nat × File) :=
  if e = none ∨ (∃ x, e = some x ∧ f.pos < x) then
    (rdNum chunk f ki).map fun r => (if r.2.st = .ok then some r.1 else none, r.2)
  else some (none, f)

/-- `open`, 208-220. -/
def openRec (chunk ki ks id : Nat) (f : File) : Nat × File := (f.pos, wrNum chunk (wrNum chunk f ki id) ks 0)

/-- `close`, 262-284: the returned position (`none` for `fpos_max`). -/
def closeRec (chunk ki ks N start : Nat) (f : File) : Option (Option Nat × File) :=
  let size := (f.pos - start - ki - ks) % 256 ^ ks
  let remainder := padding N size
  let f' := if remainder = 0 then f else (fwrite f (List.replicate remainder 0)).2
  let e := f.pos + remainder
  if f'.st ≠ .ok then some (none, f')
  else (seekbeg f' (start + ki)).bind fun g => (seekbeg (wrNum chunk g ks size) e).map fun h => (some e, h)

/-- `operator <<` of a record, 438-448; `data` is `operator <<` of the data. -/
def writeRec (chunk ki ks N id : Nat) (data : File → File) (f : File) : Option File :=
  let o := openRec chunk ki ks id f
  if o.2.st ≠ .ok then some o.2 else (closeRec chunk ki ks N o.1 (data o.2)).map Prod.snd

/-- `operator >>` of a record, 509-530; the data's `operator >>` performs the reads `ops`, and their results are returned. -/
def readRec (chunk ks N : Nat) (ops : List Nat) (f : File) : Option (List (Res Byte) × File) :=
  match rdNum chunk f ks with
  | none => none
  | some (size, f) =>
    if f.st ≠ .ok then some ([], f)
    else
      let r := (limiter (file chunk)).run (Lim.new (file chunk) f size 0) (ops.map Op.read)
      if r.2.st = .fail then some (r.1, r.2.src)
      else (seekbeg r.2.src (f.pos + padded ks N size)).map fun f => (r.1, f)

/-! ### Specification -/

/-- The format of a record: identifier, size of the data, the data, zeros up to the alignment. -/
def record (ki ks N id : Nat) (data : List Byte) : List Byte :=
  leEnc ki id ++ leEnc ks data.length ++ data ++ List.replicate (padding N data.length) 0

/-- A record that fits: identifier and size, also when padded, in their fields. -/
def Fits (ki ks N id : Nat) (data : List Byte) : Prop := id < 256 ^ ki ∧ data.length + padding N data.length < 256 ^ ks

/-- A file of records. -/
def records (ki ks N : Nat) (rs : List (Nat × List Byte)) : List Byte := rs.flatMap fun r => record ki ks N r.1 r.2

/-! ### Proofs -/

theorem readLoop_file {chunk : Nat} (hc : 0 < chunk) : ∀ (fuel : Nat) (f : File) (n : Nat), n < fuel →
    readLoop (file chunk) fuel f n = some ((f.bytes.drop f.pos).take n, n - ((f.bytes.drop f.pos).take n).length,
      ⟨f.bytes, f.pos + ((f.bytes.drop f.pos).take n).length, if ((f.bytes.drop f.pos).take n).length = n then .ok else .eof⟩) := by
  intro fuel
  induction fuel with
  | zero => intro f n h; omega
  | succ fuel ih =>
    intro f n h
    rw [readLoop]
    show (if n - ((f.bytes.drop f.pos).take (min n chunk)).length = 0 then
        some ((f.bytes.drop f.pos).take (min n chunk), 0, (fread chunk f n).2)
      else if (fread chunk f n).2.st ≠ .ok then some ((f.bytes.drop f.pos).take (min n chunk), n - ((f.bytes.drop f.pos).take (min n chunk)).length, (fread chunk f n).2)
      else (readLoop (file chunk) fuel (fread chunk f n).2 (n - ((f.bytes.drop f.pos).take (min n chunk)).length)).map fun q =>
        ((f.bytes.drop f.pos).take (min n chunk) ++ q.1, q.2)) = _
    have hs : (fread chunk f n).2 = ⟨f.bytes, f.pos + ((f.bytes.drop f.pos).take (min n chunk)).length,
      if n ≠ 0 ∧ (f.bytes.drop f.pos).take (min n chunk) = [] then .eof else .ok⟩ := rfl
    have hd : f.bytes.drop (f.pos + ((f.bytes.drop f.pos).take (min n chunk)).length) = (f.bytes.drop f.pos).drop ((f.bytes.drop f.pos).take (min n chunk)).length := by
      rw [List.drop_drop]
    generalize hr : f.bytes.drop f.pos = r at *
    have hm : min n chunk ≤ n ∧ (min n chunk = 0 → n = 0) := by omega
    generalize min n chunk = m at *
    have hl : (r.take m).length = min m r.length := List.length_take ..
    have hn : (r.take n).length = min n r.length := List.length_take ..
    have he : r.take m = [] ↔ min m r.length = 0 := by rw [← hl, List.length_eq_zero_iff]
    by_cases c1 : n - (r.take m).length = 0
    · rw [if_pos c1, hs]
      have e : r.take m = r.take n := by
        rw [List.take_eq_take_iff]; omega
      rw [e, if_neg (by rw [← e, he]; omega), if_pos (by omega)]
      rw [show n - (r.take n).length = 0 by omega]
    · rw [if_neg c1, hs]
      by_cases c2 : n ≠ 0 ∧ r.take m = []
      · rw [if_pos c2, if_pos (by simp)]
        have : r = [] := by
          have := c2.2; rw [he] at this
          apply List.length_eq_zero_iff.1
          have h1 : m ≠ 0 := fun q => c2.1 (hm.2 q)
          rw [Nat.min_def] at this
          split at this <;> omega
        subst this
        simp only [List.take_nil, List.length_nil]
        rw [if_neg (by omega)]
      · have hpos : (r.take m).length ≠ 0 := fun q => c2 ⟨by omega, List.length_eq_zero_iff.1 q⟩
        rw [if_neg c2, if_neg (by simp), ih _ _ (by omega)]
        simp only [Option.map_some]
        rw [hd]
        have e1 : r.take m ++ (r.drop (r.take m).length).take (n - (r.take m).length) = r.take n := by
          rw [hl]
          by_cases q : r.length ≤ m
          · rw [List.take_of_length_le q, Nat.min_eq_right q, List.drop_length, List.take_nil, List.append_nil, List.take_of_length_le (by omega)]
          · have : min m r.length = m := Nat.min_eq_left (by omega)
            rw [this, ← List.take_add, show m + (n - m) = n by omega]
        have e2 : (r.take m).length + ((r.drop (r.take m).length).take (n - (r.take m).length)).length = (r.take n).length := by
          rw [← e1, List.length_append]
        rw [e1]
        generalize ((r.drop (r.take m).length).take (n - (r.take m).length)).length = x at *
        rw [Nat.add_assoc, e2, show n - (r.take m).length - x = n - (r.take n).length by omega]
        have : (x = n - (r.take m).length) = ((r.take n).length = n) := by apply propext; omega
        simp only [this]

/-- Reading a number that is there. -/
theorem rdNum_ok {chunk : Nat} (hc : 0 < chunk) {f : File} (hs : f.st = .ok) {k v : Nat} (hv : v < 256 ^ k) {rest : List Byte}
    (h : f.bytes.drop f.pos = leEnc k v ++ rest) : rdNum chunk f k = some (v, ⟨f.bytes, f.pos + k, .ok⟩) := by
  have hl := leEnc_length k v
  unfold rdNum readData readArray
  rw [show (file chunk).state f = f.st from rfl, hs, if_neg (by simp), readLoop_file hc _ _ _ (by omega), h]
  rw [Nat.mul_one, List.take_left' hl, hl]
  simp only [Option.map_some, Nat.sub_self, if_true]
  rw [List.drop_nil, List.append_nil, List.take_of_length_le (by omega), leDec_enc k v hv]

/-- Reading a number that is cut off. -/
theorem rdNum_short {chunk : Nat} (hc : 0 < chunk) {f : File} {k : Nat} (h : f.bytes.length < f.pos + k) (hk : 0 < k) :
    ∃ v p, rdNum chunk f k = some (v, ⟨f.bytes, p, if f.st = .ok then .eof else f.st⟩) := by
  unfold rdNum readData readArray
  rw [show (file chunk).state f = f.st from rfl]
  by_cases hs : f.st = .ok
  · rw [if_neg (by simp [hs]), if_pos hs, readLoop_file hc _ _ _ (by omega), Nat.mul_one]
    simp only [Option.map_some]
    have : ¬ ((f.bytes.drop f.pos).take k).length = k := by rw [List.length_take, List.length_drop]; omega
    rw [if_neg this]
    repeat' split
    all_goals exact ⟨_, _, rfl⟩
  · rw [if_pos hs, if_neg hs]
    exact ⟨_, _, rfl⟩

/-- Reading a number where there are enough bytes. -/
theorem rdNum_there {chunk : Nat} (hc : 0 < chunk) {f : File} (hs : f.st = .ok) {k : Nat} (h : f.pos + k ≤ f.bytes.length) :
    ∃ v, rdNum chunk f k = some (v, ⟨f.bytes, f.pos + k, .ok⟩) := by
  have hl : ((f.bytes.drop f.pos).take k).length = k := by rw [List.length_take, List.length_drop]; omega
  unfold rdNum readData readArray
  rw [show (file chunk).state f = f.st from rfl, hs, if_neg (by simp), readLoop_file hc _ _ _ (by omega), Nat.mul_one, hl, if_pos rfl]
  simp only [Option.map_some]
  rw [if_pos (Nat.sub_self k), if_pos rfl]
  exact ⟨_, rfl⟩

theorem padding_lt {N : Nat} (hN : 0 < N) (s : Nat) : padding N s < N := Nat.mod_lt _ hN

/-- Dividing the bytes at a position. -/
theorem ignore_record {chunk ks N : Nat} (hc : 0 < chunk) {f : File} (hs : f.st = .ok) {data rest : List Byte}
    (hd : data.length + padding N data.length < 256 ^ ks) (hp : f.pos + ks + data.length + padding N data.length < 2 ^ 63)
    (h : f.bytes.drop f.pos = leEnc ks data.length ++ (data ++ List.replicate (padding N data.length) 0 ++ rest)) :
    ignore chunk ks N f = some (true, ⟨f.bytes, f.pos + ks + data.length + padding N data.length, .ok⟩) := by
  unfold ignore
  rw [rdNum_ok hc hs (by omega) h]
  simp only
  rw [if_neg (by simp)]
  unfold fskip seekbeg padded
  rw [Nat.mod_eq_of_lt hd, if_pos (by simp only; omega)]
  simp only [Option.map_some, decide_true, Nat.add_assoc]

/-! ### Properties -/

/-- **C54** Padding is the least amount that completes the size to a multiple of the alignment. -/
theorem padding_spec {N : Nat} (hN : 0 < N) (s : Nat) :
    (s + padding N s) % N = 0 ∧ ∀ p, (s + p) % N = 0 → padding N s ≤ p := by
  unfold padding
  have hm := Nat.mod_lt s hN
  have hdm := Nat.div_add_mod s N
  by_cases h : s % N = 0
  · rw [h, Nat.sub_zero, Nat.mod_self]
    exact ⟨by simpa using h, fun _ _ => Nat.zero_le _⟩
  · have hx : (N - s % N) % N = N - s % N := Nat.mod_eq_of_lt (by omega)
    rw [hx]
    constructor
    · rw [show s + (N - s % N) = N * (s / N) + N by omega, Nat.mul_add_mod, Nat.mod_self]
    · intro p hp
      apply Nat.le_of_not_lt
      intro hlt
      rw [Nat.add_mod] at hp
      by_cases hpN : p < N
      · rw [Nat.mod_eq_of_lt hpN, Nat.mod_eq_of_lt (by omega)] at hp
        omega
      · omega

/-- **C54** `ignore`, after the identifier was read, skips exactly the rest of the record with its padding. -/
theorem ignore_spec {chunk ki ks N : Nat} (hc : 0 < chunk) {id : Nat} {data pre rest : List Byte}
    (hf : Fits ki ks N id data) (hl : (pre ++ record ki ks N id data).length < 2 ^ 63) :
    ignore chunk ks N ⟨pre ++ record ki ks N id data ++ rest, pre.length + ki, .ok⟩ =
      some (true, ⟨pre ++ record ki ks N id data ++ rest, (pre ++ record ki ks N id data).length, .ok⟩) := by
  have e : (pre ++ record ki ks N id data).length = pre.length + ki + ks + data.length + padding N data.length := by
    simp only [record, List.length_append, leEnc_length, List.length_replicate]; omega
  rw [e] at hl ⊢
  refine ignore_record (rest := rest) hc rfl hf.2 hl ?_
  simp only
  unfold record
  rw [show pre ++ (leEnc ki id ++ leEnc ks data.length ++ data ++ List.replicate (padding N data.length) 0) ++ rest =
    (pre ++ leEnc ki id) ++ (leEnc ks data.length ++ (data ++ List.replicate (padding N data.length) 0 ++ rest)) by simp]
  rw [List.drop_left' (by rw [List.length_append, leEnc_length])]

theorem record_length (ki ks N id : Nat) (data : List Byte) :
    (record ki ks N id data).length = ki + ks + data.length + padding N data.length := by
  simp only [record, List.length_append, leEnc_length, List.length_replicate]

/-- At the start of a record. -/
theorem find_step {chunk ki ks N : Nat} (hc : 0 < chunk) {e : Option Nat} {id i : Nat} {data pre rest : List Byte} (fuel : Nat)
    (hf : Fits ki ks N i data) (hl : (pre ++ record ki ks N i data).length < 2 ^ 63) (he : ∀ x, e = some x → pre.length < x) :
    find chunk ki ks N e id (fuel + 1) ⟨pre ++ record ki ks N i data ++ rest, pre.length, .ok⟩ =
      if i = id then some (true, ⟨pre ++ record ki ks N i data ++ rest, pre.length + ki, .ok⟩)
      else find chunk ki ks N e id fuel ⟨pre ++ record ki ks N i data ++ rest, (pre ++ record ki ks N i data).length, .ok⟩ := by
  have hcond : e = none ∨ (∃ x, e = some x ∧ (⟨pre ++ record ki ks N i data ++ rest, pre.length, .ok⟩ : File).pos < x) := by
    cases e with
    | none => exact Or.inl rfl
    | some x => exact Or.inr ⟨x, rfl, he x rfl⟩
  have hrd : rdNum chunk ⟨pre ++ record ki ks N i data ++ rest, pre.length, .ok⟩ ki =
      some (i, ⟨pre ++ record ki ks N i data ++ rest, pre.length + ki, .ok⟩) := by
    refine rdNum_ok (rest := leEnc ks data.length ++ data ++ List.replicate (padding N data.length) 0 ++ rest) hc rfl hf.1 ?_
    simp only
    unfold record
    rw [List.append_assoc, List.drop_left]
    simp
  rw [find, if_pos hcond, hrd]
  simp only
  rw [if_neg (by simp)]
  by_cases hi : i = id
  · rw [if_pos hi, if_pos hi]
  · rw [if_neg hi, if_neg hi, ignore_spec hc hf hl]

theorem records_cons (ki ks N : Nat) (r : Nat × List Byte) (rs : List (Nat × List Byte)) :
    records ki ks N (r :: rs) = record ki ks N r.1 r.2 ++ records ki ks N rs := rfl

theorem records_append (ki ks N : Nat) (a b : List (Nat × List Byte)) : records ki ks N (a ++ b) = records ki ks N a ++ records ki ks N b := by
  unfold records; exact List.flatMap_append

/-- Passing over records with other identifiers. -/
theorem find_pass {chunk ki ks N : Nat} (hc : 0 < chunk) (hk : 0 < ki) {e : Option Nat} {id : Nat} (rest : List Byte) : ∀ (rs : List (Nat × List Byte))
    (pre : List Byte) (fuel : Nat), (∀ r ∈ rs, Fits ki ks N r.1 r.2 ∧ r.1 ≠ id) → (pre ++ records ki ks N rs).length < 2 ^ 63 →
    (∀ x, e = some x → (pre ++ records ki ks N rs).length ≤ x) → rs.length ≤ fuel →
    find chunk ki ks N e id fuel ⟨pre ++ records ki ks N rs ++ rest, pre.length, .ok⟩ =
      find chunk ki ks N e id (fuel - rs.length) ⟨pre ++ records ki ks N rs ++ rest, (pre ++ records ki ks N rs).length, .ok⟩ := by
  intro rs
  induction rs with
  | nil =>
    intro pre fuel _ _ _ _
    simp [records]
  | cons r rs ih =>
    intro pre fuel hr hl he hfu
    obtain ⟨hf, hid⟩ := hr r List.mem_cons_self
    cases fuel with
    | zero => simp at hfu
    | succ fuel =>
      have e1 : pre ++ records ki ks N (r :: rs) = pre ++ record ki ks N r.1 r.2 ++ records ki ks N rs := by
        rw [records_cons, List.append_assoc]
      rw [e1] at hl he ⊢
      have hle : (pre ++ record ki ks N r.1 r.2).length ≤ (pre ++ record ki ks N r.1 r.2 ++ records ki ks N rs).length := by
        rw [List.length_append (bs := records ki ks N rs)]; omega
      have hst := find_step (chunk := chunk) (ki := ki) (ks := ks) (N := N) hc (e := e) (id := id) (i := r.1) (data := r.2) (pre := pre)
        (rest := records ki ks N rs ++ rest) fuel hf (by omega) (fun x hx => by
          have := he x hx
          have := record_length ki ks N r.1 r.2
          rw [List.length_append] at hle
          omega)
      rw [if_neg hid, ← List.append_assoc] at hst
      rw [hst, ih (pre ++ record ki ks N r.1 r.2) fuel (fun q hq => hr q (List.mem_cons_of_mem _ hq)) hl he (by simpa using hfu)]
      rw [List.length_cons, show fuel + 1 - (rs.length + 1) = fuel - rs.length by omega]

/-- **C54** `find` positions right behind the identifier of the first record that has the requested one. `e`, the end of
the search, may lie anywhere behind the start of that record, or not be given. -/
theorem find_found {chunk ki ks N : Nat} (hc : 0 < chunk) (hk : 0 < ki) {e : Option Nat} {id : Nat} {data : List Byte} {pre rest : List Byte}
    {rs : List (Nat × List Byte)} (hr : ∀ r ∈ rs, Fits ki ks N r.1 r.2 ∧ r.1 ≠ id) (hf : Fits ki ks N id data)
    (hl : (pre ++ records ki ks N rs ++ record ki ks N id data).length < 2 ^ 63)
    (he : ∀ x, e = some x → (pre ++ records ki ks N rs).length < x) {fuel : Nat} (hfu : rs.length < fuel) :
    find chunk ki ks N e id fuel ⟨pre ++ records ki ks N rs ++ record ki ks N id data ++ rest, pre.length, .ok⟩ =
      some (true, ⟨pre ++ records ki ks N rs ++ record ki ks N id data ++ rest, (pre ++ records ki ks N rs).length + ki, .ok⟩) := by
  have h1 : (pre ++ records ki ks N rs).length < 2 ^ 63 := by
    rw [List.length_append (bs := record ki ks N id data)] at hl; omega
  have := find_pass hc hk (e := e) (id := id) (record ki ks N id data ++ rest) rs pre fuel hr h1
    (fun x hx => Nat.le_of_lt (he x hx)) (by omega)
  rw [← List.append_assoc] at this
  rw [this]
  obtain ⟨k, hk2⟩ : ∃ k, fuel - rs.length = k + 1 := ⟨fuel - rs.length - 1, by omega⟩
  rw [hk2, find_step hc (rest := rest) k hf hl he, if_pos rfl]

/-- **C54** If no record before `end` has the identifier, `find` returns false, at `end`. -/
theorem find_none {chunk ki ks N : Nat} (hc : 0 < chunk) (hk : 0 < ki) {id : Nat} {pre rest : List Byte} {rs : List (Nat × List Byte)}
    (hr : ∀ r ∈ rs, Fits ki ks N r.1 r.2 ∧ r.1 ≠ id) (hl : (pre ++ records ki ks N rs).length < 2 ^ 63) {fuel : Nat} (hfu : rs.length < fuel) :
    find chunk ki ks N (some (pre ++ records ki ks N rs).length) id fuel ⟨pre ++ records ki ks N rs ++ rest, pre.length, .ok⟩ =
      some (false, ⟨pre ++ records ki ks N rs ++ rest, (pre ++ records ki ks N rs).length, .ok⟩) := by
  rw [find_pass hc hk rest rs pre fuel hr hl (fun x hx => by injection hx with hx; omega) (by omega)]
  obtain ⟨k, hk2⟩ : ∃ k, fuel - rs.length = k + 1 := ⟨fuel - rs.length - 1, by omega⟩
  rw [hk2, find, if_neg]
  rintro (h | ⟨x, h, h'⟩)
  · cases h
  · injection h with h
    simp only at h'
    omega

/-- **C54** The same without `end`, at the end of the file. -/
theorem find_none_eof {chunk ki ks N : Nat} (hc : 0 < chunk) (hk : 0 < ki) {id : Nat} {pre : List Byte} {rs : List (Nat × List Byte)}
    (hr : ∀ r ∈ rs, Fits ki ks N r.1 r.2 ∧ r.1 ≠ id) (hl : (pre ++ records ki ks N rs).length < 2 ^ 63) {fuel : Nat} (hfu : rs.length < fuel) :
    ∃ p, find chunk ki ks N none id fuel ⟨pre ++ records ki ks N rs, pre.length, .ok⟩ = some (false, ⟨pre ++ records ki ks N rs, p, .eof⟩) := by
  have := find_pass hc hk (e := none) (id := id) [] rs pre fuel hr hl (fun x hx => nomatch hx) (by omega)
  rw [List.append_nil] at this
  rw [this]
  obtain ⟨k, hk2⟩ : ∃ k, fuel - rs.length = k + 1 := ⟨fuel - rs.length - 1, by omega⟩
  obtain ⟨v, p, e⟩ := rdNum_short hc (f := ⟨pre ++ records ki ks N rs, (pre ++ records ki ks N rs).length, .ok⟩) (k := ki) (by simp only; omega) hk
  rw [hk2, find, if_pos (Or.inl rfl), e]
  exact ⟨p, by simp⟩

theorem fwrite_end (b d : List Byte) (st : St) : fwrite ⟨b, b.length, st⟩ d = (d.length, ⟨b ++ d, (b ++ d).length, .ok⟩) := by
  unfold fwrite
  simp only [Nat.sub_self, List.replicate_zero, List.append_nil, List.take_length]
  rw [List.drop_of_length_le (by omega), List.append_nil, List.length_append]

theorem fwrite_mid (a x c d : List Byte) (hd : d.length = x.length) (st : St) :
    fwrite ⟨a ++ x ++ c, a.length, st⟩ d = (d.length, ⟨a ++ d ++ c, (a ++ d).length, .ok⟩) := by
  unfold fwrite
  simp only
  rw [show a.length - (a ++ x ++ c).length = 0 by simp only [List.length_append]; omega]
  rw [List.replicate_zero, List.append_nil, List.append_assoc a x c, List.take_left, hd, List.drop_append, List.length_append]
  rw [List.drop_of_length_le (by omega), Nat.add_sub_cancel_left, List.drop_left, List.nil_append, hd]

/-- A file to append to. -/
def atEnd (b : List Byte) : File := ⟨b, b.length, .ok⟩

theorem wrNum_end (chunk : Nat) (b : List Byte) (k v : Nat) : wrNum chunk (atEnd b) k v = atEnd (b ++ leEnc k v) := by
  unfold wrNum writeData
  rw [show (file chunk).state (atEnd b) = .ok from rfl, if_neg (by simp)]
  show (fwrite ⟨b, b.length, .ok⟩ (leEnc k v)).2 = _
  rw [fwrite_end]; rfl

/-- **C54** Writing a record at the end of a file: its bytes are those of the format, with the size of the data in the size
field; nothing before it changes, and the file is positioned behind it. `data` is any operation that appends its bytes, in
particular one that writes records itself. -/
theorem write_spec {chunk ki ks N : Nat} {id : Nat} {payload : List Byte} {data : File → File}
    (hd : ∀ b, data (atEnd b) = atEnd (b ++ payload)) (hf : Fits ki ks N id payload) (b : List Byte)
    (hl : (b ++ record ki ks N id payload).length < 2 ^ 63) :
    writeRec chunk ki ks N id data (atEnd b) = some (atEnd (b ++ record ki ks N id payload)) := by
  have hrl := record_length ki ks N id payload
  rw [List.length_append] at hl
  unfold writeRec openRec
  simp only
  rw [wrNum_end, wrNum_end, if_neg (by simp [atEnd]), hd]
  have hst : (atEnd b).pos = b.length := rfl
  rw [hst]
  unfold closeRec
  have hsz : ((atEnd (b ++ leEnc ki id ++ leEnc ks 0 ++ payload)).pos - b.length - ki - ks) % 256 ^ ks = payload.length := by
    show ((b ++ leEnc ki id ++ leEnc ks 0 ++ payload).length - b.length - ki - ks) % 256 ^ ks = _
    simp only [List.length_append, leEnc_length]
    rw [Nat.mod_eq_of_lt (by have := hf.2; omega)]
    omega
  rw [hsz]
  have hpad : (if padding N payload.length = 0 then atEnd (b ++ leEnc ki id ++ leEnc ks 0 ++ payload)
      else (fwrite (atEnd (b ++ leEnc ki id ++ leEnc ks 0 ++ payload)) (List.replicate (padding N payload.length) 0)).2) =
      atEnd (b ++ leEnc ki id ++ leEnc ks 0 ++ payload ++ List.replicate (padding N payload.length) 0) := by
    by_cases h : padding N payload.length = 0
    · rw [if_pos h, h, List.replicate_zero, List.append_nil]
    · rw [if_neg h]
      unfold atEnd
      rw [fwrite_end]
  simp only
  rw [hpad, if_neg (by simp [atEnd])]
  unfold seekbeg
  rw [if_pos (by omega), Option.bind_some]
  have hw : wrNum chunk { atEnd (b ++ leEnc ki id ++ leEnc ks 0 ++ payload ++ List.replicate (padding N payload.length) 0) with pos := b.length + ki, st := .ok }
      ks payload.length = ⟨b ++ record ki ks N id payload, b.length + ki + ks, .ok⟩ := by
    unfold wrNum writeData
    show (if (St.ok ≠ St.ok) then _ else (fwrite ⟨b ++ leEnc ki id ++ leEnc ks 0 ++ payload ++ List.replicate (padding N payload.length) 0, b.length + ki, .ok⟩
      (leEnc ks payload.length)).2) = _
    rw [if_neg (by simp)]
    have := fwrite_mid (b ++ leEnc ki id) (leEnc ks 0) (payload ++ List.replicate (padding N payload.length) 0) (leEnc ks payload.length)
      (by rw [leEnc_length, leEnc_length]) .ok
    rw [List.length_append, leEnc_length, ← List.append_assoc] at this
    rw [this]
    simp only [File.mk.injEq, List.length_append, leEnc_length, and_true]
    simp [record]
  rw [hw]
  have hend : (atEnd (b ++ leEnc ki id ++ leEnc ks 0 ++ payload)).pos + padding N payload.length = (b ++ record ki ks N id payload).length := by
    show (b ++ leEnc ki id ++ leEnc ks 0 ++ payload).length + padding N payload.length = _
    rw [List.length_append (bs := record ki ks N id payload), hrl]
    simp only [List.length_append, leEnc_length]
    omega
  rw [hend, if_pos (by rw [List.length_append]; omega)]
  rfl

/-- Reads through the limiter stay within it and do not change the file. -/
theorem limited_reads {chunk : Nat} (b : List Byte) (p0 size : Nat) (hsz : size < fsizeMax) : ∀ (ops : List Nat) (l : Lim File) (q : Nat),
    l.src.bytes = b → l.src.pos = p0 + q → l.rl + q = size → l.src.st ≠ .fail → l.st ≠ .fail → p0 + q ≤ b.length →
    let r := (limiter (file chunk)).run l (ops.map Op.read)
    r.2.src.bytes = b ∧ r.2.st ≠ .fail ∧
      ∃ q', q' ≤ size ∧ readOut r.1 = ((b.drop (p0 + q)).take q') ∧ q + q' ≤ size ∧
        (0 < chunk → p0 + size ≤ b.length → (∀ n ∈ ops, 0 < n) → min (size - q) ops.length ≤ q') := by
  intro ops
  induction ops with
  | nil => intro l q h1 h2 h3 h4 h5 h6; exact ⟨h1, h5, 0, Nat.zero_le _, by simp [Strm.run, readOut], by omega, by simp⟩
  | cons n ops ih =>
    intro l q h1 h2 h3 h4 h5 h6
    have hlaw : Lawful (file chunk) := ⟨fun s n => by
      show ((s.bytes.drop s.pos).take (min n chunk)).length ≤ n
      rw [List.length_take]; omega, fun s d => Nat.le_refl _⟩
    obtain ⟨a1, a2, a3, a4⟩ := limRead_spec (file chunk) hlaw l n (by omega)
    have key : (limRead (file chunk) l n).2.src.bytes = b ∧ (limRead (file chunk) l n).2.src.pos = p0 + (q + (limRead (file chunk) l n).1.length) ∧
        (limRead (file chunk) l n).2.src.st ≠ .fail ∧ (limRead (file chunk) l n).2.st ≠ .fail ∧
        (limRead (file chunk) l n).1 = (b.drop (p0 + q)).take (limRead (file chunk) l n).1.length ∧
        p0 + (q + (limRead (file chunk) l n).1.length) ≤ b.length ∧
        (0 < chunk → p0 + size ≤ b.length → 0 < n → q < size → 0 < (limRead (file chunk) l n).1.length) := by
      rcases a4 with ⟨-, q0, q1, q2, q3⟩ | ⟨-, q1, q2, q3⟩
      · rw [q1, q2, q3]
        exact ⟨h1, by simpa using h2, h4, by simp, by simp, by simpa using h6, fun _ _ _ _ => by omega⟩
      · have hr : (file chunk).read l.src (min n l.rl) = fread chunk l.src (min n l.rl) := rfl
        rw [hr] at q1 q2 q3
        have hs : ∀ x : File, (file chunk).state x = x.st := fun _ => rfl
        rw [hs] at q3
        have e1 : (fread chunk l.src (min n l.rl)).1 = (b.drop (p0 + q)).take (min (min n l.rl) chunk) := by
          show (l.src.bytes.drop l.src.pos).take _ = _
          rw [h1, h2]
        have e2 : (fread chunk l.src (min n l.rl)).2.bytes = b := h1
        have e3 : (fread chunk l.src (min n l.rl)).2.pos = l.src.pos + (fread chunk l.src (min n l.rl)).1.length := rfl
        have e4 : (fread chunk l.src (min n l.rl)).2.st ≠ .fail := by
          show (if _ then St.eof else St.ok) ≠ .fail
          split <;> simp
        refine ⟨by rw [q2, e2], by rw [q2, e3, q1, h2]; omega, by rw [q2]; exact e4, by rw [q3]; exact e4, ?_, ?_, ?_⟩
        · rw [q1, e1, List.length_take, List.take_eq_take_iff]
          omega
        · rw [q1, e1, List.length_take, List.length_drop]
          omega
        · intro _ _ _ _
          rw [q1, e1, List.length_take, List.length_drop]
          omega
    obtain ⟨k1, k2, k3, k4, k5, k6, k7⟩ := key
    obtain ⟨i1, i2, q', i3, i4, i5, i6⟩ := ih (limRead (file chunk) l n).2 (q + (limRead (file chunk) l n).1.length) k1 k2 (by omega) k3 k4 k6
    refine ⟨i1, i2, (limRead (file chunk) l n).1.length + q', by omega, ?_, by omega, fun x1 x2 x3 => ?_⟩
    rotate_left
    · have := i6 x1 x2 (fun m hm => x3 m (List.mem_cons_of_mem _ hm))
      have := k7 x1 x2 (x3 n List.mem_cons_self)
      rw [List.length_cons]
      omega
    show (limRead (file chunk) l n).1 ++ readOut ((limiter (file chunk)).run (limRead (file chunk) l n).2 (ops.map Op.read)).1 = _
    rw [i4]
    conv => lhs; rw [k5]
    rw [List.take_add, List.drop_drop, Nat.add_assoc]
    rw [← k5]

/-- **C54** Reading a record: whatever the data's operator reads, it gets bytes of the data only, from the first on, and
the file is positioned behind the record with its padding. -/
theorem read_spec {chunk ki ks N : Nat} (hc : 0 < chunk) {id : Nat} {payload : List Byte} {pre rest : List Byte} (hf : Fits ki ks N id payload)
    (hsz : payload.length < fsizeMax) (hl : (pre ++ record ki ks N id payload).length < 2 ^ 63) (ops : List Nat) :
    ∃ rs, readRec chunk ks N ops ⟨pre ++ record ki ks N id payload ++ rest, pre.length + ki, .ok⟩ =
        some (rs, ⟨pre ++ record ki ks N id payload ++ rest, (pre ++ record ki ks N id payload).length, .ok⟩) ∧
      readOut rs <+: payload ∧ ((∀ n ∈ ops, 0 < n) → payload.length ≤ ops.length → readOut rs = payload) := by
  have e : (pre ++ record ki ks N id payload).length = pre.length + ki + ks + payload.length + padding N payload.length := by
    rw [List.length_append, record_length]; omega
  have hb : pre ++ record ki ks N id payload ++ rest =
      (pre ++ leEnc ki id) ++ (leEnc ks payload.length ++ (payload ++ List.replicate (padding N payload.length) 0 ++ rest)) := by
    simp [record]
  have hrd : rdNum chunk ⟨pre ++ record ki ks N id payload ++ rest, pre.length + ki, .ok⟩ ks =
      some (payload.length, ⟨pre ++ record ki ks N id payload ++ rest, pre.length + ki + ks, .ok⟩) := by
    refine rdNum_ok (rest := payload ++ List.replicate (padding N payload.length) 0 ++ rest) hc rfl (by have := hf.2; omega) ?_
    simp only
    rw [hb, List.drop_left' (by rw [List.length_append, leEnc_length])]
  have hlr := limited_reads (chunk := chunk) (pre ++ record ki ks N id payload ++ rest) (pre.length + ki + ks) payload.length hsz ops
    (Lim.new (file chunk) ⟨pre ++ record ki ks N id payload ++ rest, pre.length + ki + ks, .ok⟩ payload.length 0) 0 rfl rfl (by simp [Lim.new])
    (by simp [Lim.new]) (by simp [Lim.new, file]) (by rw [List.length_append, e]; omega)
  simp only at hlr
  unfold readRec
  rw [hrd]
  simp only
  rw [if_neg (by simp)]
  generalize (limiter (file chunk)).run (Lim.new (file chunk) ⟨pre ++ record ki ks N id payload ++ rest, pre.length + ki + ks, .ok⟩ payload.length 0)
    (ops.map Op.read) = r at *
  obtain ⟨l1, l2, q', l3, l4, l5, l6⟩ := hlr
  rw [if_neg l2]
  unfold seekbeg padded
  rw [Nat.mod_eq_of_lt hf.2, if_pos (by omega)]
  have hout : readOut r.1 = payload.take q' := by
    rw [l4, hb, Nat.add_zero]
    rw [show (pre ++ leEnc ki id) ++ (leEnc ks payload.length ++ (payload ++ List.replicate (padding N payload.length) 0 ++ rest)) =
      (pre ++ leEnc ki id ++ leEnc ks payload.length) ++ (payload ++ (List.replicate (padding N payload.length) 0 ++ rest)) by simp]
    rw [List.drop_left' (by rw [List.length_append, List.length_append, leEnc_length, leEnc_length])]
    rw [List.take_append_of_le_length (by omega)]
  refine ⟨r.1, ?_, ?_, fun ho hn => ?_⟩
  · simp only [Option.map_some]
    rw [l1, e, Nat.add_assoc (pre.length + ki + ks)]
  · rw [hout]
    exact List.take_prefix _ _
  · have := l6 hc (by rw [List.length_append, e]; omega) ho
    rw [hout, List.take_of_length_le (by omega)]

/-- **C54** What was written as a record at the end of a file is found there and read back. -/
theorem write_find_read {chunk ki ks N : Nat} (hc : 0 < chunk) (hk : 0 < ki) {id : Nat} {payload : List Byte} {data : File → File}
    (hd : ∀ b, data (atEnd b) = atEnd (b ++ payload)) (hf : Fits ki ks N id payload) (hsz : payload.length < fsizeMax) {rs : List (Nat × List Byte)}
    (hr : ∀ r ∈ rs, Fits ki ks N r.1 r.2 ∧ r.1 ≠ id) (hl : (records ki ks N rs ++ record ki ks N id payload).length < 2 ^ 63)
    {ops : List Nat} (ho : ∀ n ∈ ops, 0 < n) (hn : payload.length ≤ ops.length) :
    ∃ f g h out, writeRec chunk ki ks N id data (atEnd (records ki ks N rs)) = some f ∧
      find chunk ki ks N none id (rs.length + 1) { f with pos := 0 } = some (true, g) ∧
      readRec chunk ks N ops g = some (out, h) ∧ readOut out = payload ∧ h = f := by
  have hw := write_spec (chunk := chunk) hd hf (records ki ks N rs) hl
  have hfi := find_found (chunk := chunk) hc hk (e := none) (pre := []) (rest := []) hr hf (by simpa using hl) (fun x hx => nomatch hx) (Nat.lt_succ_self rs.length)
  obtain ⟨out, h1, -, h3⟩ := read_spec (chunk := chunk) hc (pre := records ki ks N rs) (rest := []) hf hsz hl ops
  simp only [List.nil_append, List.append_nil, List.length_nil] at hfi h1
  exact ⟨_, _, _, out, hw, hfi, h1, h3 ho hn, rfl⟩

/-- **C54** `find` comes to an end whatever the file contains. -/
theorem find_ends {chunk ki ks N : Nat} (hc : 0 < chunk) (hk : 0 < ki) (hks : 0 < ks) (e : Option Nat) (id : Nat) : ∀ (fuel : Nat) (f : File),
    f.bytes.length + ki + ks + 256 ^ ks < 2 ^ 63 → (f.st = .ok → f.bytes.length - f.pos < fuel) → 0 < fuel →
    ∃ r, find chunk ki ks N e id fuel f = some r := by
  intro fuel
  induction fuel with
  | zero => intro f _ _ h; omega
  | succ fuel ih =>
    intro f hb hm _
    rw [find]
    by_cases c : e = none ∨ (∃ x, e = some x ∧ f.pos < x)
    · rw [if_pos c]
      by_cases hs : f.st = .ok
      · by_cases hp : f.bytes.length < f.pos + ki
        · obtain ⟨v, p, h⟩ := rdNum_short hc hp hk
          rw [h, if_pos hs]
          exact ⟨_, by simp; rfl⟩
        · obtain ⟨v, h⟩ := rdNum_there hc hs (by omega : f.pos + ki ≤ f.bytes.length)
          rw [h]
          simp only
          rw [if_neg (by simp)]
          by_cases hv : v = id
          · rw [if_pos hv]; exact ⟨_, rfl⟩
          · rw [if_neg hv]
            unfold ignore
            by_cases hq : f.bytes.length < f.pos + ki + ks
            · obtain ⟨w, p, h⟩ := rdNum_short hc (f := ⟨f.bytes, f.pos + ki, .ok⟩) (k := ks) (by simpa using hq) hks
              rw [h]
              simp only [if_true]
              rw [if_pos (by simp)]
              exact ih _ hb (fun q => nomatch q) (by have := hm hs; omega)
            · obtain ⟨w, h⟩ := rdNum_there hc (f := ⟨f.bytes, f.pos + ki, .ok⟩) (k := ks) rfl (by simpa using Nat.le_of_not_lt hq)
              rw [h]
              simp only
              rw [if_neg (by simp)]
              have : padded ks N w < 256 ^ ks := Nat.mod_lt _ (Nat.pow_pos (by omega))
              unfold fskip seekbeg
              rw [if_pos (by simp only; omega)]
              simp only [Option.map_some]
              exact ih _ hb (fun _ => by have := hm hs; simp only; omega) (by have := hm hs; omega)
      · have : rdNum chunk f ki = some (0, f) := by
          unfold rdNum readData readArray
          rw [show (file chunk).state f = f.st from rfl, if_pos hs]
        rw [this]
        simp only
        rw [if_pos hs]
        exact ⟨_, rfl⟩
    · rw [if_neg c]; exact ⟨_, rfl⟩

/-! ### Non-trivial cases, and limits -/

/-- Two records with 1-byte identifiers and sizes, aligned at 4, the second is found, and its data read. -/
example : (find 3 1 1 4 none 7 9 ⟨records 1 1 4 [(5, [1, 2, 3]), (7, [9, 8])], 0, .ok⟩).map (fun r => (r.1, r.2.pos)) = some (true, 7) := by decide +kernel
example : (readRec 3 1 4 [1, 5, 2] ⟨records 1 1 4 [(5, [1, 2, 3]), (7, [9, 8])], 7, .ok⟩).map (fun r => (readOut r.1, r.2.pos)) =
    some ([9, 8], 12) := by decide +kernel
example : Fits 1 1 4 7 [9, 8] := by unfold Fits; decide

/-- A record within a record: the data of the outer record is itself written as a record, so it meets the hypothesis of
`write_spec` about the data. -/
theorem nested {chunk ki ks N : Nat} {id : Nat} {payload : List Byte} {data : File → File} (hd : ∀ b, data (atEnd b) = atEnd (b ++ payload))
    (hf : Fits ki ks N id payload) (b : List Byte) (hl : (b ++ record ki ks N id payload).length < 2 ^ 63) :
    (writeRec chunk ki ks N id data (atEnd b)).getD (atEnd b) = atEnd (b ++ record ki ks N id payload) := by
  rw [write_spec hd hf b hl]; rfl

/-- Where `Fits` fails: 254 bytes of data have a size that fits into one byte, but with padding to 4 the size wraps to 0, and
`ignore` stays at the start of the data. -/
theorem padded_wraps (rest : List Byte) :
    (ignore 1 1 4 ⟨254 :: (List.replicate 254 7 ++ List.replicate 2 0 ++ rest), 0, .ok⟩).map (fun r => (r.1, r.2.pos)) = some (true, 1) := by
  unfold ignore
  rw [rdNum_ok (v := 254) (rest := List.replicate 254 7 ++ List.replicate 2 0 ++ rest) (by omega) rfl (by omega) rfl]
  simp only
  rw [if_neg (by simp)]
  rfl

end Verif.Record
