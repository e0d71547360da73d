import Verif.Record.IdRec
/-
Records in standard streams: the overloads of include/stdex/idrec.hpp for `std::istream` and `std::ostream`. The standard streams are not
part of the repository; they are modelled by what the C++ standard says about them (sentries, `eofbit`, `failbit`/`badbit`), and where it
leaves room, as in whether `ignore` looks ahead, the model has a parameter that the theorems range over.
-/
namespace Verif.Record
open Verif.Stream

/-! ### Standard streams -/

/-- A `std::istream` over a sequence of bytes; `fail` is `failbit` or `badbit`. -/
structure IStr where
  bytes : List Byte
  pos : Nat
  eof : Bool
  fail : Bool
deriving DecidableEq

/-- What the standard leaves to the library: `ahead n` tells if `ignore(n)`, having extracted the last byte, looks for another one (and
so sets `eofbit`), as some implementations do; `past` tells if `seekg` accepts a position beyond the end. -/
structure Lib where
  ahead : Nat → Bool
  past : Bool

/-- `good()`. -/
def IStr.good (s : IStr) : Bool := !s.eof && !s.fail

/-- `read(p, n)`: the bytes that were stored. -/
def IStr.read (s : IStr) (n : Nat) : List Byte × IStr :=
  if s.good then
    let d := (s.bytes.drop s.pos).take n
    (d, { s with pos := s.pos + d.length, eof := decide (d.length < n), fail := decide (d.length < n) })
  else ([], { s with fail := true })

/-- `tellg()`. -/
def IStr.tellg (s : IStr) : Int × IStr := if s.good then (s.pos, s) else (-1, { s with fail := true })

/-- `seekg(p)`: `eofbit` is cleared first. -/
def IStr.seekg (L : Lib) (s : IStr) (p : Int) : IStr :=
  if s.fail then { s with eof := false }
  else if 0 ≤ p ∧ p < 2 ^ 63 ∧ (L.past = true ∨ p ≤ s.bytes.length) then { s with pos := p.toNat, eof := false }
  else { s with eof := false, fail := true }

/-- `ignore(n)`; the argument is a `std::streamsize`, so that beyond 2⁶³ it is negative and nothing is extracted. -/
def IStr.ignore (L : Lib) (s : IStr) (n : Nat) : IStr :=
  if s.good then
    if n = 0 ∨ 2 ^ 63 ≤ n then s
    else if s.bytes.length - s.pos < n then { s with pos := max s.pos s.bytes.length, eof := true }
    else { s with pos := s.pos + n, eof := L.ahead n && decide (s.pos + n = s.bytes.length) }
  else { s with fail := true }

/-- A `std::ostream` on a file that has room for `cap` bytes; `f.st` is other than `ok` when `failbit` or `badbit` is set. -/
def oput (cap : Nat) (f : File) (d : List Byte) : File :=
  if f.st ≠ .ok then f
  else if f.pos + d.length ≤ cap then (fwrite f d).2
  else { (fwrite f (d.take (cap - f.pos))).2 with st := .fail }

/-- `tellp()`. -/
def otell (f : File) : Int := if f.st ≠ .ok then -1 else f.pos

/-- `seekp(p)`. -/
def oseek (f : File) (p : Int) : File :=
  if f.st ≠ .ok then f else if 0 ≤ p ∧ p < 2 ^ 63 then { f with pos := p.toNat } else { f with st := .fail }

/-! ### The code -/

/-- `stream.read((char*)&x, sizeof(x))` into an integer; what `x` was matters where nothing is stored, `old` is that. -/
def sRdNum (s : IStr) (k old : Nat) : Nat × IStr :=
  let r := s.read k
  (leDec (r.1 ++ (leEnc k old).drop r.1.length), r.2)

/-- `end == -1 || stream.tellg() < end`. The second component is the stream after `tellg`. -/
def sBelow (e : Option Nat) (s : IStr) : Bool × IStr :=
  match e with
  | none => (true, s)
  | some x => (decide (s.tellg.1 < x), s.tellg.2)

/-- `read_id`, idrec.hpp 27-35. -/
def sReadId (ki old : Nat) (e : Option Nat) (s : IStr) : Option Nat × IStr :=
  let b := sBelow e s
  if b.1 then
    let r := sRdNum b.2 ki old
    (if r.2.good then some r.1 else none, r.2)
  else (none, b.2)

/-- `ignore`, 80-93. -/
def sIgnore (L : Lib) (ks N : Nat) (s : IStr) : Bool × IStr :=
  let r := sRdNum s ks 0
  if !r.2.good then (false, r.2)
  else
    let s := r.2.ignore L (padded ks N r.1)
    (s.good, s)

/-- `find`, 132-147; the loop is bounded by `fuel`. -/
def sFind (L : Lib) (ki ks N : Nat) (e : Option Nat) (id : Nat) : Nat → IStr → Option (Bool × IStr)
  | 0, _ => none
  | fuel + 1, s =>
    let b := sBelow e s
    if b.1 then
      let r := sRdNum b.2 ki 0
      if !r.2.good then some (false, r.2)
      else if r.1 = id then some (true, r.2)
      else sFind L ki ks N e id fuel (sIgnore L ks N r.2).2
    else some (false, b.2)

/-- `open`, 183-198: the position of the record, −1 if it failed. -/
def sOpen (cap ki ks id : Nat) (f : File) : Int × File :=
  let start := otell f
  if f.st ≠ .ok then (-1, f)
  else
    let f := oput cap f (leEnc ki id)
    if f.st ≠ .ok then (-1, f)
    else (start, oput cap f (leEnc ks 0))

/-- `close`, 230-253: the position of the end, −1 if it failed. -/
def sClose (cap ki ks N : Nat) (start : Int) (f : File) : Int × File :=
  let e := otell f
  let size := ((e - start - ki - ks) % (256 ^ ks : Nat)).toNat
  let remainder := padding N size
  let f' := if remainder = 0 then f else oput cap f (List.replicate remainder 0)
  let e := e + remainder
  if f'.st ≠ .ok then (-1, f')
  else (e, oseek (oput cap (oseek f' (start + ki)) (leEnc ks size)) e)

/-- `operator <<(std::ostream&, record)`, 417-427; `data` is `operator <<` of the data. -/
def sWriteRec (cap ki ks N id : Nat) (data : File → File) (f : File) : File :=
  let o := sOpen cap ki ks id f
  if o.2.st ≠ .ok then o.2 else (sClose cap ki ks N o.1 (data o.2)).2

/-- `operator >>(std::istream&, record)`, 481-499; `data` is `operator >>` of the data, which gets the stream itself. -/
def sReadRec {α : Type} (L : Lib) (ks N : Nat) (data : IStr → α × IStr) (s : IStr) : Option α × IStr :=
  let r := sRdNum s ks 0
  if !r.2.good then (none, r.2)
  else
    let t := r.2.tellg
    let d := data t.2
    if !d.2.good then (some d.1, d.2)
    else (some d.1, d.2.seekg L (t.1 + padded ks N r.1))

/-! ### Specification -/

/-- A readable stream. -/
def iAt (b : List Byte) (p : Nat) : IStr := ⟨b, p, false, false⟩

/-! ### Proofs: reading -/

theorem sRdNum_ok {b : List Byte} {p k v old : Nat} (hv : v < 256 ^ k) {rest : List Byte} (h : b.drop p = leEnc k v ++ rest) :
    sRdNum (iAt b p) k old = (v, iAt b (p + k)) := by
  have hl := leEnc_length k v
  have hr : (iAt b p).read k = (leEnc k v, iAt b (p + k)) := by
    unfold IStr.read
    rw [if_pos (by rfl)]
    show (_, IStr.mk _ _ _ _) = _
    simp only [iAt, h, List.take_left' hl, hl, Nat.lt_irrefl, decide_false]
  unfold sRdNum
  rw [hr]
  simp only
  rw [List.drop_of_length_le (by rw [leEnc_length, leEnc_length]; exact Nat.le_refl _), List.append_nil, leDec_enc k v hv]

/-- Reading a number that is cut off. -/
theorem sRdNum_short {s : IStr} {k old : Nat} (h : s.bytes.length < s.pos + k) (hk : 0 < k) :
    (sRdNum s k old).2.bytes = s.bytes ∧ (sRdNum s k old).2.fail = true ∧ s.pos ≤ (sRdNum s k old).2.pos := by
  unfold sRdNum IStr.read
  by_cases hg : s.good = true
  · rw [if_pos hg]
    have : ((s.bytes.drop s.pos).take k).length < k := by rw [List.length_take, List.length_drop]; omega
    exact ⟨rfl, decide_eq_true this, Nat.le_add_right _ _⟩
  · rw [if_neg hg]; exact ⟨rfl, rfl, Nat.le_refl _⟩

theorem sRdNum_bad {s : IStr} {k old : Nat} (h : s.good = false) : (sRdNum s k old).2 = { s with fail := true } := by
  unfold sRdNum IStr.read
  rw [if_neg (by rw [h]; simp)]

/-- Any read of a number from a good stream. -/
theorem sRdNum_good {s : IStr} {k old : Nat} (h : (sRdNum s k old).2.good = true) :
    s.good = true ∧ (sRdNum s k old).2 = iAt s.bytes (s.pos + k) ∧ s.pos + k ≤ max s.pos s.bytes.length := by
  unfold sRdNum IStr.read at *
  by_cases hg : s.good = true
  · rw [if_pos hg] at h ⊢
    simp only [IStr.good] at h
    have hn : ¬ ((s.bytes.drop s.pos).take k).length < k := by
      intro q; rw [decide_eq_true q] at h; simp at h
    have hl : ((s.bytes.drop s.pos).take k).length = k := by
      have : ((s.bytes.drop s.pos).take k).length ≤ k := by rw [List.length_take]; omega
      omega
    refine ⟨hg, ?_, ?_⟩
    · simp only [hl, Nat.lt_irrefl, decide_false, iAt]
    · rw [List.length_take, List.length_drop] at hl; omega
  · rw [if_neg hg] at h
    simp [IStr.good] at h

/-- `ignore` in front of the size, data and padding. -/
theorem sIgnore_record {L : Lib} {ks N p : Nat} {b data rest : List Byte}
    (hd : data.length + padding N data.length < 256 ^ ks) (hp : data.length + padding N data.length < 2 ^ 63)
    (h : b.drop p = leEnc ks data.length ++ (data ++ List.replicate (padding N data.length) 0 ++ rest)) :
    ∃ e, sIgnore L ks N (iAt b p) = (!e, { iAt b (p + ks + data.length + padding N data.length) with eof := e }) ∧
      (rest ≠ [] → e = false) ∧ ((∀ n, L.ahead n = false) → e = false) := by
  unfold sIgnore
  rw [sRdNum_ok (by omega) h]
  have hlen : (b.drop p).length = ks + (data.length + padding N data.length + rest.length) := by
    rw [h]; simp only [List.length_append, leEnc_length, List.length_replicate]
  rw [List.length_drop] at hlen
  rw [if_neg (by simp [IStr.good, iAt])]
  simp only [padded, Nat.mod_eq_of_lt hd]
  unfold IStr.ignore
  rw [if_pos (by simp [IStr.good, iAt])]
  by_cases h0 : data.length + padding N data.length = 0
  · rw [if_pos (Or.inl h0)]
    refine ⟨false, ?_, fun _ => rfl, fun _ => rfl⟩
    simp only [iAt, IStr.good, Prod.mk.injEq, IStr.mk.injEq, Bool.not_false, Bool.and_true]
    refine ⟨trivial, trivial, by omega, trivial, trivial⟩
  · rw [if_neg (by omega), if_neg (by simp only [iAt]; omega)]
    refine ⟨L.ahead (data.length + padding N data.length) && decide (p + ks + (data.length + padding N data.length) = b.length), ?_, ?_, ?_⟩
    · simp only [iAt, IStr.good, Bool.not_false, Bool.and_true, Nat.add_assoc]
    · intro hr
      have : 0 < rest.length := List.length_pos_iff.2 hr
      have : ¬ p + ks + (data.length + padding N data.length) = b.length := by omega
      simp [this]
    · intro hL
      simp [hL]

/-! ### Properties: reading -/

/-- **C148** `ignore` after the identifier was read: the stream ends up exactly behind the record with its padding, whatever the library.
It returns true if more follows. -/
theorem std_ignore_spec {L : Lib} {ki ks N id : Nat} {data pre rest : List Byte} (hf : Fits ki ks N id data)
    (hl : (pre ++ record ki ks N id data).length < 2 ^ 63) :
    (sIgnore L ks N (iAt (pre ++ record ki ks N id data ++ rest) (pre.length + ki))).2.bytes = pre ++ record ki ks N id data ++ rest ∧
    (sIgnore L ks N (iAt (pre ++ record ki ks N id data ++ rest) (pre.length + ki))).2.pos = (pre ++ record ki ks N id data).length ∧
    (sIgnore L ks N (iAt (pre ++ record ki ks N id data ++ rest) (pre.length + ki))).2.fail = false ∧
    (sIgnore L ks N (iAt (pre ++ record ki ks N id data ++ rest) (pre.length + ki))).1 =
      !(sIgnore L ks N (iAt (pre ++ record ki ks N id data ++ rest) (pre.length + ki))).2.eof ∧
    (rest ≠ [] ∨ (∀ n, L.ahead n = false) →
      (sIgnore L ks N (iAt (pre ++ record ki ks N id data ++ rest) (pre.length + ki))).1 = true) := by
  have e : (pre ++ record ki ks N id data).length = pre.length + ki + ks + data.length + padding N data.length := by
    rw [List.length_append, record_length]; omega
  obtain ⟨x, h1, h2, h3⟩ := sIgnore_record (L := L) (ks := ks) (N := N) (p := pre.length + ki) (b := pre ++ record ki ks N id data ++ rest)
    (data := data) (rest := rest) hf.2 (by omega) (by
      unfold record
      rw [show pre ++ (leEnc ki id ++ leEnc ks data.length ++ data ++ List.replicate (padding N data.length) 0) ++ rest =
        (pre ++ leEnc ki id) ++ (leEnc ks data.length ++ (data ++ List.replicate (padding N data.length) 0 ++ rest)) by simp]
      rw [List.drop_left' (by rw [List.length_append, leEnc_length])])
  rw [h1]
  refine ⟨rfl, e.symm, rfl, rfl, fun h => ?_⟩
  rcases h with h | h
  · rw [h2 h]; rfl
  · rw [h3 h]; rfl

theorem iAt_good (b : List Byte) (p : Nat) : (iAt b p).good = true := rfl

theorem sBelow_at (e : Option Nat) (b : List Byte) (p : Nat) : sBelow e (iAt b p) = (decide (∀ x, e = some x → p < x), iAt b p) := by
  unfold sBelow
  cases e with
  | none => simp
  | some x =>
    simp only [IStr.tellg, iAt_good, if_true, Prod.mk.injEq, and_true]
    rw [decide_eq_decide]
    show ((p : Int) < x) ↔ _
    constructor
    · intro h y hy; injection hy with hy; omega
    · intro h; have := h x rfl; omega

/-- A stream that is not good yields no record, and the search ends. -/
theorem sFind_bad {L : Lib} {ki ks N : Nat} {e : Option Nat} {id : Nat} (fuel : Nat) {s : IStr} (h : s.good = false) :
    sFind L ki ks N e id (fuel + 1) s = some (false, { s with fail := true }) := by
  have hb : (sBelow e s).2.good = false ∧ { (sBelow e s).2 with fail := true } = { s with fail := true } ∧
      ((sBelow e s).1 = false → (sBelow e s).2 = { s with fail := true }) := by
    unfold sBelow
    cases e with
    | none => exact ⟨h, rfl, by simp⟩
    | some x =>
      simp only [IStr.tellg, h]
      exact ⟨by simp [IStr.good], rfl, fun _ => rfl⟩
  rw [sFind]
  by_cases c : (sBelow e s).1 = true
  · rw [if_pos c]
    show (if (!(sRdNum (sBelow e s).2 ki 0).2.good) = true then some (false, (sRdNum (sBelow e s).2 ki 0).2) else _) = _
    rw [sRdNum_bad hb.1, if_pos (by simp [IStr.good]), hb.2.1]
  · rw [if_neg c, hb.2.2 (by simpa using c)]

/-- At the start of a record. -/
theorem sFind_step {L : Lib} {ki ks N : Nat} {e : Option Nat} {id i : Nat} {data pre rest : List Byte} (fuel : Nat)
    (hf : Fits ki ks N i data) (he : ∀ x, e = some x → pre.length < x) :
    sFind L ki ks N e id (fuel + 1) (iAt (pre ++ record ki ks N i data ++ rest) pre.length) =
      if i = id then some (true, iAt (pre ++ record ki ks N i data ++ rest) (pre.length + ki))
      else sFind L ki ks N e id fuel (sIgnore L ks N (iAt (pre ++ record ki ks N i data ++ rest) (pre.length + ki))).2 := by
  have hrd : sRdNum (iAt (pre ++ record ki ks N i data ++ rest) pre.length) ki 0 =
      (i, iAt (pre ++ record ki ks N i data ++ rest) (pre.length + ki)) := by
    refine sRdNum_ok (rest := leEnc ks data.length ++ data ++ List.replicate (padding N data.length) 0 ++ rest) hf.1 ?_
    unfold record
    rw [List.append_assoc, List.drop_left]
    simp
  rw [sFind, sBelow_at, if_pos (by simpa using he), hrd]
  simp only
  rw [if_neg (by rw [iAt_good]; simp)]

/-- Passing over records with other identifiers. -/
theorem sFind_pass {L : Lib} {ki ks N : Nat} {e : Option Nat} {id : Nat} (rest : List Byte) : ∀ (rs : List (Nat × List Byte))
    (pre : List Byte) (fuel : Nat), 0 < ki → (∀ r ∈ rs, Fits ki ks N r.1 r.2 ∧ r.1 ≠ id) → (pre ++ records ki ks N rs).length < 2 ^ 63 →
    (∀ x, e = some x → (pre ++ records ki ks N rs).length ≤ x) → rs.length ≤ fuel →
    ∃ f, (rest ≠ [] → f = false) ∧ ((∀ n, L.ahead n = false) → f = false) ∧
      sFind L ki ks N e id fuel (iAt (pre ++ records ki ks N rs ++ rest) pre.length) =
      sFind L ki ks N e id (fuel - rs.length) { iAt (pre ++ records ki ks N rs ++ rest) (pre ++ records ki ks N rs).length with eof := f } := by
  intro rs
  induction rs with
  | nil =>
    intro pre fuel _ _ _ _ _
    exact ⟨false, fun _ => rfl, fun _ => rfl, by simp [records, iAt]⟩
  | cons r rs ih =>
    intro pre fuel hk hr hl he hfu
    obtain ⟨hf, hid⟩ := hr r List.mem_cons_self
    cases fuel with
    | zero => simp at hfu
    | succ fuel =>
      have e1 : pre ++ records ki ks N (r :: rs) = pre ++ record ki ks N r.1 r.2 ++ records ki ks N rs := by
        rw [records_cons, List.append_assoc]
      rw [e1] at hl he ⊢
      have hle : (pre ++ record ki ks N r.1 r.2).length ≤ (pre ++ record ki ks N r.1 r.2 ++ records ki ks N rs).length := by
        rw [List.length_append (bs := records ki ks N rs)]; omega
      have hst := sFind_step (L := L) (ki := ki) (ks := ks) (N := N) (e := e) (id := id) (i := r.1) (data := r.2) (pre := pre)
        (rest := records ki ks N rs ++ rest) fuel hf (fun x hx => by
          have := he x hx
          have := record_length ki ks N r.1 r.2
          rw [List.length_append] at hle
          omega)
      obtain ⟨h1, h2, h3, h4, h5⟩ := std_ignore_spec (L := L) (rest := records ki ks N rs ++ rest) (pre := pre) hf (by omega)
      rw [if_neg hid, ← List.append_assoc] at hst
      rw [← List.append_assoc] at h1 h2 h3 h4 h5
      rw [hst]
      generalize (sIgnore L ks N (iAt (pre ++ record ki ks N r.1 r.2 ++ records ki ks N rs ++ rest) (pre.length + ki))) = ig at *
      obtain ⟨ok, b, p, eo, fa⟩ := ig
      simp only at h1 h2 h3 h4 h5
      subst h1 h2 h3 h4
      rw [List.length_cons, show fuel + 1 - (rs.length + 1) = fuel - rs.length by omega]
      cases eo with
      | false =>
        exact ih (pre ++ record ki ks N r.1 r.2) fuel hk (fun q hq => hr q (List.mem_cons_of_mem _ hq)) hl he (by simpa using hfu)
      | true =>
        have hn : records ki ks N rs ++ rest = [] := by
          apply Classical.byContradiction
          intro q
          have := h5 (Or.inl q)
          simp at this
        have hrs : rs = [] := by
          cases rs with
          | nil => rfl
          | cons q rs =>
            exfalso
            have := congrArg List.length hn
            rw [records_cons] at this
            simp only [List.length_append, record_length, List.length_nil] at this
            omega
        subst hrs
        refine ⟨true, fun q => absurd (List.append_eq_nil_iff.1 hn).2 q, fun q => ?_, ?_⟩
        · have := h5 (Or.inr q); simp at this
        · simp [records, iAt]

/-- **C148** `find` positions right behind the identifier of the first record that has the requested one, good, whatever the library. -/
theorem std_find_found {L : Lib} {ki ks N : Nat} (hk : 0 < ki) {e : Option Nat} {id : Nat} {data : List Byte} {pre rest : List Byte}
    {rs : List (Nat × List Byte)} (hr : ∀ r ∈ rs, Fits ki ks N r.1 r.2 ∧ r.1 ≠ id) (hf : Fits ki ks N id data)
    (hl : (pre ++ records ki ks N rs ++ record ki ks N id data).length < 2 ^ 63)
    (he : ∀ x, e = some x → (pre ++ records ki ks N rs).length < x) {fuel : Nat} (hfu : rs.length < fuel) :
    sFind L ki ks N e id fuel (iAt (pre ++ records ki ks N rs ++ record ki ks N id data ++ rest) pre.length) =
      some (true, iAt (pre ++ records ki ks N rs ++ record ki ks N id data ++ rest) ((pre ++ records ki ks N rs).length + ki)) := by
  have h1 : (pre ++ records ki ks N rs).length < 2 ^ 63 := by
    rw [List.length_append (bs := record ki ks N id data)] at hl; omega
  obtain ⟨f, hff, -, this⟩ := sFind_pass (L := L) (e := e) (id := id) (record ki ks N id data ++ rest) rs pre fuel hk hr h1
    (fun x hx => Nat.le_of_lt (he x hx)) (by omega)
  have hne : record ki ks N id data ++ rest ≠ [] := by
    intro q
    have := congrArg List.length q
    simp only [List.length_append, record_length, List.length_nil] at this
    omega
  rw [hff hne, ← List.append_assoc] at this
  rw [this]
  obtain ⟨k, hk2⟩ : ∃ k, fuel - rs.length = k + 1 := ⟨fuel - rs.length - 1, by omega⟩
  rw [hk2]
  exact (sFind_step (rest := rest) k hf he).trans (if_pos rfl)

/-- **C148** If no record before `end` has the identifier, `find` returns false and has read nothing behind `end`; where more follows, or
with a library that does not look ahead, the stream stays good. -/
theorem std_find_none {L : Lib} {ki ks N : Nat} (hk : 0 < ki) {id : Nat} {pre rest : List Byte} {rs : List (Nat × List Byte)}
    (hr : ∀ r ∈ rs, Fits ki ks N r.1 r.2 ∧ r.1 ≠ id) (hl : (pre ++ records ki ks N rs).length < 2 ^ 63) {fuel : Nat} (hfu : rs.length < fuel) :
    ∃ s, sFind L ki ks N (some (pre ++ records ki ks N rs).length) id fuel (iAt (pre ++ records ki ks N rs ++ rest) pre.length) = some (false, s) ∧
      s.bytes = pre ++ records ki ks N rs ++ rest ∧ s.pos = (pre ++ records ki ks N rs).length ∧
      (rest ≠ [] ∨ (∀ n, L.ahead n = false) → s.good = true) := by
  obtain ⟨f, h1, h2, h3⟩ := sFind_pass (L := L) (e := some (pre ++ records ki ks N rs).length) (id := id) rest rs pre fuel hk hr hl
    (fun x hx => by injection hx with hx; omega) (by omega)
  rw [h3]
  obtain ⟨k, hk2⟩ : ∃ k, fuel - rs.length = k + 1 := ⟨fuel - rs.length - 1, by omega⟩
  rw [hk2]
  cases f with
  | false =>
    refine ⟨iAt (pre ++ records ki ks N rs ++ rest) (pre ++ records ki ks N rs).length, ?_, rfl, rfl, fun _ => rfl⟩
    show sFind L ki ks N _ id (k + 1) (iAt (pre ++ records ki ks N rs ++ rest) (pre ++ records ki ks N rs).length) = _
    rw [sFind, sBelow_at, if_neg]
    simp
  | true =>
    refine ⟨_, sFind_bad k (by simp [IStr.good]), rfl, rfl, fun h => ?_⟩
    rcases h with h | h
    · exact absurd (h1 h) (by simp)
    · exact absurd (h2 h) (by simp)

/-- **C148** The same without `end`: false, at the end of the bytes. -/
theorem std_find_none_eof {L : Lib} {ki ks N : Nat} (hk : 0 < ki) {id : Nat} {pre : List Byte} {rs : List (Nat × List Byte)}
    (hr : ∀ r ∈ rs, Fits ki ks N r.1 r.2 ∧ r.1 ≠ id) (hl : (pre ++ records ki ks N rs).length < 2 ^ 63) {fuel : Nat} (hfu : rs.length < fuel) :
    ∃ s, sFind L ki ks N none id fuel (iAt (pre ++ records ki ks N rs) pre.length) = some (false, s) ∧
      s.bytes = pre ++ records ki ks N rs ∧ s.fail = true := by
  obtain ⟨f, h1, h2, h3⟩ := sFind_pass (L := L) (e := none) (id := id) [] rs pre fuel hk hr hl (fun x hx => nomatch hx) (by omega)
  rw [List.append_nil] at h3
  rw [h3]
  obtain ⟨k, hk2⟩ : ∃ k, fuel - rs.length = k + 1 := ⟨fuel - rs.length - 1, by omega⟩
  rw [hk2]
  cases f with
  | false =>
    have hs := sRdNum_short (s := iAt (pre ++ records ki ks N rs) (pre ++ records ki ks N rs).length) (k := ki) (old := 0) (by simp [iAt]; omega) hk
    refine ⟨(sRdNum (iAt (pre ++ records ki ks N rs) (pre ++ records ki ks N rs).length) ki 0).2, ?_, hs.1, hs.2.1⟩
    show sFind L ki ks N _ id (k + 1) (iAt (pre ++ records ki ks N rs) (pre ++ records ki ks N rs).length) = _
    rw [sFind, sBelow_at, if_pos (by simp)]
    refine if_pos ?_
    show (!(!_ && !(sRdNum (iAt (pre ++ records ki ks N rs) (pre ++ records ki ks N rs).length) ki 0).2.fail)) = true
    rw [hs.2.1]; simp
  | true => exact ⟨_, sFind_bad k (by simp [IStr.good]), rfl, rfl⟩

theorem sIgnore_pos {L : Lib} {ks N : Nat} (s : IStr) : (sIgnore L ks N s).2.bytes = s.bytes ∧
    ((sIgnore L ks N s).2.good = true → s.pos ≤ (sIgnore L ks N s).2.pos) := by
  have hb : (sRdNum s ks 0).2.bytes = s.bytes ∧ s.pos ≤ (sRdNum s ks 0).2.pos := by
    unfold sRdNum IStr.read
    split
    · exact ⟨rfl, Nat.le_add_right _ _⟩
    · exact ⟨rfl, Nat.le_refl _⟩
  unfold sIgnore
  by_cases h : (sRdNum s ks 0).2.good = true
  · simp only [h, Bool.not_true, Bool.false_eq_true, if_false]
    unfold IStr.ignore
    rw [if_pos h]
    repeat' split
    · exact ⟨hb.1, fun _ => hb.2⟩
    · refine ⟨hb.1, fun _ => ?_⟩
      simp only
      omega
    · refine ⟨hb.1, fun _ => ?_⟩
      simp only
      omega
  · rw [if_pos (by simpa using h)]
    exact ⟨hb.1, fun _ => hb.2⟩

/-- **C148** `find` comes to an end on any stream, in any state and with any contents, and changes nothing but the position and the state:
there are no more steps than bytes. -/
theorem std_find_ends (L : Lib) {ki ks N : Nat} (hk : 0 < ki) (e : Option Nat) (id : Nat) : ∀ (fuel : Nat) (s : IStr),
    s.bytes.length - s.pos + 1 < fuel → ∃ r t, sFind L ki ks N e id fuel s = some (r, t) ∧ t.bytes = s.bytes ∧ (r = true → t.good = true) := by
  intro fuel
  induction fuel with
  | zero => intro s h; omega
  | succ fuel ih =>
    intro s h
    by_cases hg : s.good = true
    · have hs : s = iAt s.bytes s.pos := by
        obtain ⟨b, p, x, y⟩ := s
        cases x <;> cases y <;> simp [IStr.good] at hg
        rfl
      rw [hs, sFind, sBelow_at]
      simp only [← hs]
      split
      · split
        · exact ⟨false, _, rfl, by unfold sRdNum IStr.read; rw [if_pos hg], by simp⟩
        · rename_i hn
          have hn : (sRdNum s ki 0).2.good = true := by simpa using hn
          obtain ⟨-, h2, h3⟩ := sRdNum_good hn
          split
          · exact ⟨true, _, rfl, by rw [h2]; rfl, fun _ => hn⟩
          · obtain ⟨j1, j2⟩ := sIgnore_pos (L := L) (ks := ks) (N := N) (sRdNum s ki 0).2
            rw [h2] at j1 j2 ⊢
            by_cases hi : (sIgnore L ks N (iAt s.bytes (s.pos + ki))).2.good = true
            · have := j2 hi
              have hp : s.pos + ki ≤ (sIgnore L ks N (iAt s.bytes (s.pos + ki))).2.pos := this
              obtain ⟨r, t, q1, q2, q3⟩ := ih (sIgnore L ks N (iAt s.bytes (s.pos + ki))).2 (by
                rw [j1]; show s.bytes.length - _ + 1 < _; omega)
              exact ⟨r, t, q1, q2.trans j1, q3⟩
            · obtain ⟨k, rfl⟩ : ∃ k, fuel = k + 1 := ⟨fuel - 1, by omega⟩
              exact ⟨false, _, sFind_bad k (by simpa using hi), j1, by simp⟩
      · exact ⟨false, _, rfl, rfl, by simp⟩
    · exact ⟨false, _, sFind_bad fuel (by simpa using hg), rfl, by simp⟩

/-- **C148** `read_id` in front of a record gives its identifier, if the record starts before `end`; it reads nothing at or behind `end`. -/
theorem std_readId_spec {ki ks N old : Nat} {e : Option Nat} {id : Nat} {data pre rest : List Byte} (hf : Fits ki ks N id data) :
    sReadId ki old e (iAt (pre ++ record ki ks N id data ++ rest) pre.length) =
      if ∀ x, e = some x → pre.length < x then (some id, iAt (pre ++ record ki ks N id data ++ rest) (pre.length + ki))
      else (none, iAt (pre ++ record ki ks N id data ++ rest) pre.length) := by
  have hrd : sRdNum (iAt (pre ++ record ki ks N id data ++ rest) pre.length) ki old =
      (id, iAt (pre ++ record ki ks N id data ++ rest) (pre.length + ki)) := by
    refine sRdNum_ok (rest := leEnc ks data.length ++ data ++ List.replicate (padding N data.length) 0 ++ rest) hf.1 ?_
    unfold record
    rw [List.append_assoc, List.drop_left]
    simp
  unfold sReadId
  rw [sBelow_at]
  by_cases h : ∀ x, e = some x → pre.length < x
  · rw [if_pos h, if_pos (by simpa using h), hrd]
    simp only [iAt_good, if_true]
  · rw [if_neg h, if_neg (by simpa using h)]

/-- **C148** `operator >>`, for any data operator that leaves the stream good and its bytes alone, wherever it stops reading: the
operator sees the stream at the first byte of the data, and afterwards the stream is good and exactly behind the record. -/
theorem std_read_spec {α : Type} {L : Lib} {ki ks N id : Nat} {payload pre rest : List Byte} (hf : Fits ki ks N id payload)
    (hl : (pre ++ record ki ks N id payload).length < 2 ^ 63) {data : IStr → α × IStr} {x : α} {q : Nat}
    (hd : data (iAt (pre ++ record ki ks N id payload ++ rest) (pre.length + ki + ks)) = (x, iAt (pre ++ record ki ks N id payload ++ rest) q)) :
    sReadRec L ks N data (iAt (pre ++ record ki ks N id payload ++ rest) (pre.length + ki)) =
      (some x, iAt (pre ++ record ki ks N id payload ++ rest) (pre ++ record ki ks N id payload).length) := by
  have e : (pre ++ record ki ks N id payload).length = pre.length + ki + ks + payload.length + padding N payload.length := by
    rw [List.length_append, record_length]; omega
  unfold sReadRec
  have hrd : sRdNum (iAt (pre ++ record ki ks N id payload ++ rest) (pre.length + ki)) ks 0 =
      (payload.length, iAt (pre ++ record ki ks N id payload ++ rest) (pre.length + ki + ks)) := by
    refine sRdNum_ok (rest := payload ++ List.replicate (padding N payload.length) 0 ++ rest) (by have := hf.2; omega) ?_
    unfold record
    rw [show pre ++ (leEnc ki id ++ leEnc ks payload.length ++ payload ++ List.replicate (padding N payload.length) 0) ++ rest =
      (pre ++ leEnc ki id) ++ (leEnc ks payload.length ++ (payload ++ List.replicate (padding N payload.length) 0 ++ rest)) by simp]
    rw [List.drop_left' (by rw [List.length_append, leEnc_length])]
  rw [hrd]
  have ht : (iAt (pre ++ record ki ks N id payload ++ rest) (pre.length + ki + ks)).tellg =
      (((pre.length + ki + ks : Nat) : Int), iAt (pre ++ record ki ks N id payload ++ rest) (pre.length + ki + ks)) := rfl
  simp only [ht, hd, iAt_good, Bool.not_true, Bool.false_eq_true, if_false, padded, Nat.mod_eq_of_lt hf.2]
  unfold IStr.seekg
  have hle : (pre ++ record ki ks N id payload).length ≤ (pre ++ record ki ks N id payload ++ rest).length := by
    rw [List.length_append (bs := rest)]; omega
  rw [if_neg (by simp [iAt]), if_pos ⟨by omega, by omega, Or.inr (by simp only [iAt]; omega)⟩]
  simp only [iAt, Prod.mk.injEq, IStr.mk.injEq, and_true, true_and]
  omega

/-- Two records read by an operator that reads as much as it can: the first operator gets the second record too, and the stream is then
no longer good, so that the second record cannot be read. `std::istream` has no limiter (the code says so). -/
theorem std_read_greedy :
    let b := record 1 1 1 7 [1, 2] ++ record 1 1 1 8 [3]
    let greedy : IStr → List Byte × IStr := fun s => s.read 100
    let r := sReadRec ⟨fun _ => false, false⟩ 1 1 greedy (iAt b 1)
    r.1 = some [1, 2, 8, 1, 3] ∧ r.2.good = false ∧
    (sFind ⟨fun _ => false, false⟩ 1 1 1 none 8 9 r.2).map Prod.fst = some false := by
  decide +kernel

/-- A last record without its padding: `find` with a file passes it, as skipping there is seeking; with a `std::istream`, `ignore`
reports a failure. -/
theorem std_ignore_cut :
    (sIgnore ⟨fun _ => false, false⟩ 1 4 (iAt [7, 1, 5] 1)).1 = false ∧ (ignore 9 1 4 ⟨[7, 1, 5], 1, .ok⟩).map Prod.fst = some true := by
  decide +kernel

/-! ### Proofs: writing -/

/-- The bytes appended by a sequence of writes, with room for `cap`. -/
theorem oput_end {cap : Nat} {b d : List Byte} (h : (b ++ d).length ≤ cap) : oput cap (atEnd b) d = atEnd (b ++ d) := by
  unfold oput
  rw [if_neg (by simp [atEnd]), if_pos (by rw [List.length_append] at h; exact h)]
  unfold atEnd
  rw [fwrite_end]

theorem oput_full {cap : Nat} {b d : List Byte} (hb : b.length ≤ cap) (h : cap < (b ++ d).length) :
    oput cap (atEnd b) d = ⟨(b ++ d).take cap, cap, .fail⟩ := by
  rw [List.length_append] at h
  unfold oput
  rw [if_neg (by simp [atEnd]), if_neg (by simp only [atEnd]; omega)]
  unfold atEnd
  rw [fwrite_end]
  simp only [File.mk.injEq, and_true]
  rw [List.take_append, List.take_of_length_le hb]
  refine ⟨rfl, ?_⟩
  rw [List.length_append, List.length_take]
  omega

theorem oput_bad {cap : Nat} {f : File} (h : f.st ≠ .ok) (d : List Byte) : oput cap f d = f := if_pos h

/-- A sequence of writes. -/
def oputs (cap : Nat) (ds : List (List Byte)) (f : File) : File := ds.foldl (fun f d => oput cap f d) f

theorem oputs_bad {cap : Nat} (ds : List (List Byte)) {f : File} (h : f.st ≠ .ok) : oputs cap ds f = f := by
  induction ds with
  | nil => rfl
  | cons d ds ih => show oputs cap ds (oput cap f d) = f; rw [oput_bad h, ih]

theorem oputs_spec {cap : Nat} : ∀ (ds : List (List Byte)) (b : List Byte), b.length ≤ cap →
    oputs cap ds (atEnd b) = if (b ++ ds.flatten).length ≤ cap then atEnd (b ++ ds.flatten) else ⟨(b ++ ds.flatten).take cap, cap, .fail⟩ := by
  intro ds
  induction ds with
  | nil => intro b h; rw [if_pos (by simpa using h)]; simp [oputs]
  | cons d ds ih =>
    intro b h
    show oputs cap ds (oput cap (atEnd b) d) = _
    rw [List.flatten_cons, ← List.append_assoc]
    by_cases c : (b ++ d).length ≤ cap
    · rw [oput_end c, ih _ c]
    · rw [oput_full h (by omega), oputs_bad _ (by simp), if_neg (by rw [List.length_append]; omega)]
      rw [List.take_append_of_le_length (l₁ := b ++ d) (by omega)]

theorem sOpen_end {cap ki ks id : Nat} {b : List Byte} (h : (b ++ leEnc ki id ++ leEnc ks 0).length ≤ cap) :
    sOpen cap ki ks id (atEnd b) = ((b.length : Int), atEnd (b ++ leEnc ki id ++ leEnc ks 0)) := by
  unfold sOpen
  have h1 : (b ++ leEnc ki id).length ≤ cap := by rw [List.length_append (bs := leEnc ks 0)] at h; omega
  simp only [oput_end h1, oput_end h]
  rfl

theorem sOpen_full {cap ki ks id : Nat} {b : List Byte} (hb : b.length ≤ cap) (h : cap < (b ++ leEnc ki id ++ leEnc ks 0).length) :
    ∃ x, sOpen cap ki ks id (atEnd b) = (x, ⟨(b ++ leEnc ki id ++ leEnc ks 0).take cap, cap, .fail⟩) := by
  unfold sOpen
  by_cases h1 : (b ++ leEnc ki id).length ≤ cap
  · simp only [oput_end h1, oput_full h1 h]
    exact ⟨b.length, rfl⟩
  · simp only [oput_full hb (show cap < (b ++ leEnc ki id).length by omega)]
    refine ⟨-1, ?_⟩
    rw [List.take_append_of_le_length (l₁ := b ++ leEnc ki id) (by omega)]
    rfl

/-! ### Properties: writing -/

/-- **C148** Writing a record at the end of a `std::ostream` with room for `cap` bytes, the data in any pieces: if there is room, the
bytes of the record are appended, in the same format as by the overloads for files, and the stream is good and behind them; if not, the
stream has failed. What was there before stays. -/
theorem std_write_spec {cap ki ks N id : Nat} {ds : List (List Byte)} (hf : Fits ki ks N id ds.flatten) {b : List Byte} (hb : b.length ≤ cap)
    (hcap : cap < 2 ^ 63) :
    let f := sWriteRec cap ki ks N id (oputs cap ds) (atEnd b)
    ((b ++ record ki ks N id ds.flatten).length ≤ cap → f = atEnd (b ++ record ki ks N id ds.flatten)) ∧
    (cap < (b ++ record ki ks N id ds.flatten).length → f.st = .fail ∧ b <+: f.bytes ∧ f.bytes.length ≤ cap) := by
  have hrl := record_length ki ks N id ds.flatten
  have hle : (b ++ record ki ks N id ds.flatten).length = b.length + ki + ks + ds.flatten.length + padding N ds.flatten.length := by
    rw [List.length_append, hrl]; omega
  have hpre : ∀ x : List Byte, b <+: (b ++ x).take cap ∧ ((b ++ x).take cap).length ≤ cap := by
    intro x
    refine ⟨⟨x.take (cap - b.length), ?_⟩, ?_⟩
    · rw [List.take_append, List.take_of_length_le hb]
    · rw [List.length_take]; omega
  intro f
  have hf0 : f = sWriteRec cap ki ks N id (oputs cap ds) (atEnd b) := rfl
  clear_value f
  unfold sWriteRec at hf0
  have htell : ∀ c : List Byte, otell (atEnd c) = (c.length : Int) := fun _ => rfl
  by_cases c2 : (b ++ leEnc ki id ++ leEnc ks 0).length ≤ cap
  rotate_left
  · obtain ⟨x, hx⟩ := sOpen_full (cap := cap) (ki := ki) (ks := ks) (id := id) hb (by omega)
    rw [hx] at hf0
    simp only [ne_eq, reduceCtorEq, not_false_eq_true, if_true] at hf0
    simp only [List.length_append, leEnc_length] at c2
    subst hf0
    refine ⟨fun h => absurd h (by omega), fun _ => ⟨rfl, ?_⟩⟩
    rw [List.append_assoc]
    exact hpre _
  rw [sOpen_end c2] at hf0
  simp only at hf0
  rw [if_neg (by simp [atEnd]), oputs_spec ds _ c2] at hf0
  by_cases c3 : (b ++ leEnc ki id ++ leEnc ks 0 ++ ds.flatten).length ≤ cap
  rotate_left
  · rw [if_neg c3] at hf0
    have hcl : ∀ (x : List Byte) (st : Int), (sClose cap ki ks N st ⟨x, cap, .fail⟩).2 = ⟨x, cap, .fail⟩ := by
      intro x st
      unfold sClose
      have : ∀ r : Nat, (if r = 0 then (⟨x, cap, .fail⟩ : File) else oput cap ⟨x, cap, .fail⟩ (List.replicate r 0)) = ⟨x, cap, .fail⟩ := by
        intro r
        by_cases h : r = 0
        · rw [if_pos h]
        · rw [if_neg h, oput_bad (by simp)]
      simp only [this]
      rw [if_pos (by simp)]
    rw [hcl] at hf0
    simp only [List.length_append, leEnc_length] at c3
    subst hf0
    refine ⟨fun h => absurd h (by omega), fun _ => ⟨rfl, ?_⟩⟩
    rw [List.append_assoc b, List.append_assoc b]
    exact hpre _
  rw [if_pos c3] at hf0
  unfold sClose at hf0
  have hsz : ((otell (atEnd (b ++ leEnc ki id ++ leEnc ks 0 ++ ds.flatten)) - (b.length : Int) - ki - ks) % (256 ^ ks : Nat)).toNat =
      ds.flatten.length := by
    rw [htell]
    have h1 : (((b ++ leEnc ki id ++ leEnc ks 0 ++ ds.flatten).length : Nat) : Int) - (b.length : Int) - ki - ks = (ds.flatten.length : Nat) := by
      simp only [List.length_append, leEnc_length]; omega
    rw [h1, ← Int.natCast_emod, Int.toNat_natCast, Nat.mod_eq_of_lt (by have := hf.2; omega)]
  simp only [hsz] at hf0
  by_cases c4 : (b ++ leEnc ki id ++ leEnc ks 0 ++ ds.flatten ++ List.replicate (padding N ds.flatten.length) 0).length ≤ cap
  rotate_left
  · have hp0 : padding N ds.flatten.length ≠ 0 := by
      intro h; rw [h, List.replicate_zero, List.append_nil] at c4; exact c4 c3
    rw [if_neg hp0, oput_full c3 (by omega)] at hf0
    simp only [ne_eq, reduceCtorEq, not_false_eq_true, if_true] at hf0
    simp only [List.length_append, leEnc_length, List.length_replicate] at c4
    subst hf0
    refine ⟨fun h => absurd h (by omega), fun _ => ⟨rfl, ?_⟩⟩
    rw [List.append_assoc b, List.append_assoc b, List.append_assoc b]
    exact hpre _
  have hpad : (if padding N ds.flatten.length = 0 then atEnd (b ++ leEnc ki id ++ leEnc ks 0 ++ ds.flatten)
      else oput cap (atEnd (b ++ leEnc ki id ++ leEnc ks 0 ++ ds.flatten)) (List.replicate (padding N ds.flatten.length) 0)) =
      atEnd (b ++ leEnc ki id ++ leEnc ks 0 ++ ds.flatten ++ List.replicate (padding N ds.flatten.length) 0) := by
    by_cases h : padding N ds.flatten.length = 0
    · rw [if_pos h, h, List.replicate_zero, List.append_nil]
    · rw [if_neg h, oput_end c4]
  rw [hpad, if_neg (by simp [atEnd])] at hf0
  simp only [List.length_append, leEnc_length, List.length_replicate] at c4
  refine ⟨fun _ => ?_, fun h => absurd h (by omega)⟩
  rw [hf0]
  have hs1 : oseek (atEnd (b ++ leEnc ki id ++ leEnc ks 0 ++ ds.flatten ++ List.replicate (padding N ds.flatten.length) 0)) (b.length + ki) =
      ⟨b ++ leEnc ki id ++ leEnc ks 0 ++ ds.flatten ++ List.replicate (padding N ds.flatten.length) 0, b.length + ki, .ok⟩ := by
    unfold oseek
    rw [if_neg (by simp [atEnd]), if_pos (by omega)]
    simp only [atEnd, File.mk.injEq, and_true, true_and]
    omega
  have hs2 : oput cap ⟨b ++ leEnc ki id ++ leEnc ks 0 ++ ds.flatten ++ List.replicate (padding N ds.flatten.length) 0, b.length + ki, .ok⟩
      (leEnc ks ds.flatten.length) = ⟨b ++ record ki ks N id ds.flatten, b.length + ki + ks, .ok⟩ := by
    unfold oput
    rw [if_neg (by simp), if_pos (by simp only [leEnc_length]; omega)]
    have := fwrite_mid (b ++ leEnc ki id) (leEnc ks 0) (ds.flatten ++ List.replicate (padding N ds.flatten.length) 0) (leEnc ks ds.flatten.length)
      (by rw [leEnc_length, leEnc_length]) .ok
    rw [List.length_append, leEnc_length, ← List.append_assoc] at this
    rw [this]
    simp only [File.mk.injEq, List.length_append, leEnc_length, and_true]
    simp [record]
  rw [hs1, hs2, htell]
  unfold oseek
  rw [if_neg (by simp), if_pos (by simp only [List.length_append, leEnc_length]; omega)]
  simp only [atEnd, File.mk.injEq, and_true, true_and]
  rw [hle]
  simp only [List.length_append, leEnc_length]
  omega

/-- **C148** `close` returns −1 only on a failed stream, and otherwise the position behind the record. -/
theorem std_close_result {cap ki ks N : Nat} {start : Int} {f : File} (hcap : cap < 2 ^ 63) (hp : f.pos ≤ cap) (hs : 0 ≤ start) (hks : start + ki + ks ≤ f.pos) :
    ((sClose cap ki ks N start f).1 = -1 ↔ (sClose cap ki ks N start f).2.st ≠ .ok) ∧
    ((sClose cap ki ks N start f).2.st = .ok → (sClose cap ki ks N start f).1 = (sClose cap ki ks N start f).2.pos ∧
      (f.pos : Int) ≤ (sClose cap ki ks N start f).1) := by
  suffices key : ∀ size : Nat,
      let f' := (if padding N size = 0 then f else oput cap f (List.replicate (padding N size) 0))
      let R : Int × File := if f'.st ≠ .ok then (-1, f')
        else (otell f + (padding N size : Nat), oseek (oput cap (oseek f' (start + ki)) (leEnc ks size)) (otell f + (padding N size : Nat)))
      (R.1 = -1 ↔ R.2.st ≠ .ok) ∧ (R.2.st = .ok → R.1 = R.2.pos ∧ (f.pos : Int) ≤ R.1) from key _
  intro size
  by_cases hf : f.st = .ok
  · have hw : ∀ (g : File) (d : List Byte), (fwrite g d).2.st = .ok ∧ (fwrite g d).2.pos = g.pos + d.length := fun _ _ => ⟨rfl, rfl⟩
    have ht : otell f = f.pos := by unfold otell; rw [if_neg (by simp [hf])]
    have hpad : let f' := (if padding N size = 0 then f else oput cap f (List.replicate (padding N size) 0))
        f'.st ≠ .ok ∨ (f'.st = .ok ∧ f'.pos = f.pos + padding N size ∧ f.pos + padding N size ≤ cap) := by
      intro f'
      by_cases h : padding N size = 0
      · right
        have : f' = f := if_pos h
        rw [this, h]; exact ⟨hf, rfl, hp⟩
      · have : f' = oput cap f (List.replicate (padding N size) 0) := if_neg h
        rw [this]
        unfold oput
        rw [if_neg (by simp [hf]), List.length_replicate]
        split
        · right
          refine ⟨(hw _ _).1, ?_, by assumption⟩
          rw [(hw _ _).2, List.length_replicate]
        · left; simp
    simp only [ht]
    generalize (if padding N size = 0 then f else oput cap f (List.replicate (padding N size) 0)) = f' at hpad ⊢
    rcases hpad with h | ⟨h1, h2, h3⟩
    · rw [if_pos h]; exact ⟨⟨fun _ => h, fun _ => rfl⟩, fun q => absurd q h⟩
    · rw [if_neg (by simp [h1])]
      have hs1 : oseek f' (start + ki) = { f' with pos := (start + ki).toNat } := by
        unfold oseek
        rw [if_neg (by simp [h1]), if_pos (by omega)]
      have hs2 : ∃ g : File, oput cap (oseek f' (start + ki)) (leEnc ks size) = g ∧ g.st = .ok := by
        refine ⟨_, rfl, ?_⟩
        rw [hs1]
        unfold oput
        rw [if_neg (by simp [h1]), if_pos (by simp only [leEnc_length]; omega)]
        exact (hw _ _).1
      obtain ⟨g, hg, hg2⟩ := hs2
      simp only [hg]
      have hs3 : oseek g ((f.pos : Int) + (padding N size : Nat)) = { g with pos := f.pos + padding N size } := by
        unfold oseek
        rw [if_neg (by simp [hg2]), if_pos (by omega)]
        simp only [File.mk.injEq, and_true, true_and]
        omega
      rw [hs3]
      refine ⟨⟨fun h => by omega, fun h => absurd hg2 h⟩, fun _ => ⟨?_, by omega⟩⟩
      simp only
      omega
  · have : ∀ r : Nat, (if r = 0 then f else oput cap f (List.replicate r 0)) = f := by
      intro r
      by_cases h : r = 0
      · rw [if_pos h]
      · rw [if_neg h, oput_bad hf]
    simp only [this]
    rw [if_pos hf]
    exact ⟨⟨fun _ => hf, fun _ => rfl⟩, fun q => absurd q hf⟩

/-- **C148** What is written to a `std::ostream` is read back from a `std::istream`: the record is found behind any others, and the data
operator gets exactly the data. -/
theorem std_roundtrip {L : Lib} {cap ki ks N id : Nat} (hk : 0 < ki) {ds : List (List Byte)} {rs : List (Nat × List Byte)}
    (hr : ∀ r ∈ rs, Fits ki ks N r.1 r.2 ∧ r.1 ≠ id) (hf : Fits ki ks N id ds.flatten) (hcap : cap < 2 ^ 63)
    (hroom : (records ki ks N rs ++ record ki ks N id ds.flatten).length ≤ cap) {fuel : Nat} (hfu : rs.length < fuel) :
    ∃ s, sFind L ki ks N none id fuel (iAt (sWriteRec cap ki ks N id (oputs cap ds) (atEnd (records ki ks N rs))).bytes 0) = some (true, s) ∧
      sReadRec L ks N (fun s => s.read ds.flatten.length) s =
        (some ds.flatten, iAt (records ki ks N rs ++ record ki ks N id ds.flatten) (records ki ks N rs ++ record ki ks N id ds.flatten).length) := by
  have hb : (records ki ks N rs).length ≤ cap := by rw [List.length_append] at hroom; omega
  rw [(std_write_spec hf hb hcap).1 hroom]
  have h1 := std_find_found (L := L) hk (e := none) (pre := []) (rest := []) hr hf (by rw [List.nil_append]; omega) (fun x hx => nomatch hx) hfu
  simp only [List.nil_append, List.append_nil, List.length_nil] at h1
  refine ⟨_, h1, ?_⟩
  have h2 := std_read_spec (L := L) (pre := records ki ks N rs) (rest := []) hf (by omega)
    (data := fun s => s.read ds.flatten.length) (x := ds.flatten) (q := (records ki ks N rs).length + ki + ks + ds.flatten.length) (by
      unfold IStr.read
      rw [if_pos (iAt_good _ _)]
      have : ((records ki ks N rs ++ record ki ks N id ds.flatten ++ []).drop ((records ki ks N rs).length + ki + ks)).take ds.flatten.length = ds.flatten := by
        unfold record
        rw [show records ki ks N rs ++ (leEnc ki id ++ leEnc ks ds.flatten.length ++ ds.flatten ++ List.replicate (padding N ds.flatten.length) 0) ++ [] =
          (records ki ks N rs ++ leEnc ki id ++ leEnc ks ds.flatten.length) ++ (ds.flatten ++ List.replicate (padding N ds.flatten.length) 0) by simp]
        rw [List.drop_left' (by simp only [List.length_append, leEnc_length]), List.take_left]
      simp only [iAt, this, Nat.lt_irrefl, decide_false])
  simpa using h2

/-- The hypotheses of the theorems above are met by a concrete container. -/
example : Fits 1 2 4 7 [1, 2, 3] ∧ (∀ r ∈ [(9, ([5] : List Byte))], Fits 1 2 4 r.1 r.2 ∧ r.1 ≠ 7) ∧
    (records 1 2 4 [(9, [5])] ++ record 1 2 4 7 [1, 2, 3]).length ≤ 64 ∧
    (sWriteRec 64 1 2 4 7 (oputs 64 [[1], [2, 3]]) (atEnd (records 1 2 4 [(9, [5])]))).bytes =
      [9, 1, 0, 5, 0, 0, 0, 7, 3, 0, 1, 2, 3, 0] := by
  refine ⟨by unfold Fits; decide, fun r hr => ?_, by decide, by decide +kernel⟩
  rw [List.mem_singleton.1 hr]; unfold Fits; decide

end Verif.Record
