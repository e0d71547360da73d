import Verif.Stream.Helpers
/-
Model of the serialization helpers of `stdex::stream::basic`: `read_data`, `write_data`,
`read_str`, `write_str`, `operator <<`/`>>` for numbers, strings and multisets
(include/stdex/stream.hpp 265-304, 471-540, 620-680, 742-769).

* Numbers are the unsigned bit patterns of `k`-byte types; the host is little-endian
  (`HE2LE`/`LE2HE` are the identity, see C17 for big-endian).
* `operator >>` for `vector` and `set` (695-710, 725-739) is not modelled: on success both flow off
  the end of a non-void function without `return`, which is undefined behaviour.
-/
namespace Verif.Stream
variable {σ τ : Type}

abbrev Byte := BitVec 8

/-- Memory of a `k`-byte number on a little-endian host. -/
def leEnc : Nat → Nat → List Byte
  | 0, _ => []
  | k + 1, v => BitVec.ofNat 8 v :: leEnc k (v / 256)

/-- The number in memory `l` on a little-endian host. -/
def leDec : List Byte → Nat
  | [] => 0
  | b :: l => b.toNat + 256 * leDec l

/-- `n` consecutive `k`-byte numbers in memory. -/
def leChars (k : Nat) : Nat → List Byte → List Nat
  | 0, _ => []
  | n + 1, l => leDec (l.take k) :: leChars k n (l.drop k)

/-- `write_data`, 293-304. -/
def writeData (D : Strm Byte τ) (t : τ) (k v : Nat) : τ :=
  if D.state t ≠ .ok then t else (D.write t (leEnc k v)).2

/-- `read_data`, 265-279.  `old` is the memory of the variable before the call: bytes the
stream does not deliver stay.  (275: `read_array` never returns less than asked for with state ok,
see `readArray_short_not_ok`, so the state is never changed there.) -/
def readData (S : Strm Byte σ) (fuel : Nat) (old : List Byte) (s : σ) (k : Nat) : Option (Nat × σ) :=
  if S.state s ≠ .ok then some (0, s)
  else
    match readArray S fuel s k 1 with
    | none => none
    | some (d, c, s') => if c = 1 then some (leDec ((d ++ old.drop d.length).take k), s') else some (0, s')

/-- `write_str`, 529-540 (and 504-515, which computes the length with `strlen`): `none` when it
throws. -/
def writeStr (D : Strm Byte τ) (t : τ) (k : Nat) (cs : List Nat) : Option τ :=
  if cs.length > 4294967295 then none
  else
    let t := writeData D t 4 cs.length
    if D.state t ≠ .ok then some t
    else some (D.write t (cs.flatMap (leEnc k))).2

/-- The loop of `read_str`, 481-489. -/
def readStrLoop (S : Strm Byte σ) (buf : List Byte) (k : Nat) : Nat → σ → List Nat → Nat → Option (List Nat × σ)
  | 0, _, _, _ => none
  | fuel + 1, s, data, num_chars =>
    match readArray S (fuel + 1) s k (min num_chars 1024) with
    | none => none
    | some (d, num_read, s') =>
      let data := data ++ leChars k num_read (d ++ buf.drop d.length)
      let num_chars := num_chars - num_read
      if num_chars = 0 ∨ S.state s' ≠ .ok then some (data, s')
      else readStrLoop S buf k fuel s' data num_chars

/-- `read_str`, 471-490. `buf`: stack memory at the beginning of each iteration; `old`: memory of
`num_chars`. -/
def readStr (S : Strm Byte σ) (fuel : Nat) (old buf : List Byte) (s : σ) (k : Nat) : Option (List Nat × σ) :=
  if S.state s ≠ .ok then some ([], s)
  else
    match readData S fuel old s 4 with
    | none => none
    | some (n, s') =>
      if S.state s' ≠ .ok then some ([], s') else readStrLoop S buf k fuel s' [] n

/-- `operator <<` for `multiset`, 742-751: the elements are visited in increasing order. -/
def writeMset (D : Strm Byte τ) (t : τ) (k : Nat) (xs : List Nat) : Option τ :=
  if xs.length > 4294967295 then none
  else some (xs.foldl (fun t x => writeData D t k x) (writeData D t 4 xs.length))

/-- `std::multiset::insert`: behind the last element that is not greater. -/
def msInsert (x : Nat) : List Nat → List Nat
  | [] => [x]
  | y :: l => if x < y then x :: y :: l else y :: msInsert x l

/-- The loop of `operator >>` for `multiset`, 761-767. -/
def readMsetLoop (S : Strm Byte σ) (fuel : Nat) (old : List Byte) (k : Nat) : Nat → σ → List Nat → Option (List Nat × σ)
  | 0, s, data => some (data, s)
  | n + 1, s, data =>
    match readData S fuel old s k with
    | none => none
    | some (el, s') =>
      if S.state s' ≠ .ok then some (data, s') else readMsetLoop S fuel old k n s' (msInsert el data)

/-- `operator >>` for `multiset`, 754-769. -/
def readMset (S : Strm Byte σ) (fuel : Nat) (old : List Byte) (s : σ) (k : Nat) : Option (List Nat × σ) :=
  match readData S fuel old s 4 with
  | none => none
  | some (n, s') =>
    if S.state s' ≠ .ok then some ([], s') else readMsetLoop S fuel old k n s' []

/-! ### Values of several kinds -/

/-- The kind of a value (its C++ type). -/
inductive Kind where
  | num (k : Nat) | str (k : Nat) | mset (k : Nat)
deriving DecidableEq

/-- A value; the number is the size of (a character of, an element of) it. -/
inductive Val where
  | num (k v : Nat) | str (k : Nat) (cs : List Nat) | mset (k : Nat) (xs : List Nat)
deriving DecidableEq

def Val.kind : Val → Kind
  | .num k _ => .num k
  | .str k _ => .str k
  | .mset k _ => .mset k

/-- The value exists in C++: numbers fit their type, the multiset is sorted, at most
`UINT32_MAX` characters or elements. -/
def Val.Ok : Val → Prop
  | .num k v => 0 < k ∧ v < 256 ^ k
  | .str k cs => 0 < k ∧ (∀ c ∈ cs, c < 256 ^ k) ∧ cs.length ≤ 4294967295
  | .mset k xs => 0 < k ∧ (∀ c ∈ xs, c < 256 ^ k) ∧ xs.length ≤ 4294967295 ∧ xs.Pairwise (· ≤ ·)

/-- `stream << value`, 625-680, 742. -/
def put (D : Strm Byte τ) (t : τ) : Val → Option τ
  | .num k v => some (writeData D t k v)
  | .str k cs => writeStr D t k cs
  | .mset k xs => writeMset D t k xs

/-- `stream << v1 << v2 << ...` -/
def putAll (D : Strm Byte τ) : τ → List Val → Option τ
  | t, [] => some t
  | t, v :: vs => match put D t v with | none => none | some t => putAll D t vs

/-- `stream >> variable of the given kind`. `old`, `buf`: what the memory of the variables has before. -/
def get (S : Strm Byte σ) (fuel : Nat) (old buf : List Byte) (s : σ) : Kind → Option (Val × σ)
  | .num k => (readData S fuel old s k).map fun r => (.num k r.1, r.2)
  | .str k => (readStr S fuel old buf s k).map fun r => (.str k r.1, r.2)
  | .mset k => (readMset S fuel old s k).map fun r => (.mset k r.1, r.2)

def getAll (S : Strm Byte σ) (fuel : Nat) (old buf : List Byte) : σ → List Kind → Option (List Val × σ)
  | s, [] => some ([], s)
  | s, k :: ks =>
    match get S fuel old buf s k with
    | none => none
    | some (v, s) => (getAll S fuel old buf s ks).map fun r => (v :: r.1, r.2)

/-! ### Proofs -/

theorem leEnc_length (k v : Nat) : (leEnc k v).length = k := by
  induction k generalizing v with
  | zero => rfl
  | succ k ih => rw [leEnc, List.length_cons, ih]

theorem leDec_enc (k v : Nat) (h : v < 256 ^ k) : leDec (leEnc k v) = v := by
  induction k generalizing v with
  | zero => rw [Nat.pow_zero] at h; show 0 = v; omega
  | succ k ih =>
    rw [leEnc, leDec, ih (v / 256) (by rw [Nat.div_lt_iff_lt_mul (by decide)]; rw [Nat.pow_succ] at h; exact h),
      BitVec.toNat_ofNat]
    omega

/-- `read_array` returns fewer elements than asked for only with the state not ok. -/
theorem readArray_short_not_ok (S : Strm Byte σ) : ∀ (fuel : Nat) (s : σ) (size count : Nat) (d : List Byte) (c : Nat) (s' : σ),
    readArray S fuel s size count = some (d, c, s') → c ≠ count → S.state s' ≠ .ok := by
  have loop : ∀ (fuel : Nat) (s : σ) (n : Nat) (d : List Byte) (m : Nat) (s' : σ),
      readLoop S fuel s n = some (d, m, s') → m ≠ 0 → S.state s' ≠ .ok := by
    intro fuel
    induction fuel with
    | zero => intro s n d m s' h; cases h
    | succ fuel ih =>
      intro s n d m s' h hm
      rw [readLoop] at h
      split at h
      · cases h; exact absurd rfl hm
      · split at h
        · rename_i hs; cases h; exact hs
        · rw [Option.map_eq_some_iff] at h
          obtain ⟨⟨d2, m2, s2⟩, h1, h2⟩ := h
          cases h2
          exact ih _ _ _ _ _ h1 hm
  intro fuel s size count d c s' h hc
  unfold readArray at h
  rw [Option.map_eq_some_iff] at h
  obtain ⟨⟨d2, m, s2⟩, h1, h2⟩ := h
  simp only [Prod.mk.injEq] at h2
  obtain ⟨rfl, hn, rfl⟩ := h2
  refine loop _ _ _ _ _ _ h1 ?_
  intro h0
  rw [h0, if_pos rfl] at hn
  exact hc hn.symm

theorem leChars_enc (k : Nat) (cs : List Nat) (h : ∀ c ∈ cs, c < 256 ^ k) (rest : List Byte) :
    leChars k cs.length (cs.flatMap (leEnc k) ++ rest) = cs := by
  induction cs with
  | nil => rfl
  | cons c cs ih =>
    rw [List.length_cons, leChars, List.flatMap_cons, List.append_assoc]
    have hl := leEnc_length k c
    rw [List.take_append, hl, Nat.sub_self, List.take_zero, List.append_nil, List.take_of_length_le (by omega),
      List.drop_append, hl, Nat.sub_self, List.drop_zero, List.drop_eq_nil_of_le (by omega), List.nil_append,
      leDec_enc k c (h c (by simp)), ih (fun c hc => h c (List.mem_cons_of_mem _ hc))]

theorem flatMap_enc_length (k : Nat) (cs : List Nat) : (cs.flatMap (leEnc k)).length = k * cs.length := by
  induction cs with
  | nil => rfl
  | cons c cs ih =>
    rw [List.flatMap_cons, List.length_append, ih, leEnc_length, List.length_cons, Nat.mul_succ]; omega

/-- The bytes of a value. -/
def wire : Val → List Byte
  | .num k v => leEnc k v
  | .str k cs => leEnc 4 cs.length ++ cs.flatMap (leEnc k)
  | .mset k xs => leEnc 4 xs.length ++ xs.flatMap (leEnc k)

theorem writeData_reliable {D : Strm Byte τ} {got : τ → List Byte} (hd : Reliable D got) (t : τ)
    (ht : D.state t = .ok) (k v : Nat) :
    got (writeData D t k v) = got t ++ leEnc k v ∧ D.state (writeData D t k v) = .ok := by
  unfold writeData
  rw [ht, if_neg (by decide)]
  exact ⟨hd.got _ _, hd.ok _ _⟩

theorem put_reliable {D : Strm Byte τ} {got : τ → List Byte} (hd : Reliable D got) (t : τ)
    (ht : D.state t = .ok) (v : Val) (hv : v.Ok) :
    ∃ t', put D t v = some t' ∧ got t' = got t ++ wire v ∧ D.state t' = .ok := by
  cases v with
  | num k v => exact ⟨_, rfl, (writeData_reliable hd t ht k v).1, (writeData_reliable hd t ht k v).2⟩
  | str k cs =>
    obtain ⟨h1, h2⟩ := writeData_reliable hd t ht 4 cs.length
    refine ⟨(D.write (writeData D t 4 cs.length) (cs.flatMap (leEnc k))).2, ?_, ?_, hd.ok _ _⟩
    · show writeStr D t k cs = _
      unfold writeStr
      rw [if_neg (by have := hv.2.2; omega)]
      show (if D.state (writeData D t 4 cs.length) ≠ .ok then _ else _) = _
      rw [h2, if_neg (by decide)]
    · rw [hd.got, h1, List.append_assoc]; rfl
  | mset k xs =>
    obtain ⟨h1, h2⟩ := writeData_reliable hd t ht 4 xs.length
    have fold : ∀ (xs : List Nat) (t : τ), D.state t = .ok →
        got (xs.foldl (fun t x => writeData D t k x) t) = got t ++ xs.flatMap (leEnc k) ∧
        D.state (xs.foldl (fun t x => writeData D t k x) t) = .ok := by
      intro xs
      induction xs with
      | nil => intro t h; exact ⟨by simp, h⟩
      | cons x xs ih =>
        intro t h
        obtain ⟨a, b⟩ := writeData_reliable hd t h k x
        obtain ⟨c, d⟩ := ih _ b
        exact ⟨by rw [List.foldl_cons, c, a, List.flatMap_cons, List.append_assoc], d⟩
    obtain ⟨f1, f2⟩ := fold xs _ h2
    refine ⟨xs.foldl (fun t x => writeData D t k x) (writeData D t 4 xs.length), ?_, ?_, f2⟩
    · show writeMset D t k xs = _
      unfold writeMset
      rw [if_neg (by have := hv.2.2.1; omega)]
    · rw [f1, h1, List.append_assoc]; rfl

theorem readData_source {S : Strm Byte σ} {rem : σ → List Byte} (h : IsSource S rem) (s : σ) (hs : S.state s = .ok)
    (fuel : Nat) (old : List Byte) (k v : Nat) (hk : 0 < k) (hv : v < 256 ^ k) (rest : List Byte)
    (hr : rem s = leEnc k v ++ rest) (hf : k < fuel) :
    ∃ s', readData S fuel old s k = some (v, s') ∧ rem s' = rest ∧ S.state s' = .ok := by
  have hl := leEnc_length k v
  obtain ⟨s', e1, e2, e3⟩ := read_array_full h s k 1 fuel (by rw [Nat.mul_one]; exact hf)
    (by rw [Nat.mul_one]; omega) (by rw [hr, List.length_append, hl, Nat.mul_one]; omega)
  rw [Nat.mul_one, hr] at e1 e2
  have ht : (leEnc k v ++ rest).take k = leEnc k v := by
    rw [List.take_append, hl, Nat.sub_self, List.take_zero, List.append_nil, List.take_of_length_le (by omega)]
  have hd : (leEnc k v ++ rest).drop k = rest := by
    rw [List.drop_append, hl, Nat.sub_self, List.drop_zero, List.drop_eq_nil_of_le (by omega), List.nil_append]
  rw [ht] at e1
  rw [hd] at e2
  refine ⟨s', ?_, e2, e3⟩
  unfold readData
  rw [hs, if_neg (by decide), e1]
  show (if 1 = 1 then some (leDec ((leEnc k v ++ old.drop (leEnc k v).length).take k), s') else _) = _
  rw [if_pos rfl, List.take_append, hl, Nat.sub_self, List.take_zero, List.append_nil,
    List.take_of_length_le (by omega), leDec_enc k v hv]

theorem readStrLoop_source {S : Strm Byte σ} {rem : σ → List Byte} (h : IsSource S rem) (buf : List Byte) (k : Nat)
    (hk : 0 < k) :
    ∀ (fuel : Nat) (s : σ) (data cs : List Nat) (rest : List Byte), S.state s = .ok →
      (∀ c ∈ cs, c < 256 ^ k) → rem s = cs.flatMap (leEnc k) ++ rest → cs.length + k * 1024 < fuel →
      ∃ s', readStrLoop S buf k fuel s data cs.length = some (data ++ cs, s') ∧ rem s' = rest ∧ S.state s' = .ok := by
  intro fuel
  induction fuel with
  | zero => intro _ _ _ _ _ _ _ hf; omega
  | succ fuel ih =>
    intro s data cs rest hs hc hr hf
    have hb : k * min cs.length 1024 ≤ k * 1024 := Nat.mul_le_mul_left k (Nat.min_le_right _ _)
    have hsplit : cs.take (min cs.length 1024) ++ cs.drop (min cs.length 1024) = cs := List.take_append_drop _ _
    have htl : (cs.take (min cs.length 1024)).length = min cs.length 1024 := by rw [List.length_take]; omega
    have hfl := flatMap_enc_length k (cs.take (min cs.length 1024))
    rw [htl] at hfl
    have hr' : rem s = (cs.take (min cs.length 1024)).flatMap (leEnc k) ++
        ((cs.drop (min cs.length 1024)).flatMap (leEnc k) ++ rest) := by
      rw [← List.append_assoc, ← List.flatMap_append, hsplit]; exact hr
    obtain ⟨s1, e1, e2, e3⟩ : ∃ s1, readArray S (fuel + 1) s k (min cs.length 1024) =
        some ((cs.take (min cs.length 1024)).flatMap (leEnc k), min cs.length 1024, s1) ∧
        rem s1 = (cs.drop (min cs.length 1024)).flatMap (leEnc k) ++ rest ∧ S.state s1 = .ok := by
      obtain ⟨s1, e1, e2, e3, _, e5⟩ := readLoop_source h (fuel + 1) s (k * min cs.length 1024) (by omega)
      have hle : k * min cs.length 1024 ≤ (rem s).length := by rw [hr', List.length_append, hfl]; omega
      refine ⟨s1, ?_, ?_, ?_⟩
      · unfold readArray
        rw [e1, Option.map_some, List.length_take, Nat.min_eq_left hle, Nat.sub_self]
        rw [hr', List.take_append, hfl, Nat.sub_self, List.take_zero, List.append_nil,
          List.take_of_length_le (by omega)]
        rfl
      · rw [e2, hr', List.drop_append, hfl, Nat.sub_self, List.drop_zero, List.drop_eq_nil_of_le (by omega),
          List.nil_append]
      · by_cases h0 : k * min cs.length 1024 = 0
        · rcases e5 h0 with c | c
          · exact c
          · rw [c, hs]
        · exact e3 h0 hle
    rw [readStrLoop, e1]
    have hcs := leChars_enc k (cs.take (min cs.length 1024)) (fun c hm => hc c (List.mem_of_mem_take hm))
      (buf.drop ((cs.take (min cs.length 1024)).flatMap (leEnc k)).length)
    rw [htl] at hcs
    show ∃ s', (if cs.length - min cs.length 1024 = 0 ∨ S.state s1 ≠ .ok then
        some (data ++ leChars k (min cs.length 1024) (_ ++ buf.drop _), s1) else
        readStrLoop S buf k fuel s1 (data ++ leChars k (min cs.length 1024) (_ ++ buf.drop _)) (cs.length - min cs.length 1024)) = _ ∧ _
    rw [hcs, e3]
    by_cases h0 : cs.length - min cs.length 1024 = 0
    · rw [if_pos (Or.inl h0)]
      refine ⟨s1, ?_, ?_, e3⟩
      · rw [List.take_of_length_le (by omega)]
      · rw [e2, List.drop_eq_nil_of_le (by omega)]; rfl
    · rw [if_neg (fun c => c.elim h0 (fun c => c rfl))]
      obtain ⟨s', i1, i2, i3⟩ := ih s1 (data ++ cs.take (min cs.length 1024)) (cs.drop (min cs.length 1024)) rest e3
        (fun c hm => hc c (List.mem_of_mem_drop hm)) e2 (by rw [List.length_drop]; omega)
      rw [List.length_drop] at i1
      refine ⟨s', ?_, i2, i3⟩
      rw [i1, List.append_assoc, hsplit]

theorem msInsert_last (x : Nat) (l : List Nat) (h : ∀ y ∈ l, y ≤ x) : msInsert x l = l ++ [x] := by
  induction l with
  | nil => rfl
  | cons y l ih =>
    rw [msInsert, if_neg (by have := h y (by simp); omega), ih (fun z hz => h z (List.mem_cons_of_mem _ hz))]; rfl

theorem readMsetLoop_source {S : Strm Byte σ} {rem : σ → List Byte} (h : IsSource S rem) (fuel : Nat) (old : List Byte)
    (k : Nat) (hk : 0 < k) (hf : k < fuel) (rest : List Byte) :
    ∀ (xs : List Nat) (s : σ) (data : List Nat), S.state s = .ok →
      (∀ c ∈ xs, c < 256 ^ k) → (data ++ xs).Pairwise (· ≤ ·) → rem s = xs.flatMap (leEnc k) ++ rest →
      ∃ s', readMsetLoop S fuel old k xs.length s data = some (data ++ xs, s') ∧ rem s' = rest ∧ S.state s' = .ok := by
  intro xs
  induction xs with
  | nil => intro s data hs _ _ hr; exact ⟨s, by simp [readMsetLoop], hr, hs⟩
  | cons x xs ih =>
    intro s data hs hc hp hr
    rw [List.flatMap_cons, List.append_assoc] at hr
    obtain ⟨s1, e1, e2, e3⟩ := readData_source h s hs fuel old k x hk (hc x (by simp)) _ hr hf
    have hins : msInsert x data = data ++ [x] := by
      apply msInsert_last
      intro y hy
      exact (List.pairwise_append.1 hp).2.2 y hy x (by simp)
    obtain ⟨s', i1, i2, i3⟩ := ih s1 (data ++ [x]) e3 (fun c hm => hc c (List.mem_cons_of_mem _ hm))
      (by rw [List.append_assoc]; exact hp) e2
    refine ⟨s', ?_, i2, i3⟩
    rw [List.length_cons, readMsetLoop, e1]
    show (if S.state s1 ≠ .ok then _ else readMsetLoop S fuel old k xs.length s1 (msInsert x data)) = _
    rw [e3, if_neg (by decide), hins, i1, List.append_assoc]; rfl

theorem pow4 : (256 : Nat) ^ 4 = 4294967296 := by decide

/-- How much fuel reading needs: more than the bytes of any value, and a block. -/
def need : Val → Nat
  | .num k _ => k + 4
  | .str k cs => cs.length + k * 1024 + 4
  | .mset k _ => k + 4

theorem get_source {S : Strm Byte σ} {rem : σ → List Byte} (h : IsSource S rem) (s : σ) (hs : S.state s = .ok)
    (fuel : Nat) (old buf : List Byte) (v : Val) (hv : v.Ok) (rest : List Byte)
    (hr : rem s = wire v ++ rest) (hf : need v < fuel) :
    ∃ s', get S fuel old buf s v.kind = some (v, s') ∧ rem s' = rest ∧ S.state s' = .ok := by
  cases v with
  | num k v =>
    obtain ⟨s', e1, e2, e3⟩ := readData_source h s hs fuel old k v hv.1 hv.2 rest hr
      (by simp only [need] at hf; omega)
    exact ⟨s', by simp only [get, Val.kind, e1, Option.map_some], e2, e3⟩
  | str k cs =>
    obtain ⟨hk, hc, hn⟩ := hv
    simp only [need] at hf
    rw [wire, List.append_assoc] at hr
    obtain ⟨s1, e1, e2, e3⟩ := readData_source h s hs fuel old 4 cs.length (by decide) (by rw [pow4]; omega) _ hr (by omega)
    obtain ⟨s', i1, i2, i3⟩ := readStrLoop_source h buf k hk fuel s1 [] cs rest e3 hc e2 (by omega)
    refine ⟨s', ?_, i2, i3⟩
    show (readStr S fuel old buf s k).map _ = _
    unfold readStr
    rw [hs, if_neg (by decide), e1]
    show (if S.state s1 ≠ .ok then _ else readStrLoop S buf k fuel s1 [] cs.length).map _ = _
    rw [e3, if_neg (by decide), i1]; rfl
  | mset k xs =>
    obtain ⟨hk, hc, hn, hp⟩ := hv
    simp only [need] at hf
    rw [wire, List.append_assoc] at hr
    obtain ⟨s1, e1, e2, e3⟩ := readData_source h s hs fuel old 4 xs.length (by decide) (by rw [pow4]; omega) _ hr (by omega)
    obtain ⟨s', i1, i2, i3⟩ := readMsetLoop_source h fuel old k hk (by omega) rest xs s1 [] e3 hc hp e2
    refine ⟨s', ?_, i2, i3⟩
    show (readMset S fuel old s k).map _ = _
    unfold readMset
    rw [e1]
    show (if S.state s1 ≠ .ok then _ else readMsetLoop S fuel old k xs.length s1 []).map _ = _
    rw [e3, if_neg (by decide), i1]; rfl

theorem putAll_reliable {D : Strm Byte τ} {got : τ → List Byte} (hd : Reliable D got) :
    ∀ (vs : List Val) (t : τ), D.state t = .ok → (∀ v ∈ vs, v.Ok) →
      ∃ t', putAll D t vs = some t' ∧ got t' = got t ++ vs.flatMap wire ∧ D.state t' = .ok := by
  intro vs
  induction vs with
  | nil => intro t h _; exact ⟨t, rfl, by simp, h⟩
  | cons v vs ih =>
    intro t h hv
    obtain ⟨t1, e1, e2, e3⟩ := put_reliable hd t h v (hv v (by simp))
    obtain ⟨t', i1, i2, i3⟩ := ih t1 e3 (fun w hw => hv w (List.mem_cons_of_mem _ hw))
    refine ⟨t', ?_, ?_, i3⟩
    · rw [putAll, e1]; exact i1
    · rw [i2, e2, List.flatMap_cons, List.append_assoc]

theorem getAll_source {S : Strm Byte σ} {rem : σ → List Byte} (h : IsSource S rem) (fuel : Nat) (old buf rest : List Byte) :
    ∀ (vs : List Val) (s : σ), S.state s = .ok → (∀ v ∈ vs, v.Ok ∧ need v < fuel) → rem s = vs.flatMap wire ++ rest →
      ∃ s', getAll S fuel old buf s (vs.map Val.kind) = some (vs, s') ∧ rem s' = rest ∧ S.state s' = .ok := by
  intro vs
  induction vs with
  | nil => intro s hs _ hr; exact ⟨s, rfl, hr, hs⟩
  | cons v vs ih =>
    intro s hs hv hr
    rw [List.flatMap_cons, List.append_assoc] at hr
    obtain ⟨s1, e1, e2, e3⟩ := get_source h s hs fuel old buf v (hv v (by simp)).1 _ hr (hv v (by simp)).2
    obtain ⟨s', i1, i2, i3⟩ := ih s1 e3 (fun w hw => hv w (List.mem_cons_of_mem _ hw)) e2
    refine ⟨s', ?_, i2, i3⟩
    rw [List.map_cons, getAll, e1]
    show (getAll S fuel old buf s1 (vs.map Val.kind)).map _ = _
    rw [i1]; rfl

/-- C33.  Any sequence of numbers, strings and multisets is written without an exception to a
destination that accepts everything; and whoever reads variables of the same kinds from a stream
(delivering pieces of any size) whose contents begin with exactly the bytes written gets the same
values in the same order, and the stream is positioned just behind them with state ok. -/
theorem serialization_round_trip {D : Strm Byte τ} {got : τ → List Byte} (hd : Reliable D got)
    {S : Strm Byte σ} {rem : σ → List Byte} (hs : IsSource S rem)
    (vs : List Val) (hv : ∀ v ∈ vs, v.Ok) (t : τ) (ht : D.state t = .ok) :
    ∃ t' bytes, putAll D t vs = some t' ∧ got t' = got t ++ bytes ∧ D.state t' = .ok ∧
      ∃ enough, ∀ fuel, enough < fuel → ∀ (old buf rest : List Byte) (s : σ), S.state s = .ok → rem s = bytes ++ rest →
        ∃ s', getAll S fuel old buf s (vs.map Val.kind) = some (vs, s') ∧ rem s' = rest ∧ S.state s' = .ok := by
  obtain ⟨t', e1, e2, e3⟩ := putAll_reliable hd vs t ht hv
  refine ⟨t', vs.flatMap wire, e1, e2, e3, (vs.map need).sum, ?_⟩
  intro fuel hf old buf rest s h1 h2
  refine getAll_source hs fuel old buf rest vs s h1 ?_ h2
  intro v hm
  refine ⟨hv v hm, Nat.lt_of_le_of_lt ?_ hf⟩
  clear hf hv e1 e2 e3 h2
  induction vs with
  | nil => cases hm
  | cons w vs ih =>
    rw [List.map_cons, List.sum_cons]
    rcases List.mem_cons.1 hm with rfl | hm
    · omega
    · have := ih hm; omega

/-- C33.  The wire format: numbers are little-endian, strings and multisets have a 32-bit count in
front. -/
theorem wire_format {D : Strm Byte τ} {got : τ → List Byte} (hd : Reliable D got) (t : τ) (ht : D.state t = .ok)
    (v : Val) (hv : v.Ok) : ∃ t', put D t v = some t' ∧ got t' = got t ++ wire v :=
  let ⟨t', a, b, _⟩ := put_reliable hd t ht v hv
  ⟨t', a, b⟩

/-- A string of more than `UINT32_MAX` characters is refused before anything is written. -/
theorem too_long_refused (D : Strm Byte τ) (t : τ) (k : Nat) (cs : List Nat) (h : cs.length > 4294967295) :
    put D t (.str k cs) = none ∧ put D t (.mset k cs) = none := by
  constructor
  · show writeStr D t k cs = none
    unfold writeStr; rw [if_pos h]
  · show writeMset D t k cs = none
    unfold writeMset; rw [if_pos h]

/-- Once the destination is not ok, nothing more is written. -/
theorem put_not_ok (D : Strm Byte τ) (t t' : τ) (ht : D.state t ≠ .ok) (v : Val) (h : put D t v = some t') : t' = t := by
  have wd : ∀ k v, writeData D t k v = t := by intro k v; unfold writeData; rw [if_pos ht]
  cases v with
  | num k v =>
    have : some (writeData D t k v) = some t' := h
    rw [wd] at this; cases this; rfl
  | str k cs =>
    have h : writeStr D t k cs = some t' := h
    unfold writeStr at h
    split at h
    · cases h
    · simp only [wd] at h
      rw [if_pos ht] at h; cases h; rfl
  | mset k xs =>
    have h : writeMset D t k xs = some t' := h
    unfold writeMset at h
    split at h
    · cases h
    · simp only [wd] at h
      have : ∀ xs : List Nat, xs.foldl (fun t x => writeData D t k x) t = t := by
        intro xs
        induction xs with
        | nil => rfl
        | cons x xs ih => rw [List.foldl_cons, wd]; exact ih
      rw [this] at h; cases h; rfl

/-- C33: what happens at a premature end. A truncated number (three of four bytes) is not rejected: the
value is put together from the three bytes and whatever the variable had before. -/
theorem truncated_number_accepted :
    (readData (pipe 16 : Strm Byte _) 10 [0xAA, 0xBB, 0xCC, 0xDD] ([1, 2, 3], [], .ok) 4).map (·.1) =
      some 0xDD030201 := by decide +kernel

example : (putAll (pipe 1 : Strm Byte _) ([], [], .ok)
      [.num 2 0x1234, .str 1 [65, 66], .mset 2 [3, 3, 500], .num 1 7]).map (fun t => t.2.1) =
    some [0x34, 0x12, 2, 0, 0, 0, 65, 66, 3, 0, 0, 0, 3, 0, 3, 0, 0xF4, 1, 7] := by decide +kernel

example : (getAll (pipe 3 : Strm Byte _) 20 [9, 9, 9, 9] []
      ([0x34, 0x12, 2, 0, 0, 0, 65, 66, 3, 0, 0, 0, 3, 0, 3, 0, 0xF4, 1, 7, 99], [], .ok)
      [.num 2, .str 1, .mset 2, .num 1]).map (fun r => (r.1, r.2.1)) =
    some ([.num 2 0x1234, .str 1 [65, 66], .mset 2 [3, 3, 500], .num 1 7], [99]) := by decide +kernel

example : (Val.mset 2 [3, 3, 500]).Ok := by simp [Val.Ok]
example : (Val.str 1 [65, 66]).Ok := by simp [Val.Ok]

end Verif.Stream
