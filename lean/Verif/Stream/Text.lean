import Verif.Stream.Serialize
/-
Model of the text helpers of streams: `readln`, `readln_and_attach` (include/stdex/stream.hpp
311-353), `write_charset` (585-593) and `basic_file::read_charset` (985-1011).

Characters are the unsigned values of a `k`-byte character type on a little-endian host.
Not modelled: the variants converting with a `charset_encoder`.
-/
namespace Verif.Stream
variable {σ τ : Type}

/-! ### readln -/

/-- The loop of `readln_and_attach`, 344-351 (`n` bounds the iterations, `fuel` those of
`read_array`).  Bytes of `chr` the stream does not deliver keep their old contents. -/
def readlnLoop (S : Strm Byte σ) (fuel k : Nat) : Nat → σ → Bool → Nat → Nat → List Nat → Option (List Nat × σ)
  | 0, _, _, _, _, _ => none
  | n + 1, s, initial, previous, chr, str =>
    match readArray S fuel s k 1 with                                     -- 345
    | none => none
    | some (d, _, s') =>
      let chr := leDec (d ++ (leEnc k chr).drop d.length)
      let app := !initial && !(decide (previous = 13) && decide (chr = 10))   -- 346
      let str := if app then str ++ [previous] else str                    -- 347
      let initial := if app then initial else false                        -- 349
      if S.state s' = .ok ∧ chr ≠ 10 then readlnLoop S fuel k n s' initial chr chr str
      else some (str, s')

/-- `readln_and_attach`, 340-353. -/
def readlnAttach (S : Strm Byte σ) (fuel k : Nat) (s : σ) (str : List Nat) : Option (List Nat × σ) :=
  readlnLoop S fuel k fuel s true 0 0 str

/-- `readln`, 312-316. -/
def readln (S : Strm Byte σ) (fuel k : Nat) (s : σ) : Option (List Nat × σ) := readlnAttach S fuel k s []

/-- `while (s.ok()) lines.push_back(s.readln())` as callers do: all lines of the stream. -/
def readLines (S : Strm Byte σ) (fuel k : Nat) : Nat → σ → Option (List (List Nat) × σ)
  | 0, _ => none
  | n + 1, s =>
    match readln S fuel k s with
    | none => none
    | some (l, s') =>
      if S.state s' = .ok then (readLines S fuel k n s').map fun r => (l :: r.1, r.2)
      else some ([l], s')

/-- Specification: `Lines text ls` says that `ls` are the lines of `text`: lines have no line feed
and are terminated by CR LF or by LF (the latter when the line does not end with CR), the last one
by the end of the text. -/
inductive Lines : List Nat → List (List Nat) → Prop
  | last (a : List Nat) : 10 ∉ a → Lines a [a]
  | lf (a rest : List Nat) (ls : List (List Nat)) : 10 ∉ a → a.getLast? ≠ some 13 → Lines rest ls →
      Lines (a ++ 10 :: rest) (a :: ls)
  | crlf (a rest : List Nat) (ls : List (List Nat)) : 10 ∉ a → Lines rest ls →
      Lines (a ++ 13 :: 10 :: rest) (a :: ls)

theorem readChar_source {S : Strm Byte σ} {rem : σ → List Byte} (h : IsSource S rem) (s : σ) (fuel k : Nat)
    (hk : 0 < k) (hf : k < fuel) (c : Nat) (rest : List Byte) (hr : rem s = leEnc k c ++ rest) :
    ∃ s', readArray S fuel s k 1 = some (leEnc k c, 1, s') ∧ rem s' = rest ∧ S.state s' = .ok := by
  have hl := leEnc_length k c
  obtain ⟨s', e1, e2, e3⟩ := read_array_full h s k 1 fuel (by rw [Nat.mul_one]; exact hf)
    (by rw [Nat.mul_one]; omega) (by rw [hr, List.length_append, hl, Nat.mul_one]; omega)
  rw [Nat.mul_one, hr] at e1 e2
  have ht : (leEnc k c ++ rest).take k = leEnc k c := by
    rw [List.take_append, hl, Nat.sub_self, List.take_zero, List.append_nil, List.take_of_length_le (by omega)]
  have hd : (leEnc k c ++ rest).drop k = rest := by
    rw [List.drop_append, hl, Nat.sub_self, List.drop_zero, List.drop_eq_nil_of_le (by omega), List.nil_append]
  rw [ht] at e1
  rw [hd] at e2
  exact ⟨s', e1, e2, e3⟩

theorem readArray_end {S : Strm Byte σ} {rem : σ → List Byte} (h : IsSource S rem) (s : σ) (fuel k : Nat)
    (hk : 0 < k) (hf : k < fuel) (hr : rem s = []) :
    ∃ c s', readArray S fuel s k 1 = some ([], c, s') ∧ rem s' = [] ∧ S.state s' = .eof := by
  obtain ⟨s', e1, e2, _, e4, _⟩ := readLoop_source h fuel s (k * 1) (by omega)
  rw [hr] at e1 e2
  refine ⟨if k * 1 - (List.take (k * 1) ([] : List Byte)).length = 0 then 1 else
    1 - (k * 1 - (List.take (k * 1) ([] : List Byte)).length) / k, s', ?_, ?_, e4 (by rw [hr, List.length_nil]; omega)⟩
  · unfold readArray
    rw [e1, Option.map_some]; simp
  · rw [e2, List.drop_nil]

/-- What the loop appends after having read the character `c` with `l` following. -/
def lnOut (c : Nat) : List Nat → List Nat
  | [] => [c]
  | x :: l => (if c = 13 ∧ x = 10 then [] else [c]) ++ (if x = 10 then [] else lnOut x l)

/-- What is left behind the line. -/
def lnRest : List Nat → List Nat
  | [] => []
  | x :: l => if x = 10 then l else lnRest l

theorem readlnLoop_source {S : Strm Byte σ} {rem : σ → List Byte} (h : IsSource S rem) (fuel k : Nat)
    (hk : 0 < k) (hf : k < fuel) :
    ∀ (l : List Nat) (n : Nat) (s : σ) (c : Nat) (str : List Nat), l.length < n → (∀ x ∈ l, x < 256 ^ k) →
      c < 256 ^ k → c ≠ 10 → rem s = l.flatMap (leEnc k) →
      ∃ s', readlnLoop S fuel k n s false c c str = some (str ++ lnOut c l, s') ∧
        rem s' = (lnRest l).flatMap (leEnc k) ∧ S.state s' = if 10 ∈ l then .ok else .eof := by
  intro l
  induction l with
  | nil =>
    intro n s c str hn _ hc h10 hr
    cases n with
    | zero => simp at hn
    | succ n =>
      obtain ⟨_, s', e1, e2, e3⟩ := readArray_end h s fuel k hk hf (by rw [hr]; rfl)
      refine ⟨s', ?_, by rw [e2]; rfl, by rw [e3]; simp⟩
      rw [readlnLoop, e1]
      simp only [List.nil_append, List.length_nil, List.drop_zero, leDec_enc k c hc, e3]
      rw [if_neg (by intro a; cases a.1)]
      have : (decide (c = 10)) = false := by simp [h10]
      rw [this]; simp [lnOut]
  | cons x l ih =>
    intro n s c str hn hx hc h10 hr
    cases n with
    | zero => simp at hn
    | succ n =>
      rw [List.flatMap_cons] at hr
      obtain ⟨s1, e1, e2, e3⟩ := readChar_source h s fuel k hk hf x _ hr
      have hchr : leDec (leEnc k x ++ (leEnc k c).drop (leEnc k x).length) = x := by
        rw [leEnc_length, List.drop_eq_nil_of_le (by rw [leEnc_length]; omega), List.append_nil,
          leDec_enc k x (hx x (by simp))]
      rw [readlnLoop, e1]
      simp only [hchr, e3, lnOut, lnRest]
      by_cases hx10 : x = 10
      · subst hx10
        refine ⟨s1, ?_, by rw [e2]; simp, by simp [e3]⟩
        rw [if_neg (by intro a; exact a.2 rfl)]
        by_cases h13 : c = 13 <;> simp [h13]
      · obtain ⟨s', i1, i2, i3⟩ := ih n s1 x (str ++ [c]) (by rw [List.length_cons] at hn; omega)
          (fun y hy => hx y (List.mem_cons_of_mem _ hy)) (hx x (by simp)) hx10 e2
        have hd : decide (x = 10) = false := by simp [hx10]
        rw [if_pos ⟨trivial, hx10⟩, hd, Bool.and_false]
        refine ⟨s', ?_, ?_, ?_⟩
        · simp only [Bool.not_false, Bool.and_self, if_true]
          rw [i1, if_neg (fun a => hx10 a.2), if_neg hx10, List.append_assoc]
        · rw [i2, if_neg hx10]
        · rw [i3]; simp [show ¬ (10 = x) from fun a => hx10 a.symm]

/-- What `readln` yields: everything up to the line end. -/
def lnAll : List Nat → List Nat
  | [] => []
  | x :: l => if x = 10 then [] else lnOut x l

theorem readlnAttach_source {S : Strm Byte σ} {rem : σ → List Byte} (h : IsSource S rem) (fuel k : Nat)
    (hk : 0 < k) (hf : k < fuel) (l : List Nat) (s : σ) (str : List Nat) (hl : l.length < fuel)
    (hx : ∀ x ∈ l, x < 256 ^ k) (hr : rem s = l.flatMap (leEnc k)) :
    ∃ s', readlnAttach S fuel k s str = some (str ++ lnAll l, s') ∧
      rem s' = (lnRest l).flatMap (leEnc k) ∧ S.state s' = if 10 ∈ l then .ok else .eof := by
  unfold readlnAttach
  cases fuel with
  | zero => omega
  | succ n =>
    have h0 : (0 : Nat) < 256 ^ k := Nat.pow_pos (by decide)
    cases l with
    | nil =>
      obtain ⟨_, s', e1, e2, e3⟩ := readArray_end h s (n + 1) k hk hf (by rw [hr]; rfl)
      refine ⟨s', ?_, by rw [e2]; rfl, by rw [e3]; simp⟩
      rw [readlnLoop, e1]
      simp only [e3]
      rw [if_neg (by intro a; cases a.1)]
      simp [lnAll]
    | cons x l =>
      rw [List.flatMap_cons] at hr
      obtain ⟨s1, e1, e2, e3⟩ := readChar_source h s (n + 1) k hk hf x _ hr
      have hchr : leDec (leEnc k x ++ (leEnc k 0).drop (leEnc k x).length) = x := by
        rw [leEnc_length, List.drop_eq_nil_of_le (by rw [leEnc_length]; omega), List.append_nil,
          leDec_enc k x (hx x (by simp))]
      rw [readlnLoop, e1]
      simp only [hchr, e3, lnAll, lnRest]
      by_cases hx10 : x = 10
      · subst hx10
        refine ⟨s1, ?_, by rw [e2]; simp, by simp [e3]⟩
        rw [if_neg (by intro a; exact a.2 rfl)]
        simp
      · obtain ⟨s', i1, i2, i3⟩ := readlnLoop_source h (n + 1) k hk hf l n s1 x str (by rw [List.length_cons] at hl; omega)
          (fun y hy => hx y (List.mem_cons_of_mem _ hy)) (hx x (by simp)) hx10 e2
        rw [if_pos ⟨trivial, hx10⟩]
        refine ⟨s', ?_, ?_, ?_⟩
        · simp only [Bool.not_true, Bool.false_and, if_false, Bool.false_eq_true]
          rw [i1, if_neg hx10]
        · rw [i2, if_neg hx10]
        · rw [i3]; simp [show ¬ (10 = x) from fun a => hx10 a.symm]

/-! #### The three cases of a line -/

theorem lnOut_noLf (c : Nat) (a : List Nat) (h : 10 ∉ a) : lnOut c a = c :: a := by
  induction a generalizing c with
  | nil => rfl
  | cons x a ih =>
    have hx : x ≠ 10 := fun e => h (by simp [e])
    rw [lnOut, if_neg (fun q => hx q.2), if_neg hx, ih x (fun q => h (List.mem_cons_of_mem _ q))]; rfl

theorem lnOut_lf (c : Nat) (a rest : List Nat) (h : 10 ∉ a) (hl : (c :: a).getLast? ≠ some 13) :
    lnOut c (a ++ 10 :: rest) = c :: a := by
  induction a generalizing c with
  | nil =>
    have : c ≠ 13 := fun e => hl (by simp [e])
    simp [lnOut, this]
  | cons x a ih =>
    have hx : x ≠ 10 := fun e => h (by simp [e])
    rw [List.cons_append, lnOut, if_neg (fun q => hx q.2), if_neg hx,
      ih x (fun q => h (List.mem_cons_of_mem _ q)) (by rw [List.getLast?_cons_cons] at hl; exact hl)]; rfl

theorem lnOut_crlf (c : Nat) (a rest : List Nat) (h : 10 ∉ a) :
    lnOut c (a ++ 13 :: 10 :: rest) = c :: a := by
  induction a generalizing c with
  | nil => simp [lnOut]
  | cons x a ih =>
    have hx : x ≠ 10 := fun e => h (by simp [e])
    rw [List.cons_append, lnOut, if_neg (fun q => hx q.2), if_neg hx, ih x (fun q => h (List.mem_cons_of_mem _ q))]; rfl

theorem lnRest_noLf (a : List Nat) (h : 10 ∉ a) : lnRest a = [] := by
  induction a with
  | nil => rfl
  | cons x a ih =>
    rw [lnRest, if_neg (fun e => h (by simp [e])), ih (fun q => h (List.mem_cons_of_mem _ q))]

theorem lnRest_lf (a rest : List Nat) (h : 10 ∉ a) : lnRest (a ++ 10 :: rest) = rest := by
  induction a with
  | nil => simp [lnRest]
  | cons x a ih =>
    rw [List.cons_append, lnRest, if_neg (fun e => h (by simp [e])), ih (fun q => h (List.mem_cons_of_mem _ q))]

/-- C34.  One line: from a stream holding the characters `l` (of any width, delivered in pieces of any
size), `readln` returns the line and leaves the stream right behind the terminator, with state ok;
without terminator everything is returned and the state is eof. -/
theorem readln_line {S : Strm Byte σ} {rem : σ → List Byte} (h : IsSource S rem) (fuel k : Nat)
    (hk : 0 < k) (hf : k < fuel) (l : List Nat) (s : σ) (hl : l.length < fuel)
    (hx : ∀ x ∈ l, x < 256 ^ k) (hr : rem s = l.flatMap (leEnc k)) :
    (10 ∉ l → ∃ s', readln S fuel k s = some (l, s') ∧ rem s' = [] ∧ S.state s' = .eof) ∧
    (∀ a rest, l = a ++ 10 :: rest → 10 ∉ a → a.getLast? ≠ some 13 →
      ∃ s', readln S fuel k s = some (a, s') ∧ rem s' = rest.flatMap (leEnc k) ∧ S.state s' = .ok) ∧
    (∀ a rest, l = a ++ 13 :: 10 :: rest → 10 ∉ a →
      ∃ s', readln S fuel k s = some (a, s') ∧ rem s' = rest.flatMap (leEnc k) ∧ S.state s' = .ok) := by
  obtain ⟨s', e1, e2, e3⟩ := readlnAttach_source h fuel k hk hf l s [] hl hx hr
  rw [List.nil_append] at e1
  refine ⟨?_, ?_, ?_⟩
  · intro hn
    rw [if_neg hn] at e3
    rw [lnRest_noLf l hn] at e2
    refine ⟨s', ?_, e2, e3⟩
    show readlnAttach S fuel k s [] = _
    rw [e1]
    cases l with
    | nil => rfl
    | cons x l =>
      rw [lnAll, if_neg (fun e => hn (by simp [e])), lnOut_noLf x l (fun q => hn (List.mem_cons_of_mem _ q))]
  · intro a rest hl ha h13
    subst hl
    rw [if_pos (by simp)] at e3
    rw [lnRest_lf a rest ha] at e2
    refine ⟨s', ?_, e2, e3⟩
    show readlnAttach S fuel k s [] = _
    rw [e1]
    cases a with
    | nil => simp [lnAll]
    | cons x a =>
      rw [List.cons_append, lnAll, if_neg (fun e => ha (by simp [e])),
        lnOut_lf x a rest (fun q => ha (List.mem_cons_of_mem _ q)) h13]
  · intro a rest hl ha
    subst hl
    rw [if_pos (by simp)] at e3
    have : lnRest (a ++ 13 :: 10 :: rest) = rest := by
      have := lnRest_lf (a ++ [13]) rest (by simp [ha])
      rwa [List.append_assoc] at this
    rw [this] at e2
    refine ⟨s', ?_, e2, e3⟩
    show readlnAttach S fuel k s [] = _
    rw [e1]
    cases a with
    | nil => simp [lnAll, lnOut]
    | cons x a =>
      rw [List.cons_append, lnAll, if_neg (fun e => ha (by simp [e])),
        lnOut_crlf x a rest (fun q => ha (List.mem_cons_of_mem _ q))]

/-- C34.  Reading lines until the stream is no longer ok yields exactly the lines of the contents: no
character of a line is lost, added or duplicated. -/
theorem readln_partitions {S : Strm Byte σ} {rem : σ → List Byte} (h : IsSource S rem) (fuel k : Nat)
    (hk : 0 < k) (hf : k < fuel) (l : List Nat) (ls : List (List Nat)) (hls : Lines l ls) :
    ∀ (s : σ) (n : Nat), l.length < fuel → l.length < n →
      (∀ x ∈ l, x < 256 ^ k) → rem s = l.flatMap (leEnc k) →
      ∃ s', readLines S fuel k n s = some (ls, s') ∧ rem s' = [] ∧ S.state s' = .eof := by
  induction hls with
  | last a ha =>
    intro s n hl hn hx hr
    cases n with
    | zero => omega
    | succ n =>
      obtain ⟨s', e1, e2, e3⟩ := (readln_line h fuel k hk hf a s hl hx hr).1 ha
      refine ⟨s', ?_, e2, e3⟩
      rw [readLines, e1]
      simp [e3]
  | lf a rest ls ha h13 _ ih =>
    intro s n hl hn hx hr
    cases n with
    | zero => omega
    | succ n =>
      obtain ⟨s1, e1, e2, e3⟩ := (readln_line h fuel k hk hf _ s hl hx hr).2.1 a rest rfl ha h13
      rw [List.length_append, List.length_cons] at hl hn
      obtain ⟨s', i1, i2, i3⟩ := ih s1 n (by omega) (by omega) (fun x hm => hx x (by simp [hm])) e2
      refine ⟨s', ?_, i2, i3⟩
      rw [readLines, e1]
      simp [e3, i1]
  | crlf a rest ls ha _ ih =>
    intro s n hl hn hx hr
    cases n with
    | zero => omega
    | succ n =>
      obtain ⟨s1, e1, e2, e3⟩ := (readln_line h fuel k hk hf _ s hl hx hr).2.2 a rest rfl ha
      rw [List.length_append, List.length_cons, List.length_cons] at hl hn
      obtain ⟨s', i1, i2, i3⟩ := ih s1 n (by omega) (by omega) (fun x hm => hx x (by simp [hm])) e2
      refine ⟨s', ?_, i2, i3⟩
      rw [readLines, e1]
      simp [e3, i1]

/-- Every text has lines (so the theorem above is about every text). -/
theorem lines_exist : ∀ (n : Nat) (l : List Nat), l.length ≤ n → ∃ ls, Lines l ls := by
  intro n
  induction n with
  | zero =>
    intro l hl
    have : l = [] := List.length_eq_zero_iff.1 (by omega)
    subst this
    exact ⟨_, .last [] (by simp)⟩
  | succ n ih =>
    intro l hl
    by_cases hm : 10 ∈ l
    · obtain ⟨a, rest, rfl, ha⟩ := List.eq_append_cons_of_mem hm
      rw [List.length_append, List.length_cons] at hl
      obtain ⟨ls, hls⟩ := ih rest (by omega)
      by_cases h13 : a.getLast? = some 13
      · obtain ⟨b, rfl⟩ : ∃ b, a = b ++ [13] := by
          refine ⟨a.dropLast, ?_⟩
          rcases List.eq_nil_or_concat a with rfl | ⟨b, c, rfl⟩
          · simp at h13
          · simp at h13; simp [h13]
        refine ⟨b :: ls, ?_⟩
        rw [List.append_assoc]
        exact .crlf b rest ls (fun q => ha (by simp [q])) hls
      · exact ⟨a :: ls, .lf a rest ls ha h13 hls⟩
    · exact ⟨[l], .last l hm⟩

example : (readLines (pipe 3 : Strm Byte _) 20 1 20 ([97, 13, 10, 98, 13, 13, 10, 10, 99, 13], [], .ok)).map (·.1)
    = some [[97], [98, 13], [], [99, 13]] := by decide +kernel

example : Lines [97, 13, 10, 98, 13, 13, 10, 10, 99, 13] [[97], [98, 13], [], [99, 13]] :=
  .crlf [97] _ _ (by decide) (.crlf [98, 13] _ _ (by decide) (.lf [] _ _ (by decide) (by decide) (.last _ (by decide))))

/-! ### Byte order marks -/

/-- `charset_id` values that matter here, locale.hpp / charset. -/
inductive Charset where
  | system | utf8 | utf16 | utf32
deriving DecidableEq

/-- A `basic_file`: a stream and `seek(0)` with its return value (stream.hpp 800-870). -/
structure FileS (σ : Type) extends Strm Byte σ where
  rewind : σ → Nat × σ

/-- `read_charset`, 985-1011: `none` when it throws (or the fuel of `read_array` is exhausted).
`u` is the contents of the uninitialised variables; with state ok they were overwritten completely,
see `readArray_ok_full`. -/
def readCharset (F : FileS σ) (fuel : Nat) (u : List Byte) (s : σ) (dflt : Charset) : Option (Charset × σ) :=
  let r := F.rewind s
  if r.1 ≠ 0 then none else                                               -- 987
  match readArray F.toStrm fuel r.2 4 1 with                              -- 990
  | none => none
  | some (d, _, s) =>
    if F.state s = .ok ∧ leDec ((d ++ u.drop d.length).take 4) = 0xfeff then some (.utf32, s)   -- 991
    else
      let r := F.rewind s
      if r.1 ≠ 0 then none else                                           -- 994
      match readArray F.toStrm fuel r.2 2 1 with                          -- 997
      | none => none
      | some (d, _, s) =>
        if F.state s = .ok ∧ leDec ((d ++ u.drop d.length).take 2) = 0xfeff then some (.utf16, s)
        else
          let r := F.rewind s
          if r.1 ≠ 0 then none else                                       -- 1001
          match readArray F.toStrm fuel r.2 3 1 with                      -- 1004
          | none => none
          | some (d, _, s) =>
            if F.state s = .ok ∧ (d ++ [0, 0, 0].drop d.length) = [0xef, 0xbb, 0xbf] then some (.utf8, s)   -- 1005
            else
              let r := F.rewind s
              if r.1 ≠ 0 then none else some (dflt, r.2)                  -- 1008-1010

/-- A well-behaved file with contents `c`: reading delivers the rest of it, `seek(0)` goes to the
start, clears eof, and reports position 0. -/
structure IsFile (F : FileS σ) (c : List Byte) (rem : σ → List Byte) : Prop extends IsSource F.toStrm rem where
  rewind_pos : ∀ s, (F.rewind s).1 = 0
  rewind_rem : ∀ s, rem (F.rewind s).2 = c

/-- `read_array` of one element on a source: a complete element with state ok, or not ok. -/
theorem readOne_elem {S : Strm Byte σ} {rem : σ → List Byte} (h : IsSource S rem) (s : σ) (fuel k : Nat)
    (hk : 0 < k) (hf : k < fuel) :
    ∃ d c s', readArray S fuel s k 1 = some (d, c, s') ∧ rem s' = (rem s).drop k ∧ d = (rem s).take k ∧
      (S.state s' = .ok ↔ k ≤ (rem s).length) := by
  obtain ⟨s', e1, e2, e3, e4, _⟩ := readLoop_source h fuel s (k * 1) (by omega)
  rw [Nat.mul_one] at e1 e2 e3 e4
  refine ⟨(rem s).take k, if k - ((rem s).take k).length = 0 then 1 else
    1 - (k - ((rem s).take k).length) / k, s', ?_, e2, rfl, ?_⟩
  · unfold readArray
    rw [Nat.mul_one, e1, Option.map_some]
  · constructor
    · intro ho
      rcases Nat.lt_or_ge (rem s).length k with hlt | hge
      · rw [e4 hlt] at ho; cases ho
      · exact hge
    · exact e3 (by omega)

/-- Specification of the byte order marks: the longest mark the file begins with, and its length. -/
def bomOf (c : List Byte) (dflt : Charset) : Charset × Nat :=
  if [0xff, 0xfe, 0, 0] <+: c then (.utf32, 4)
  else if [0xff, 0xfe] <+: c then (.utf16, 2)
  else if [0xef, 0xbb, 0xbf] <+: c then (.utf8, 3)
  else (dflt, 0)

theorem leDec2 (a b : Byte) : leDec [a, b] = 0xfeff ↔ [a, b] = [0xff, 0xfe] := by
  simp only [leDec, List.cons.injEq, and_true]
  have := a.isLt; have := b.isLt
  simp only [BitVec.toNat_eq, show (0xff : Byte).toNat = 255 from rfl, show (0xfe : Byte).toNat = 254 from rfl]
  omega

theorem leDec4 (a b c d : Byte) : leDec [a, b, c, d] = 0xfeff ↔ [a, b, c, d] = [0xff, 0xfe, 0, 0] := by
  simp only [leDec, List.cons.injEq, and_true]
  have := a.isLt; have := b.isLt; have := c.isLt; have := d.isLt
  simp only [BitVec.toNat_eq, show (0xff : Byte).toNat = 255 from rfl, show (0xfe : Byte).toNat = 254 from rfl,
    show (0 : Byte).toNat = 0 from rfl]
  omega

theorem prefix_iff_take {α : Type} (p l : List α) : p <+: l ↔ p.length ≤ l.length ∧ l.take p.length = p := by
  constructor
  · rintro ⟨t, rfl⟩
    simp
  · rintro ⟨_, h⟩
    rw [← h]; exact List.take_prefix _ _

/-- C42.  Whatever the file's contents and wherever it is positioned, `read_charset` reports the mark
and leaves the file right behind it. -/
theorem read_charset_correct {F : FileS σ} {c : List Byte} {rem : σ → List Byte} (h : IsFile F c rem)
    (fuel : Nat) (hf : 4 < fuel) (u : List Byte) (s : σ) (dflt : Charset) :
    ∃ s', readCharset F fuel u s dflt = some ((bomOf c dflt).1, s') ∧ rem s' = c.drop (bomOf c dflt).2 := by
  unfold readCharset
  simp only [h.rewind_pos, ne_eq, not_true_eq_false, if_false]
  obtain ⟨d4, c4, s4, a1, a2, a3, a4⟩ := readOne_elem h.toIsSource (F.rewind s).2 fuel 4 (by decide) hf
  rw [h.rewind_rem] at a2 a3 a4
  rw [a1]
  simp only []
  have k4 : (F.state s4 = .ok ∧ leDec ((d4 ++ u.drop d4.length).take 4) = 0xfeff) ↔ [0xff, 0xfe, 0, 0] <+: c := by
    rw [prefix_iff_take]
    constructor
    · rintro ⟨o, e⟩
      have hl := a4.1 o
      have dl : d4.length = 4 := by rw [a3, List.length_take]; omega
      rw [List.take_append, dl, Nat.sub_self, List.take_zero, List.append_nil, List.take_of_length_le (by omega)] at e
      match d4, dl with
      | [x, y, z, w], _ =>
        rw [leDec4] at e
        rw [e] at a3
        exact ⟨hl, a3.symm⟩
    · rintro ⟨hl, e⟩
      refine ⟨a4.2 hl, ?_⟩
      have e : d4 = [0xff, 0xfe, 0, 0] := a3.trans e
      rw [e]; simp; decide
  by_cases h4 : [0xff, 0xfe, 0, 0] <+: c
  · rw [if_pos (k4.2 h4), bomOf, if_pos h4]
    exact ⟨s4, rfl, a2⟩
  rw [if_neg (fun q => h4 (k4.1 q)), bomOf, if_neg h4]
  obtain ⟨d2, c2, s2, a1, a2, a3, a4⟩ := readOne_elem h.toIsSource (F.rewind s4).2 fuel 2 (by decide) (by omega)
  rw [h.rewind_rem] at a2 a3 a4
  rw [a1]
  simp only []
  have k2 : (F.state s2 = .ok ∧ leDec ((d2 ++ u.drop d2.length).take 2) = 0xfeff) ↔ [0xff, 0xfe] <+: c := by
    rw [prefix_iff_take]
    constructor
    · rintro ⟨o, e⟩
      have hl := a4.1 o
      have dl : d2.length = 2 := by rw [a3, List.length_take]; omega
      rw [List.take_append, dl, Nat.sub_self, List.take_zero, List.append_nil, List.take_of_length_le (by omega)] at e
      match d2, dl with
      | [x, y], _ =>
        rw [leDec2] at e
        rw [e] at a3
        exact ⟨hl, a3.symm⟩
    · rintro ⟨hl, e⟩
      refine ⟨a4.2 hl, ?_⟩
      have e : d2 = [0xff, 0xfe] := a3.trans e
      rw [e]; simp; decide
  by_cases h2 : [0xff, 0xfe] <+: c
  · rw [if_pos (k2.2 h2), if_pos h2]
    exact ⟨s2, rfl, a2⟩
  rw [if_neg (fun q => h2 (k2.1 q)), if_neg h2]
  obtain ⟨d3, c3, s3, a1, a2, a3, a4⟩ := readOne_elem h.toIsSource (F.rewind s2).2 fuel 3 (by decide) (by omega)
  rw [h.rewind_rem] at a2 a3 a4
  rw [a1]
  simp only []
  have k3 : (F.state s3 = .ok ∧ d3 ++ [0, 0, 0].drop d3.length = [0xef, 0xbb, 0xbf]) ↔ [0xef, 0xbb, 0xbf] <+: c := by
    rw [prefix_iff_take]
    constructor
    · rintro ⟨o, e⟩
      have hl := a4.1 o
      have dl : d3.length = 3 := by rw [a3, List.length_take]; omega
      rw [dl] at e
      have e : d3 = [0xef, 0xbb, 0xbf] := by simpa using e
      exact ⟨hl, by rw [← e, dl]; exact a3.symm⟩
    · rintro ⟨hl, e⟩
      refine ⟨a4.2 hl, ?_⟩
      have e : d3 = [0xef, 0xbb, 0xbf] := a3.trans e
      subst e
      decide
  by_cases h3 : [0xef, 0xbb, 0xbf] <+: c
  · rw [if_pos (k3.2 h3), if_pos h3]
    exact ⟨s3, rfl, a2⟩
  rw [if_neg (fun q => h3 (k3.1 q)), if_neg h3]
  exact ⟨(F.rewind s3).2, rfl, by rw [h.rewind_rem]; rfl⟩

/-- `write_charset`, 585-593. -/
def writeCharset (D : Strm Byte τ) (t : τ) : Charset → τ
  | .utf32 => writeData D t 4 0xfeff
  | .utf16 => writeData D t 2 0xfeff
  | .utf8 => (D.write t [0xef, 0xbb, 0xbf]).2
  | .system => t

/-- C42.  A file starting with the mark of `write_charset` is recognised by `read_charset`, which leaves it
at the text following the mark; a UTF-16 text must not start with a NUL character (then the mark is that
of UTF-32), a text without mark must not start with the bytes of a mark. -/
theorem charset_round_trip {D : Strm Byte τ} {got : τ → List Byte} (hd : Reliable D got) (t : τ) (ht : D.state t = .ok)
    (cs : Charset) (h0 : got t = []) (text : List Byte)
    {F : FileS σ} {rem : σ → List Byte} (h : IsFile F (got (writeCharset D t cs) ++ text) rem)
    (h16 : cs = .utf16 → ¬ [0, 0] <+: text) (hs : cs = .system → bomOf text .system = (.system, 0))
    (fuel : Nat) (hf : 4 < fuel) (u : List Byte) (s : σ) :
    ∃ s', readCharset F fuel u s .system = some (cs, s') ∧ rem s' = text := by
  obtain ⟨s', e1, e2⟩ := read_charset_correct h fuel hf u s .system
  have w : ∀ k v, got (writeData D t k v) = leEnc k v := by
    intro k v; rw [(writeData_reliable hd t ht k v).1, h0]; rfl
  have key : bomOf (got (writeCharset D t cs) ++ text) .system = (cs, (got (writeCharset D t cs)).length) := by
    cases cs with
    | utf32 =>
      show bomOf (got (writeData D t 4 0xfeff) ++ text) .system = _
      have : leEnc 4 0xfeff = [0xff, 0xfe, 0, 0] := by decide
      simp only [writeCharset, w, this]
      rw [bomOf, if_pos ⟨text, rfl⟩]; rfl
    | utf16 =>
      have : leEnc 2 0xfeff = [0xff, 0xfe] := by decide
      simp only [writeCharset, w, this]
      rw [bomOf, if_neg, if_pos ⟨text, rfl⟩]; rfl
      rintro ⟨r, hr⟩
      refine h16 rfl ⟨r, ?_⟩
      simpa using hr
    | utf8 =>
      have : got (D.write t [0xef, 0xbb, 0xbf]).2 = [0xef, 0xbb, 0xbf] := by rw [hd.got, h0]; rfl
      simp only [writeCharset, this]
      rw [bomOf, if_neg, if_neg, if_pos ⟨text, rfl⟩]; rfl
      · rintro ⟨r, hr⟩; simp at hr
      · rintro ⟨r, hr⟩; simp at hr
    | system =>
      simp only [writeCharset, h0, List.nil_append, List.length_nil]
      exact hs rfl
  rw [key] at e1 e2
  refine ⟨s', e1, ?_⟩
  rw [e2, List.drop_left]

/-- A concrete file: contents and the not yet read rest. -/
def memF (chunk : Nat) (c : List Byte) : FileS (List Byte × List Byte × St) where
  toStrm := pipe chunk
  rewind s := (0, (c, s.2.1, .ok))

theorem memF_isFile (chunk : Nat) (hc : 0 < chunk) (c : List Byte) : IsFile (memF chunk c) c (fun s => s.1) where
  toIsSource := pipe_source chunk hc
  rewind_pos _ := rfl
  rewind_rem _ := rfl

example : (readCharset (memF 2 [0xff, 0xfe]) 9 [] ([], [], .ok) .system).map (fun r => (r.1, r.2.1)) =
    some (.utf16, []) := by decide +kernel
example : (readCharset (memF 2 [0xef, 0xbb, 0xbf, 65]) 9 [] ([], [], .eof) .system).map (fun r => (r.1, r.2.1)) =
    some (.utf8, [65]) := by decide +kernel

end Verif.Stream
