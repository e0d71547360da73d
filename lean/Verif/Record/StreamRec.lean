import Verif.Record.RecordValue
import Verif.Stream.Window
/-
Records over streams that cannot seek (include/stdex/idrec.hpp 102-121, 458-471 and 540-558): pipes, sockets, decoders.
-/
namespace Verif.Record
open Verif.Stream
variable {σ τ α : Type}

/-! ### The model -/

/-- `ignore(basic&)`, 107-121: (return value, stream); `none` when `skip` or the reading does not end or throws. -/
def ignoreS (S : Strm Byte σ) (fuel ks N : Nat) (s : σ) : Option (Bool × σ) :=
  (readData S fuel [] s ks).bind fun r =>
    if S.state r.2 ≠ .ok then some (false, r.2)                                -- 112
    else (skip S fuel r.2 (padded ks N r.1)).bind fun k =>                     -- 115-116
      if k.1 then none else some (decide (S.state k.2 = .ok), k.2)             -- 117-119

/-- `operator >>(basic&, record)`, 540-558, with the data's operator: (data, or `none` when the size could not be read; stream);
`none` when something throws or does not end. -/
def readRecS (S : Strm Byte σ) (fuel ks N : Nat) (rd : Reader α) (s : σ) : Option (Option α × σ) :=
  (readData S fuel [] s ks).bind fun r =>
    if S.state r.2 ≠ .ok then some (none, r.2)                                 -- 547
    else
      (rd (limiter S) (Lim.new S r.2 r.1 0)).bind fun d =>                     -- 550-551
        if d.2.st = .fail then some (some d.1, d.2.src)                        -- 552
        else (skip (limiter S) fuel d.2 d.2.rl).bind fun k =>                  -- 553
          if k.1 then none
          else (skip S fuel k.2.src (padding N r.1)).bind fun p =>             -- 555
            if p.1 then none else some (some d.1, p.2)

/-- `operator <<(basic&, record)`, 458-471: the record is made in a file in memory and then copied to the stream. (The file in
memory is the abstract file of `Record.IdRec`; that `memory_file` behaves as one is C35's subject.) -/
def writeRecS (D : Strm Byte τ) (chunk fuel ki ks N id : Nat) (data : File → Option File) (t : τ) : Option τ :=
  let o := openRec chunk ki ks id (atEnd [])
  if o.2.st ≠ .ok then some t                                                  -- 464
  else (data o.2).bind fun g => (closeRec chunk ki ks N o.1 g).bind fun c =>   -- 465-466
    (seekbeg c.2 0).bind fun f =>                                              -- 467
      (writeStream (file chunk) D fuel f t fsizeMax).map fun w => w.2.2.2      -- 468

/-! ### Reading -/

theorem skipBytes_hom {β : Type} {S : Strm β σ} {T : Strm β τ} {φ : σ → τ} (h : Hom S T φ) (fuel : Nat) : ∀ (i : Nat) (s : σ),
    skipBytes T fuel i (φ s) = (skipBytes S fuel i s).map fun r => (r.1, φ r.2) := by
  intro i
  induction i with
  | zero => intro s; rfl
  | succ i ih =>
    intro s
    unfold skipBytes
    rw [readArray_hom h]
    cases readArray S fuel s 1 1 with
    | none => rfl
    | some r =>
      obtain ⟨d, c, s'⟩ := r
      simp only [Option.map_some, h.state]
      split
      · rfl
      · split
        · rfl
        · exact ih s'

theorem skipBlocks_hom {β : Type} {S : Strm β σ} {T : Strm β τ} {φ : σ → τ} (h : Hom S T φ) (block : Nat) : ∀ (fuel amount : Nat) (s : σ),
    skipBlocks T block fuel amount (φ s) = (skipBlocks S block fuel amount s).map fun r => (r.1, φ r.2) := by
  intro fuel
  induction fuel with
  | zero => intro a s; rfl
  | succ fuel ih =>
    intro a s
    unfold skipBlocks
    rw [readArray_hom h]
    split
    · rfl
    · cases readArray S (fuel + 1) s 1 (min a block) with
      | none => rfl
      | some r =>
        obtain ⟨d, c, s'⟩ := r
        simp only [Option.map_some, h.state]
        split
        · rfl
        · exact ih _ s'

theorem skip_hom {β : Type} {S : Strm β σ} {T : Strm β τ} {φ : σ → τ} (h : Hom S T φ) (fuel : Nat) (s : σ) (amount : Nat) :
    skip T fuel (φ s) amount = (skip S fuel s amount).map fun r => (r.1, φ r.2) := by
  unfold skip
  rw [readArray_hom h, skipBytes_hom h, skipBlocks_hom h]
  split
  · cases readArray S fuel s 1 1 with
    | none => rfl
    | some r => rfl
  · split <;> rfl

/-- A limiter over a working source that still has what the limit (at most `cap`) allows, and `after` behind it. -/
def Within (S : Strm Byte σ) (rem : σ → List Byte) (cap : Nat) (after : List Byte) (l : Lim σ) : Prop :=
  l.rl ≤ cap ∧ l.rl < fsizeMax ∧ S.state l.src = .ok ∧ l.st ≠ .fail ∧ rem l.src = (rem l.src).take l.rl ++ after ∧ l.rl ≤ (rem l.src).length

variable {S : Strm Byte σ} {rem : σ → List Byte}

theorem within_read (h : IsSource S rem) (hS : Lawful S) {cap : Nat} {after : List Byte} {l : Lim σ} (hl : Within S rem cap after l) (n : Nat) :
    Within S rem cap after (limRead S l n).2 := by
  obtain ⟨h0, h1, h2, h3, h4, h5⟩ := hl
  have hne : l.rl ≠ fsizeMax := Nat.ne_of_lt h1
  obtain ⟨a1, a2, -, a4⟩ := limRead_spec S hS l n hne
  rcases a4 with ⟨-, q0, q1, q2, q3⟩ | ⟨hc, q1, q2, q3⟩
  · refine ⟨by omega, by omega, by rw [q2]; exact h2, by rw [q3]; exact fun c => (nomatch c), ?_, ?_⟩
    · rw [a2, q2, q1]; exact h4
    · rw [a2, q2, q1]; exact h5
  · have hst : S.state (S.read l.src (min n l.rl)).2 = .ok := by
      by_cases hm : min n l.rl = 0
      · rw [hm]
        rcases h.zero l.src with c | c
        · exact c
        · rw [c]; exact h2
      · exact (h.more l.src _ hm (by intro c; rw [c, List.length_nil] at h5; omega)).2
    have hsp := h.split l.src (min n l.rl)
    have hle := h.le l.src (min n l.rl)
    refine ⟨by omega, by omega, by rw [q2]; exact hst, by rw [q3, hst]; exact fun c => (nomatch c), ?_, ?_⟩
    · have hlen : (S.read l.src (min n l.rl)).1.length ≤ l.rl := by omega
      rw [a2, q1, q2]
      have h4' := h4
      rw [← hsp, List.take_append, List.take_of_length_le hlen, List.append_assoc] at h4'
      exact List.append_cancel_left h4'
    · rw [a2, q1, q2]
      have := congrArg List.length hsp
      rw [List.length_append] at this
      omega

/-- The limiter on such states. -/
def limOf (h : IsSource S rem) (hS : Lawful S) (cap : Nat) (after : List Byte) : Strm Byte { l : Lim σ // Within S rem cap after l } where
  read l n := ((limRead S l.1 n).1, ⟨(limRead S l.1 n).2, within_read h hS l.2 n⟩)
  write l _ := (0, l)
  close l := l
  flush l := l
  state l := l.1.st

theorem limOf_hom (h : IsSource S rem) (hS : Lawful S) (cap : Nat) (after : List Byte) : Hom (limOf h hS cap after) (limiter S) Subtype.val := ⟨fun _ _ => rfl, fun _ => rfl⟩

theorem limOf_source (h : IsSource S rem) (hS : Lawful S) (cap : Nat) (after : List Byte) : IsSource (limOf h hS cap after) (fun l => (rem l.1.src).take l.1.rl) := by
  have hne : ∀ l : { l : Lim σ // Within S rem cap after l }, l.1.rl ≠ fsizeMax := fun l => Nat.ne_of_lt l.2.2.1
  refine ⟨?_, ?_, ?_, ?_, ?_⟩
  · intro l n
    exact (limRead_source h hS l.1 n (hne l)).1
  · intro l n
    show (limRead S l.1 n).1.length ≤ n
    rcases (limRead_spec S hS l.1 n (hne l)).2.2.2 with ⟨-, -, q, -⟩ | ⟨-, q, -⟩
    · rw [q]; exact Nat.zero_le _
    · rw [q]
      exact Nat.le_trans (hS.read_le _ _) (Nat.min_le_left _ _)
  · intro l n hn hr
    exact (limRead_source h hS l.1 n (hne l)).2.1 hn hr
  · intro l n hn hr
    exact ((limRead_source h hS l.1 n (hne l)).2.2 hn hr).2
  · intro l
    rcases (limRead_spec S hS l.1 0 (hne l)).2.2.2 with ⟨q, -⟩ | ⟨-, -, -, q⟩
    · exact absurd rfl q
    · left
      show (limRead S l.1 0).2.st = .ok
      rw [q, Nat.zero_min]
      rcases h.zero l.1.src with c | c
      · exact c
      · rw [c]; exact l.2.2.2.1

/-- **C142** A record read from a stream that cannot seek: the data's operator gets exactly the record's data, and the stream is
left, in state ok, at what follows the record and its padding - whatever of the data the operator did read, and however the
stream splits its data. -/
theorem stream_read_record (h : IsSource S rem) (hS : Lawful S) {ks N : Nat} {payload pad rest : List Byte} (hks : 0 < ks)
    (hsz : payload.length < 256 ^ ks) (hmax : payload.length < fsizeMax) (hpad : pad.length = padding N payload.length)
    {rd : Reader α} (hn : rd.Natural) {Q : α → Prop} (hg : rd.Gets payload Q) {s : σ} (hs : S.state s = .ok)
    (hr : rem s = leEnc ks payload.length ++ payload ++ pad ++ rest) {fuel : Nat} (hf : ks + payload.length + pad.length + 65538 < fuel) :
    ∃ v s', readRecS S fuel ks N rd s = some (some v, s') ∧ Q v ∧ rem s' = rest ∧ S.state s' = .ok := by
  obtain ⟨s1, e1, e2, e3⟩ := readData_source h s hs fuel [] ks payload.length hks hsz (payload ++ (pad ++ rest)) (by rw [hr]; simp) (by omega)
  let l0 : { l : Lim σ // Within S rem payload.length (pad ++ rest) l } :=
    ⟨Lim.new S s1 payload.length 0, Nat.le_refl _, hmax, e3, (by show S.state s1 ≠ .fail; rw [e3]; exact (fun c => nomatch c)), (by
      show rem s1 = (rem s1).take payload.length ++ (pad ++ rest)
      rw [e2, List.take_left]), (by
      show payload.length ≤ (rem s1).length
      rw [e2, List.length_append]; omega)⟩
  obtain ⟨v, l1, g1, g2⟩ := hg (limOf_source h hS payload.length (pad ++ rest)) l0 (by show S.state s1 = .ok; exact e3) (by
    show (rem s1).take payload.length = payload
    rw [e2, List.take_left])
  have hh := hn (limOf_hom h hS payload.length (pad ++ rest)) l0
  rw [g1, Option.map_some] at hh
  obtain ⟨i0, i1, i2, i3, i4, i5⟩ := l1.2
  obtain ⟨l2, k1, k2, -⟩ := skip_source (limOf_source h hS payload.length (pad ++ rest)) l1 l1.1.rl fuel (by
    show l1.1.rl ≤ ((rem l1.1.src).take l1.1.rl).length
    rw [List.length_take]; omega) (by omega)
  have hk := skip_hom (limOf_hom h hS payload.length (pad ++ rest)) fuel l1 l1.1.rl
  rw [k1, Option.map_some] at hk
  have hempty : (rem l2.1.src).take l2.1.rl = [] := by
    have k2' : (rem l2.1.src).take l2.1.rl = ((rem l1.1.src).take l1.1.rl).drop l1.1.rl := k2
    rw [k2', List.drop_eq_nil_of_le (by rw [List.length_take]; omega)]
  have hrem : rem l2.1.src = pad ++ rest := by
    have := l2.2.2.2.2.2.1
    rw [hempty, List.nil_append] at this
    exact this
  have hok2 : S.state l2.1.src = .ok := l2.2.2.2.1
  obtain ⟨s2, p1, p2, p3⟩ := skip_source h l2.1.src (padding N payload.length) fuel (by rw [hrem, List.length_append]; omega) (by omega)
  refine ⟨v, s2, ?_, g2, ?_, ?_⟩
  · unfold readRecS
    rw [e1, Option.bind_some]
    show (if S.state s1 ≠ .ok then _ else _) = _
    rw [if_neg (fun c => c e3)]
    show (rd (limiter S) l0.1).bind _ = _
    rw [hh, Option.bind_some]
    show (if l1.1.st = .fail then _ else _) = _
    rw [if_neg i3]
    show (skip (limiter S) fuel l1.1 l1.1.rl).bind _ = _
    rw [hk, Option.bind_some]
    show (if false = true then _ else (skip S fuel l2.1.src (padding N payload.length)).bind _) = _
    rw [if_neg (by decide), p1]
    rfl
  · rw [p2, hrem, ← hpad, List.drop_left]
  · rcases p3 with c | ⟨-, c⟩
    · exact c
    · rw [c]; exact hok2

/-- `ignore` passes over a record, whatever is in it, and says so. -/
theorem stream_ignore (h : IsSource S rem) {ks N : Nat} {payload pad rest : List Byte} (hks : 0 < ks)
    (hsz : payload.length + padding N payload.length < 256 ^ ks) (hpad : pad.length = padding N payload.length)
    {s : σ} (hs : S.state s = .ok) (hr : rem s = leEnc ks payload.length ++ payload ++ pad ++ rest) {fuel : Nat}
    (hf : ks + payload.length + pad.length + 65538 < fuel) :
    ∃ s', ignoreS S fuel ks N s = some (true, s') ∧ rem s' = rest ∧ S.state s' = .ok := by
  obtain ⟨s1, e1, e2, e3⟩ := readData_source h s hs fuel [] ks payload.length hks (by omega) (payload ++ (pad ++ rest)) (by rw [hr]; simp) (by omega)
  have hp : padded ks N payload.length = payload.length + pad.length := by rw [padded, Nat.mod_eq_of_lt hsz, hpad]
  obtain ⟨s2, p1, p2, p3⟩ := skip_source h s1 (payload.length + pad.length) fuel (by rw [e2]; simp only [List.length_append]; omega) (by omega)
  have hok : S.state s2 = .ok := by
    rcases p3 with c | ⟨-, c⟩
    · exact c
    · rw [c]; exact e3
  refine ⟨s2, ?_, ?_, hok⟩
  · unfold ignoreS
    rw [e1, Option.bind_some]
    show (if S.state s1 ≠ .ok then _ else _) = _
    rw [if_neg (fun c => c e3)]
    show (skip S fuel s1 (padded ks N payload.length)).bind _ = _
    rw [hp, p1, Option.bind_some]
    show (if false = true then _ else some (decide (S.state s2 = .ok), s2)) = _
    rw [if_neg (by decide), hok]
    rfl
  · rw [p2, e2, ← List.append_assoc, ← List.length_append, List.drop_left]

/-- Ignoring a record that the stream has only the beginning of: never `true`; the call throws when fewer than 16 bytes were to
be passed over, and says `false`, with the stream at its end, otherwise. -/
theorem stream_ignore_short (h : IsSource S rem) {ks N size : Nat} {part : List Byte} (hks : 0 < ks)
    (hsz : size + padding N size < 256 ^ ks) (hpart : part.length < size + padding N size)
    {s : σ} (hs : S.state s = .ok) (hr : rem s = leEnc ks size ++ part) {fuel : Nat} (hf : ks + size + padding N size + 65538 < fuel) :
    (size + padding N size < 16 ∧ ignoreS S fuel ks N s = none) ∨
    (16 ≤ size + padding N size ∧ ∃ s', ignoreS S fuel ks N s = some (false, s') ∧ rem s' = [] ∧ S.state s' = .eof) := by
  obtain ⟨s1, e1, e2, e3⟩ := readData_source h s hs fuel [] ks size hks (by omega) part hr (by omega)
  have hp : padded ks N size = size + padding N size := Nat.mod_eq_of_lt hsz
  obtain ⟨threw, s2, p1, p2, p3, p4⟩ := skip_short h s1 (size + padding N size) fuel (by rw [e2]; exact hpart) (by omega)
  have hi : ignoreS S fuel ks N s = if threw then none else some (decide (S.state s2 = .ok), s2) := by
    unfold ignoreS
    rw [e1, Option.bind_some]
    show (if S.state s1 ≠ .ok then _ else _) = _
    rw [if_neg (fun c => c e3)]
    show (skip S fuel s1 (padded ks N size)).bind _ = _
    rw [hp, p1, Option.bind_some]
  cases threw with
  | true => exact Or.inl ⟨by simpa using p3.symm, by rw [hi]; rfl⟩
  | false =>
    refine Or.inr ⟨by simpa using p3.symm, s2, ?_, p2, p4 rfl⟩
    rw [hi, p4 rfl]
    rfl

/-- A number of which the stream has only the beginning, or nothing. -/
theorem readData_cut (h : IsSource S rem) {k : Nat} {s : σ} (hs : S.state s = .ok) (hr : (rem s).length < k) {fuel : Nat} (hf : k < fuel) (old : List Byte) :
    ∃ v s', readData S fuel old s k = some (v, s') ∧ rem s' = [] ∧ S.state s' = .eof := by
  obtain ⟨s', e1, e2, -, e4, -⟩ := readLoop_source h fuel s (k * 1) (by omega)
  have e4 := e4 (by omega)
  unfold readData
  rw [if_neg (by rw [hs]; decide)]
  unfold readArray
  rw [e1]
  have e2 : rem s' = [] := by rw [e2, List.drop_of_length_le (by omega)]
  simp only [Option.map_some]
  have two : ∀ (p : Prop) [Decidable p] (a b : Nat) (x : Option (Nat × σ)), x = (if p then some (a, s') else some (b, s')) → ∃ v s', x = some (v, s') ∧ rem s' = [] ∧ S.state s' = .eof := by
    rintro p _ a b x rfl
    by_cases q : p
    · rw [if_pos q]; exact ⟨a, s', rfl, e2, e4⟩
    · rw [if_neg q]; exact ⟨b, s', rfl, e2, e4⟩
  exact two _ _ _ _ rfl

/-- A record of which not even the size is whole is neither ignored nor read, and the stream is at its end. -/
theorem stream_no_size (h : IsSource S rem) {ks N : Nat} {s : σ} (hs : S.state s = .ok) (hr : (rem s).length < ks) {fuel : Nat} (hf : ks < fuel) (rd : Reader α) :
    ∃ s', ignoreS S fuel ks N s = some (false, s') ∧ readRecS S fuel ks N rd s = some (none, s') ∧ rem s' = [] ∧ S.state s' = .eof := by
  obtain ⟨v, s', e1, e2, e3⟩ := readData_cut h hs hr hf []
  refine ⟨s', ?_, ?_, e2, e3⟩
  · unfold ignoreS
    rw [e1, Option.bind_some]
    show (if S.state s' ≠ .ok then _ else _) = _
    rw [e3, if_pos (by decide)]
  · unfold readRecS
    rw [e1, Option.bind_some]
    show (if S.state s' ≠ .ok then _ else _) = _
    rw [e3, if_pos (by decide)]

/-! ### Writing -/

/-- **C142** A record written to a stream that takes everything: the stream receives exactly the bytes of the record. `data` is
any operation that appends its bytes. -/
theorem stream_write_record {D : Strm Byte τ} {got : τ → List Byte} (hd : Reliable D got) {chunk ki ks N id : Nat} (hc : 0 < chunk) {payload : List Byte}
    {data : File → Option File} (hdat : ∀ b, data (atEnd b) = some (atEnd (b ++ payload))) (hf : Fits ki ks N id payload)
    (hl : (record ki ks N id payload).length < 2 ^ 63) (t : τ) {fuel : Nat} (hfuel : (record ki ks N id payload).length < fuel) :
    ∃ t', writeRecS D chunk fuel ki ks N id data t = some t' ∧ got t' = got t ++ record ki ks N id payload := by
  have hw := writeRecOf_spec (chunk := chunk) hdat hf [] (by rw [List.nil_append]; exact hl)
  rw [List.nil_append] at hw
  obtain ⟨s', t', c1, c2, -⟩ := write_stream_complete_partial (file_source hc) hd ⟨record ki ks N id payload, 0, .ok⟩ t fsizeMax fuel (by
    show ((record ki ks N id payload).drop 0).length < fuel
    rw [List.drop_zero]; exact hfuel)
  have ht : (frem ⟨record ki ks N id payload, 0, .ok⟩).take fsizeMax = record ki ks N id payload := by
    show ((record ki ks N id payload).drop 0).take fsizeMax = _
    rw [List.drop_zero, List.take_of_length_le]
    exact Nat.le_trans (Nat.le_of_lt hl) (by decide +kernel)
  refine ⟨t', ?_, by rw [c2, ht]⟩
  unfold writeRecOf at hw
  unfold writeRecS
  simp only at hw ⊢
  split at hw
  · rename_i c
    exact absurd (by rw [openRec, wrNum_end, wrNum_end]; rfl) c
  · rename_i c
    rw [if_neg c]
    cases hdt : data (openRec chunk ki ks id (atEnd [])).2 with
    | none => rw [hdt] at hw; cases hw
    | some g =>
      rw [hdt, Option.bind_some] at hw
      rw [Option.bind_some]
      cases hcl : closeRec chunk ki ks N (openRec chunk ki ks id (atEnd [])).1 g with
      | none => rw [hcl] at hw; cases hw
      | some r =>
        rw [hcl, Option.map_some] at hw
        rw [Option.bind_some]
        have hr : r.2 = atEnd (record ki ks N id payload) := Option.some.inj hw
        rw [hr]
        show (writeStream (file chunk) D fuel ⟨record ki ks N id payload, 0, .ok⟩ t fsizeMax).map _ = _
        rw [c1]
        rfl

/-! ### Sequences of records -/

/-- A program that reads `n` records and their ids from a stream: id (`stream >> id`, as `read_id` 48-56 does), then the record. -/
def readAllS (S : Strm Byte σ) (fuel ki ks N : Nat) (rd : Reader α) : Nat → σ → Option (List (Nat × α) × σ)
  | 0, s => some ([], s)
  | n + 1, s =>
    (readData S fuel [] s ki).bind fun i => (readRecS S fuel ks N rd i.2).bind fun r => r.1.bind fun v =>
      (readAllS S fuel ki ks N rd n r.2).map fun t => ((i.1, v) :: t.1, t.2)

/-- A program that passes over `n` records, noting their ids. -/
def skimAllS (S : Strm Byte σ) (fuel ki ks N : Nat) : Nat → σ → Option (List Nat × σ)
  | 0, s => some ([], s)
  | n + 1, s =>
    (readData S fuel [] s ki).bind fun i => (ignoreS S fuel ks N i.2).bind fun r =>
      if r.1 then (skimAllS S fuel ki ks N n r.2).map fun t => (i.1 :: t.1, t.2) else none

/-- A program that writes records to a stream. -/
def writeAllS (D : Strm Byte τ) (chunk fuel ki ks N : Nat) : List (Nat × (File → Option File)) → τ → Option τ
  | [], t => some t
  | r :: rs, t => (writeRecS D chunk fuel ki ks N r.1 r.2 t).bind (writeAllS D chunk fuel ki ks N rs)

/-- The operator that reads all there is: `read_remainder`, as the data of a record. -/
def restOf (fuel max : Nat) : Reader (List Byte) := fun S s => readRemainder S fuel s max

theorem restOf_natural (fuel max : Nat) : Reader.Natural (restOf fuel max) := fun h s => readRemainder_hom h fuel s max

theorem restOf_gets {payload : List Byte} {fuel max : Nat} (hm : payload.length ≤ max) (hf : payload.length + 65537 < fuel) :
    Reader.Gets (restOf fuel max) payload (fun v => v = payload) := by
  intro σ S rem h s hs hr
  obtain ⟨s', e1, e2⟩ := readRemainder_source h s max fuel (by rw [hr]; exact hf)
  exact ⟨_, s', e1, by rw [hr, List.take_of_length_le hm]⟩

/-- **C142** Records one behind another in a stream: reading gives each record's id and what the data's operator makes of exactly
that record's data, and leaves the stream behind the last. -/
theorem stream_read_records (h : IsSource S rem) (hS : Lawful S) {ki ks N : Nat} (hki : 0 < ki) (hks : 0 < ks) {rd : Reader α} (hn : rd.Natural)
    {Q : List Byte → α → Prop} {fuel : Nat} : ∀ (rs : List (Nat × List Byte)), (∀ r ∈ rs, Fits ki ks N r.1 r.2) → (∀ r ∈ rs, r.2.length < fsizeMax) →
    (∀ r ∈ rs, rd.Gets r.2 (Q r.2)) → ∀ (rest : List Byte) (s : σ), S.state s = .ok → rem s = records ki ks N rs ++ rest →
    ki + ks + (records ki ks N rs).length + 65538 < fuel →
    ∃ vs s', readAllS S fuel ki ks N rd rs.length s = some (vs, s') ∧ vs.map Prod.fst = rs.map Prod.fst ∧
      (∀ p ∈ rs.zip vs, Q p.1.2 p.2.2) ∧ rem s' = rest ∧ S.state s' = .ok := by
  intro rs
  induction rs with
  | nil => intro _ _ _ rest s hs hr _; exact ⟨[], s, rfl, rfl, (fun p hp => nomatch hp), hr, hs⟩
  | cons r rs ih =>
    intro hf hm hg rest s hs hr hfu
    rw [records_cons] at hr hfu
    rw [List.length_append, record_length] at hfu
    have hf1 := hf r (List.mem_cons_self ..)
    obtain ⟨s1, a1, a2, a3⟩ := readData_source h s hs fuel [] ki r.1 hki hf1.1
      (leEnc ks r.2.length ++ r.2 ++ List.replicate (padding N r.2.length) 0 ++ (records ki ks N rs ++ rest)) (by rw [hr]; simp [record]) (by omega)
    obtain ⟨v, s2, b1, b2, b3, b4⟩ := stream_read_record h hS hks (Nat.lt_of_le_of_lt (Nat.le_add_right _ _) hf1.2) (hm r (List.mem_cons_self ..)) List.length_replicate hn
      (hg r (List.mem_cons_self ..)) a3 a2 (fuel := fuel) (by rw [List.length_replicate]; omega)
    obtain ⟨vs, s3, c1, c2, c3, c4, c5⟩ := ih (fun x hx => hf x (List.mem_cons_of_mem _ hx)) (fun x hx => hm x (List.mem_cons_of_mem _ hx))
      (fun x hx => hg x (List.mem_cons_of_mem _ hx)) rest s2 b4 b3 (by omega)
    refine ⟨(r.1, v) :: vs, s3, ?_, by rw [List.map_cons, c2, List.map_cons], (fun p hp => by
      rw [List.zip_cons_cons] at hp
      rcases List.mem_cons.1 hp with e | e
      · rw [e]; exact b2
      · exact c3 p e), c4, c5⟩
    rw [List.length_cons]
    show (readData S fuel [] s ki).bind _ = _
    rw [a1, Option.bind_some]
    show (readRecS S fuel ks N rd s1).bind _ = _
    rw [b1, Option.bind_some]
    show (readAllS S fuel ki ks N rd rs.length s2).map _ = _
    rw [c1]
    rfl

/-- Passing over records finds all their ids, and ends behind the last. -/
theorem stream_skim_records (h : IsSource S rem) {ki ks N : Nat} (hki : 0 < ki) (hks : 0 < ks) {fuel : Nat} : ∀ (rs : List (Nat × List Byte)),
    (∀ r ∈ rs, Fits ki ks N r.1 r.2) → ∀ (rest : List Byte) (s : σ), S.state s = .ok → rem s = records ki ks N rs ++ rest →
    ki + ks + (records ki ks N rs).length + 65538 < fuel →
    ∃ s', skimAllS S fuel ki ks N rs.length s = some (rs.map Prod.fst, s') ∧ rem s' = rest ∧ S.state s' = .ok := by
  intro rs
  induction rs with
  | nil => intro _ rest s hs hr _; exact ⟨s, rfl, hr, hs⟩
  | cons r rs ih =>
    intro hf rest s hs hr hfu
    rw [records_cons] at hr hfu
    rw [List.length_append, record_length] at hfu
    have hf1 := hf r (List.mem_cons_self ..)
    obtain ⟨s1, a1, a2, a3⟩ := readData_source h s hs fuel [] ki r.1 hki hf1.1
      (leEnc ks r.2.length ++ r.2 ++ List.replicate (padding N r.2.length) 0 ++ (records ki ks N rs ++ rest)) (by rw [hr]; simp [record]) (by omega)
    obtain ⟨s2, b1, b2, b3⟩ := stream_ignore h hks hf1.2 List.length_replicate a3 a2 (fuel := fuel) (by rw [List.length_replicate]; omega)
    obtain ⟨s3, c1, c2, c3⟩ := ih (fun x hx => hf x (List.mem_cons_of_mem _ hx)) rest s2 b3 b2 (by omega)
    refine ⟨s3, ?_, c2, c3⟩
    rw [List.length_cons, skimAllS, a1, Option.bind_some]
    show (ignoreS S fuel ks N s1).bind _ = _
    rw [b1, Option.bind_some]
    show (if true = true then (skimAllS S fuel ki ks N rs.length s2).map _ else _) = _
    rw [if_pos rfl, c1]
    rfl

/-- Writing records one after another writes the records one behind another. -/
theorem stream_write_records {D : Strm Byte τ} {got : τ → List Byte} (hd : Reliable D got) {chunk ki ks N : Nat} (hc : 0 < chunk) {fuel : Nat} :
    ∀ (rs : List (Nat × List Byte)), (∀ r ∈ rs, Fits ki ks N r.1 r.2) → (records ki ks N rs).length < 2 ^ 63 → (records ki ks N rs).length < fuel →
    ∀ (t : τ), ∃ t', writeAllS D chunk fuel ki ks N (rs.map fun r => (r.1, fun f => some (atEnd (f.bytes ++ r.2)))) t = some t' ∧
      got t' = got t ++ records ki ks N rs := by
  intro rs
  induction rs with
  | nil => intro _ _ _ t; exact ⟨t, rfl, by rw [records]; simp⟩
  | cons r rs ih =>
    intro hf hl hfu t
    rw [records_cons, List.length_append] at hl hfu
    obtain ⟨t1, a1, a2⟩ := stream_write_record hd (data := fun f => some (atEnd (f.bytes ++ r.2))) hc (fun b => rfl) (hf r (List.mem_cons_self ..)) (by omega) t (fuel := fuel) (by omega)
    obtain ⟨t2, b1, b2⟩ := ih (fun x hx => hf x (List.mem_cons_of_mem _ hx)) (by omega) (by omega) t1
    refine ⟨t2, ?_, by rw [b2, a2, records_cons, List.append_assoc]⟩
    rw [List.map_cons, writeAllS]
    show (writeRecS D chunk fuel ki ks N r.1 (fun f => some (atEnd (f.bytes ++ r.2))) t).bind _ = _
    rw [a1, Option.bind_some, b1]

/-- **C142** What is written to a stream as records is read from it as the same records: written to any stream that takes
everything, and then read with `read_remainder` as the data's operator from any stream that delivers what was written. -/
theorem stream_records_round_trip {D : Strm Byte τ} {got : τ → List Byte} (hd : Reliable D got) (h : IsSource S rem) (hS : Lawful S)
    {chunk ki ks N : Nat} (hc : 0 < chunk) (hki : 0 < ki) (hks : 0 < ks) {fuel max : Nat} (rs : List (Nat × List Byte)) (hf : ∀ r ∈ rs, Fits ki ks N r.1 r.2)
    (hm : ∀ r ∈ rs, r.2.length ≤ max) (hl : (records ki ks N rs).length < 2 ^ 63) (hfu : ki + ks + (records ki ks N rs).length + 65538 < fuel)
    {t : τ} (ht : got t = []) :
    ∃ t', writeAllS D chunk fuel ki ks N (rs.map fun r => (r.1, fun f => some (atEnd (f.bytes ++ r.2)))) t = some t' ∧
      ∀ s : σ, S.state s = .ok → rem s = got t' → ∃ s', readAllS S fuel ki ks N (restOf fuel max) rs.length s = some (rs, s') ∧ rem s' = [] := by
  obtain ⟨t', a1, a2⟩ := stream_write_records hd (chunk := chunk) hc rs hf hl (fuel := fuel) (by omega) t
  rw [ht, List.nil_append] at a2
  refine ⟨t', a1, fun s hs hr => ?_⟩
  have hlen : ∀ r ∈ rs, r.2.length ≤ (records ki ks N rs).length := by
    intro r hr
    obtain ⟨a, b, e⟩ := List.append_of_mem hr
    rw [e, records_append, records_cons]
    simp only [List.length_append, record_length]
    omega
  obtain ⟨vs, s', b1, b2, b3, b4, -⟩ := stream_read_records h hS hki hks (restOf_natural fuel max) (Q := fun p v => v = p) rs hf
    (fun r hr => Nat.lt_of_le_of_lt (hlen r hr) (Nat.lt_of_lt_of_le hl (by decide +kernel)))
    (fun r hr => restOf_gets (hm r hr) (by have := hlen r hr; omega)) [] s hs (by rw [hr, a2, List.append_nil]) hfu
  have : vs = rs := by
    clear b1 hlen a1 a2 hm hl hfu hf
    induction rs generalizing vs with
    | nil => cases vs with
      | nil => rfl
      | cons _ _ => cases b2
    | cons r rs ih => cases vs with
      | nil => cases b2
      | cons v vs =>
        rw [List.map_cons, List.map_cons] at b2
        rw [List.zip_cons_cons] at b3
        have e1 : v.2 = r.2 := b3 (r, v) (List.mem_cons_self ..)
        injection b2 with e2 e3
        rw [ih vs e3 (fun p hp => b3 p (List.mem_cons_of_mem _ hp)), show v = r from Prod.ext e2 e1]
  rw [this] at b1
  exact ⟨s', b1, b4⟩

/-! ### Records in a `std::istream` -/

/-- `operator >>(std::istream&, record)`, 481-499: the data's operator gets the stream itself. The stream is the same file as for
`readRecOf`, its state ok when `good()`; `seekg` (498) of a position that a `streamoff` can have. -/
def readRecI (chunk ks N : Nat) (rd : Reader α) (f : File) : Option (Option α × File) :=
  match rdNum chunk f ks with
  | none => none
  | some (size, f) =>
    if f.st ≠ .ok then some (none, f)                                          -- 488
    else
      (rd (file chunk) f).bind fun r =>                                        -- 491-492
        if r.2.st ≠ .ok then some (some r.1, r.2)                              -- 493
        else (seekbeg r.2 (f.pos + padded ks N size)).map fun f => (some r.1, f)   -- 495-496

/-- From a stream that has `payload` and more the operator takes the value `v` (up to `Q`) without trouble. -/
def Reader.Takes (rd : Reader α) (payload : List Byte) (Q : α → Prop) : Prop :=
  ∀ {σ : Type} {S : Strm Byte σ} {rem : σ → List Byte}, IsSource S rem → ∀ (rest : List Byte) s, S.state s = .ok → rem s = payload ++ rest →
    ∃ v s', rd S s = some (v, s') ∧ Q v ∧ S.state s' = .ok

/-- The file, its bytes fixed. -/
def fileSub (chunk : Nat) (b : List Byte) : Strm Byte { f : File // f.bytes = b } where
  read f n := ((fread chunk f.1 n).1, ⟨(fread chunk f.1 n).2, f.2⟩)
  write f _ := (0, f)
  close f := f
  flush f := f
  state f := f.1.st

theorem fileSub_hom (chunk : Nat) (b : List Byte) : Hom (fileSub chunk b) (file chunk) Subtype.val := ⟨fun _ _ => rfl, fun _ => rfl⟩

theorem fileSub_source {chunk : Nat} (hc : 0 < chunk) (b : List Byte) : IsSource (fileSub chunk b) (fun f => frem f.1) :=
  have h := file_source hc
  ⟨fun f n => h.split f.1 n, fun f n => h.le f.1 n, fun f n => h.more f.1 n, fun f n => h.eof f.1 n, fun f => h.zero f.1⟩

/-- A record read from a `std::istream` by an operator that knows by itself where its data ends: it gets the data, and the stream
is left behind the record. (`_partial`: such an operator only - nothing keeps another from reading on, see below.) -/
theorem istream_read_record_partial {chunk ki ks N : Nat} (hc : 0 < chunk) {id : Nat} {payload : List Byte} {pre rest : List Byte} (hf : Fits ki ks N id payload)
    (hl : (pre ++ record ki ks N id payload).length < 2 ^ 63) {rd : Reader α} (hn : rd.Natural) {Q : α → Prop} (hg : rd.Takes payload Q) :
    ∃ v, readRecI chunk ks N rd ⟨pre ++ record ki ks N id payload ++ rest, pre.length + ki, .ok⟩ =
        some (some v, ⟨pre ++ record ki ks N id payload ++ rest, (pre ++ record ki ks N id payload).length, .ok⟩) ∧ Q v := by
  have e : (pre ++ record ki ks N id payload).length = pre.length + ki + ks + payload.length + padding N payload.length := by
    rw [List.length_append, record_length]; omega
  have hb : pre ++ record ki ks N id payload ++ rest =
      (pre ++ leEnc ki id) ++ (leEnc ks payload.length ++ (payload ++ List.replicate (padding N payload.length) 0 ++ rest)) := by
    simp [record]
  have hrd : rdNum chunk ⟨pre ++ record ki ks N id payload ++ rest, pre.length + ki, .ok⟩ ks =
      some (payload.length, ⟨pre ++ record ki ks N id payload ++ rest, pre.length + ki + ks, .ok⟩) := by
    refine rdNum_ok (rest := payload ++ List.replicate (padding N payload.length) 0 ++ rest) hc rfl (by have := hf.2; omega) ?_
    simp only
    rw [hb, List.drop_left' (by rw [List.length_append, leEnc_length])]
  let f0 : { f : File // f.bytes = pre ++ record ki ks N id payload ++ rest } := ⟨⟨pre ++ record ki ks N id payload ++ rest, pre.length + ki + ks, .ok⟩, rfl⟩
  obtain ⟨v, f1, g1, g2, g3⟩ := hg (fileSub_source hc _) (List.replicate (padding N payload.length) 0 ++ rest) f0 rfl (by
    show List.drop (pre.length + ki + ks) (pre ++ record ki ks N id payload ++ rest) = payload ++ (List.replicate (padding N payload.length) 0 ++ rest)
    rw [hb, show (pre ++ leEnc ki id) ++ (leEnc ks payload.length ++ (payload ++ List.replicate (padding N payload.length) 0 ++ rest)) =
      (pre ++ leEnc ki id ++ leEnc ks payload.length) ++ (payload ++ (List.replicate (padding N payload.length) 0 ++ rest)) by simp]
    rw [List.drop_left' (by rw [List.length_append, List.length_append, leEnc_length, leEnc_length])])
  have hh := hn (fileSub_hom chunk (pre ++ record ki ks N id payload ++ rest)) f0
  rw [g1, Option.map_some] at hh
  refine ⟨v, ?_, g2⟩
  unfold readRecI
  rw [hrd]
  simp only
  rw [if_neg (by simp)]
  show (rd (file chunk) f0.1).bind _ = _
  rw [hh, Option.bind_some]
  simp only
  rw [if_neg (fun c => c g3)]
  unfold seekbeg padded
  rw [Nat.mod_eq_of_lt hf.2, if_pos (by omega), f1.2, e]
  simp only [Option.map_some]
  rw [Nat.add_assoc (pre.length + ki + ks)]

/-- The same operator that gets exactly the data of a record from a file gets, from a `std::istream`, the padding and the next
record as well, and the stream is then not behind the record but at its end: the records behind it are lost. -/
theorem istream_reads_past :
    (readRecOf 8 1 4 (restOf 70000 100) ⟨[7, 2, 1, 2, 0, 0, 9, 1, 8, 0, 0, 0], 1, .ok⟩).map (fun r => (r.1, r.2.pos, r.2.st)) = some (some [1, 2], 6, .ok) ∧
    (readRecI 8 1 4 (restOf 70000 100) ⟨[7, 2, 1, 2, 0, 0, 9, 1, 8, 0, 0, 0], 1, .ok⟩).map (fun r => (r.1, r.2.pos, r.2.st)) =
      some (some [1, 2, 0, 0, 9, 1, 8, 0, 0, 0], 12, .eof) := by decide +kernel

/-- An operator that takes a fixed number of bytes, for `istream_read_record_partial`. -/
def fixedOf (k fuel : Nat) : Reader (List Byte) := fun S s => (readArray S fuel s 1 k).map fun r => (r.1, r.2.2)

theorem fixedOf_natural (k fuel : Nat) : Reader.Natural (fixedOf k fuel) := fun h s => by
  show (readArray _ fuel _ 1 k).map _ = _
  rw [readArray_hom h, Option.map_map]
  show _ = Option.map _ ((readArray _ fuel s 1 k).map _)
  rw [Option.map_map]
  rfl

theorem fixedOf_takes {payload : List Byte} {fuel : Nat} (h0 : payload ≠ []) (hf : payload.length < fuel) : Reader.Takes (fixedOf payload.length fuel) payload (fun v => v = payload) := by
  intro σ S rem h rest s hs hr
  have hpos := List.length_pos_iff.2 h0
  obtain ⟨s', e1, e2, e3⟩ := read_array_full h s 1 payload.length fuel (by omega) (by omega) (by rw [hr, List.length_append]; omega)
  rw [Nat.one_mul] at e1
  exact ⟨payload, s', by show (readArray S fuel s 1 payload.length).map _ = _; rw [e1, hr, List.take_left]; rfl, rfl, e3⟩

/-! ### Not vacuous -/

/-- Two records with padding, from a stream that gives three bytes at a time; the operator reads one byte of each record only. -/
def firstByte : Reader (List Byte) := fun S s => some (S.read s 1)

theorem firstByte_natural : Reader.Natural firstByte := fun h s => by
  show some _ = some _
  rw [h.read]

example : (readAllS (pipe 3) 70000 1 1 4 firstByte 2 ([7, 5, 1, 2, 3, 4, 5, 0, 0, 0, 9, 1, 8, 0, 0, 0, 77], [], .ok)).map (fun r => (r.1, r.2.1)) =
    some ([(7, [1]), (9, [8])], [77]) := by decide +kernel

example : (skimAllS (pipe 3) 70000 1 1 4 2 ([7, 5, 1, 2, 3, 4, 5, 0, 0, 0, 9, 1, 8, 0, 0, 0, 77], [], .ok)).map (fun r => (r.1, r.2.1)) =
    some ([7, 9], [77]) := by decide +kernel

example : (writeAllS (pipe 3) 5 70000 1 1 4 [(7, fun f => some (atEnd (f.bytes ++ [1, 2, 3, 4, 5]))), (9, fun f => some (atEnd (f.bytes ++ [8])))] ([], [], .ok)).map (fun t => t.2.1) =
    some [7, 5, 1, 2, 3, 4, 5, 0, 0, 0, 9, 1, 8, 0, 0, 0] := by decide +kernel

/-- A record cut off behind two bytes: the call throws. Cut off in long data: it answers. -/
example : ignoreS (pipe 3) 70000 1 4 ([5, 1, 2], [], .ok) = none ∧
    (ignoreS (pipe 3) 70000 1 4 ([40, 1, 2], [], .ok)).map (fun r => (r.1, r.2.2.2)) = some (false, .eof) := by decide +kernel

end Verif.Record
