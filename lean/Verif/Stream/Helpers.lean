import Verif.Stream.Source
/-
Model of the non-virtual helpers of `stdex::stream::basic` (include/stdex/stream.hpp 148-769), on
top of an arbitrary stream.

* Loops take a bound `fuel` on the number of iterations and yield `none` when it is exhausted
  (the C++ loop would still be running); theorems are for every fuel, or show that a certain fuel
  suffices.
* The host is little-endian, so `LE2HE`/`HE2LE` are the identity on memory (C17 covers big-endian
  hosts) and the memory of a `k`-byte number is its little-endian byte sequence.
* A caller's array of `count` elements of `size` bytes exists in memory, so `size * count` does not
  overflow (378 would throw).
-/
namespace Verif.Stream
variable {β σ τ : Type}

/-! ### read_array -/

/-- The loop of `read_array`, 378-386: bytes placed in the array, number of bytes still missing. -/
def readLoop (S : Strm β σ) : Nat → σ → Nat → Option (List β × Nat × σ)
  | 0, _, _ => none
  | fuel + 1, s, to_read =>
    let r := S.read s to_read                                    -- 379
    let rest := to_read - r.1.length                             -- 380
    if rest = 0 then some (r.1, 0, r.2)                          -- 381
    else if S.state r.2 ≠ .ok then some (r.1, rest, r.2)         -- 383
    else (readLoop S fuel r.2 rest).map fun q => (r.1 ++ q.1, q.2)

/-- `read_array`, 376-387: (bytes placed, returned count, stream). -/
def readArray (S : Strm β σ) (fuel : Nat) (s : σ) (size count : Nat) : Option (List β × Nat × σ) :=
  (readLoop S fuel s (size * count)).map fun r =>
    (r.1, if r.2.1 = 0 then count else count - r.2.1 / size, r.2.2)

theorem readLoop_total (S : Strm β σ) (hl : ∀ s n, (S.read s n).1.length ≤ n) :
    ∀ fuel s n d m s', readLoop S fuel s n = some (d, m, s') → d.length + m = n := by
  intro fuel
  induction fuel with
  | zero => intro s n d m s' h; cases h
  | succ fuel ih =>
    intro s n d m s' h
    have hle := hl s n
    rw [readLoop] at h
    split at h
    · cases h; omega
    · split at h
      · cases h; omega
      · rw [Option.map_eq_some_iff] at h
        obtain ⟨⟨d2, m2, s2⟩, h1, h2⟩ := h
        cases h2
        have := ih _ _ _ _ _ h1
        rw [List.length_append]
        show (S.read s n).1.length + d2.length + m = n
        omega

/-- C31 (for transfers that end at an element boundary): whatever the stream does (short reads,
failures), if the bytes it delivered make up whole elements, `read_array` returns their number. -/
theorem read_array_counts_partial (S : Strm β σ) (hl : ∀ s n, (S.read s n).1.length ≤ n)
    (fuel : Nat) (s : σ) (size count : Nat) (hs : 0 < size) (d : List β) (n : Nat) (s' : σ)
    (h : readArray S fuel s size count = some (d, n, s')) (hd : d.length % size = 0) :
    n * size = d.length := by
  unfold readArray at h
  rw [Option.map_eq_some_iff] at h
  obtain ⟨⟨d2, m, s2⟩, h1, h2⟩ := h
  have ht := readLoop_total S hl _ _ _ _ _ _ h1
  simp only [Prod.mk.injEq] at h2
  obtain ⟨rfl, hn, rfl⟩ := h2
  obtain ⟨q, hq⟩ : ∃ q, d2.length = size * q := ⟨d2.length / size, (Nat.mul_div_cancel' (Nat.dvd_of_mod_eq_zero hd)).symm⟩
  have hqc : q ≤ count := by
    apply Nat.le_of_mul_le_mul_left _ hs
    omega
  have hm : m = size * (count - q) := by
    rw [Nat.mul_sub]; omega
  split at hn
  · rename_i h0
    have : count - q = 0 := by
      rcases Nat.mul_eq_zero.1 (hm.symm.trans h0) with c | c
      · omega
      · exact c
    rw [← hn, hq, show count = q by omega, Nat.mul_comm]
  · rw [← hn, hm, Nat.mul_div_cancel_left _ hs, hq, show count - (count - q) = q by omega, Nat.mul_comm]

/-- What `read_array` returns in general: the number of elements completely or partly filled. -/
theorem read_array_counts_started (S : Strm β σ) (hl : ∀ s n, (S.read s n).1.length ≤ n)
    (fuel : Nat) (s : σ) (size count : Nat) (hs : 0 < size) (d : List β) (n : Nat) (s' : σ)
    (h : readArray S fuel s size count = some (d, n, s')) :
    n = (d.length + (size - 1)) / size ∧ d.length / size ≤ n ∧ n ≤ d.length / size + 1 := by
  unfold readArray at h
  rw [Option.map_eq_some_iff] at h
  obtain ⟨⟨d2, m, s2⟩, h1, h2⟩ := h
  have ht := readLoop_total S hl _ _ _ _ _ _ h1
  simp only [Prod.mk.injEq] at h2
  obtain ⟨rfl, hn, rfl⟩ := h2
  have key : n = (d2.length + (size - 1)) / size := by
    have e : n = count - m / size := by
      split at hn
      · rename_i h0; rw [h0, Nat.zero_div]; omega
      · exact hn.symm
    rw [e]
    symm
    have h3 := Nat.div_add_mod m size
    have h4 := Nat.mod_lt m hs
    have h5 : m / size ≤ count := by
      apply Nat.le_of_mul_le_mul_left _ hs
      omega
    apply (Nat.div_eq_iff hs).2
    have h6 : (count - m / size) * size = size * count - size * (m / size) := by
      rw [Nat.sub_mul, Nat.mul_comm, Nat.mul_comm (m / size)]
    rw [h6]
    omega
  refine ⟨key, ?_, ?_⟩
  · rw [key]; exact Nat.div_le_div_right (by omega)
  · rw [key]
    have := Nat.div_le_div_right (c := size) (show d2.length + (size - 1) ≤ d2.length + size by omega)
    rw [Nat.add_div_right _ hs] at this
    exact this

/-- C31 fails for a transfer that ends inside an element: three bytes of a four-byte element count as
one complete element. -/
theorem read_array_counts_incomplete_element :
    readArray (pipe 16 : Strm Nat _) 10 ([1, 2, 3], [], .ok) 4 1 =
      some ([1, 2, 3], 1, ([], [], .eof)) := by decide +kernel

/-- On a well-behaved source `read_array`'s loop delivers as much as there is. -/
theorem readLoop_source {S : Strm β σ} {rem : σ → List β} (h : IsSource S rem) :
    ∀ (fuel : Nat) (s : σ) (n : Nat), n < fuel →
      ∃ s', readLoop S fuel s n = some ((rem s).take n, n - ((rem s).take n).length, s') ∧
        rem s' = (rem s).drop n ∧
        (n ≠ 0 → n ≤ (rem s).length → S.state s' = .ok) ∧
        ((rem s).length < n → S.state s' = .eof) ∧
        (n = 0 → S.state s' = .ok ∨ S.state s' = S.state s) := by
  intro fuel
  induction fuel with
  | zero => intro s n hn; omega
  | succ fuel ih =>
    intro s n hn
    have hle := h.le s n
    have hsp := h.split s n
    have hr := h.read_eq s n
    have hlen : (S.read s n).1.length ≤ (rem s).length := by
      have := congrArg List.length hsp
      rw [List.length_append] at this
      omega
    rw [readLoop]
    by_cases h0 : n - (S.read s n).1.length = 0
    · rw [if_pos h0]
      have hn' : (S.read s n).1.length = n := by omega
      refine ⟨(S.read s n).2, ?_, ?_, ?_, ?_, ?_⟩
      · rw [hr.1, hn', List.length_take, Nat.min_eq_left (by omega), Nat.sub_self]
      · rw [hr.2, hn']
      · intro hne hle2
        exact (h.more s n hne (by intro c; rw [c, List.length_nil] at hlen; omega)).2
      · intro hlt; omega
      · intro hz; rw [hz]; exact h.zero s
    · rw [if_neg h0]
      have hne : n ≠ 0 := by omega
      by_cases hrem : rem s = []
      · have he := h.eof s n hne hrem
        have hd : (S.read s n).1 = [] := by
          have := hsp; rw [hrem] at this
          exact (List.append_eq_nil_iff.1 this).1
        have hr2 : rem (S.read s n).2 = [] := by
          have := hsp; rw [hrem] at this
          exact (List.append_eq_nil_iff.1 this).2
        rw [he, if_pos (by decide), hrem]
        refine ⟨(S.read s n).2, ?_, ?_, ?_, ?_, ?_⟩
        · rw [hd]; simp
        · rw [hr2]; simp
        · intro _ hc; rw [List.length_nil] at hc; omega
        · intro _; exact he
        · intro hz; omega
      · obtain ⟨hm1, hm2⟩ := h.more s n hne hrem
        have hpos := List.length_pos_iff.2 hm1
        rw [hm2, if_neg (by decide)]
        obtain ⟨s', e1, e2, e3, e4, e5⟩ := ih (S.read s n).2 (n - (S.read s n).1.length) (by omega)
        have hrl : (rem (S.read s n).2).length = (rem s).length - (S.read s n).1.length := by
          rw [hr.2, List.length_drop]
        refine ⟨s', ?_, ?_, ?_, ?_, ?_⟩
        · rw [e1, Option.map_some]
          have t1 : (S.read s n).1 ++ (rem (S.read s n).2).take (n - (S.read s n).1.length) = (rem s).take n := by
            conv => rhs; rw [← hsp]
            rw [List.take_append, List.take_of_length_le hle]
          rw [t1]
          have t2 := congrArg List.length t1
          rw [List.length_append] at t2
          rw [← t2]
          rw [show n - (S.read s n).1.length - (List.take (n - (S.read s n).1.length) (rem (S.read s n).2)).length
            = n - ((S.read s n).1.length + (List.take (n - (S.read s n).1.length) (rem (S.read s n).2)).length) by omega]
        · rw [e2]
          conv => rhs; rw [← hsp]
          rw [List.drop_append, List.drop_eq_nil_of_le hle, List.nil_append]
        · intro _ hle2
          exact e3 h0 (by omega)
        · intro hlt
          exact e4 (by omega)
        · intro hz; omega

/-- C31.  On a well-behaved source `read_array` fills the array with the next bytes and returns `count`
when there are enough of them. -/
theorem read_array_full {S : Strm β σ} {rem : σ → List β} (h : IsSource S rem) (s : σ) (size count fuel : Nat)
    (hf : size * count < fuel) (hn : size * count ≠ 0) (hle : size * count ≤ (rem s).length) :
    ∃ s', readArray S fuel s size count = some ((rem s).take (size * count), count, s') ∧
      rem s' = (rem s).drop (size * count) ∧ S.state s' = .ok := by
  obtain ⟨s', e1, e2, e3, _, _⟩ := readLoop_source h fuel s (size * count) hf
  refine ⟨s', ?_, e2, e3 hn hle⟩
  unfold readArray
  rw [e1, Option.map_some, List.length_take, Nat.min_eq_left hle, Nat.sub_self]
  rfl

/-! ### skip, read_remainder -/

/-- `for` loop of `skip`, 153-157: the Boolean tells whether `read_byte` threw. -/
def skipBytes (S : Strm β σ) (fuel : Nat) : Nat → σ → Option (Bool × σ)
  | 0, s => some (false, s)
  | i + 1, s =>
    match readArray S fuel s 1 1 with
    | none => none
    | some (_, c, s') =>
      if c ≠ 1 then some (true, s')                             -- 219-221 throws
      else if S.state s' ≠ .ok then some (false, s')            -- 155
      else skipBytes S fuel i s'

/-- `while` loop of `skip`, 163-167. -/
def skipBlocks (S : Strm β σ) (block : Nat) : Nat → Nat → σ → Option (Bool × σ)
  | 0, _, _ => none
  | fuel + 1, amount, s =>
    if amount = 0 then some (false, s)
    else
      match readArray S (fuel + 1) s 1 (min amount block) with
      | none => none
      | some (_, c, s') =>
        if S.state s' ≠ .ok then some (false, s') else skipBlocks S block fuel (amount - c) s'

/-- `skip`, 148-171 (allocation of the dummy block succeeds). -/
def skip (S : Strm β σ) (fuel : Nat) (s : σ) (amount : Nat) : Option (Bool × σ) :=
  if amount = 1 then
    match readArray S fuel s 1 1 with
    | none => none
    | some (_, c, s') => some (decide (c ≠ 1), s')
  else if amount < 16 then skipBytes S fuel amount s
  else skipBlocks S (min amount 65536) fuel amount s

theorem readOne_source {S : Strm β σ} {rem : σ → List β} (h : IsSource S rem) (s : σ) (fuel : Nat)
    (hf : 1 < fuel) :
    ∃ s', readArray S fuel s 1 1 = some ((rem s).take 1, ((rem s).take 1).length, s') ∧
      rem s' = (rem s).drop 1 ∧ (S.state s' = if rem s = [] then .eof else .ok) := by
  obtain ⟨s', e1, e2, e3, e4, _⟩ := readLoop_source h fuel s 1 hf
  refine ⟨s', ?_, e2, ?_⟩
  · unfold readArray
    rw [show 1 * 1 = 1 from rfl, e1, Option.map_some]
    cases hr : rem s with
    | nil => simp
    | cons a l => simp
  · cases hr : rem s with
    | nil => rw [if_pos rfl]; exact e4 (by rw [hr]; simp)
    | cons a l => rw [if_neg (by simp)]; exact e3 (by decide) (by rw [hr]; simp)

theorem skipBytes_source {S : Strm β σ} {rem : σ → List β} (h : IsSource S rem) (fuel : Nat) (hf : 1 < fuel) :
    ∀ (i : Nat) (s : σ), i ≤ (rem s).length →
      ∃ s', skipBytes S fuel i s = some (false, s') ∧ rem s' = (rem s).drop i ∧
        (S.state s' = .ok ∨ i = 0 ∧ s' = s) := by
  intro i
  induction i with
  | zero => intro s _; exact ⟨s, rfl, by simp, Or.inr ⟨rfl, rfl⟩⟩
  | succ i ih =>
    intro s hi
    obtain ⟨s1, e1, e2, e3⟩ := readOne_source h s fuel hf
    have hne : rem s ≠ [] := by intro c; rw [c, List.length_nil] at hi; omega
    rw [if_neg hne] at e3
    have hl : ((rem s).take 1).length = 1 := by rw [List.length_take]; omega
    obtain ⟨s', i1, i2, i3⟩ := ih s1 (by rw [e2, List.length_drop]; omega)
    refine ⟨s', ?_, ?_, ?_⟩
    · rw [skipBytes, e1]
      simp only []
      rw [hl, if_neg (by decide), e3, if_neg (by decide)]
      exact i1
    · rw [i2, e2, List.drop_drop, Nat.add_comm]
    · rcases i3 with c | ⟨_, c⟩
      · exact Or.inl c
      · rw [c]; exact Or.inl e3

theorem skipBlocks_source {S : Strm β σ} {rem : σ → List β} (h : IsSource S rem) (block : Nat) (hb : 0 < block) :
    ∀ (fuel amount : Nat) (s : σ), amount ≤ (rem s).length → amount + block < fuel →
      ∃ s', skipBlocks S block fuel amount s = some (false, s') ∧ rem s' = (rem s).drop amount ∧
        (S.state s' = .ok ∨ amount = 0 ∧ s' = s) := by
  intro fuel
  induction fuel with
  | zero => intro amount s _ hf; omega
  | succ fuel ih =>
    intro amount s ha hf
    rw [skipBlocks]
    by_cases h0 : amount = 0
    · rw [if_pos h0, h0]; exact ⟨s, rfl, by simp, Or.inr ⟨rfl, rfl⟩⟩
    · rw [if_neg h0]
      obtain ⟨s1, e1, e2, e3⟩ := read_array_full h s 1 (min amount block) (fuel + 1)
        (by rw [Nat.one_mul]; omega) (by rw [Nat.one_mul]; omega) (by rw [Nat.one_mul]; omega)
      rw [Nat.one_mul] at e1 e2
      rw [e1]
      simp only []
      rw [e3, if_neg (by decide)]
      obtain ⟨s', i1, i2, i3⟩ := ih (amount - min amount block) s1
        (by rw [e2, List.length_drop]; omega) (by omega)
      refine ⟨s', i1, ?_, ?_⟩
      · rw [i2, e2, List.drop_drop]; congr 1; omega
      · rcases i3 with c | ⟨_, c⟩
        · exact Or.inl c
        · rw [c]; exact Or.inl e3

/-- `skip` passes over exactly the requested bytes when there are enough of them, in all three of its
strategies, and without throwing. -/
theorem skip_source {S : Strm β σ} {rem : σ → List β} (h : IsSource S rem) (s : σ) (amount fuel : Nat)
    (ha : amount ≤ (rem s).length) (hf : amount + 65536 + 1 < fuel) :
    ∃ s', skip S fuel s amount = some (false, s') ∧ rem s' = (rem s).drop amount ∧
      (S.state s' = .ok ∨ amount = 0 ∧ s' = s) := by
  unfold skip
  by_cases h1 : amount = 1
  · rw [if_pos h1]
    obtain ⟨s1, e1, e2, e3⟩ := readOne_source h s fuel (by omega)
    have hne : rem s ≠ [] := by intro c; rw [c, List.length_nil] at ha; omega
    rw [if_neg hne] at e3
    have hl : ((rem s).take 1).length = 1 := by rw [List.length_take]; omega
    rw [e1]
    simp only []
    rw [hl]
    exact ⟨s1, rfl, by rw [e2, h1], Or.inl e3⟩
  · rw [if_neg h1]
    by_cases h2 : amount < 16
    · rw [if_pos h2]; exact skipBytes_source h fuel (by omega) amount s ha
    · rw [if_neg h2]
      exact skipBlocks_source h (min amount 65536) (by omega) fuel amount s ha (by omega)

/-- The loop of `read_remainder`, 196-208: `result` has the bytes read so far (`offset` of them),
`length` is the size it was resized to. -/
def readRemLoop (S : Strm β σ) (max : Nat) : Nat → List β → Nat → σ → Option (List β × σ)
  | 0, _, _, _ => none
  | fuel + 1, result, length, s =>
    if result.length < max then
      let length := min length max                               -- 197
      match readArray S (fuel + 1) s 1 (length - result.length) with   -- 203
      | none => none
      | some (d, _, s') =>
        if S.state s' ≠ .ok then some (result ++ d, s')
        else readRemLoop S max fuel (result ++ d) (length + 65536) s'
    else some (result, s)

/-- `read_remainder`, 190-211 (allocations succeed). -/
def readRemainder (S : Strm β σ) (fuel : Nat) (s : σ) (max : Nat) : Option (List β × σ) :=
  readRemLoop S max fuel [] 65536 s

theorem readRemLoop_source {S : Strm β σ} {rem : σ → List β} (h : IsSource S rem) (max : Nat) :
    ∀ (fuel : Nat) (result : List β) (length : Nat) (s : σ),
      result.length ≤ length → (result.length < max → result.length < min length max) →
      length - result.length ≤ 65536 → (rem s).length + 65537 < fuel →
      ∃ s', readRemLoop S max fuel result length s =
          some (result ++ (rem s).take (max - result.length), s') ∧
        rem s' = (rem s).drop (max - result.length) := by
  intro fuel
  induction fuel with
  | zero => intro _ _ _ _ _ _ hf; omega
  | succ fuel ih =>
    intro result length s hrl hlt hsz hf
    rw [readRemLoop]
    by_cases h1 : result.length < max
    · rw [if_pos h1]
      simp only []
      have hpos := hlt h1
      obtain ⟨s1, e1, e2, e3, e4, _⟩ := readLoop_source h (fuel + 1) s (1 * (min length max - result.length))
        (by rw [Nat.one_mul]; omega)
      unfold readArray
      rw [e1, Option.map_some]
      rw [Nat.one_mul] at *
      simp only []
      by_cases hc : min length max - result.length ≤ (rem s).length
      · rw [e3 (by omega) hc, if_neg (by decide)]
        have htl : ((rem s).take (min length max - result.length)).length = min length max - result.length := by
          rw [List.length_take]; omega
        have hr1 : (rem s1).length = (rem s).length - (min length max - result.length) := by
          rw [e2, List.length_drop]
        obtain ⟨s', i1, i2⟩ := ih (result ++ (rem s).take (min length max - result.length))
          (min length max + 65536) s1 (by rw [List.length_append, htl]; omega)
          (by rw [List.length_append, htl]; omega) (by rw [List.length_append, htl]; omega) (by omega)
        rw [List.length_append, htl] at i1 i2
        refine ⟨s', ?_, ?_⟩
        · rw [i1, List.append_assoc, e2]
          congr 3
          conv => rhs; rw [show max - result.length = (min length max - result.length) +
            (max - (result.length + (min length max - result.length))) by omega]
          rw [List.take_add]
        · rw [i2, e2, List.drop_drop]; congr 1; omega
      · rw [e4 (by omega), if_pos (by decide)]
        refine ⟨s1, ?_, ?_⟩
        · rw [List.take_of_length_le (by omega), List.take_of_length_le (by omega)]
        · rw [e2, List.drop_eq_nil_of_le (by omega), List.drop_eq_nil_of_le (by omega)]
    · rw [if_neg h1]
      refine ⟨s, ?_, ?_⟩
      · rw [show max - result.length = 0 by omega, List.take_zero, List.append_nil]
      · rw [show max - result.length = 0 by omega, List.drop_zero]

/-- `read_remainder` returns everything that is left, up to `max` bytes. -/
theorem readRemainder_source {S : Strm β σ} {rem : σ → List β} (h : IsSource S rem) (s : σ) (max fuel : Nat)
    (hf : (rem s).length + 65537 < fuel) :
    ∃ s', readRemainder S fuel s max = some ((rem s).take max, s') ∧ rem s' = (rem s).drop max := by
  obtain ⟨s', e1, e2⟩ := readRemLoop_source h max fuel [] 65536 s (by simp) (by simp; omega) (by simp) hf
  exact ⟨s', by rw [readRemainder, e1]; simp, by rw [e2]; simp⟩

/-! ### write_stream -/

/-- The loop of `write_stream`, 565-578: (bytes copied so far, state of the destination, source,
destination).  The destination's `m_state` is overwritten in lines 564, 572 and 575. -/
def writeStreamLoop (S : Strm β σ) (D : Strm β τ) : Nat → σ → τ → Nat → Nat → Option (Nat × St × σ × τ)
  | 0, _, _, _, _ => none
  | fuel + 1, s, t, copied, to_write =>
    if to_write = 0 then some (copied, .ok, s, t)
    else
      let r := S.read s (min 65536 to_write)                     -- 566
      let w := D.write t r.1                                     -- 567
      let copied := copied + w.1
      let to_write := to_write - w.1
      if S.state r.2 = .eof then some (copied, .ok, r.2, w.2)    -- 570-574
      else if S.state r.2 ≠ .ok then some (copied, S.state r.2, r.2, w.2)  -- 575-577
      else writeStreamLoop S D fuel r.2 w.2 copied to_write

/-- `write_stream`, 560-580. -/
def writeStream (S : Strm β σ) (D : Strm β τ) (fuel : Nat) (s : σ) (t : τ) (amount : Nat) :
    Option (Nat × St × σ × τ) := writeStreamLoop S D fuel s t 0 amount

/-- C32.  Whatever source and destination do: the returned amount is the number of bytes the destination
accepted during the call. -/
theorem write_stream_count (S : Strm β σ) {D : Strm β τ} {got : τ → List β} (hd : IsSink D got) :
    ∀ (fuel : Nat) (s : σ) (t : τ) (c amount n : Nat) (st : St) (s' : σ) (t' : τ),
      writeStreamLoop S D fuel s t c amount = some (n, st, s', t') →
      ∃ acc, got t' = got t ++ acc ∧ n = c + acc.length := by
  intro fuel
  induction fuel with
  | zero => intro s t c a n st s' t' h; cases h
  | succ fuel ih =>
    intro s t c a n st s' t' h
    rw [writeStreamLoop] at h
    split at h
    · cases h; exact ⟨[], by simp, by simp⟩
    · simp only [] at h
      have hw := hd.write t (S.read s (min 65536 a)).1
      have hl := hd.le t (S.read s (min 65536 a)).1
      have one : ∀ l : List β, (l.take (D.write t (S.read s (min 65536 a)).1).1).length =
          min (D.write t (S.read s (min 65536 a)).1).1 l.length := fun l => List.length_take
      split at h
      · cases h
        exact ⟨_, hw, by rw [one]; omega⟩
      · split at h
        · cases h
          exact ⟨_, hw, by rw [one]; omega⟩
        · obtain ⟨acc, e1, e2⟩ := ih _ _ _ _ _ _ _ _ h
          refine ⟨(S.read s (min 65536 a)).1.take (D.write t (S.read s (min 65536 a)).1).1 ++ acc, ?_, ?_⟩
          · rw [e1, hw, List.append_assoc]
          · rw [e2, List.length_append, one]; omega

theorem writeStreamLoop_complete {S : Strm β σ} {rem : σ → List β} (h : IsSource S rem)
    {D : Strm β τ} {got : τ → List β} (hd : Reliable D got) :
    ∀ (fuel : Nat) (s : σ) (t : τ) (c amount : Nat), (rem s).length < fuel →
      ∃ s' t', writeStreamLoop S D fuel s t c amount = some (c + ((rem s).take amount).length, .ok, s', t') ∧
        got t' = got t ++ (rem s).take amount ∧ rem s' = (rem s).drop amount := by
  intro fuel
  induction fuel with
  | zero => intro s t c a hf; omega
  | succ fuel ih =>
    intro s t c a hf
    rw [writeStreamLoop]
    by_cases h0 : a = 0
    · rw [if_pos h0, h0]; exact ⟨s, t, by simp, by simp, by simp⟩
    · rw [if_neg h0]
      simp only []
      have hsp := h.split s (min 65536 a)
      have hle := h.le s (min 65536 a)
      have hr := h.read_eq s (min 65536 a)
      have hall := hd.all t (S.read s (min 65536 a)).1
      have hg := hd.got t (S.read s (min 65536 a)).1
      by_cases hrem : rem s = []
      · rw [hrem] at hsp
        obtain ⟨d0, r0⟩ := List.append_eq_nil_iff.1 hsp
        rw [h.eof s _ (by omega) hrem, if_pos rfl, hrem]
        refine ⟨(S.read s (min 65536 a)).2, (D.write t (S.read s (min 65536 a)).1).2, ?_, ?_, ?_⟩
        · rw [hall, d0]; simp
        · rw [hg, d0]; simp
        · rw [r0]; simp
      · obtain ⟨m1, m2⟩ := h.more s (min 65536 a) (by omega) hrem
        have hpos := List.length_pos_iff.2 m1
        have hrl : (rem (S.read s (min 65536 a)).2).length = (rem s).length - (S.read s (min 65536 a)).1.length := by
          rw [hr.2, List.length_drop]
        have hlen : (S.read s (min 65536 a)).1.length ≤ (rem s).length := by
          have := congrArg List.length hsp
          rw [List.length_append] at this
          omega
        rw [m2, if_neg (by decide), if_neg (by decide), hall]
        obtain ⟨s', t', e1, e2, e3⟩ := ih (S.read s (min 65536 a)).2 (D.write t (S.read s (min 65536 a)).1).2
          (c + (S.read s (min 65536 a)).1.length) (a - (S.read s (min 65536 a)).1.length) (by omega)
        have t1 : (S.read s (min 65536 a)).1 ++
            (rem (S.read s (min 65536 a)).2).take (a - (S.read s (min 65536 a)).1.length) = (rem s).take a := by
          conv => rhs; rw [← hsp]
          rw [List.take_append, List.take_of_length_le (show (S.read s (min 65536 a)).1.length ≤ a by omega)]
        refine ⟨s', t', ?_, ?_, ?_⟩
        · rw [e1, ← t1, List.length_append, Nat.add_assoc]
        · rw [e2, hg, List.append_assoc, t1]
        · rw [e3, hr.2, List.drop_drop]; congr 1; omega

/-- C32 (for a destination that accepts everything): `write_stream` copies exactly the remaining source
bytes, or `amount` of them, in order, in spite of arbitrarily short reads, returns their number and
ends in state ok. -/
theorem write_stream_complete_partial {S : Strm β σ} {rem : σ → List β} (h : IsSource S rem)
    {D : Strm β τ} {got : τ → List β} (hd : Reliable D got) (s : σ) (t : τ) (amount fuel : Nat)
    (hf : (rem s).length < fuel) :
    ∃ s' t', writeStream S D fuel s t amount = some (((rem s).take amount).length, .ok, s', t') ∧
      got t' = got t ++ (rem s).take amount ∧ rem s' = (rem s).drop amount := by
  have := writeStreamLoop_complete h hd fuel s t 0 amount hf
  rw [Nat.zero_add] at this
  exact this

/-- C32.  A failure of the *source* is reported as the destination's state, unless the requested
amount was already delivered completely. -/
theorem write_stream_source_failure (S : Strm β σ) (D : Strm β τ) (hS : Lawful S) (hD : Lawful D) :
    ∀ (fuel : Nat) (s : σ) (t : τ) (c amount n : Nat) (st : St) (s' : σ) (t' : τ),
      writeStreamLoop S D fuel s t c amount = some (n, st, s', t') → amount ≠ 0 →
      (S.state s' = .fail → st = .fail) ∨ (st = .ok ∧ n = c + amount) := by
  intro fuel
  induction fuel with
  | zero => intro s t c a n st s' t' h; cases h
  | succ fuel ih =>
    intro s t c a n st s' t' h hne
    rw [writeStreamLoop, if_neg hne] at h
    simp only [] at h
    split at h
    · rename_i he; cases h; left; intro hf; rw [he] at hf; cases hf
    · split at h
      · cases h; left; intro hf; exact hf
      · by_cases h0 : a - (D.write t (S.read s (min 65536 a)).1).1 = 0
        · cases fuel with
          | zero => cases h
          | succ fuel =>
            rw [writeStreamLoop, if_pos h0] at h
            cases h
            have l1 := hS.read_le s (min 65536 a)
            have l2 := hD.write_le t (S.read s (min 65536 a)).1
            exact Or.inr ⟨rfl, by omega⟩
        · rcases ih _ _ _ _ _ _ _ _ h h0 with c1 | ⟨c1, c2⟩
          · exact Or.inl c1
          · exact Or.inr ⟨c1, by omega⟩

/-- A destination that rejects everything (a full disk). -/
def fullDisk : Strm Nat (List Nat × St) where
  read s _ := ([], (s.1, .eof))
  write s _ := (0, (s.1, .fail))
  close s := s
  flush s := s
  state s := s.2

/-- C32 fails for a failing destination: nothing is copied, the source bytes are consumed, and the
resulting state of the destination is ok. -/
theorem write_stream_loses_failure :
    (writeStream (pipe 16 : Strm Nat _) fullDisk 10 ([1, 2, 3], [], .ok) ([], .ok) 100).map
      (fun r => (r.1, r.2.1, r.2.2.1.1, r.2.2.2)) = some (0, .ok, [], ([], .fail)) := by decide +kernel

example : (writeStream (pipe 2 : Strm Nat _) (pipe 7 : Strm Nat _) 10 ([1, 2, 3, 4, 5], [], .ok) ([], [9], .ok) 4).map
      (fun r => (r.1, r.2.1, r.2.2.2.2.1)) = some (4, .ok, [9, 1, 2, 3, 4]) := by decide +kernel

end Verif.Stream
