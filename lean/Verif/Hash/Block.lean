/-
Model of `stdex::block_hash<T>` (include/stdex/hash.hpp 73-129): the 64-byte block buffering
shared by MD5 and SHA-1.  The compression function `hash_block` (virtual, 121) is a
parameter: it sees the state and the 64-byte queue and may change both (`m_temp` aliases
`m_queue`, 125-128; SHA-1 does scramble it).
-/
namespace Verif.Hash

abbrev Byte := BitVec 8

/-- `hash_block` of the derived class: new `m_state`, new contents of `m_queue`. -/
abbrev Compress (S : Type) := S → List Byte → S × List Byte

/-- Data members: `m_counter` (124), `m_queue` (126), `m_state` of the derived class. -/
structure BH (S : Type) where
  c0 : Nat
  c1 : Nat
  queue : List Byte
  st : S

variable {S : Type}

/-- `memcpy(m_queue + j, data, data.length)`. -/
def put (q : List Byte) (j : Nat) (d : List Byte) : List Byte :=
  q.take j ++ d ++ q.drop (j + d.length)

/-- Loop `for (i = remainder; i + 64 <= length; i += 64) {...}`, hash.hpp 101-107, on the data
from `i` on: state, queue and the data left over. -/
def blocks (C : Compress S) (s : S) (q : List Byte) (d : List Byte) : S × List Byte × List Byte :=
  if _h : 64 ≤ d.length then
    let r := C s (d.take 64)
    blocks C r.1 r.2 (d.drop 64)
  else (s, q, d)
termination_by d.length
decreasing_by simp; omega

/-- `hash`, hash.hpp 82-118.  `length` is a `size_t`; `uint32_t` arithmetic wraps. -/
def hash (C : Compress S) (b : BH S) (d : List Byte) : BH S :=
  let length := d.length
  let len32 := length % 2 ^ 32                                     -- static_cast<uint32_t>(length)
  let j := (b.c0 >>> 3) &&& 63                                     -- 87
  let inc := (len32 <<< 3) % 2 ^ 32
  let c0 := (b.c0 + inc) % 2 ^ 32                                  -- 90
  let c1 := if c0 < inc then (b.c1 + 1) % 2 ^ 32 else b.c1         -- 91
  let c1 := (c1 + (len32 >>> 29)) % 2 ^ 32                         -- 92
  let remainder := 64 - j                                          -- 95
  if remainder ≤ length then
    let r := C b.st (put b.queue j (d.take remainder))             -- 99-100
    let (s, q, rest) := blocks C r.1 r.2 (d.drop remainder)        -- 101-107
    ⟨c0, c1, put q 0 rest, s⟩                                      -- 109, 117
  else
    ⟨c0, c1, put b.queue j d, b.st⟩                                -- 112, 117

/-- Several calls of `hash`. -/
def hashAll (C : Compress S) (b : BH S) (chunks : List (List Byte)) : BH S := chunks.foldl (hash C) b

/-! ## Specification: Merkle-Damgard iteration over 64-byte blocks -/

/-- The states after the complete blocks of a message. -/
def iterate (C : Compress S) (s : S) (m : List Byte) : S :=
  if _h : 64 ≤ m.length then iterate C (C s (m.take 64)).1 (m.drop 64) else s
termination_by m.length
decreasing_by simp; omega

/-! ## Proofs -/

/-- The compression function leaves a 64-byte queue. -/
def Keeps64 (C : Compress S) : Prop := ∀ s q, q.length = 64 → (C s q).2.length = 64

/-- The object has been fed message `m` from initial state `s0`; the high counter word is
only described if `exact`. -/
structure Rep (C : Compress S) (s0 : S) (exact : Prop) (b : BH S) (m : List Byte) : Prop where
  len : b.queue.length = 64
  lo : b.c0 = 8 * m.length % 2 ^ 32
  hi : exact → b.c1 = (8 * m.length / 2 ^ 32) % 2 ^ 32
  st : b.st = iterate C s0 m
  buf : b.queue.take (m.length % 64) = m.drop (64 * (m.length / 64))

theorem and63 (n : Nat) : n &&& 63 = n % 64 := Nat.and_two_pow_sub_one_eq_mod n 6

theorem put_length {q d : List Byte} {j : Nat} (h : j + d.length ≤ q.length) :
    (put q j d).length = q.length := by
  simp [put, Nat.min_eq_left (show j ≤ q.length by omega)]; omega

theorem put_take {q d : List Byte} {j : Nat} (h : j + d.length ≤ q.length) :
    (put q j d).take (j + d.length) = q.take j ++ d := by
  unfold put
  rw [List.take_append_of_le_length (by simp; omega)]
  exact List.take_of_length_le (by simp; omega)

theorem iterate_lt {C : Compress S} {s : S} {m : List Byte} (h : m.length < 64) : iterate C s m = s := by
  rw [iterate, dif_neg (by omega)]

theorem iterate_append {C : Compress S} (n : Nat) : ∀ (s : S) (a b : List Byte), a.length = 64 * n →
    iterate C s (a ++ b) = iterate C (iterate C s a) b := by
  induction n with
  | zero =>
    intro s a b h
    have : a = [] := List.eq_nil_of_length_eq_zero (by omega)
    subst this; rw [List.nil_append, iterate_lt (m := []) (by simp)]
  | succ n ih =>
    intro s a b h
    rw [iterate, dif_pos (by simp; omega), iterate.eq_1 C s a, dif_pos (by omega),
      List.take_append_of_le_length (by omega), List.drop_append_of_le_length (by omega)]
    exact ih _ _ _ (by simp; omega)

theorem iterate_blocks (C : Compress S) (s : S) (m : List Byte) :
    iterate C s m = iterate C s (m.take (64 * (m.length / 64))) := by
  have e : m = m.take (64 * (m.length / 64)) ++ m.drop (64 * (m.length / 64)) := (List.take_append_drop _ _).symm
  conv => lhs; rw [e]
  rw [iterate_append (m.length / 64) _ _ _ (by simp; omega)]
  exact iterate_lt (by simp; omega)

theorem iterate_one (C : Compress S) (s : S) (k : List Byte) (h : k.length = 64) :
    iterate C s k = (C s k).1 := by
  rw [iterate.eq_1, dif_pos (by omega), iterate_lt (by rw [List.length_drop]; omega),
    List.take_of_length_le (by omega)]

theorem blocks_spec (C : Compress S) (hC : Keeps64 C) : ∀ (n : Nat) (d : List Byte) (s : S) (q : List Byte),
    d.length ≤ n → q.length = 64 →
    (blocks C s q d).1 = iterate C s d ∧ (blocks C s q d).2.1.length = 64 ∧
    (blocks C s q d).2.2 = d.drop (64 * (d.length / 64)) := by
  intro n
  induction n with
  | zero =>
    intro d s q h hq
    rw [blocks, dif_neg (by omega)]
    exact ⟨(iterate_lt (by omega)).symm, hq, by rw [show d.length / 64 = 0 by omega]; rfl⟩
  | succ n ih =>
    intro d s q h hq
    by_cases h64 : 64 ≤ d.length
    · rw [blocks, dif_pos h64, iterate, dif_pos h64]
      obtain ⟨i1, i2, i3⟩ := ih (d.drop 64) (C s (d.take 64)).1 (C s (d.take 64)).2
        (by simp; omega) (hC _ _ (by simp; omega))
      refine ⟨i1, i2, ?_⟩
      rw [i3, List.drop_drop]
      congr 1
      simp; omega
    · rw [blocks, dif_neg h64]
      exact ⟨(iterate_lt (by omega)).symm, hq, by rw [show d.length / 64 = 0 by omega]; rfl⟩

theorem rep_hash {C : Compress S} (hC : Keeps64 C) {s0 : S} {exact : Prop} {b : BH S} {m d : List Byte}
    (h : Rep C s0 exact b m) (hd : exact → d.length < 2 ^ 32) : Rep C s0 exact (hash C b d) (m ++ d) := by
  obtain ⟨h1, h2, h3, h4, h5⟩ := h
  have hj : (b.c0 >>> 3) &&& 63 = m.length % 64 := by
    rw [and63, Nat.shiftRight_eq_div_pow, h2]; omega
  have hinc : ((d.length % 2 ^ 32) <<< 3) % 2 ^ 32 = 8 * d.length % 2 ^ 32 := by
    rw [Nat.shiftLeft_eq]; omega
  have hlo : (b.c0 + 8 * d.length % 2 ^ 32) % 2 ^ 32 = 8 * (m ++ d).length % 2 ^ 32 := by
    rw [h2, List.length_append]; omega
  have hhi : exact → ((if (b.c0 + 8 * d.length % 2 ^ 32) % 2 ^ 32 < 8 * d.length % 2 ^ 32 then (b.c1 + 1) % 2 ^ 32
      else b.c1) + ((d.length % 2 ^ 32) >>> 29)) % 2 ^ 32 = 8 * (m ++ d).length / 2 ^ 32 % 2 ^ 32 := by
    intro he
    have := hd he
    have := h3 he
    rw [Nat.shiftRight_eq_div_pow, h2, List.length_append]
    split <;> omega
  have hml : m.length % 64 + (m.drop (64 * (m.length / 64))).length = m.length % 64 + m.length % 64 := by
    simp; omega
  unfold hash
  simp only [hj, hinc]
  by_cases hr : 64 - m.length % 64 ≤ d.length
  · rw [if_pos hr]
    generalize hx : 64 - m.length % 64 = x at hr ⊢
    have hlx : (d.take x).length = x := by simp; omega
    have hput : put b.queue (m.length % 64) (d.take x) = m.drop (64 * (m.length / 64)) ++ d.take x := by
      have hl : m.length % 64 + (d.take x).length ≤ b.queue.length := by omega
      have h' := put_take hl
      rw [h5] at h'
      rw [← h']
      exact (List.take_of_length_le (by rw [put_length hl]; omega)).symm
    have hq64 : (put b.queue (m.length % 64) (d.take x)).length = 64 := by
      rw [put_length (by omega)]; exact h1
    have hb := blocks_spec C hC _ (d.drop x) (C b.st (put b.queue (m.length % 64) (d.take x))).1
      (C b.st (put b.queue (m.length % 64) (d.take x))).2 (Nat.le_refl _) (hC _ _ hq64)
    generalize hB : blocks C (C b.st (put b.queue (m.length % 64) (d.take x))).1
      (C b.st (put b.queue (m.length % 64) (d.take x))).2 (d.drop x) = B at hb
    obtain ⟨s, q, rest⟩ := B
    obtain ⟨b1, b2, b3⟩ := hb
    simp only at b1 b2 b3 ⊢
    have hrl : rest.length = (d.length - x) % 64 := by rw [b3]; simp; omega
    refine ⟨?_, hlo, hhi, ?_, ?_⟩
    · show (put q 0 rest).length = 64
      rw [put_length (by omega)]; exact b2
    · show s = iterate C s0 (m ++ d)
      rw [b1, hput]
      have e : m ++ d = (m.take (64 * (m.length / 64)) ++ (m.drop (64 * (m.length / 64)) ++ d.take x)) ++ d.drop x := by
        rw [← List.append_assoc (m.take _), List.take_append_drop, List.append_assoc, List.take_append_drop]
      have l1 : (m.take (64 * (m.length / 64))).length = 64 * (m.length / 64) := by simp; omega
      have l2 : (m.drop (64 * (m.length / 64)) ++ d.take x).length = 64 * 1 := by
        rw [List.length_append, hlx]; simp; omega
      rw [e, iterate_append (m.length / 64 + 1) _ _ _ (by rw [List.length_append, l1, l2]; omega),
        iterate_append (m.length / 64) _ _ _ l1, ← iterate_blocks, ← h4]
      rw [iterate_one C b.st _ (by omega)]
    · show (put q 0 rest).take ((m ++ d).length % 64) = _
      have e1 : (m ++ d).length % 64 = 0 + rest.length := by rw [hrl, List.length_append]; omega
      rw [e1, put_take (by omega), List.take_zero, List.nil_append, b3]
      rw [List.drop_append, List.drop_of_length_le (l := m) (by simp; omega), List.nil_append, List.drop_drop]
      congr 1
      simp; omega
  · rw [if_neg hr]
    have hl : m.length % 64 + d.length ≤ b.queue.length := by omega
    refine ⟨?_, hlo, hhi, ?_, ?_⟩
    · show (put _ _ _).length = 64
      rw [put_length hl]; exact h1
    · show b.st = _
      rw [h4, iterate_blocks C s0 m, iterate_blocks C s0 (m ++ d)]
      have e : (m ++ d).length / 64 = m.length / 64 := by rw [List.length_append]; omega
      rw [e, List.take_append_of_le_length (by omega)]
    · show (put _ _ _).take _ = _
      have e : (m ++ d).length % 64 = m.length % 64 + d.length := by rw [List.length_append]; omega
      have e2 : (m ++ d).length / 64 = m.length / 64 := by rw [List.length_append]; omega
      rw [e, put_take hl, h5, e2, List.drop_append_of_le_length (by omega)]

theorem rep_hashAll {C : Compress S} (hC : Keeps64 C) {s0 : S} {exact : Prop} (chunks : List (List Byte)) :
    ∀ {b : BH S} {m : List Byte}, Rep C s0 exact b m → (exact → ∀ d ∈ chunks, d.length < 2 ^ 32) →
    Rep C s0 exact (hashAll C b chunks) (m ++ chunks.flatten) := by
  induction chunks with
  | nil => intro b m h _; simpa [hashAll] using h
  | cons d ds ih =>
    intro b m h hd
    have := ih (rep_hash hC h (fun he => hd he d List.mem_cons_self))
      (fun he x hx => hd he x (List.mem_cons_of_mem _ hx))
    simpa [hashAll] using this

/-- The high counter word misses the length bits above 31 (hash.hpp 92): hashing 2^32 bytes in
one call leaves it unchanged. -/
theorem hash_c1_4gib {C : Compress S} (b : BH S) (d : List Byte) (hd : d.length = 2 ^ 32) (h0 : b.c0 = 0)
    (h1 : b.c1 = 0) : (hash C b d).c1 = 0 := by
  have : (hash C b d).c1 = ((if (b.c0 + ((d.length % 2 ^ 32) <<< 3) % 2 ^ 32) % 2 ^ 32 <
      ((d.length % 2 ^ 32) <<< 3) % 2 ^ 32 then (b.c1 + 1) % 2 ^ 32
      else b.c1) + ((d.length % 2 ^ 32) >>> 29)) % 2 ^ 32 := by
    unfold hash
    simp only
    split <;> rfl
  rw [this, hd, h0, h1]
  rfl

/-- A new or cleared object (`clear`, hash.hpp 77-80); the queue holds any garbage. -/
theorem rep_clear (C : Compress S) (s0 : S) (exact : Prop) (q : List Byte) (hq : q.length = 64) :
    Rep C s0 exact ⟨0, 0, q, s0⟩ [] :=
  ⟨hq, rfl, fun _ => rfl, (iterate_lt (by simp)).symm, by simp⟩

end Verif.Hash
