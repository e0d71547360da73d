import Verif.Hash.MD5
import Verif.Hash.SHA1
import Verif.Hash.CRC32
import Verif.Stream.Basic
/-
Model of `stdex::stream_hasher` (include/stdex/hash.hpp 136-163) and of the digest
comparisons (hash.hpp 257-274, 457-475, 606-627).
-/
namespace Verif.Hash

open Verif.Stream

/-- `stream_hasher`, hash.hpp 137-163: the converter (source state, own state) and the hash
object `h : H`, an arbitrary `basic_hash` with update function `upd` = `hash(data, length)`. -/
def streamHasher {σ H : Type} (S : Strm Byte σ) (upd : H → List Byte → H) :
    Strm Byte ((σ × St) × H) where
  read s n :=                                                     -- 145-151
    let r := (converter S).read s.1 n
    (r.1, (r.2, upd s.2 r.1))
  write s d :=                                                    -- 153-159
    let r := (converter S).write s.1 d
    (r.1, (r.2, upd s.2 (d.take r.1)))
  close s := ((converter S).close s.1, s.2)
  flush s := ((converter S).flush s.1, s.2)
  state s := (converter S).state s.1

theorem hasher_run {σ H : Type} (S : Strm Byte σ) (upd : H → List Byte → H)
    (hupd : ∀ h a b, upd (upd h a) b = upd h (a ++ b)) (hnil : ∀ h, upd h [] = h) (ops : List (Op Byte)) :
    ∀ (s : σ) (q : St) (h : H),
    ((streamHasher S upd).run ((s, q), h) ops).1 = (S.run s ops).1 ∧
    ((streamHasher S upd).run ((s, q), h) ops).2.1.1 = (S.run s ops).2 ∧
    ((streamHasher S upd).run ((s, q), h) ops).2.2 = upd h (transferred ops (S.run s ops).1) := by
  induction ops with
  | nil => intro s q h; exact ⟨rfl, rfl, (hnil h).symm⟩
  | cons op ops ih =>
    intro s q h
    cases op with
    | read n =>
      obtain ⟨a, b, c⟩ := ih (S.read s n).2 (S.state (S.read s n).2) (upd h (S.read s n).1)
      refine ⟨?_, b, ?_⟩
      · exact congrArg (List.cons _) a
      · refine c.trans ?_
        rw [hupd]; rfl
    | write d =>
      obtain ⟨a, b, c⟩ := ih (S.write s d).2 (S.state (S.write s d).2) (upd h (d.take (S.write s d).1))
      refine ⟨?_, b, ?_⟩
      · exact congrArg (List.cons _) a
      · refine c.trans ?_
        rw [hupd]; rfl
    | close =>
      obtain ⟨a, b, c⟩ := ih (S.close s) (S.state (S.close s)) h
      refine ⟨?_, b, c⟩
      exact congrArg (List.cons _) a
    | flush =>
      obtain ⟨a, b, c⟩ := ih (S.flush s) (S.state (S.flush s)) h
      refine ⟨?_, b, c⟩
      exact congrArg (List.cons _) a

/-- **C21** Over every underlying stream and for every history of read/write/close/flush calls,
`stream_hasher` returns the same data, counts and states as the stream itself, leaves the
stream in the same state, and the hash object has been fed exactly the transferred bytes in
order. -/
theorem stream_hasher_transparent {σ H : Type} (S : Strm Byte σ) (upd : H → List Byte → H)
    (hupd : ∀ h a b, upd (upd h a) b = upd h (a ++ b)) (hnil : ∀ h, upd h [] = h)
    (ops : List (Op Byte)) (s : σ) (h : H) :
    let r := (streamHasher S upd).run ((s, S.state s), h) ops
    r.1 = (S.run s ops).1 ∧ r.2.1.1 = (S.run s ops).2 ∧ r.2.2 = upd h (transferred ops (S.run s ops).1) :=
  hasher_run S upd hupd hnil ops s _ h

/-- **C21** For `crc32_hash` this means: the finalized value is the CRC-32 of the transferred
bytes. -/
theorem stream_hasher_crc32 {σ : Type} (S : Strm Byte σ) (ops : List (Op Byte)) (s : σ) :
    CRC.finalize ((streamHasher S CRC.hash).run ((s, S.state s), CRC.construct 0) ops).2.2 =
      CRC.crc32 (transferred ops (S.run s ops).1) := by
  rw [(hasher_run S CRC.hash CRC.hash_append (fun _ => rfl) ops s _ _).2.2]
  have := (CRC.crc32_conforms [transferred ops (S.run s ops).1]).1
  simpa using this

/-! ## MD5 and SHA-1 through `stream_hasher` -/

theorem hasher_md_run {σ T : Type} (C : Compress T) (S : Strm Byte σ) (ops : List (Op Byte)) :
    ∀ (s : σ) (q : St) (h : BH T), ∃ chunks : List (List Byte),
      ((streamHasher S (hash C)).run ((s, q), h) ops).2.2 = hashAll C h chunks ∧
      chunks.flatten = transferred ops (S.run s ops).1 ∧
      ∀ d ∈ chunks, ∃ op ∈ ops, (∃ n x, op = .read n ∧ d = (S.read x n).1) ∨
        (∃ e n, op = .write e ∧ d = e.take n) := by
  induction ops with
  | nil => intro s q h; exact ⟨[], rfl, rfl, by simp⟩
  | cons op ops ih =>
    intro s q h
    cases op with
    | read n =>
      obtain ⟨cs, a, b, c⟩ := ih (S.read s n).2 (S.state (S.read s n).2) (hash C h (S.read s n).1)
      refine ⟨(S.read s n).1 :: cs, a, ?_, ?_⟩
      · rw [List.flatten_cons, b]; rfl
      · intro d hd
        rcases List.mem_cons.mp hd with rfl | hd
        · exact ⟨_, List.mem_cons_self, Or.inl ⟨n, s, rfl, rfl⟩⟩
        · obtain ⟨op, h1, h2⟩ := c d hd
          exact ⟨op, List.mem_cons_of_mem _ h1, h2⟩
    | write e =>
      obtain ⟨cs, a, b, c⟩ := ih (S.write s e).2 (S.state (S.write s e).2) (hash C h (e.take (S.write s e).1))
      refine ⟨e.take (S.write s e).1 :: cs, a, ?_, ?_⟩
      · rw [List.flatten_cons, b]; rfl
      · intro d hd
        rcases List.mem_cons.mp hd with rfl | hd
        · exact ⟨_, List.mem_cons_self, Or.inr ⟨e, _, rfl, rfl⟩⟩
        · obtain ⟨op, h1, h2⟩ := c d hd
          exact ⟨op, List.mem_cons_of_mem _ h1, h2⟩
    | close =>
      obtain ⟨cs, a, b, c⟩ := ih (S.close s) (S.state (S.close s)) h
      refine ⟨cs, a, b, fun d hd => ?_⟩
      obtain ⟨op, h1, h2⟩ := c d hd
      exact ⟨op, List.mem_cons_of_mem _ h1, h2⟩
    | flush =>
      obtain ⟨cs, a, b, c⟩ := ih (S.flush s) (S.state (S.flush s)) h
      refine ⟨cs, a, b, fun d hd => ?_⟩
      obtain ⟨op, h1, h2⟩ := c d hd
      exact ⟨op, List.mem_cons_of_mem _ h1, h2⟩

/-- **C21** For `md5_hash` and `sha1_hash`: as long as every call reads or writes less than
4 GiB, the finalized value is the MD5/SHA-1 of the transferred bytes. -/
theorem stream_hasher_md5_sha1 {σ : Type} (S : Strm Byte σ) (hS : Lawful S) (ops : List (Op Byte)) (s : σ)
    (hops : ∀ op ∈ ops, (∀ n, op = .read n → n < 2 ^ 32) ∧ (∀ d, op = .write d → d.length < 2 ^ 32))
    (g : List Byte) (hg : g.length = 64) :
    MD5.finalize ((streamHasher S (hash MD5.hashBlock)).run ((s, S.state s), ⟨0, 0, g, MD5.initState⟩) ops).2.2 =
      MD5.rfc1321 (transferred ops (S.run s ops).1) ∧
    SHA1.finalize ((streamHasher S (hash SHA1.hashBlock)).run ((s, S.state s), ⟨0, 0, g, SHA1.initState⟩) ops).2.2 =
      some (SHA1.fips180 (transferred ops (S.run s ops).1)) := by
  have hlt : ∀ (cs : List (List Byte)), (∀ d ∈ cs, ∃ op ∈ ops, (∃ n x, op = .read n ∧ d = (S.read x n).1) ∨
        (∃ e n, op = .write e ∧ d = e.take n)) → ∀ d ∈ cs, d.length < 2 ^ 32 := by
    intro cs hcs d hd
    obtain ⟨op, hop, h | h⟩ := hcs d hd
    · obtain ⟨n, x, rfl, rfl⟩ := h
      have := (hops _ hop).1 n rfl
      have := hS.read_le x n
      omega
    · obtain ⟨e, n, rfl, rfl⟩ := h
      have := (hops _ hop).2 e rfl
      simp; omega
  constructor
  · obtain ⟨cs, a, b, c⟩ := hasher_md_run MD5.hashBlock S ops s (S.state s) ⟨0, 0, g, MD5.initState⟩
    rw [a, ← b]
    exact MD5.md5_conforms_partial g hg cs (hlt cs c)
  · obtain ⟨cs, a, b, c⟩ := hasher_md_run SHA1.hashBlock S ops s (S.state s) ⟨0, 0, g, SHA1.initState⟩
    rw [a, ← b]
    exact SHA1.sha1_conforms_partial g hg cs (hlt cs c)

/-! ## C22 -/

/-- `operator !=` of `md2_t`/`md5_t` (hash.hpp 262-269), `sha_t` (462-470), `sha256_t`
(611-622): the OR of the XORs of the words, converted to `bool`. -/
def digestNe (a b : List (BitVec 32)) : Bool :=
  decide ((List.zipWith (· ^^^ ·) a b).foldl (· ||| ·) 0 ≠ 0)

/-- `operator ==`, hash.hpp 271-274, 472-475, 624-627. -/
def digestEq (a b : List (BitVec 32)) : Bool := !digestNe a b

theorem or_eq_zero {x y : BitVec 32} : x ||| y = 0 ↔ x = 0 ∧ y = 0 := by
  constructor
  · intro h
    constructor <;> apply BitVec.eq_of_getLsbD_eq <;> intro i hi <;>
      have := congrArg (fun v : BitVec 32 => v.getLsbD i) h <;>
      simp at this <;> simp [this]
  · rintro ⟨rfl, rfl⟩; rfl

theorem foldl_or (l : List (BitVec 32)) : ∀ x, l.foldl (· ||| ·) x = 0 ↔ x = 0 ∧ ∀ y ∈ l, y = 0 := by
  induction l with
  | nil => intro x; simp
  | cons a l ih => intro x; rw [List.foldl_cons, ih, or_eq_zero]; simp [and_assoc]

theorem zip_xor (a : List (BitVec 32)) : ∀ b : List (BitVec 32), a.length = b.length →
    ((∀ y ∈ List.zipWith (· ^^^ ·) a b, y = 0) ↔ a = b) := by
  induction a with
  | nil => intro b h; cases b with
    | nil => simp
    | cons _ _ => simp at h
  | cons x a ih => intro b h; cases b with
    | nil => simp at h
    | cons y b =>
      have := ih b (by simpa using h)
      simp only [List.zipWith_cons_cons, List.mem_cons, forall_eq_or_imp, this, List.cons.injEq]
      constructor
      · rintro ⟨h1, h2⟩
        exact ⟨BitVec.xor_eq_zero_iff.mp h1, h2⟩
      · rintro ⟨rfl, h2⟩; exact ⟨by simp, h2⟩

/-- **C22** For digests of the same number of words (4, 5 or 8), `==` is true iff all words are
equal, and `!=` is its negation. -/
theorem digest_equality (a b : List (BitVec 32)) (h : a.length = b.length) :
    (digestEq a b = true ↔ a = b) ∧ (digestNe a b = true ↔ a ≠ b) := by
  have hn : digestNe a b = true ↔ a ≠ b := by
    unfold digestNe
    rw [decide_eq_true_iff, Ne, foldl_or, Ne, ← zip_xor a b h]
    simp
  refine ⟨?_, hn⟩
  unfold digestEq
  cases hx : digestNe a b
  · have : ¬ a ≠ b := fun e => by rw [hn.mpr e] at hx; cases hx
    simp only [Bool.not_false, true_iff]
    exact Classical.not_not.mp this
  · have := hn.mp hx
    simp [this]

/-! ## Non-vacuity -/

/-- A stream over a list: reads from the front, accepts at most 2 bytes per write. -/
def demo : Strm Byte (List Byte) where
  read s n := (s.take n, s.drop n)
  write s d := (min d.length 2, s)
  close s := s
  flush s := s
  state s := if s = [] then .eof else .ok

example : Lawful demo := ⟨fun s n => by simp [demo]; omega, fun s d => by simp [demo]; omega⟩
example : transferred [.read 2, .write [7, 8, 9], .read 5] (demo.run [1, 2, 3] [.read 2, .write [7, 8, 9], .read 5]).1 =
    [1, 2, 7, 8, 3] := by decide
example : digestEq [1, 2, 3, 4] [1, 2, 3, 4] = true ∧ digestEq [1, 2, 3, 4] [1, 2, 3, 5] = false := by decide

end Verif.Hash
