import Verif.Stream.Helpers
import Verif.Stream.Serialize
/-
Hash values in streams: `operator>>` and `operator<<` of `md2_t` (and `md5_t`, an alias), `sha_t`, `sha256_t`, include/stdex/hash.hpp 276-290, 477-491, 629-643.
-/
namespace Verif.HashStream
open Verif.Stream

variable {σ τ : Type}

/-! ### Model -/

/-- `operator>>`, hash.hpp 276-284, 477-485, 629-637, of a value of `n` bytes; `old` is what it was: (value, stream). `read_array` is stream.hpp 376-387. -/
def getHash (S : Strm Byte σ) (fuel : Nat) (s : σ) (n : Nat) (old : List Byte) : Option (List Byte × σ) :=
  if S.state s ≠ .ok then some (List.replicate n 0, s)
  else (readArray S fuel s n 1).map fun r => (r.1 ++ old.drop r.1.length, r.2.2)

/-- `operator<<`, hash.hpp 286-290, 487-491, 639-643. `write_array` is `write`, stream.hpp 394-397. -/
def putHash (D : Strm Byte τ) (t : τ) (data : List Byte) : τ :=
  if D.state t ≠ .ok then t else (D.write t data).2

/-- Several values. -/
def putAll (D : Strm Byte τ) : τ → List (List Byte) → τ
  | t, [] => t
  | t, v :: vs => putAll D (putHash D t v) vs

def getAll (S : Strm Byte σ) (fuel : Nat) : σ → List (Nat × List Byte) → Option (List (List Byte) × σ)
  | s, [] => some ([], s)
  | s, (n, old) :: vs =>
    match getHash S fuel s n old with
    | some (v, s) => (getAll S fuel s vs).map fun r => (v :: r.1, r.2)
    | none => none

/-! ### Proofs -/

theorem put_ok {D : Strm Byte τ} {got : τ → List Byte} (hd : Reliable D got) {t : τ} (ht : D.state t = .ok) (v : List Byte) : D.state (putHash D t v) = .ok ∧ got (putHash D t v) = got t ++ v := by
  unfold putHash
  rw [if_neg (by rw [ht]; decide)]
  exact ⟨hd.ok t v, hd.got t v⟩

/-- Values are written one after the other, byte by byte. -/
theorem hashes_written {D : Strm Byte τ} {got : τ → List Byte} (hd : Reliable D got) : ∀ {vs : List (List Byte)} {t : τ}, D.state t = .ok → D.state (putAll D t vs) = .ok ∧ got (putAll D t vs) = got t ++ vs.flatten
  | [], t, ht => ⟨ht, by simp [putAll]⟩
  | v :: vs, t, ht => by
    obtain ⟨h1, h2⟩ := put_ok hd ht v
    obtain ⟨h3, h4⟩ := hashes_written hd (vs := vs) h1
    exact ⟨h3, by show got (putAll D (putHash D t v) vs) = _; rw [h4, h2, List.append_assoc]; rfl⟩

/-- A value that is there is read, whatever was there before and in whatever pieces it comes. -/
theorem hash_read {S : Strm Byte σ} {rem : σ → List Byte} (h : IsSource S rem) {s : σ} (hs : S.state s = .ok) {v rest : List Byte} (hv : v ≠ []) (hr : rem s = v ++ rest) {old : List Byte} (ho : old.length = v.length) {fuel : Nat} (hf : v.length < fuel) :
    ∃ s', getHash S fuel s v.length old = some (v, s') ∧ S.state s' = .ok ∧ rem s' = rest := by
  have hpos := List.length_pos_iff.2 hv
  obtain ⟨s', e1, e2, e3⟩ := read_array_full h s v.length 1 fuel (by omega) (by omega) (by rw [hr, List.length_append]; omega)
  rw [Nat.mul_one, hr, List.take_left] at e1
  rw [Nat.mul_one, hr, List.drop_left] at e2
  refine ⟨s', ?_, e3, e2⟩
  unfold getHash
  rw [if_neg (by rw [hs]; decide), e1, Option.map_some]
  simp only []
  rw [List.drop_of_length_le (by omega), List.append_nil]

/-- Where the stream ends within the value, the stream says so; what is missing of the value stays as it was. -/
theorem hash_short {S : Strm Byte σ} {rem : σ → List Byte} (h : IsSource S rem) {s : σ} (hs : S.state s = .ok) {n : Nat} (hr : (rem s).length < n) (old : List Byte) {fuel : Nat} (hf : n < fuel) :
    ∃ s', getHash S fuel s n old = some (rem s ++ old.drop (rem s).length, s') ∧ S.state s' = .eof ∧ rem s' = [] := by
  obtain ⟨s', e1, e2, -, e4, -⟩ := readLoop_source h fuel s n hf
  refine ⟨s', ?_, e4 (by omega), by rw [e2]; exact List.drop_of_length_le (by omega)⟩
  unfold getHash readArray
  rw [if_neg (by rw [hs]; decide), Nat.mul_one, e1, Option.map_some, Option.map_some]
  simp only []
  rw [List.take_of_length_le (by omega)]

/-- On a stream that failed before, reading gives zeros and writing nothing. -/
theorem hash_failed (S : Strm Byte σ) (fuel : Nat) {s : σ} (hs : S.state s ≠ .ok) (n : Nat) (old data : List Byte) : getHash S fuel s n old = some (List.replicate n 0, s) ∧ putHash S s data = s := by
  unfold getHash putHash
  rw [if_pos hs, if_pos hs]
  exact ⟨rfl, rfl⟩

/-- Any values of any sizes that were written are read back in order, in whatever pieces the stream delivers them. -/
theorem hashes_round_trip {S : Strm Byte σ} {rem : σ → List Byte} (h : IsSource S rem) : ∀ {vs : List (List Byte × List Byte)} {s : σ} {rest : List Byte} {fuel : Nat}, S.state s = .ok → (∀ v ∈ vs, v.1 ≠ [] ∧ v.2.length = v.1.length ∧ v.1.length < fuel) →
    rem s = (vs.map Prod.fst).flatten ++ rest → ∃ s', getAll S fuel s (vs.map fun v => (v.1.length, v.2)) = some (vs.map Prod.fst, s') ∧ S.state s' = .ok ∧ rem s' = rest
  | [], s, rest, fuel, hs, _, hr => ⟨s, rfl, hs, hr⟩
  | v :: vs, s, rest, fuel, hs, hv, hr => by
    obtain ⟨a1, a2, a3⟩ := hv v List.mem_cons_self
    obtain ⟨s1, e1, e2, e3⟩ := hash_read h hs (v := v.1) (rest := (vs.map Prod.fst).flatten ++ rest) a1 (by rw [hr]; simp) a2 a3
    obtain ⟨s2, f1, f2, f3⟩ := hashes_round_trip h (vs := vs) e2 (fun u hu => hv u (List.mem_cons_of_mem _ hu)) e3
    refine ⟨s2, ?_, f2, f3⟩
    rw [List.map_cons, List.map_cons]
    unfold getAll
    simp only [e1]
    rw [f1]; rfl

/-! ### An example: a value of 16 bytes through a stream of pieces of 5 bytes -/

example : (getHash (pipe 5) 20 (List.range' 1 18 |>.map (BitVec.ofNat 8), ([] : List Byte), .ok) 16 (List.replicate 16 0)).map (·.1) = some (List.range' 1 16 |>.map (BitVec.ofNat 8)) := by decide +kernel
example : IsSource (pipe 5 : Strm Byte _) (fun s => s.1) ∧ Reliable (pipe 5 : Strm Byte _) (fun s => s.2.1) := ⟨pipe_source 5 (by decide), pipe_reliable 5⟩

end Verif.HashStream
