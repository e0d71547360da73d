/-
Model of include/stdex/endian.hpp 47-141.  Signed, `float` and `double` overloads
(99-115) reinterpret the same bits and are covered by the unsigned ones.
-/
namespace Verif.Endian

/-- `byteswap(uint8_t)`, endian.hpp 47-50. -/
def bs8 (v : BitVec 8) : BitVec 8 := v

/-- `byteswap(uint16_t)`, endian.hpp 52-63, the spelled-out branch 57-59 (the other branches
are compiler builtins documented to do the same). -/
def bs16 (v : BitVec 16) : BitVec 16 :=
  ((v &&& 0x00ff#16) <<< 8) ||| (v >>> 8)

/-- `byteswap(uint32_t)`, endian.hpp 65-78, branch 70-74. -/
def bs32 (v : BitVec 32) : BitVec 32 :=
  ((v &&& 0x000000ff#32) <<< 24) ||| ((v &&& 0x0000ff00#32) <<< 8) |||
  ((v &&& 0x00ff0000#32) >>> 8) ||| (v >>> 24)

/-- `byteswap(uint64_t)`, endian.hpp 80-97, branch 85-93. -/
def bs64 (v : BitVec 64) : BitVec 64 :=
  ((v &&& 0x00000000000000ff#64) <<< 56) ||| ((v &&& 0x000000000000ff00#64) <<< 40) |||
  ((v &&& 0x0000000000ff0000#64) <<< 24) ||| ((v &&& 0x00000000ff000000#64) <<< 8) |||
  ((v &&& 0x000000ff00000000#64) >>> 8) ||| ((v &&& 0x0000ff0000000000#64) >>> 24) |||
  ((v &&& 0x00ff000000000000#64) >>> 40) ||| (v >>> 56)

/-- `byteswap` by width in bytes. -/
def byteswap : (n : Nat) → BitVec (8 * n) → BitVec (8 * n)
  | 1, v => bs8 v
  | 2, v => bs16 v
  | 4, v => bs32 v
  | 8, v => bs64 v
  | _, v => v

/-- The widths there are overloads for. -/
def Width (n : Nat) : Prop := n = 1 ∨ n = 2 ∨ n = 4 ∨ n = 8

/-- `LE2HE`, endian.hpp 132, 137; `big` = host is big-endian. -/
def LE2HE (big : Bool) (n : Nat) (v : BitVec (8 * n)) : BitVec (8 * n) :=
  if big then byteswap n v else v
/-- `BE2HE`, endian.hpp 133, 138. -/
def BE2HE (big : Bool) (n : Nat) (v : BitVec (8 * n)) : BitVec (8 * n) :=
  if big then v else byteswap n v
/-- `HE2LE`, endian.hpp 134, 139. -/
def HE2LE (big : Bool) (n : Nat) (v : BitVec (8 * n)) : BitVec (8 * n) :=
  if big then byteswap n v else v
/-- `HE2BE`, endian.hpp 135, 140. -/
def HE2BE (big : Bool) (n : Nat) (v : BitVec (8 * n)) : BitVec (8 * n) :=
  if big then v else byteswap n v

/-! ## Specification -/

/-- The bytes of a value, least significant first. -/
def leBytes (n : Nat) (v : BitVec (8 * n)) : List (BitVec 8) :=
  (List.range n).map fun k => v.extractLsb' (8 * k) 8

/-- The bytes of a value, most significant first. -/
def beBytes (n : Nat) (v : BitVec (8 * n)) : List (BitVec 8) := (leBytes n v).reverse

/-- The bytes a value occupies in memory, by increasing address, on a host. -/
def inMemory (big : Bool) (n : Nat) (v : BitVec (8 * n)) : List (BitVec 8) :=
  if big then beBytes n v else leBytes n v

/-! ## Proofs -/

theorem bit16 (v : BitVec 16) (i : Nat) (hi : i < 16) :
    (bs16 v).getLsbD i = v.getLsbD (8 * (1 - i / 8) + i % 8) := by
  have key : ∀ k : Nat, k < 2 → ∀ j : Nat, j < 8 →
      (bs16 v).getLsbD (8 * k + j) = v.getLsbD (8 * (1 - k) + j) := by
    intro k hk j hj
    match k, hk with
    | 0, _ | 1, _ =>
      match j, hj with
      | 0, _ | 1, _ | 2, _ | 3, _ | 4, _ | 5, _ | 6, _ | 7, _ => simp [bs16]
  have := key (i / 8) (by omega) (i % 8) (by omega)
  rwa [show 8 * (i / 8) + i % 8 = i by omega] at this

theorem bit32 (v : BitVec 32) (i : Nat) (hi : i < 32) :
    (bs32 v).getLsbD i = v.getLsbD (8 * (3 - i / 8) + i % 8) := by
  have key : ∀ k : Nat, k < 4 → ∀ j : Nat, j < 8 →
      (bs32 v).getLsbD (8 * k + j) = v.getLsbD (8 * (3 - k) + j) := by
    intro k hk j hj
    match k, hk with
    | 0, _ | 1, _ | 2, _ | 3, _ =>
      match j, hj with
      | 0, _ | 1, _ | 2, _ | 3, _ | 4, _ | 5, _ | 6, _ | 7, _ => simp [bs32]
  have := key (i / 8) (by omega) (i % 8) (by omega)
  rwa [show 8 * (i / 8) + i % 8 = i by omega] at this

theorem bit64 (v : BitVec 64) (i : Nat) (hi : i < 64) :
    (bs64 v).getLsbD i = v.getLsbD (8 * (7 - i / 8) + i % 8) := by
  have key : ∀ k : Nat, k < 8 → ∀ j : Nat, j < 8 →
      (bs64 v).getLsbD (8 * k + j) = v.getLsbD (8 * (7 - k) + j) := by
    intro k hk j hj
    match k, hk with
    | 0, _ | 1, _ | 2, _ | 3, _ | 4, _ | 5, _ | 6, _ | 7, _ =>
      match j, hj with
      | 0, _ | 1, _ | 2, _ | 3, _ | 4, _ | 5, _ | 6, _ | 7, _ => simp [bs64]
  have := key (i / 8) (by omega) (i % 8) (by omega)
  rwa [show 8 * (i / 8) + i % 8 = i by omega] at this

theorem bit_swap {n : Nat} (hn : Width n) (v : BitVec (8 * n)) (i : Nat) (hi : i < 8 * n) :
    (byteswap n v).getLsbD i = v.getLsbD (8 * (n - 1 - i / 8) + i % 8) := by
  rcases hn with rfl | rfl | rfl | rfl
  · show v.getLsbD i = _
    congr 1; omega
  · exact bit16 v i hi
  · exact bit32 v i hi
  · exact bit64 v i hi

theorem leBytes_get {n : Nat} (v : BitVec (8 * n)) (k : Nat) (hk : k < (leBytes n v).length) :
    (leBytes n v)[k] = v.extractLsb' (8 * k) 8 := by
  simp [leBytes]

theorem leBytes_length (n : Nat) (v : BitVec (8 * n)) : (leBytes n v).length = n := by simp [leBytes]

/-- A value is determined by its bytes. -/
theorem leBytes_inj {n : Nat} {v w : BitVec (8 * n)} (h : leBytes n v = leBytes n w) : v = w := by
  apply BitVec.eq_of_getLsbD_eq
  intro i hi
  have h1 : (leBytes n v)[i / 8]? = (leBytes n w)[i / 8]? := by rw [h]
  rw [List.getElem?_eq_getElem (by rw [leBytes_length]; omega),
    List.getElem?_eq_getElem (by rw [leBytes_length]; omega), leBytes_get, leBytes_get] at h1
  have h2 := congrArg (fun b : BitVec 8 => b.getLsbD (i % 8)) (Option.some.inj h1)
  simp only [BitVec.getLsbD_extractLsb', Nat.mod_lt i (show 8 > 0 by decide), decide_true,
    Bool.true_and] at h2
  rwa [show 8 * (i / 8) + i % 8 = i by omega] at h2

theorem leBytes_swap {n : Nat} (hn : Width n) (v : BitVec (8 * n)) :
    leBytes n (byteswap n v) = (leBytes n v).reverse := by
  apply List.ext_getElem
  · simp [leBytes]
  · intro k h1 h2
    rw [leBytes_length] at h1
    rw [leBytes_get, List.getElem_reverse, leBytes_get]
    apply BitVec.eq_of_getLsbD_eq
    intro j hj
    simp only [BitVec.getLsbD_extractLsb', hj, decide_true, Bool.true_and]
    rw [bit_swap hn v _ (by omega), leBytes_length]
    congr 1
    omega

/-! ## Properties -/

/-- **C17** `byteswap` reverses the byte representation, for every width and value, and is its
own inverse. -/
theorem byteswap_reverses (n : Nat) (hn : Width n) (v : BitVec (8 * n)) :
    leBytes n (byteswap n v) = (leBytes n v).reverse ∧ byteswap n (byteswap n v) = v := by
  refine ⟨leBytes_swap hn v, leBytes_inj ?_⟩
  rw [leBytes_swap hn, leBytes_swap hn, List.reverse_reverse]

/-- **C17** On hosts of either byte order: a value passed through `HE2LE`/`HE2BE` lies in
memory with its least/most significant byte first, and `LE2HE`/`BE2HE` of a value whose
memory is the little/big-endian representation of `v` is `v`; the conversions are mutually
inverse. -/
theorem endian_conversions (big : Bool) (n : Nat) (hn : Width n) (v : BitVec (8 * n)) :
    inMemory big n (HE2LE big n v) = leBytes n v ∧
    inMemory big n (HE2BE big n v) = beBytes n v ∧
    (∀ u, inMemory big n u = leBytes n v → LE2HE big n u = v) ∧
    (∀ u, inMemory big n u = beBytes n v → BE2HE big n u = v) ∧
    LE2HE big n (HE2LE big n v) = v ∧ HE2LE big n (LE2HE big n v) = v ∧
    BE2HE big n (HE2BE big n v) = v ∧ HE2BE big n (BE2HE big n v) = v := by
  have hs := byteswap_reverses n hn
  cases big
  · refine ⟨rfl, (hs v).1, fun u h => leBytes_inj h, fun u h => ?_, rfl, rfl, (hs v).2, (hs v).2⟩
    apply leBytes_inj
    show leBytes n (byteswap n u) = _
    rw [(hs u).1]
    have : leBytes n u = (leBytes n v).reverse := h
    rw [this, List.reverse_reverse]
  · refine ⟨?_, rfl, fun u h => ?_, fun u h => ?_, (hs v).2, (hs v).2, rfl, rfl⟩
    · show (leBytes n (byteswap n v)).reverse = _
      rw [(hs v).1, List.reverse_reverse]
    · apply leBytes_inj
      show leBytes n (byteswap n u) = _
      rw [(hs u).1]; exact h
    · apply leBytes_inj
      have : (leBytes n u).reverse = (leBytes n v).reverse := h
      show leBytes n u = _
      rw [← List.reverse_reverse (leBytes n u), this, List.reverse_reverse]

example : byteswap 4 0x12345678#32 = 0x78563412#32 ∧ byteswap 8 0x0102030405060708#64 = 0x0807060504030201#64 ∧
    leBytes 2 0x1234#16 = [0x34#8, 0x12#8] := by decide
example : Width 8 := by unfold Width; omega

end Verif.Endian
