/-!
# Model of include/stdex/hex.hpp and properties C05, C06

Characters are natural numbers (code units).  A negative `char` behaves like any other
non-hexadecimal code unit, so nothing is lost.  Bytes are `UInt8`.
-/
namespace Verif.Hex

/-! ## Model -/

/-- One nibble as a character, hex.hpp 50-51. -/
def encNibble (x : Nat) : Nat := if x < 10 then 48 + x else 65 - 10 + x

/-- `hex_enc::encode`, hex.hpp 36-53: what is appended to `out`.  The encoder object has
no state. -/
def encode : List UInt8 → List Nat
  | [] => []
  | x :: xs => encNibble ((x.toNat &&& 0xf0) >>> 4) :: encNibble (x.toNat &&& 0x0f) :: encode xs

/-- `hex_enc::enc_size`, hex.hpp 62-65. -/
def encSize (n : Nat) : Nat := n * 2

/-- State of `hex_dec`, hex.hpp 149-150. -/
structure Dec where
  buf : Nat
  num : Nat
deriving DecidableEq, Repr

/-- Constructor, hex.hpp 77-80. -/
def Dec.init : Dec := ⟨0, 0⟩

/-- Lines 95-97: cut at the first terminator. -/
def trim : List Nat → List Nat
  | [] => []
  | c :: cs => if c = 0 then [] else c :: trim cs

/-- Lines 114-124: take one character. -/
def Dec.take (d : Dec) (x : Nat) : Dec :=
  if 48 ≤ x ∧ x ≤ 57 then ⟨((d.buf &&& 0xf) <<< 4) ||| (x - 48), d.num + 1⟩
  else if 65 ≤ x ∧ x ≤ 70 then ⟨((d.buf &&& 0xf) <<< 4) ||| (x - (65 - 10)), d.num + 1⟩
  else if 97 ≤ x ∧ x ≤ 102 then ⟨((d.buf &&& 0xf) <<< 4) ||| (x - (97 - 10)), d.num + 1⟩
  else d

/-- The loop of lines 102-125; returns the state, the bytes appended and `is_last`. -/
def Dec.loop (d : Dec) : List Nat → Dec × List UInt8 × Bool
  | [] =>
    if d.num ≥ 2 then (⟨d.buf, 0⟩, [UInt8.ofNat d.buf], true) else (d, [], false)
  | x :: xs =>
    if d.num ≥ 2 then
      let r := Dec.loop (Dec.take ⟨d.buf, 0⟩ x) xs
      (r.1, UInt8.ofNat d.buf :: r.2.1, r.2.2)
    else Dec.loop (d.take x) xs

/-- `hex_dec::decode`, hex.hpp 91-126. -/
def Dec.decode (d : Dec) (data : List Nat) : Dec × List UInt8 × Bool := d.loop (trim data)

/-- `hex_dec::dec_size`, hex.hpp 143-146. -/
def decSize (n : Nat) : Nat := (n + 1) / 2

/-- A decoding session: successive `decode` calls appending to one output vector. -/
def Dec.session (d : Dec) : List (List Nat) → Dec × List UInt8
  | [] => (d, [])
  | t :: ts =>
    let r := d.decode t
    let r' := Dec.session r.1 ts
    (r'.1, r.2.1 ++ r'.2)

/-- An encoding session: successive `encode` calls appending to one output string. -/
def encSession (chunks : List (List UInt8)) : List Nat := (chunks.map encode).flatten

/-! ## Specification -/

/-- Value of a hexadecimal digit, `none` for other characters. -/
def hexVal (c : Nat) : Option Nat :=
  if 48 ≤ c ∧ c ≤ 57 then some (c - 48)
  else if 65 ≤ c ∧ c ≤ 70 then some (c - 65 + 10)
  else if 97 ≤ c ∧ c ≤ 102 then some (c - 97 + 10)
  else none

/-- Bytes written as pairs of digit values, high nibble first. -/
def pairUp : List Nat → List UInt8
  | h :: l :: rest => UInt8.ofNat (16 * h + l) :: pairUp rest
  | _ => []

/-- What a text denotes: its hexadecimal digits, two by two. -/
def denote (t : List Nat) : List UInt8 := pairUp (t.filterMap hexVal)

/-! ## Lemmas -/

theorem take_spec (d : Dec) (x : Nat) :
    d.take x = match hexVal x with
      | some v => ⟨16 * (d.buf % 16) + v, d.num + 1⟩
      | none => d := by
  have key : ∀ v, v < 16 → (d.buf &&& 0xf) <<< 4 ||| v = 16 * (d.buf % 16) + v := by
    intro v hv
    rw [← Nat.shiftLeft_add_eq_or_of_lt (by omega : v < 2 ^ 4)]
    have : d.buf &&& 0xf = d.buf % 16 := Nat.and_two_pow_sub_one_eq_mod d.buf 4
    rw [this, Nat.shiftLeft_eq]; omega
  unfold Dec.take hexVal
  split
  · simp only; rw [key _ (by omega)]
  · split
    · simp only; rw [key _ (by omega)]; congr 1; omega
    · split
      · simp only; rw [key _ (by omega)]; congr 1; omega
      · rfl

theorem hexVal_lt {c v : Nat} (h : hexVal c = some v) : v < 16 := by
  unfold hexVal at h
  split at h
  · simp at h; omega
  · split at h
    · simp at h; omega
    · split at h
      · simp at h; omega
      · simp at h

/-- The digits waiting in the decoder. -/
def Dec.carry (d : Dec) : List Nat := if d.num = 0 then [] else [d.buf % 16]

theorem loop_spec (t : List Nat) : ∀ d : Dec, (d.num ≤ 1 →
      (d.loop t).2.1 = pairUp (d.carry ++ t.filterMap hexVal) ∧ (d.loop t).1.num ≤ 1 ∧
      (d.loop t).1.num = (d.carry ++ t.filterMap hexVal).length % 2 ∧
      ((d.loop t).1.num = 1 → some ((d.loop t).1.buf % 16) = (d.carry ++ t.filterMap hexVal).getLast?)) := by
  induction t with
  | nil =>
    intro d hd
    have : ¬ d.num ≥ 2 := by omega
    rcases Nat.le_one_iff_eq_zero_or_eq_one.mp hd with h | h <;>
      simp [Dec.loop, Dec.carry, h, pairUp]
  | cons x xs ih =>
    intro d hd
    have hn : ¬ d.num ≥ 2 := by omega
    simp only [Dec.loop, hn, if_false]
    rw [take_spec]
    cases hv : hexVal x with
    | none => simp only [List.filterMap_cons, hv]; exact ih d hd
    | some v =>
      have hv16 := hexVal_lt hv
      simp only [List.filterMap_cons, hv]
      rcases Nat.le_one_iff_eq_zero_or_eq_one.mp hd with h | h
      · have := ih ⟨16 * (d.buf % 16) + v, d.num + 1⟩ (by simp [h])
        have hc : (⟨16 * (d.buf % 16) + v, d.num + 1⟩ : Dec).carry = [v] := by
          simp [Dec.carry]; omega
        rw [hc] at this
        simpa [Dec.carry, h] using this
      · -- second nibble: the byte is complete, it is emitted at the next loop test
        have hcar : d.carry = [d.buf % 16] := by simp [Dec.carry, h]
        rw [hcar]
        cases xs with
        | nil => simp [Dec.loop, h, pairUp]
        | cons y ys =>
          -- redo the first test of the next iteration
          have ih0 := ih ⟨16 * (d.buf % 16) + v, 0⟩ (by simp)
          have e : (Dec.loop ⟨16 * (d.buf % 16) + v, d.num + 1⟩ (y :: ys)) =
              (let r := Dec.loop ⟨16 * (d.buf % 16) + v, 0⟩ (y :: ys)
               (r.1, UInt8.ofNat (16 * (d.buf % 16) + v) :: r.2.1, r.2.2)) := by
            simp [Dec.loop, h]
          rw [e]
          simp only [Dec.carry, if_true, List.nil_append] at ih0
          obtain ⟨h1, h2, h3, h4⟩ := ih0
          refine ⟨?_, h2, ?_, ?_⟩
          · simp only [List.cons_append, List.nil_append]
            rw [show ∀ (l : List Nat) a b, pairUp (a :: b :: l) = UInt8.ofNat (16 * a + b) :: pairUp l
              from fun _ _ _ => rfl, ← h1]
          · simp only [List.cons_append, List.nil_append, List.length_cons]; omega
          · intro hn1
            have hg := h4 hn1
            simp only at hn1 hg ⊢
            rw [hg]
            have hne : (List.filterMap hexVal (y :: ys)) ≠ [] := by
              intro h0; rw [h0] at h3; simp at h3; omega
            generalize List.filterMap hexVal (y :: ys) = L at hne
            cases L with
            | nil => exact absurd rfl hne
            | cons a as => simp

theorem encNibble_val (v : Nat) (h : v < 16) : hexVal (encNibble v) = some v := by
  unfold encNibble hexVal
  split
  · rw [if_pos (by omega)]; congr 1; omega
  · rw [if_neg (by omega), if_pos (by omega)]; congr 1; omega

theorem encNibble_ne (v : Nat) : encNibble v ≠ 0 := by unfold encNibble; split <;> omega

theorem encode_digits (xs : List UInt8) :
    pairUp ((encode xs).filterMap hexVal) = xs ∧ (encode xs).length = 2 * xs.length ∧
      0 ∉ encode xs ∧ ∀ c ∈ encode xs, (hexVal c).isSome := by
  induction xs with
  | nil => simp [encode, pairUp]
  | cons x xs ih =>
    have hx : x.toNat < 256 := x.toNat_lt
    have e1 : (x.toNat &&& 0xf0) >>> 4 = x.toNat / 16 := by
      rw [Nat.shiftRight_and_distrib, show (0xf0 : Nat) >>> 4 = 2 ^ 4 - 1 from rfl,
        Nat.and_two_pow_sub_one_eq_mod, Nat.shiftRight_eq_div_pow]; omega
    have e2 : x.toNat &&& 0x0f = x.toNat % 16 := Nat.and_two_pow_sub_one_eq_mod x.toNat 4
    have v1 := encNibble_val (x.toNat / 16) (by omega)
    have v2 := encNibble_val (x.toNat % 16) (by omega)
    obtain ⟨i1, i2, i3, i4⟩ := ih
    refine ⟨?_, ?_, ?_, ?_⟩
    · simp only [encode, e1, e2, List.filterMap_cons, v1, v2, pairUp, i1]
      congr 1
      have : 16 * (x.toNat / 16) + x.toNat % 16 = x.toNat := by omega
      rw [this]; simp
    · simp [encode, i2]; omega
    · simp only [encode, List.mem_cons, not_or]
      exact ⟨(encNibble_ne _).symm, (encNibble_ne _).symm, i3⟩
    · simp only [encode, List.mem_cons, e1, e2]
      rintro c (rfl | rfl | hc)
      · simp [v1]
      · simp [v2]
      · exact i4 c hc

theorem trim_of_no_nul {t : List Nat} (h : 0 ∉ t) : trim t = t := by
  induction t with
  | nil => rfl
  | cons c cs ih =>
    simp only [List.mem_cons, not_or] at h
    simp [trim, Ne.symm h.1, ih h.2]

theorem trim_append_nul (t u : List Nat) : trim (t ++ 0 :: u) = trim t := by
  induction t with
  | nil => simp [trim]
  | cons c cs ih => simp [trim, ih]

theorem trim_length (t : List Nat) : (trim t).length ≤ t.length := by
  induction t with
  | nil => simp [trim]
  | cons c cs ih => simp only [trim]; split <;> simp <;> omega

theorem pairUp_append_even (a b : List Nat) (h : a.length % 2 = 0) :
    pairUp (a ++ b) = pairUp a ++ pairUp b := by
  fun_induction pairUp a with
  | case1 x y rest ih =>
    simp only [List.length_cons] at h
    simp [pairUp, ih (by omega)]
  | case2 l hl =>
    match l, h, hl with
    | [], _, _ => rfl
    | [x], h, _ => simp at h
    | x :: y :: r, _, hl => exact absurd rfl (hl x y r)

theorem pairUp_append_odd (a : List Nat) (x : Nat) (b : List Nat) (h : a.length % 2 = 0) :
    pairUp (a ++ [x]) ++ pairUp (x :: b) = pairUp (a ++ x :: b) := by
  rw [pairUp_append_even _ _ h, pairUp_append_even _ _ h]
  simp [pairUp]

theorem pairUp_length (a : List Nat) : (pairUp a).length = a.length / 2 := by
  fun_induction pairUp a with
  | case1 x y rest ih => simp [ih]; omega
  | case2 l hl =>
    match l, hl with
    | [], _ => rfl
    | [x], _ => simp
    | x :: y :: r, hl => exact absurd rfl (hl x y r)

theorem session_spec (ts : List (List Nat)) : ∀ d : Dec, d.num ≤ 1 →
    (d.session ts).2 = pairUp (d.carry ++ (ts.map trim).flatten.filterMap hexVal) := by
  induction ts with
  | nil =>
    intro d hd
    rcases Nat.le_one_iff_eq_zero_or_eq_one.mp hd with h | h <;>
      simp [Dec.session, Dec.carry, h, pairUp]
  | cons t ts ih =>
    intro d hd
    obtain ⟨h1, h2, h3, h4⟩ := loop_spec (trim t) d hd
    simp only [Dec.session, Dec.decode, List.map_cons, List.flatten_cons, List.filterMap_append]
    rw [ih _ h2, h1, ← List.append_assoc]
    generalize (d.loop (trim t)).1 = d' at *
    generalize d.carry ++ List.filterMap hexVal (trim t) = L at *
    generalize List.filterMap hexVal _ = R
    rcases Nat.le_one_iff_eq_zero_or_eq_one.mp h2 with h | h
    · rw [pairUp_append_even L R (by omega)]
      simp [Dec.carry, h]
    · have hl := h4 h
      rw [eq_comm, List.getLast?_eq_some_iff] at hl
      obtain ⟨L', rfl⟩ := hl
      have hc : d'.carry = [d'.buf % 16] := by simp [Dec.carry, h]
      rw [hc, List.singleton_append, pairUp_append_odd _ _ _ (by simp at h3; omega)]
      simp

/-! ## Properties -/

/-- **C05** Encode in any chunks, decode the text in any chunks: the bytes come back. -/
theorem hex_roundtrip (chunks : List (List UInt8)) (texts : List (List Nat))
    (h : texts.flatten = encSession chunks) :
    (Dec.init.session texts).2 = chunks.flatten := by
  have hs : encSession chunks = encode chunks.flatten := by
    clear h
    induction chunks with
    | nil => rfl
    | cons c cs ih =>
      simp only [encSession] at ih
      simp only [encSession, List.map_cons, List.flatten_cons, ih]
      clear ih
      induction c with
      | nil => rfl
      | cons x xs ih2 => simp [encode, ← ih2]
  obtain ⟨h1, _, h3, _⟩ := encode_digits chunks.flatten
  have ht : (texts.map trim).flatten = texts.flatten := by
    have h0 : 0 ∉ texts.flatten := by rw [h, hs]; exact h3
    clear h
    induction texts with
    | nil => rfl
    | cons t ts ih =>
      simp only [List.flatten_cons, List.mem_append, not_or] at h0
      simp [ih h0.2, trim_of_no_nul h0.1]
  rw [session_spec _ _ (by simp [Dec.init]), ht, h, hs]
  simpa [Dec.carry, Dec.init] using h1

/-- **C06** The decoder, called on any chunks (without NUL), produces exactly the bytes
denoted by the hexadecimal digits of the whole text; all other characters are ignored,
wherever they are. -/
theorem hex_decode_denotes (texts : List (List Nat)) (h : ∀ t ∈ texts, 0 ∉ t) :
    (Dec.init.session texts).2 = denote texts.flatten := by
  have ht : texts.map trim = texts := by
    conv => rhs; rw [← List.map_id texts]
    exact List.map_congr_left (fun t ht => trim_of_no_nul (h t ht))
  rw [session_spec _ _ (by simp [Dec.init]), ht]
  simp [Dec.carry, Dec.init, denote]

/-- **C06** Inserting a non-hexadecimal, non-NUL character anywhere changes nothing. -/
theorem hex_noise (a b : List Nat) (c : Nat) (hc : hexVal c = none) (ha : 0 ∉ a) (hb : 0 ∉ b)
    (h0 : c ≠ 0) :
    (Dec.init.session [a ++ c :: b]).2 = (Dec.init.session [a ++ b]).2 := by
  rw [hex_decode_denotes, hex_decode_denotes]
  · simp [denote, hc]
  · simp [ha, hb]
  · simp [ha, hb, Ne.symm h0]

/-- **C06** Text behind a NUL is ignored. -/
theorem hex_nul (d : Dec) (t u : List Nat) : d.decode (t ++ 0 :: u) = d.decode t := by
  simp [Dec.decode, trim_append_nul]

/-- **C06** A decoder state is reachable if it arises from the constructor by calls. -/
inductive Dec.Reach : Dec → Prop where
  | init : Dec.Reach Dec.init
  | decode {d} (t) : Dec.Reach d → Dec.Reach (d.decode t).1
  | clear {d} : Dec.Reach d → Dec.Reach { d with num := 0 }

theorem reach_num {d : Dec} (h : d.Reach) : d.num ≤ 1 := by
  induction h with
  | init => simp [Dec.init]
  | decode t _ ih => exact (loop_spec (trim t) _ ih).2.1
  | clear _ _ => simp

/-- **C06** One `decode` call on `n` characters appends at most `dec_size(n)` bytes, in
every reachable state; `encode` of `n` bytes appends exactly `enc_size(n)` characters. -/
theorem hex_sizes (d : Dec) (h : d.Reach) (t : List Nat) (xs : List UInt8) :
    (d.decode t).2.1.length ≤ decSize t.length ∧ (encode xs).length = encSize xs.length := by
  constructor
  · rw [Dec.decode, (loop_spec (trim t) d (reach_num h)).1, pairUp_length]
    have h1 := trim_length t
    have h2 := List.length_filterMap_le hexVal (trim t)
    have h3 : d.carry.length ≤ 1 := by unfold Dec.carry; split <;> simp
    simp only [List.length_append, decSize]; omega
  · rw [(encode_digits xs).2.1, encSize]; omega

/-! ## Non-vacuity -/

example : encSession [[0x00, 0x9f], [], [0xAB]] = [48, 48, 57, 70, 65, 66] := by decide
example : (Dec.init.session [[48], [48, 57], [70, 65, 66]]).2 = [0x00, 0x9f, 0xAB] := by decide
example : hexVal 32 = none ∧ (Dec.init.session [[97, 32], [10, 98, 49]]).2 = [0xab] := by decide
example : (⟨10, 1⟩ : Dec).Reach := Dec.Reach.decode [97] Dec.Reach.init

end Verif.Hex
