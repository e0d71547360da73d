import Verif.Codec.Base64
/-! Helper lemmas for the base64 coder. -/
namespace Verif.B64

theorem enc_alpha : ∀ v, v < 64 → enc v = alpha v := by decide +kernel
theorem dec_alpha : ∀ v, v < 64 → dec (alpha v) = v := by decide +kernel
theorem alpha_ne : ∀ v, v < 64 → alpha v ≠ 0 := by decide +kernel
theorem dec_pad : dec pad = 64 := by decide
theorem dec_range : ∀ x, x < 256 → (dec x ≤ 64 ↔ isB64 x = true) ∧ (dec x ≤ 64 ∨ dec x = 255) := by
  decide +kernel

theorem alpha_lt : ∀ v, v < 64 → alpha v < 256 := by decide +kernel

theorem decLookup_length : decLookup.length = 256 := by decide +kernel

theorem isB64_lt {x : Nat} (h : isB64 x = true) : x < 256 := by
  simp only [isB64, Bool.or_eq_true, List.any_eq_true, List.mem_range, beq_iff_eq] at h
  rcases h with ⟨v, hv, rfl⟩ | rfl
  · exact alpha_lt v hv
  · decide

theorem dec_le_iff (x : Nat) : dec x ≤ 64 ↔ isB64 x = true := by
  by_cases h : x < 256
  · exact (dec_range x h).1
  · have h1 : dec x = 255 := by
      unfold dec; rw [List.getD_eq_getElem?_getD, List.getElem?_eq_none (by rw [decLookup_length]; omega)]; rfl
    rw [h1]
    constructor
    · intro h'; omega
    · intro h'; exact absurd (isB64_lt h') h

theorem dec_cases (x : Nat) : dec x ≤ 64 ∨ dec x = 255 := by
  by_cases h : x < 256
  · exact (dec_range x h).2
  · right; unfold dec; rw [List.getD_eq_getElem?_getD, List.getElem?_eq_none (by rw [decLookup_length]; omega)]; rfl

theorem isB64_ne_zero {x : Nat} (h : isB64 x = true) : x ≠ 0 := by
  rintro rfl; revert h; decide

/-! ### Arithmetic of the blocks -/

theorem and63 (n : Nat) : n &&& 0x3f = n % 64 := Nat.and_two_pow_sub_one_eq_mod n 6
theorem and255 (n : Nat) : n &&& 0xff = n % 256 := Nat.and_two_pow_sub_one_eq_mod n 8

theorem shl_or {a k b : Nat} (h : b < 2 ^ k) : a <<< k ||| b = a * 2 ^ k + b := by
  rw [← Nat.shiftLeft_add_eq_or_of_lt h, Nat.shiftLeft_eq]

theorem block_rfc (e : Enc) : e.block = rfc4648 [e.b0, e.b1, e.b2] := by
  have h0 := e.b0.toNat_lt; have h1 := e.b1.toNat_lt; have h2 := e.b2.toNat_lt
  simp only [Enc.block, rfc4648, and63, Nat.shiftRight_eq_div_pow]
  rw [shl_or (by omega), shl_or (by omega), enc_alpha _ (by omega), enc_alpha _ (by omega),
    enc_alpha _ (by omega), enc_alpha _ (by omega)]
  have a0 : e.b0.toNat / 2 ^ 2 = (e.b0.toNat * 65536 + e.b1.toNat * 256 + e.b2.toNat) / 262144 := by omega
  have a1 : (e.b0.toNat * 2 ^ 4 + e.b1.toNat / 2 ^ 4) % 64 =
      (e.b0.toNat * 65536 + e.b1.toNat * 256 + e.b2.toNat) / 4096 % 64 := by omega
  have a2 : (e.b1.toNat * 2 ^ 2 + e.b2.toNat / 2 ^ 6) % 64 =
      (e.b0.toNat * 65536 + e.b1.toNat * 256 + e.b2.toNat) / 64 % 64 := by omega
  have a3 : e.b2.toNat % 64 = (e.b0.toNat * 65536 + e.b1.toNat * 256 + e.b2.toNat) % 64 := by omega
  rw [a0, a1, a2, a3]

/-- The bytes waiting in the encoder. -/
def Enc.carry (e : Enc) : List UInt8 := [e.b0, e.b1, e.b2].take e.num

theorem blockN_rfc (e : Enc) (h : e.num = 1 ∨ e.num = 2) : e.blockN e.num = rfc4648 e.carry := by
  have h0 := e.b0.toNat_lt; have h1 := e.b1.toNat_lt
  rcases h with h | h
  · simp only [Enc.blockN, Enc.carry, h, rfc4648, and63, Nat.shiftRight_eq_div_pow, Nat.shiftLeft_eq,
      List.take, gt_iff_lt, Nat.lt_irrefl, if_false, Nat.zero_lt_one, if_true]
    rw [enc_alpha _ (by omega), enc_alpha _ (by omega)]
    have a0 : e.b0.toNat / 2 ^ 2 = (e.b0.toNat * 65536) / 262144 := by omega
    have a1 : (e.b0.toNat * 2 ^ 4) % 64 = (e.b0.toNat * 65536) / 4096 % 64 := by omega
    rw [a0, a1]; rfl
  · simp only [Enc.blockN, Enc.carry, h, rfc4648, and63, Nat.shiftRight_eq_div_pow,
      List.take, gt_iff_lt, Nat.lt_irrefl, if_false, Nat.zero_lt_two, Nat.one_lt_two, if_true]
    rw [shl_or (by omega), enc_alpha _ (by omega), enc_alpha _ (by omega), Nat.shiftLeft_eq,
      enc_alpha _ (by omega)]
    have a0 : e.b0.toNat / 2 ^ 2 = (e.b0.toNat * 65536 + e.b1.toNat * 256) / 262144 := by omega
    have a1 : (e.b0.toNat * 2 ^ 4 + e.b1.toNat / 2 ^ 4) % 64 =
      (e.b0.toNat * 65536 + e.b1.toNat * 256) / 4096 % 64 := by omega
    have a2 : (e.b1.toNat * 2 ^ 2) % 64 = (e.b0.toNat * 65536 + e.b1.toNat * 256) / 64 % 64 := by omega
    rw [a0, a1, a2]; rfl

/-! ### Encoder loop -/

theorem carry_length {e : Enc} (h : e.num ≤ 3) : e.carry.length = e.num := by
  simp [Enc.carry]; omega

theorem put_carry {e : Enc} (h : e.num < 3) (x : UInt8) :
    (e.put x).carry = e.carry ++ [x] ∧ (e.put x).num = e.num + 1 := by
  obtain ⟨b0, b1, b2, n⟩ := e
  have : n = 0 ∨ n = 1 ∨ n = 2 := by simp at h; omega
  rcases this with rfl | rfl | rfl <;> simp [Enc.put, Enc.carry]

/-- The loop consumes whole groups: its output is the RFC encoding of the part of
`carry ++ data` it consumed, a multiple of three bytes long, and the rest (≤ 2 bytes) is
the new carry. -/
theorem loop_spec (data : List UInt8) : ∀ e : Enc, e.num ≤ 3 →
    ∃ done, e.carry ++ data = done ++ (e.loop data).1.carry ∧ done.length % 3 = 0 ∧
      (e.loop data).1.num < 3 ∧ (e.loop data).2 = rfc4648 done := by
  have base : ∀ (e : Enc), e.num = 3 → e.block = rfc4648 e.carry ∧ e.carry.length = 3 := by
    intro e h
    refine ⟨?_, by rw [carry_length (by omega), h]⟩
    rw [block_rfc]; simp [Enc.carry, h]
  have app3 : ∀ (a b : List UInt8), a.length = 3 → rfc4648 (a ++ b) = rfc4648 a ++ rfc4648 b := by
    intro a b h
    match a, h with
    | [x, y, z], _ => simp [rfc4648]
  induction data with
  | nil =>
    intro e he
    by_cases h : e.num ≥ 3
    · have h3 : e.num = 3 := by omega
      obtain ⟨h1, h2⟩ := base e h3
      refine ⟨e.carry, ?_, by omega, ?_, ?_⟩ <;> simp [Enc.loop, h3, Enc.carry]
      rw [h1]; simp [Enc.carry, h3]
    · refine ⟨[], ?_, by simp, ?_, ?_⟩ <;> simp [Enc.loop, h, rfc4648]; omega
  | cons x xs ih =>
    intro e he
    by_cases h : e.num ≥ 3
    · have h3 : e.num = 3 := by omega
      obtain ⟨h1, h2⟩ := base e h3
      obtain ⟨hp, hn⟩ := put_carry (e := { e with num := 0 }) (by simp) x
      obtain ⟨done, d1, d2, d3, d4⟩ := ih (Enc.put { e with num := 0 } x) (by rw [hn]; simp)
      refine ⟨e.carry ++ done, ?_, ?_, ?_, ?_⟩
      · simp only [Enc.loop, h, if_true]
        rw [List.append_assoc, ← d1, hp]; simp [Enc.carry]
      · simp; omega
      · simpa [Enc.loop, h] using d3
      · simp only [Enc.loop, h, if_true]
        rw [d4, h1, app3 _ _ h2]
    · obtain ⟨hp, hn⟩ := put_carry (e := e) (by omega) x
      obtain ⟨done, d1, d2, d3, d4⟩ := ih (e.put x) (by omega)
      refine ⟨done, ?_, d2, ?_, ?_⟩
      · simp only [Enc.loop, h, if_false]
        rw [← d1, hp]; simp
      · simpa [Enc.loop, h] using d3
      · simpa [Enc.loop, h] using d4

theorem rfc_append (a b : List UInt8) (h : a.length % 3 = 0) :
    rfc4648 (a ++ b) = rfc4648 a ++ rfc4648 b := by
  match a, h with
  | [], _ => simp [rfc4648]
  | [x], h => simp at h
  | [x, y], h => simp at h
  | x :: y :: z :: r, h =>
    have := rfc_append r b (by simp at h; omega)
    simp [rfc4648, this]

theorem rfc_length (a : List UInt8) : (rfc4648 a).length = (a.length + 2) / 3 * 4 := by
  match a with
  | [] => simp [rfc4648]
  | [x] => simp [rfc4648]
  | [x, y] => simp [rfc4648]
  | x :: y :: z :: r => simp [rfc4648, rfc_length r]; omega

theorem encode_last (e : Enc) (he : e.num < 3) (data : List UInt8) :
    (e.encode data true).2 = rfc4648 (e.carry ++ data) ∧ (e.encode data true).1.num = 0 := by
  obtain ⟨done, d1, d2, d3, d4⟩ := loop_spec data e (by omega)
  by_cases h : (e.loop data).1.num = 0
  · have hc : (e.loop data).1.carry = [] := by simp [Enc.carry, h]
    rw [hc, List.append_nil] at d1
    simp [Enc.encode, h, d1, d4]
  · have hb := blockN_rfc (e.loop data).1 (by omega)
    refine ⟨?_, by simp [Enc.encode, h]⟩
    simp only [Enc.encode, Bool.true_and, bne_iff_ne, ne_eq, h, not_false_eq_true, if_true]
    rw [d1, hb, d4, rfc_append _ _ d2]

theorem encode_more (e : Enc) (data : List UInt8) : e.encode data false = e.loop data := by
  simp [Enc.encode]

theorem session_spec (cs : List (List UInt8)) (last : List UInt8) : ∀ e : Enc, e.num < 3 →
    (e.session cs last).2 = rfc4648 (e.carry ++ cs.flatten ++ last) ∧ (e.session cs last).1.num = 0 := by
  induction cs with
  | nil => intro e he; simpa [Enc.session] using encode_last e he last
  | cons c cs ih =>
    intro e he
    obtain ⟨done, d1, d2, d3, d4⟩ := loop_spec c e (by omega)
    obtain ⟨i1, i2⟩ := ih (e.loop c).1 d3
    simp only [Enc.session, encode_more]
    refine ⟨?_, i2⟩
    rw [i1, d4, ← rfc_append _ _ d2]
    simp only [List.flatten_cons]
    congr 1
    rw [← List.append_assoc e.carry, d1]; simp

/-! ### Decoder loop -/

/-- Codes the decoder has collected. -/
def Dec.carry (d : Dec) : List Nat := [d.b0, d.b1, d.b2, d.b3].take d.num

/-- What a group of four codes decodes to (base64.hpp 353-366, arithmetically). -/
def group (c : List Nat) : List UInt8 :=
  match c with
  | [a, b, c, d] => (⟨a, b, c, d, 0⟩ : Dec).block
  | _ => []

theorem dput_carry {d : Dec} (h : d.num < 4) (x : Nat) :
    (isB64 x = true → (d.put x).carry = d.carry ++ [dec x] ∧ (d.put x).num = d.num + 1) ∧
    (isB64 x = false → (d.put x).carry = d.carry ∧ (d.put x).num = d.num) := by
  have key : dec x ≠ 255 ↔ isB64 x = true := by
    rw [← dec_le_iff]; rcases dec_cases x with h | h <;> omega
  obtain ⟨b0, b1, b2, b3, n⟩ := d
  have hn : n = 0 ∨ n = 1 ∨ n = 2 ∨ n = 3 := by simp at h; omega
  constructor
  · intro hx
    have := key.mpr hx
    rcases hn with rfl | rfl | rfl | rfl <;> simp [Dec.put, Dec.carry, this]
  · intro hx
    have : ¬ dec x ≠ 255 := by rw [key, hx]; simp
    rcases hn with rfl | rfl | rfl | rfl <;> simp [Dec.put, Dec.carry, this]

theorem block_group {d : Dec} (h : d.num = 4) : d.block = group d.carry := by
  obtain ⟨b0, b1, b2, b3, n⟩ := d
  simp at h; subst h
  simp [Dec.carry, group, Dec.block]

/-- Decode a list of codes group by group, stopping after the first short group. The rest
is dropped if a short group was met. Returns bytes, leftover codes, short flag. -/
def groups : List Nat → List UInt8 × List Nat × Bool
  | a :: b :: c :: d :: rest =>
    let g := group [a, b, c, d]
    if g.length < 3 then (g, [], true)
    else
      let r := groups rest
      (g ++ r.1, r.2)
  | l => ([], l, false)

theorem dloop_spec (t : List Nat) : ∀ d : Dec, d.num ≤ 4 →
    let codes := d.carry ++ (t.filter isB64).map dec
    (d.loop t).2.1 = (groups codes).1 ∧ (d.loop t).2.2 = (groups codes).2.2 ∧
    (d.loop t).1.num < 4 ∧
    (d.loop t).1.carry = (groups codes).2.1 := by
  have base : ∀ d : Dec, d.num = 4 → ∃ a b c e, d.carry = [a, b, c, e] := by
    intro d h
    exact ⟨d.b0, d.b1, d.b2, d.b3, by simp [Dec.carry, h]⟩
  induction t with
  | nil =>
    intro d hd
    by_cases h : d.num ≥ 4
    · have h4 : d.num = 4 := by omega
      obtain ⟨a, b, c, e, hc⟩ := base d h4
      have hb := block_group h4
      rw [hc] at hb
      have e0 : Dec.carry { d with num := 0 } = [] := by simp [Dec.carry]
      by_cases hg : (group [a, b, c, e]).length < 3 <;>
        simp [Dec.loop, h, hc, groups, hb, hg, e0]
    · have hl : d.carry.length < 4 := by simp [Dec.carry]; omega
      have : groups d.carry = ([], d.carry, false) := by
        revert hl; generalize d.carry = l; intro hl
        match l, hl with
        | [], _ => rfl
        | [_], _ => rfl
        | [_, _], _ => rfl
        | [_, _, _], _ => rfl
      simp [Dec.loop, h, this]; omega
  | cons x xs ih =>
    intro d hd
    by_cases h : d.num ≥ 4
    · have h4 : d.num = 4 := by omega
      obtain ⟨a, b, c, e, hc⟩ := base d h4
      have hb := block_group h4
      rw [hc] at hb
      have e0 : Dec.carry { d with num := 0 } = [] := by simp [Dec.carry]
      by_cases hg : (group [a, b, c, e]).length < 3
      · simp [Dec.loop, h, hc, groups, hb, hg, e0]
      · have hp := dput_carry (d := { d with num := 0 }) (by simp) x
        have hle : (Dec.put { d with num := 0 } x).num ≤ 4 := by
          cases hx : isB64 x
          · rw [(hp.2 hx).2]; simp
          · rw [(hp.1 hx).2]; simp
        obtain ⟨i1, i2, i3, i4⟩ := ih (Dec.put { d with num := 0 } x) hle
        have hcodes : (Dec.put { d with num := 0 } x).carry ++ (xs.filter isB64).map dec =
            ((x :: xs).filter isB64).map dec := by
          cases hx : isB64 x
          · rw [(hp.2 hx).1, e0]; simp [hx]
          · rw [(hp.1 hx).1, e0]; simp [hx]
        rw [hcodes] at i1 i2 i4
        simp only [Dec.loop, h, if_true, hb, hg, if_false, hc, List.cons_append, List.nil_append, groups]
        exact ⟨by rw [i1], i2, i3, i4⟩
    · have hp := dput_carry (d := d) (by omega) x
      have hle : (d.put x).num ≤ 4 := by
        cases hx : isB64 x
        · rw [(hp.2 hx).2]; omega
        · rw [(hp.1 hx).2]; omega
      have := ih (d.put x) hle
      have hcodes : (d.put x).carry ++ (xs.filter isB64).map dec =
            d.carry ++ ((x :: xs).filter isB64).map dec := by
          cases hx : isB64 x
          · rw [(hp.2 hx).1]; simp [hx]
          · rw [(hp.1 hx).1]; simp [hx]
      rw [hcodes] at this
      simpa [Dec.loop, h] using this

theorem trim_of_no_nul {t : List Nat} (h : 0 ∉ t) : trim t = t := by
  induction t with
  | nil => rfl
  | cons c cs ih =>
    simp only [List.mem_cons, not_or] at h
    simp [trim, Ne.symm h.1, ih h.2]

theorem trim_append_nul (t u : List Nat) : trim (t ++ 0 :: u) = trim t := by
  induction t with
  | nil => simp [trim]
  | cons c cs ih => simp [trim, ih]

theorem trim_length (t : List Nat) : (trim t).length ≤ t.length := by
  induction t with
  | nil => simp [trim]
  | cons c cs ih => simp only [trim]; split <;> simp <;> omega

/-! ### Groups of an encoded text -/

theorem group_full (a b c : UInt8) :
    group ((rfc4648 [a, b, c]).map dec) = [a, b, c] := by
  have h0 := a.toNat_lt; have h1 := b.toNat_lt; have h2 := c.toNat_lt
  simp only [rfc4648, List.map_cons, List.map_nil]
  rw [dec_alpha _ (by omega), dec_alpha _ (by omega), dec_alpha _ (by omega), dec_alpha _ (by omega)]
  simp only [group, Dec.block, and255, Nat.shiftRight_eq_div_pow]
  rw [if_pos (by omega), if_pos (by omega), shl_or (by omega), shl_or (by omega), shl_or (by omega)]
  generalize hn : a.toNat * 65536 + b.toNat * 256 + c.toNat = n
  have e0 : (n / 262144 * 2 ^ 2 + n / 4096 % 64 / 2 ^ 4) % 256 = a.toNat := by omega
  have e1 : (n / 4096 % 64 * 2 ^ 4 + n / 64 % 64 / 2 ^ 2) % 256 = b.toNat := by omega
  have e2 : (n / 64 % 64 * 2 ^ 6 + n % 64) % 256 = c.toNat := by omega
  rw [e0, e1, e2]; simp

theorem group_two (a b : UInt8) : group ((rfc4648 [a, b]).map dec) = [a, b] := by
  have h0 := a.toNat_lt; have h1 := b.toNat_lt
  simp only [rfc4648, List.map_cons, List.map_nil]
  rw [dec_alpha _ (by omega), dec_alpha _ (by omega), dec_alpha _ (by omega), dec_pad]
  simp only [group, Dec.block, and255, Nat.shiftRight_eq_div_pow]
  rw [if_pos (by omega), if_neg (by omega), shl_or (by omega), shl_or (by omega)]
  generalize hn : a.toNat * 65536 + b.toNat * 256 = n
  have e0 : (n / 262144 * 2 ^ 2 + n / 4096 % 64 / 2 ^ 4) % 256 = a.toNat := by omega
  have e1 : (n / 4096 % 64 * 2 ^ 4 + n / 64 % 64 / 2 ^ 2) % 256 = b.toNat := by omega
  rw [e0, e1]; simp

theorem group_one (a : UInt8) : group ((rfc4648 [a]).map dec) = [a] := by
  have h0 := a.toNat_lt
  simp only [rfc4648, List.map_cons, List.map_nil]
  rw [dec_alpha _ (by omega), dec_alpha _ (by omega), dec_pad]
  simp only [group, Dec.block, and255, Nat.shiftRight_eq_div_pow]
  rw [if_neg (by omega), shl_or (by omega)]
  have e0 : (a.toNat * 65536 / 262144 * 2 ^ 2 + a.toNat * 65536 / 4096 % 64 / 2 ^ 4) % 256 = a.toNat := by omega
  rw [e0]; simp

theorem groups_cons (a b c d : Nat) (rest : List Nat) : groups (a :: b :: c :: d :: rest) =
    if (group [a, b, c, d]).length < 3 then (group [a, b, c, d], [], true)
    else (group [a, b, c, d] ++ (groups rest).1, (groups rest).2) := rfl

theorem groups_rfc (xs : List UInt8) :
    groups ((rfc4648 xs).map dec) = (xs, [], decide (xs.length % 3 ≠ 0)) := by
  match xs with
  | [] => simp [rfc4648, groups]
  | [a] =>
    have := group_one a
    simp only [rfc4648, List.map_cons, List.map_nil] at this ⊢
    rw [groups_cons, this]; simp
  | [a, b] =>
    have := group_two a b
    simp only [rfc4648, List.map_cons, List.map_nil] at this ⊢
    rw [groups_cons, this]; simp
  | a :: b :: c :: rest =>
    have h := group_full a b c
    have ih := groups_rfc rest
    simp only [rfc4648, List.map_cons, List.map_nil] at h ⊢
    rw [groups_cons, h, ih]
    simp; omega

/-- Splitting the code list: decoding a prefix, then the rest from the leftovers. -/
theorem groups_append (a b : List Nat) (h : (groups a).2.2 = false) :
    groups (a ++ b) = ((groups a).1 ++ (groups ((groups a).2.1 ++ b)).1,
      (groups ((groups a).2.1 ++ b)).2) := by
  match a, h with
  | [], _ => simp [groups]
  | [_], _ => simp [groups]
  | [_, _], _ => simp [groups]
  | [_, _, _], _ => simp [groups]
  | w :: x :: y :: z :: r, h =>
    rw [groups_cons] at h ⊢
    rw [List.cons_append, List.cons_append, List.cons_append, List.cons_append, groups_cons]
    by_cases hg : (group [w, x, y, z]).length < 3
    · simp [hg] at h
    · simp only [hg, if_false] at h ⊢
      rw [groups_append r b h]
      simp

theorem groups_length (l : List Nat) : (groups l).1.length ≤ l.length / 4 * 3 := by
  match l with
  | [] => simp [groups]
  | [_] => simp [groups]
  | [_, _] => simp [groups]
  | [_, _, _] => simp [groups]
  | w :: x :: y :: z :: r =>
    have := groups_length r
    have hg : (group [w, x, y, z]).length ≤ 3 := by
      simp only [group, Dec.block]; split
      · split <;> simp
      · simp
    rw [groups_cons]
    split
    · simp; omega
    · simp; omega

theorem rfc_isB64 (xs : List UInt8) : ∀ c ∈ rfc4648 xs, isB64 c = true := by
  have ha : ∀ v, v < 64 → isB64 (alpha v) = true := by decide +kernel
  have hp : isB64 pad = true := by decide
  match xs with
  | [] => simp [rfc4648]
  | [a] =>
    have h0 := a.toNat_lt
    simp [rfc4648, hp, ha _ (by omega : a.toNat * 65536 / 262144 < 64), ha _ (by omega : a.toNat * 65536 / 4096 % 64 < 64)]
  | [a, b] =>
    have h0 := a.toNat_lt; have h1 := b.toNat_lt
    simp [rfc4648, hp, ha _ (by omega : (a.toNat * 65536 + b.toNat * 256) / 262144 < 64),
      ha _ (by omega : (a.toNat * 65536 + b.toNat * 256) / 4096 % 64 < 64),
      ha _ (by omega : (a.toNat * 65536 + b.toNat * 256) / 64 % 64 < 64)]
  | a :: b :: c :: rest =>
    have h0 := a.toNat_lt; have h1 := b.toNat_lt; have h2 := c.toNat_lt
    have := rfc_isB64 rest
    intro x hx
    simp only [rfc4648, List.mem_cons] at hx
    rcases hx with rfl | rfl | rfl | rfl | hx
    · exact ha _ (by omega)
    · exact ha _ (by omega)
    · exact ha _ (by omega)
    · exact ha _ (by omega)
    · exact this x hx

/-- Session of the decoder on a code list that contains at most one short group, at its
very end. -/
theorem dsession_spec (ts : List (List Nat)) : ∀ d : Dec, d.num < 4 → (∀ t ∈ ts, 0 ∉ t) →
    (groups (d.carry ++ (ts.flatten.filter isB64).map dec)).2.1 = [] →
    (∀ p s, d.carry ++ (ts.flatten.filter isB64).map dec = p ++ s → (groups p).2.2 = true → s = []) →
    (d.session ts).2.1 = (groups (d.carry ++ (ts.flatten.filter isB64).map dec)).1 ∧
    ((d.session ts).2.2.any id) = (groups (d.carry ++ (ts.flatten.filter isB64).map dec)).2.2 ∧
    (d.session ts).1.num = 0 := by
  induction ts with
  | nil =>
    intro d hd _ h1 h2
    have hl : d.carry.length < 4 := by simp [Dec.carry]; omega
    have : groups d.carry = ([], d.carry, false) := by
      revert hl; generalize d.carry = l; intro hl
      match l, hl with
      | [], _ => rfl
      | [_], _ => rfl
      | [_, _], _ => rfl
      | [_, _, _], _ => rfl
    simp [this] at h1
    simp [Dec.session, this]
    have hz : d.carry.length = 0 := by rw [h1]; rfl
    simp [Dec.carry] at hz; omega
  | cons t ts ih =>
    intro d hd h0 h1 h2
    have ht : trim t = t := trim_of_no_nul (h0 t (by simp))
    obtain ⟨l1, l2, l3, l4⟩ := dloop_spec t d (by omega)
    simp only [Dec.session, Dec.decode, ht]
    simp only [List.flatten_cons, List.filter_append, List.map_append] at h1 h2 ⊢
    rw [← List.append_assoc] at h1 h2 ⊢
    cases hshort : (groups (d.carry ++ (t.filter isB64).map dec)).2.2 with
    | false =>
      rw [groups_append _ _ hshort] at h1 ⊢
      rw [← l4] at h1 ⊢
      obtain ⟨i1, i2, i3⟩ := ih (d.loop t).1 l3 (fun t' ht' => h0 t' (by simp [ht'])) h1 (by
        intro p s hps hp
        have hsplit := groups_append (d.carry ++ (t.filter isB64).map dec) (p.drop (d.loop t).1.carry.length) hshort
        by_cases hlen : (d.loop t).1.carry.length ≤ p.length
        · -- p = carry' ++ p'
          have hp' : p = (d.loop t).1.carry ++ p.drop (d.loop t).1.carry.length := by
            have hpre : (d.loop t).1.carry = p.take (d.loop t).1.carry.length := by
              have := congrArg (List.take (d.loop t).1.carry.length) hps
              rw [List.take_append_of_le_length hlen] at this
              simpa using this
            conv => lhs; rw [← List.take_append_drop (d.loop t).1.carry.length p]
            rw [← hpre]
          apply h2 (d.carry ++ (t.filter isB64).map dec ++ p.drop (d.loop t).1.carry.length) s
          · rw [hp', List.append_assoc] at hps
            rw [List.append_assoc (d.carry ++ _), List.append_cancel_left hps]
          · rw [hsplit]
            simp only
            rw [← l4, ← hp']; exact hp
        · -- p shorter than the carry: fewer than four codes, no group
          have hl4 : (d.loop t).1.carry.length < 4 := by simp [Dec.carry]; omega
          have hp4 : p.length < 4 := by omega
          exfalso; revert hp
          match p, hp4 with
          | [], _ => simp [groups]
          | [_], _ => simp [groups]
          | [_, _], _ => simp [groups]
          | [_, _, _], _ => simp [groups])
      refine ⟨by rw [l1, i1], ?_, i3⟩
      simp only [List.any_cons, id]
      rw [l2, hshort, i2]; simp
    | true =>
      have hs := h2 (d.carry ++ (t.filter isB64).map dec) _ rfl hshort
      rw [hs, List.append_nil] at h1 ⊢
      have hc : (d.loop t).1.carry = [] := by rw [l4, h1]
      obtain ⟨i1, i2, i3⟩ := ih (d.loop t).1 l3 (fun t' ht' => h0 t' (by simp [ht']))
        (by rw [hc, hs]; simp [groups]) (by
          intro p s hps hp
          rw [hc, hs] at hps
          simp at hps
          exact hps.2)
      refine ⟨?_, ?_, i3⟩
      · rw [l1, i1, hc, hs]; simp [groups]
      · simp only [List.any_cons, id]
        rw [l2, hshort]; simp

theorem rfc_split (xs : List UInt8) : ∀ p s, (rfc4648 xs).map dec = p ++ s →
    (groups p).2.2 = true → s = [] := by
  intro p s h hp
  have hlen4 : ((rfc4648 xs).map dec).length % 4 = 0 := by simp [rfc_length]
  match xs with
  | [] => simp [rfc4648] at h; exact h.2
  | [a] =>
    simp only [rfc4648, List.map_cons, List.map_nil] at h
    match p with
    | [] => simp [groups] at hp
    | [_] => simp [groups] at hp
    | [_, _] => simp [groups] at hp
    | [_, _, _] => simp [groups] at hp
    | _ :: _ :: _ :: _ :: r => simp at h; exact h.2.2.2.2.2
  | [a, b] =>
    simp only [rfc4648, List.map_cons, List.map_nil] at h
    match p with
    | [] => simp [groups] at hp
    | [_] => simp [groups] at hp
    | [_, _] => simp [groups] at hp
    | [_, _, _] => simp [groups] at hp
    | _ :: _ :: _ :: _ :: r => simp at h; exact h.2.2.2.2.2
  | a :: b :: c :: rest =>
    have hg := group_full a b c
    simp only [rfc4648, List.map_cons, List.map_nil] at h hg
    match p with
    | [] => simp [groups] at hp
    | [_] => simp [groups] at hp
    | [_, _] => simp [groups] at hp
    | [_, _, _] => simp [groups] at hp
    | w :: x :: y :: z :: r =>
      simp only [List.cons_append, List.cons.injEq] at h
      obtain ⟨rfl, rfl, rfl, rfl, h⟩ := h
      rw [groups_cons, hg] at hp
      simp at hp
      exact rfc_split rest r s h hp

end Verif.B64
