import Verif.Codec.Base64Lemmas
/-! # Properties C07-C09: the base64 encoder and decoder -/
namespace Verif.B64

/-- **C07** Whatever the splitting into calls, the text produced is the RFC 4648 base64
of all the bytes, and the encoder is ready for the next message. -/
theorem b64_encode_rfc (chunks : List (List UInt8)) (last : List UInt8) :
    (Enc.init.session chunks last).2 = rfc4648 (chunks.flatten ++ last) ∧
    (Enc.init.session chunks last).1.num = 0 := by
  simpa [Enc.carry, Enc.init] using session_spec chunks last Enc.init (by simp [Enc.init])

/-- Encoder states that occur between calls. -/
inductive Enc.Reach : Enc → Prop where
  | init : Enc.Reach Enc.init
  | encode {e} (d b) : Enc.Reach e → Enc.Reach (e.encode d b).1
  | clear {e} : Enc.Reach e → Enc.Reach { e with num := 0 }

theorem enc_reach_num {e : Enc} (h : e.Reach) : e.num < 3 := by
  induction h with
  | init => simp [Enc.init]
  | @encode e d b _ ih =>
    cases b
    · rw [encode_more]; obtain ⟨_, _, _, h3, _⟩ := loop_spec d e (by omega); exact h3
    · rw [(encode_last e ih d).2]; omega
  | clear _ _ => simp

/-- Decoder states that occur between calls. -/
inductive Dec.Reach : Dec → Prop where
  | init : Dec.Reach Dec.init
  | decode {d} (t) : Dec.Reach d → Dec.Reach (d.decode t).1
  | clear {d} : Dec.Reach d → Dec.Reach { d with num := 0 }

theorem dec_reach_num {d : Dec} (h : d.Reach) : d.num < 4 := by
  induction h with
  | init => simp [Dec.init]
  | @decode d t _ ih => exact (dloop_spec (trim t) d (by omega)).2.2.1
  | clear _ _ => simp

/-- **C08** Any text whose base64 characters (alphabet and `=`) are those of the RFC
encoding of `data` - with any other non-NUL characters inserted anywhere - decodes to
`data` in any splitting into calls; `is_last` is reported by some call iff the encoding
is padded; afterwards the decoder is empty. -/
theorem b64_decode_inverts (data : List UInt8) (texts : List (List Nat))
    (hz : ∀ t ∈ texts, 0 ∉ t) (h : texts.flatten.filter isB64 = rfc4648 data) :
    (Dec.init.session texts).2.1 = data ∧
    ((Dec.init.session texts).2.2.any id = true ↔ data.length % 3 ≠ 0) ∧
    (Dec.init.session texts).1.num = 0 := by
  have hc : Dec.init.carry = [] := by simp [Dec.carry, Dec.init]
  have hg := groups_rfc data
  obtain ⟨h1, h2, h3⟩ := dsession_spec texts Dec.init (by simp [Dec.init]) hz
    (by rw [hc, h, List.nil_append, hg])
    (by intro p s hps hp; rw [hc, h, List.nil_append] at hps; exact rfc_split data p s hps hp)
  rw [hc, h, List.nil_append, hg] at h1 h2
  refine ⟨h1, ?_, h3⟩
  rw [h2]; simp

/-- **C08** In particular decoder after encoder is the identity. -/
theorem b64_roundtrip (chunks : List (List UInt8)) (last : List UInt8) (texts : List (List Nat))
    (h : texts.flatten = (Enc.init.session chunks last).2) :
    (Dec.init.session texts).2.1 = chunks.flatten ++ last := by
  rw [(b64_encode_rfc chunks last).1] at h
  have hb := rfc_isB64 (chunks.flatten ++ last)
  refine (b64_decode_inverts _ texts ?_ ?_).1
  · intro t ht h0
    have : 0 ∈ texts.flatten := List.mem_flatten.mpr ⟨t, ht, h0⟩
    rw [h] at this
    exact isB64_ne_zero (hb 0 this) rfl
  · rw [h]; exact List.filter_eq_self.mpr hb

/-- **C08** `is_last` is reported by exactly the call that completes the padded block:
calls that contain no base64 characters any more neither produce bytes nor report it. -/
theorem b64_is_last_once (d : Dec) (h : d.num = 0) (t : List Nat) (ht : ∀ c ∈ t, isB64 c = false) :
    (d.decode t).2 = ([], false) := by
  have hle : (∀ c ∈ trim t, isB64 c = false) := by
    clear h d
    induction t with
    | nil => simp [trim]
    | cons c cs ih =>
      have := ih (fun c hc => ht c (by simp [hc]))
      intro x hx
      simp only [trim] at hx
      split at hx
      · simp at hx
      · rcases List.mem_cons.mp hx with rfl | hx
        · exact ht _ (by simp)
        · exact this x hx
  obtain ⟨l1, l2, _, _⟩ := dloop_spec (trim t) d (by omega)
  have hf : (trim t).filter isB64 = [] := by
    rw [List.filter_eq_nil_iff]; intro c hc; simp [hle c hc]
  have hc : d.carry = [] := by simp [Dec.carry, h]
  rw [hf, hc] at l1 l2
  simp [groups] at l1 l2
  exact Prod.ext l1 l2

/-- **C08** Text behind a NUL is ignored. -/
theorem b64_nul (d : Dec) (t u : List Nat) : d.decode (t ++ 0 :: u) = d.decode t := by
  simp [Dec.decode, trim_append_nul]

/-- **C09** In every reachable state one call to `encode` of `n` bytes appends at most
`enc_size(n)` characters - exactly that many if it is the last call - and one call to
`decode` of `n` characters appends at most `dec_size(n)` bytes. -/
theorem b64_sizes (e : Enc) (he : e.Reach) (d : Dec) (hd : d.Reach) (data : List UInt8) (b : Bool)
    (t : List Nat) :
    (e.encode data b).2.length ≤ e.encSize data.length ∧
    (e.encode data true).2.length = e.encSize data.length ∧
    (d.decode t).2.1.length ≤ d.decSize t.length := by
  have hn := enc_reach_num he
  have hlast : (e.encode data true).2.length = e.encSize data.length := by
    rw [(encode_last e hn data).1, rfc_length]
    simp [carry_length (show e.num ≤ 3 by omega), Enc.encSize]
  refine ⟨?_, hlast, ?_⟩
  · cases b
    · rw [encode_more]
      obtain ⟨done, d1, d2, d3, d4⟩ := loop_spec data e (by omega)
      rw [d4, rfc_length]
      have := congrArg List.length d1
      simp [carry_length (show e.num ≤ 3 by omega)] at this
      simp only [Enc.encSize]; omega
    · omega
  · have hm := dec_reach_num hd
    rw [Dec.decode, (dloop_spec (trim t) d (by omega)).1]
    refine Nat.le_trans (groups_length _) ?_
    have h1 := trim_length t
    have h2 := List.length_filter_le isB64 (trim t)
    have h3 : d.carry.length = d.num := by simp [Dec.carry]; omega
    simp only [List.length_append, List.length_map, h3, Dec.decSize]; omega

/-- The table indices used by the block encoders are inside the 64-entry table. -/
theorem enc_index_ok (e : Enc) :
    e.b0.toNat >>> 2 < 64 ∧ ((e.b0.toNat <<< 4) ||| (e.b1.toNat >>> 4)) &&& 0x3f < 64 ∧
    ((e.b1.toNat <<< 2) ||| (e.b2.toNat >>> 6)) &&& 0x3f < 64 ∧ e.b2.toNat &&& 0x3f < 64 ∧
    (e.b1.toNat <<< 2) &&& 0x3f < 64 ∧ (e.b0.toNat <<< 4) &&& 0x3f < 64 := by
  have := e.b0.toNat_lt
  simp only [and63, Nat.shiftRight_eq_div_pow]
  omega

/-! ## Non-vacuity -/

/-- "Man" -> "TWFu", "Ma" -> "TWE=", "M" -> "TQ==" (RFC 4648 examples). -/
example : rfc4648 [77, 97, 110] = "TWFu".toList.map Char.toNat ∧
    rfc4648 [77, 97] = "TWE=".toList.map Char.toNat ∧
    rfc4648 [77] = "TQ==".toList.map Char.toNat := by decide
example : (Enc.init.session [[77], [], [97, 110, 77]] [97]).2 = "TWFuTWE=".toList.map Char.toNat := by
  decide
example : (∀ t ∈ ["TWF".toList.map Char.toNat, "\nu TW".toList.map Char.toNat, "E=\r\n".toList.map Char.toNat], 0 ∉ t)
  ∧ (["TWF".toList.map Char.toNat, "\nu TW".toList.map Char.toNat, "E=\r\n".toList.map Char.toNat]).flatten.filter isB64
    = rfc4648 [77, 97, 110, 77, 97] := by decide
example : (⟨77, 97, 0, 2⟩ : Enc).Reach := Enc.Reach.encode [77, 97] false .init
example : (⟨19, 22, 5, 0, 3⟩ : Dec).Reach := Dec.Reach.decode [84, 87, 70] .init

end Verif.B64
