import Verif.Record.WavCuesRead
/-
`find_first` and `read_cues` on files of chunks: proofs.
-/
namespace Verif.Record.Wav
open Verif.Stream Verif.Stream.MemoryFile Verif.Record
variable {σ τ α : Type}

theorem leEnc_dec : ∀ (l : List Byte), leEnc l.length (leDec l) = l ∧ leDec l < 256 ^ l.length := by
  intro l
  induction l with
  | nil => exact ⟨rfl, by decide⟩
  | cons b l ih =>
    have hb := b.isLt
    rw [List.length_cons, leEnc, leDec]
    rw [show (b.toNat + 256 * leDec l) / 256 = leDec l by omega, ih.1, Nat.pow_succ]
    refine ⟨?_, by omega⟩
    congr 1
    apply BitVec.eq_of_toNat_eq
    rw [BitVec.toNat_ofNat]
    omega

theorem record_even (id : Nat) (p : List Byte) : (record 4 4 2 id p).length = 8 + p.length + p.length % 2 := by
  rw [record_length]
  unfold padding
  omega

theorem records_even (rs : List (Nat × List Byte)) : (records 4 4 2 rs).length % 2 = 0 := by
  induction rs with
  | nil => rfl
  | cons r rs ih => rw [records_cons, List.length_append, record_even]; omega

theorem records_long (rs : List (Nat × List Byte)) : rs.length ≤ (records 4 4 2 rs).length := by
  induction rs with
  | nil => exact Nat.le_refl _
  | cons r rs ih => rw [records_cons, List.length_append, record_even, List.length_cons]; omega

theorem split_first (p : Nat × List Byte → Bool) : ∀ (rs : List (Nat × List Byte)), (∀ r ∈ rs, p r = false) ∨ ∃ a x b, rs = a ++ x :: b ∧ (∀ r ∈ a, p r = false) ∧ p x = true := by
  intro rs
  induction rs with
  | nil => exact Or.inl (fun r hr => nomatch hr)
  | cons r rs ih =>
    cases hp : p r with
    | true => exact Or.inr ⟨[], r, rs, rfl, (fun r hr => nomatch hr), hp⟩
    | false =>
      rcases ih with h | ⟨a, x, b, e, h1, h2⟩
      · refine Or.inl (fun q hq => ?_)
        rcases List.mem_cons.1 hq with rfl | hq
        · exact hp
        · exact h q hq
      · refine Or.inr ⟨r :: a, x, b, by rw [e]; rfl, fun q hq => ?_, h2⟩
        rcases List.mem_cons.1 hq with rfl | hq
        · exact hp
        · exact h1 q hq

/-- A chunk in which `find_first` does not find what it looks for. -/
def Other (id subid : Nat) (r : Nat × List Byte) : Prop := Record.Fits 4 4 2 r.1 r.2 ∧ (r.1 = id → 4 ≤ r.2.length ∧ leDec (r.2.take 4) ≠ subid)

/-- Reading the size of a chunk. -/
theorem rd_size {chunk : Nat} (hc : 0 < chunk) {id : Nat} {p pre rest : List Byte} (hf : Record.Fits 4 4 2 id p) :
    rdNum chunk ⟨pre ++ record 4 4 2 id p ++ rest, pre.length + 4, .ok⟩ 4 = some (p.length, ⟨pre ++ record 4 4 2 id p ++ rest, pre.length + 8, .ok⟩) := by
  refine rdNum_ok (rest := p ++ List.replicate (padding 2 p.length) 0 ++ rest) hc rfl (by have := hf.2; omega) ?_
  simp only
  rw [show pre ++ record 4 4 2 id p ++ rest = (pre ++ leEnc 4 id) ++ (leEnc 4 p.length ++ (p ++ List.replicate (padding 2 p.length) 0 ++ rest)) by simp [record]]
  rw [List.drop_left' (by rw [List.length_append, leEnc_length])]

/-- Reading the number at the beginning of its data. -/
theorem rd_sub {chunk : Nat} (hc : 0 < chunk) {id : Nat} {p pre rest : List Byte} (h4 : 4 ≤ p.length) :
    rdNum chunk ⟨pre ++ record 4 4 2 id p ++ rest, pre.length + 8, .ok⟩ 4 = some (leDec (p.take 4), ⟨pre ++ record 4 4 2 id p ++ rest, pre.length + 12, .ok⟩) := by
  obtain ⟨e1, e2⟩ := leEnc_dec (p.take 4)
  have hl : (p.take 4).length = 4 := by rw [List.length_take]; omega
  rw [hl] at e1 e2
  refine rdNum_ok (rest := p.drop 4 ++ List.replicate (padding 2 p.length) 0 ++ rest) hc rfl e2 ?_
  simp only
  rw [e1, show pre ++ record 4 4 2 id p ++ rest = (pre ++ leEnc 4 id ++ leEnc 4 p.length) ++ (p ++ (List.replicate (padding 2 p.length) 0 ++ rest)) by simp [record]]
  rw [List.drop_left' (by rw [List.length_append, List.length_append, leEnc_length, leEnc_length])]
  conv => lhs; rw [← List.take_append_drop 4 p]
  simp only [List.append_assoc]
  rw [List.take_append_drop]

/-- One round over a chunk that is not the one, and the chunks before it. -/
theorem findFirst_skip {chunk : Nat} (hc : 0 < chunk) {id subid e : Nat} {a : List (Nat × List Byte)} {p : List Byte} {pre rest : List Byte} (ha : ∀ r ∈ a, Record.Fits 4 4 2 r.1 r.2 ∧ r.1 ≠ id)
    (hp : Other id subid (id, p)) (hev : pre.length % 2 = 0) (he : (pre ++ records 4 4 2 a).length < e) (hl : (pre ++ records 4 4 2 a ++ record 4 4 2 id p).length < 2 ^ 63) (fuel : Nat) :
    findFirst chunk id subid e (fuel + 1) ⟨pre ++ records 4 4 2 a ++ record 4 4 2 id p ++ rest, pre.length, .ok⟩ =
      findFirst chunk id subid e fuel ⟨pre ++ records 4 4 2 a ++ record 4 4 2 id p ++ rest, (pre ++ records 4 4 2 a ++ record 4 4 2 id p).length, .ok⟩ := by
  obtain ⟨h4, hne⟩ := hp.2 rfl
  have hrl := records_long a
  have hre := records_even a
  have hle := record_even id p
  rw [findFirst]
  rw [if_pos (show (⟨pre ++ records 4 4 2 a ++ record 4 4 2 id p ++ rest, pre.length, .ok⟩ : File).pos < e by rw [List.length_append] at he; simp only; omega)]
  rw [find_found hc (by omega) ha hp.1 hl (fun x hx => by cases hx; exact he) (by simp only [List.length_append]; omega)]
  simp only
  rw [rd_size hc hp.1]
  simp only [Option.bind_some]
  rw [if_neg (by simp), rd_sub hc h4]
  simp only [Option.bind_some]
  rw [if_neg (by simp), if_neg hne]
  unfold seekbeg
  simp only [List.length_append] at hl ⊢
  rw [hle] at hl ⊢
  rw [if_pos (by omega), Option.bind_some]
  congr 2
  omega

theorem findFirst_pass {chunk : Nat} (hc : 0 < chunk) {id subid e : Nat} : ∀ (n : Nat) (rs : List (Nat × List Byte)) (pre rest : List Byte) (fuel : Nat), rs.length ≤ n → (∀ r ∈ rs, Other id subid r) →
    pre.length % 2 = 0 → (pre ++ records 4 4 2 rs).length ≤ e → (pre ++ records 4 4 2 rs).length < 2 ^ 63 → rs.length ≤ fuel →
    ∃ a b fuel', rs = a ++ b ∧ (∀ r ∈ b, Record.Fits 4 4 2 r.1 r.2 ∧ r.1 ≠ id) ∧ fuel ≤ fuel' + a.length ∧
      findFirst chunk id subid e fuel ⟨pre ++ records 4 4 2 rs ++ rest, pre.length, .ok⟩ =
        findFirst chunk id subid e fuel' ⟨pre ++ records 4 4 2 rs ++ rest, (pre ++ records 4 4 2 a).length, .ok⟩ := by
  intro n
  induction n with
  | zero =>
    intro rs pre rest fuel hn ho _ _ _ _
    have : rs = [] := List.eq_nil_of_length_eq_zero (by omega)
    subst this
    exact ⟨[], [], fuel, rfl, (fun r hr => nomatch hr), Nat.le_refl _, by simp [records]⟩
  | succ n ih =>
    intro rs pre rest fuel hn ho hev he hl hfu
    rcases split_first (fun r => decide (r.1 = id)) rs with h | ⟨a, x, b, e1, h1, h2⟩
    · exact ⟨[], rs, fuel, rfl, fun r hr => ⟨(ho r hr).1, by simpa using h r hr⟩, Nat.le_refl _, by simp [records]⟩
    · obtain ⟨i, p⟩ := x
      have hi : i = id := by simpa using h2
      subst hi
      subst e1
      have hrr : pre ++ records 4 4 2 (a ++ (i, p) :: b) = pre ++ records 4 4 2 a ++ record 4 4 2 i p ++ records 4 4 2 b := by
        rw [records_append, records_cons]; simp only [List.append_assoc]
      rw [List.length_append, List.length_cons] at hn hfu
      cases fuel with
      | zero => omega
      | succ fuel =>
        rw [hrr] at he hl ⊢
        have hre := records_even a
        have hle := record_even i p
        have hsk := findFirst_skip hc (e := e) (subid := subid) (a := a) (p := p) (pre := pre) (rest := records 4 4 2 b ++ rest)
          (fun r hr => ⟨(ho r (List.mem_append_left _ hr)).1, by simpa using h1 r hr⟩) (ho (i, p) (List.mem_append_right _ List.mem_cons_self)) hev
          (by simp only [List.length_append] at he ⊢; omega) (by rw [List.length_append (bs := records 4 4 2 b)] at hl; omega) fuel
        rw [← List.append_assoc] at hsk
        rw [hsk]
        obtain ⟨a', b', fuel', f1, f2, f3, f4⟩ := ih b (pre ++ records 4 4 2 a ++ record 4 4 2 i p) rest fuel (by omega) (fun r hr => ho r (List.mem_append_right _ (List.mem_cons_of_mem _ hr)))
          (by simp only [List.length_append]; omega) he hl (by omega)
        refine ⟨a ++ (i, p) :: a', b', fuel', by rw [f1]; simp, f2, ?_, ?_⟩
        · rw [List.length_append, List.length_cons]; omega
        · rw [f4]
          congr 2
          rw [records_append, records_cons]; simp only [List.append_assoc]

/-- **C125** `find_first` stops right behind the type of the first chunk that has the identifier and the type. -/
theorem find_first_found {chunk : Nat} (hc : 0 < chunk) {id subid e : Nat} {rs : List (Nat × List Byte)} (ho : ∀ r ∈ rs, Other id subid r) {q : List Byte} (hf : Record.Fits 4 4 2 id (leEnc 4 subid ++ q)) (hs : subid < 4294967296)
    {pre rest : List Byte} (hev : pre.length % 2 = 0) (he : (pre ++ records 4 4 2 rs).length < e) (hl : (pre ++ records 4 4 2 rs ++ record 4 4 2 id (leEnc 4 subid ++ q)).length < 2 ^ 63) {fuel : Nat} (hfu : rs.length < fuel) :
    findFirst chunk id subid e fuel ⟨pre ++ records 4 4 2 rs ++ record 4 4 2 id (leEnc 4 subid ++ q) ++ rest, pre.length, .ok⟩ =
      some (some ((pre ++ records 4 4 2 rs).length + 8 + (leEnc 4 subid ++ q).length), ⟨pre ++ records 4 4 2 rs ++ record 4 4 2 id (leEnc 4 subid ++ q) ++ rest, (pre ++ records 4 4 2 rs).length + 12, .ok⟩) := by
  obtain ⟨a, b, fuel', f1, f2, f3, f4⟩ := findFirst_pass hc rs.length rs pre (record 4 4 2 id (leEnc 4 subid ++ q) ++ rest) fuel (Nat.le_refl _) ho hev (Nat.le_of_lt he) (by rw [List.length_append (bs := record 4 4 2 id (leEnc 4 subid ++ q))] at hl; omega) (by omega)
  rw [← List.append_assoc] at f4
  rw [f4]
  have hlen : rs.length = a.length + b.length := by rw [f1, List.length_append]
  have hrr : pre ++ records 4 4 2 rs = pre ++ records 4 4 2 a ++ records 4 4 2 b := by rw [f1, records_append, List.append_assoc]
  obtain ⟨k, hk⟩ : ∃ k, fuel' = k + 1 := ⟨fuel' - 1, by omega⟩
  subst hk
  rw [hrr] at he hl ⊢
  have hrl := records_long b
  have hdec : leDec ((leEnc 4 subid ++ q).take 4) = subid := by
    rw [List.take_left' (leEnc_length 4 subid), leDec_enc 4 subid (by rw [show (256 : Nat) ^ 4 = 4294967296 from rfl]; exact hs)]
  rw [findFirst, if_pos (show (pre ++ records 4 4 2 a).length < e by rw [List.length_append] at he; omega)]
  rw [find_found hc (by omega) f2 hf hl (fun x hx => by cases hx; exact he) (by simp only [List.length_append]; omega)]
  simp only
  rw [rd_size hc hf]
  simp only [Option.bind_some]
  rw [if_neg (by simp), rd_sub hc (by rw [List.length_append, leEnc_length]; omega)]
  simp only [Option.bind_some]
  rw [if_neg (by simp), if_pos hdec]

/-- **C125** If there is none before the end of the block, `find_first` returns false, at the end of the block. -/
theorem find_first_none {chunk : Nat} (hc : 0 < chunk) {id subid : Nat} {rs : List (Nat × List Byte)} (ho : ∀ r ∈ rs, Other id subid r)
    {pre rest : List Byte} (hev : pre.length % 2 = 0) (hl : (pre ++ records 4 4 2 rs).length < 2 ^ 63) {fuel : Nat} (hfu : rs.length < fuel) :
    findFirst chunk id subid (pre ++ records 4 4 2 rs).length fuel ⟨pre ++ records 4 4 2 rs ++ rest, pre.length, .ok⟩ =
      some (none, ⟨pre ++ records 4 4 2 rs ++ rest, (pre ++ records 4 4 2 rs).length, .ok⟩) := by
  obtain ⟨a, b, fuel', f1, f2, f3, f4⟩ := findFirst_pass hc rs.length rs pre rest fuel (Nat.le_refl _) ho hev (Nat.le_refl _) hl (by omega)
  rw [f4]
  have hlen : rs.length = a.length + b.length := by rw [f1, List.length_append]
  have hrr : pre ++ records 4 4 2 rs = pre ++ records 4 4 2 a ++ records 4 4 2 b := by rw [f1, records_append, List.append_assoc]
  obtain ⟨k, hk⟩ : ∃ k, fuel' = k + 1 := ⟨fuel' - 1, by omega⟩
  subst hk
  rw [hrr] at hl ⊢
  have hrl := records_long b
  rw [findFirst]
  by_cases h0 : (pre ++ records 4 4 2 a).length < (pre ++ records 4 4 2 a ++ records 4 4 2 b).length
  · rw [if_pos h0, find_none hc (by omega) f2 hl (by simp only [List.length_append]; omega)]
  · rw [if_neg h0]
    have : (pre ++ records 4 4 2 a ++ records 4 4 2 b).length = (pre ++ records 4 4 2 a).length := by
      rw [List.length_append (bs := records 4 4 2 b)] at h0 ⊢; omega
    rw [this]

/-- **C125** The content of a WAV file: `find_content` finds the RIFF chunk whose type is WAVE. -/
theorem find_content_found {chunk : Nat} (hc : 0 < chunk) {e : Nat} {q rest : List Byte} (hf : Record.Fits 4 4 2 idRIFF (leEnc 4 idWAVE ++ q)) (he : 0 < e) (hl : (record 4 4 2 idRIFF (leEnc 4 idWAVE ++ q)).length < 2 ^ 63) {fuel : Nat} (hfu : 0 < fuel) :
    findFirst chunk idRIFF idWAVE e fuel ⟨record 4 4 2 idRIFF (leEnc 4 idWAVE ++ q) ++ rest, 0, .ok⟩ = some (some (12 + q.length), ⟨record 4 4 2 idRIFF (leEnc 4 idWAVE ++ q) ++ rest, 12, .ok⟩) := by
  have := find_first_found hc (rs := []) (e := e) (pre := []) (rest := rest) (fun r hr => nomatch hr) hf (by decide) rfl (by simpa [records] using he) (by simpa [records] using hl) hfu
  simp only [records, List.flatMap_nil, List.nil_append, List.length_nil, Nat.zero_add, List.length_append, leEnc_length] at this
  rw [this, show 8 + (4 + q.length) = 12 + q.length by omega]

/-- The padding is taken of the position in the file, not of the size: of a chunk at an odd position the search goes on one byte too far. -/
theorem find_first_odd : (findFirst 99 idLIST adtl 100 9 ⟨[1] ++ record 4 4 2 idLIST [65, 66, 67, 68] ++ record 4 4 2 idLIST (leEnc 4 adtl), 1, .ok⟩).map Prod.fst = some none ∧
    (findFirst 99 idLIST adtl 100 9 ⟨record 4 4 2 idLIST [65, 66, 67, 68] ++ record 4 4 2 idLIST (leEnc 4 adtl), 0, .ok⟩).map Prod.fst = some (some 24) := ⟨by decide +kernel, by decide +kernel⟩

example : Other idLIST adtl (idLIST, [65, 66, 67, 68]) := ⟨⟨by decide, by decide⟩, fun _ => ⟨by decide, by decide⟩⟩

end Verif.Record.Wav
