import Verif.Record.WavReadCues
import Verif.Str.Char
/-
`remove_cues` (include/stdex/wav.hpp 596-655).
-/
namespace Verif.Record.Wav
open Verif.Stream Verif.Stream.MemoryFile Verif.Record

/-! ### Model -/

/-- `removable`, 601-606. -/
def removable : List Nat := [idCue, idLtxt, idLabl, idNote]

/-- `strupr` of a fixed number of characters, string.hpp 3029-3034; `char` is signed. -/
def strupr : List Byte → List Byte
  | [] => []
  | c :: cs => if c = 0 then c :: cs else BitVec.ofInt 8 (Str.toupper ⟨8, true⟩ c.toInt) :: strupr cs

/-- Lines 625-627 on a little-endian host: `id2`. -/
def upperId (id : Nat) : Nat := leDec (strupr (leEnc 4 id))

/-- `*reinterpret_cast<const id_t*>("ICRD")`. -/
def idIcrd : Nat := 0x44524349

/-- `truncate` of a file. -/
def ftrunc (f : File) : File := { f with bytes := f.bytes.take f.pos ++ List.replicate (f.pos - f.bytes.length) 0 }

/-- `remove_cues`, 596-655: (result, input, output); `none`: it throws. The loop and the recursion are bounded by `fuel`. -/
def removeCues (chunk : Nat) : Nat → Nat → File → File → Option (Bool × File × File)
  | 0, _, _, _ => none
  | fuel + 1, e, i, o =>
    if i.pos < e then
      (rdNum chunk i 4).bind fun (id, i) =>
        if i.st ≠ .ok then some (true, i, ftrunc o)
        else if id ∈ removable then
          (rdNum chunk i 4).bind fun (size, i) =>
            if i.st ≠ .ok then some (false, i, o)
            else
              let s := openRec chunk 4 4 id o
              if id ≠ upperId id ∨ id = idIcrd then
                if s.2.st ≠ .ok then some (false, i, s.2)
                else
                  (writeStream (file chunk) (file chunk) (size + 1) i s.2 size).bind fun (_, st, i, o) =>
                    let o : File := { o with st := st }
                    if i.st ≠ .ok then some (false, i, o)
                    else (closeRec chunk 4 4 2 s.1 o).bind fun r =>
                      let pad := (4294967296 + 2 - size) % 4294967296 % 2
                      (if pad = 0 then some i else seekbeg i (i.pos + pad)).bind fun i => removeCues chunk fuel e i r.2
              else
                (rdNum chunk i 4).bind fun (id3, i) =>
                  if i.st ≠ .ok then some (false, i, s.2)
                  else
                    let o := wrNum chunk s.2 4 id3
                    if o.st ≠ .ok then some (false, i, o)
                    else (removeCues chunk fuel (i.pos + size - 4) i o).bind fun (b, i, o') =>
                      if b = false then some (false, i, o')
                      else if o.pos ≠ o'.pos then (closeRec chunk 4 4 2 s.1 o').bind fun r => removeCues chunk fuel e i r.2
                      else (seekbeg o' s.1).bind fun o => removeCues chunk fuel e i o
        else (ignore chunk 4 2 i).bind fun (ok, i) => if ok then removeCues chunk fuel e i o else some (false, i, o)
    else some (true, i, ftrunc o)

/-! ### Specification -/

/-- The chunks of the cues and of their texts. -/
def ofCues (r : Nat × List Byte) : Prop := leEnc 4 r.1 ∈ (["cue ", "ltxt", "labl", "note"].map fun s => s.toList.map fun c => BitVec.ofNat 8 c.toNat)

instance (r : Nat × List Byte) : Decidable (ofCues r) := inferInstanceAs (Decidable (_ ∈ _))

/-! ### Proofs -/

theorem copy_file {chunk : Nat} (hc : 0 < chunk) {bi : List Byte} : ∀ (fuel n p : Nat) (bo : List Byte) (c : Nat), p + n ≤ bi.length → n < fuel →
    writeStreamLoop (file chunk) (file chunk) fuel ⟨bi, p, .ok⟩ (atEnd bo) c n = some (c + n, .ok, ⟨bi, p + n, .ok⟩, atEnd (bo ++ (bi.drop p).take n)) := by
  intro fuel
  induction fuel with
  | zero => intro n p bo c h1 h2; omega
  | succ fuel ih =>
    intro n p bo c h1 h2
    rw [writeStreamLoop]
    by_cases h0 : n = 0
    · subst h0
      rw [if_pos rfl, List.take_zero, List.append_nil]; rfl
    · rw [if_neg h0]
      obtain ⟨m, hm, hm0, hmn⟩ : ∃ m, min (min 65536 n) chunk = m ∧ 0 < m ∧ m ≤ n := ⟨_, rfl, by omega, by omega⟩
      have hlen : ((bi.drop p).take m).length = m := by rw [List.length_take, List.length_drop]; omega
      have hr : (file chunk).read ⟨bi, p, .ok⟩ (min 65536 n) = ((bi.drop p).take m, ⟨bi, p + m, .ok⟩) := by
        show fread chunk _ _ = _
        unfold fread
        simp only
        rw [hm, hlen, if_neg]
        intro h
        have := congrArg List.length h.2
        rw [hlen] at this
        simp at this
        omega
      have hw : (file chunk).write (atEnd bo) ((bi.drop p).take m) = (m, atEnd (bo ++ (bi.drop p).take m)) := by
        show fwrite (atEnd bo) _ = _
        unfold atEnd
        rw [fwrite_end, hlen]
      simp only [hr, hw]
      rw [if_neg (show ¬ (file chunk).state ⟨bi, p + m, .ok⟩ = .eof from fun h => by cases h), if_neg (show ¬ (file chunk).state ⟨bi, p + m, .ok⟩ ≠ .ok from fun h => h rfl)]
      rw [ih (n - m) (p + m) _ _ (by omega) (by omega)]
      rw [show c + m + (n - m) = c + n by omega, show p + m + (n - m) = p + n by omega, List.append_assoc]
      congr 4
      congr 1
      rw [show n = m + (n - m) by omega, List.take_add, show m + (n - m) - m = n - m by omega, List.drop_drop]

theorem removable_spec (r : Nat × List Byte) (hf : r.1 < 4294967296) : r.1 ∈ removable ↔ ofCues r := by
  have hinj : ∀ a b : Nat, a < 4294967296 → b < 4294967296 → (leEnc 4 a = leEnc 4 b ↔ a = b) := by
    intro a b ha hb
    constructor
    · intro h
      have := congrArg leDec h
      rwa [leDec_enc 4 a (by exact ha), leDec_enc 4 b (by exact hb)] at this
    · intro h; rw [h]
  have h1 : (["cue ", "ltxt", "labl", "note"].map fun s => s.toList.map fun c => BitVec.ofNat 8 c.toNat) = removable.map (leEnc 4) := by decide +kernel
  unfold ofCues
  rw [h1]
  constructor
  · intro h; exact List.mem_map_of_mem h
  · intro h
    obtain ⟨a, ha, e⟩ := List.mem_map.1 h
    have : a < 4294967296 := by
      have hall : ∀ a ∈ removable, a < 4294967296 := by decide
      exact hall a ha
    rw [(hinj a r.1 this hf).1 e] at ha
    exact ha

theorem removable_lower : ∀ id ∈ removable, id ≠ upperId id := by decide +kernel

/-- (defect) `remove_cues` copies the chunks of the cues, and drops all the others: on a file of chunks the output gets exactly the chunks it
should not get. -/
theorem remove_cues_inverted {chunk : Nat} (hc : 0 < chunk) : ∀ (rs : List (Nat × List Byte)) (pre rest out : List Byte) (fuel : Nat), (∀ r ∈ rs, Record.Fits 4 4 2 r.1 r.2) →
    (pre ++ records 4 4 2 rs).length < 2 ^ 63 → (out ++ records 4 4 2 rs).length < 2 ^ 63 → rs.length < fuel →
    removeCues chunk fuel (pre ++ records 4 4 2 rs).length ⟨pre ++ records 4 4 2 rs ++ rest, pre.length, .ok⟩ (atEnd out) =
      some (true, ⟨pre ++ records 4 4 2 rs ++ rest, (pre ++ records 4 4 2 rs).length, .ok⟩, atEnd (out ++ records 4 4 2 (rs.filter fun r => decide (ofCues r)))) := by
  intro rs
  induction rs with
  | nil =>
    intro pre rest out fuel _ _ _ hfu
    obtain ⟨k, rfl⟩ : ∃ k, fuel = k + 1 := ⟨fuel - 1, by simp at hfu; omega⟩
    rw [removeCues, if_neg (by simp [records])]
    simp [records, ftrunc, atEnd]
  | cons r rs ih =>
    intro pre rest out fuel hf hl hlo hfu
    obtain ⟨id, p⟩ := r
    rw [List.length_cons] at hfu
    obtain ⟨k, rfl⟩ : ∃ k, fuel = k + 1 := ⟨fuel - 1, by omega⟩
    have hf1 : Record.Fits 4 4 2 id p := hf (id, p) List.mem_cons_self
    have e1 : pre ++ records 4 4 2 ((id, p) :: rs) = pre ++ record 4 4 2 id p ++ records 4 4 2 rs := by rw [records_cons, List.append_assoc]
    have e2 : out ++ records 4 4 2 ((id, p) :: rs) = out ++ record 4 4 2 id p ++ records 4 4 2 rs := by rw [records_cons, List.append_assoc]
    rw [e1] at hl ⊢
    rw [e2] at hlo
    have hre := record_even id p
    have hid : id < 4294967296 := hf1.1
    have hrd : rdNum chunk ⟨pre ++ record 4 4 2 id p ++ records 4 4 2 rs ++ rest, pre.length, .ok⟩ 4 = some (id, ⟨pre ++ record 4 4 2 id p ++ records 4 4 2 rs ++ rest, pre.length + 4, .ok⟩) := by
      refine rdNum_ok (rest := leEnc 4 p.length ++ p ++ List.replicate (padding 2 p.length) 0 ++ (records 4 4 2 rs ++ rest)) hc rfl hf1.1 ?_
      simp only
      rw [List.append_assoc, List.append_assoc, List.drop_left]
      simp [record]
    have hl1 : (pre ++ record 4 4 2 id p).length < 2 ^ 63 := by rw [List.length_append (bs := records 4 4 2 rs)] at hl; omega
    have hlo1 : (out ++ record 4 4 2 id p).length < 2 ^ 63 := by rw [List.length_append (bs := records 4 4 2 rs)] at hlo; omega
    rw [removeCues, if_pos (by simp only [List.length_append]; omega), hrd]
    simp only [Option.bind_some]
    rw [if_neg (by simp)]
    by_cases hm : id ∈ removable
    · rw [if_pos hm]
      have hsz := rd_size hc hf1 (pre := pre) (rest := records 4 4 2 rs ++ rest)
      rw [← List.append_assoc] at hsz
      rw [hsz]
      simp only [Option.bind_some]
      rw [if_neg (by simp), if_pos (Or.inl (removable_lower id hm))]
      have hop : openRec chunk 4 4 id (atEnd out) = (out.length, atEnd (out ++ leEnc 4 id ++ leEnc 4 0)) := by
        unfold openRec
        rw [wrNum_end, wrNum_end]; rfl
      rw [hop]
      simp only
      rw [if_neg (by simp [atEnd])]
      have hdrop : (pre ++ record 4 4 2 id p ++ records 4 4 2 rs ++ rest).drop (pre.length + 8) = p ++ (List.replicate (padding 2 p.length) 0 ++ (records 4 4 2 rs ++ rest)) := by
        rw [show pre ++ record 4 4 2 id p ++ records 4 4 2 rs ++ rest = (pre ++ leEnc 4 id ++ leEnc 4 p.length) ++ (p ++ (List.replicate (padding 2 p.length) 0 ++ (records 4 4 2 rs ++ rest))) by simp [record]]
        rw [List.drop_left' (by simp only [List.length_append, leEnc_length])]
      unfold writeStream
      rw [copy_file hc (p.length + 1) p.length (pre.length + 8) _ 0 (by simp only [List.length_append]; omega) (by omega)]
      simp only [Option.bind_some]
      rw [if_neg (by simp), hdrop, List.take_left' rfl]
      have hw := write_spec (chunk := chunk) (data := fun f => (fwrite f p).2) (payload := p) (fun b => by unfold atEnd; rw [fwrite_end]) hf1 out hlo1
      unfold writeRec at hw
      rw [hop] at hw
      simp only at hw
      rw [if_neg (by simp [atEnd]), show (fwrite (atEnd (out ++ leEnc 4 id ++ leEnc 4 0)) p).2 = atEnd (out ++ leEnc 4 id ++ leEnc 4 0 ++ p) by unfold atEnd; rw [fwrite_end]] at hw
      have hst : ({ atEnd (out ++ leEnc 4 id ++ leEnc 4 0 ++ p) with st := .ok } : File) = atEnd (out ++ leEnc 4 id ++ leEnc 4 0 ++ p) := rfl
      rw [hst]
      obtain ⟨cr, hcr, hcr2⟩ := Option.map_eq_some_iff.1 hw
      rw [hcr, Option.bind_some, hcr2]
      have hpl : p.length < 4294967296 := by have := hf1.2; rw [show (256 : Nat) ^ 4 = 4294967296 from rfl] at this; omega
      have hpad : (4294967296 + 2 - p.length) % 4294967296 % 2 = p.length % 2 := by omega
      rw [hpad]
      have hpos : (if p.length % 2 = 0 then some (⟨pre ++ record 4 4 2 id p ++ records 4 4 2 rs ++ rest, pre.length + 8 + p.length, .ok⟩ : File) else seekbeg ⟨pre ++ record 4 4 2 id p ++ records 4 4 2 rs ++ rest, pre.length + 8 + p.length, .ok⟩ (pre.length + 8 + p.length + p.length % 2)) =
          some ⟨pre ++ record 4 4 2 id p ++ records 4 4 2 rs ++ rest, (pre ++ record 4 4 2 id p).length, .ok⟩ := by
        rw [List.length_append] at hl1
        by_cases h0 : p.length % 2 = 0
        · rw [if_pos h0, List.length_append, hre, h0]; congr 2; omega
        · rw [if_neg h0]
          unfold seekbeg
          rw [if_pos (by omega), List.length_append, hre]; congr 2; omega
      rw [hpos, Option.bind_some, ih (pre ++ record 4 4 2 id p) rest (out ++ record 4 4 2 id p) k (fun q hq => hf q (List.mem_cons_of_mem _ hq)) hl hlo (by omega)]
      rw [List.filter_cons, if_pos (by rw [decide_eq_true_eq]; exact (removable_spec (id, p) hid).1 hm), records_cons, ← List.append_assoc out]
    · rw [if_neg hm]
      have hig := ignore_spec hc hf1 (pre := pre) (rest := records 4 4 2 rs ++ rest) hl1
      rw [← List.append_assoc] at hig
      rw [hig]
      simp only [Option.bind_some]
      rw [if_pos trivial, ih (pre ++ record 4 4 2 id p) rest out k (fun q hq => hf q (List.mem_cons_of_mem _ hq)) hl (by rw [List.length_append] at hlo ⊢; rw [List.length_append] at hlo; omega) (by omega)]
      rw [List.filter_cons, if_neg (by rw [decide_eq_true_eq]; exact fun h => hm ((removable_spec (id, p) hid).2 h))]

/-- Of a file with a format, sound, and cue points the output has the cue points. -/
example : (removeCues 5 9 (records 4 4 2 [(0x20746D66, [1, 2]), (0x61746164, [3]), (idCue, [0, 0, 0, 0])]).length ⟨records 4 4 2 [(0x20746D66, [1, 2]), (0x61746164, [3]), (idCue, [0, 0, 0, 0])], 0, .ok⟩ (atEnd [])).map (fun r => (r.1, r.2.2.bytes)) =
    some (true, record 4 4 2 idCue [0, 0, 0, 0]) := by decide +kernel

end Verif.Record.Wav
