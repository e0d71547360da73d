import Verif.Record.WavTexts
/-
`read_cues`: the whole.
-/
namespace Verif.Record.Wav
open Verif.Stream Verif.Stream.MemoryFile Verif.Record
variable {σ τ α : Type}

theorem cuesBytes_len (qs : List Cue) : (cuesBytes qs).length = 4 + 24 * qs.length := by
  unfold cuesBytes
  rw [List.length_append, leEnc_length]
  congr 1
  induction qs with
  | nil => rfl
  | cons q qs ih => rw [List.flatMap_cons, List.length_append, ih, List.length_cons]; simp only [cueMem, List.length_append, leEnc_length]; omega

/-- The first loop: the cue points of the one chunk that has them. -/
theorem cuesLoop_spec {chunk : Nat} (hc : 0 < chunk) {sort : List CueEx → List CueEx} (hsort : Sorts sort) {A B : List (Nat × List Byte)} {qs : List Cue} {pre rest : List Byte}
    (hA : ∀ r ∈ A, Record.Fits 4 4 2 r.1 r.2 ∧ r.1 ≠ idCue) (hB : ∀ r ∈ B, Record.Fits 4 4 2 r.1 r.2 ∧ r.1 ≠ idCue) (hq : ∀ q ∈ qs, q.Fits) (hf : Record.Fits 4 4 2 idCue (cuesBytes qs)) (hn : qs.length ≤ 4294967295)
    (hl : (pre ++ records 4 4 2 A ++ record 4 4 2 idCue (cuesBytes qs) ++ records 4 4 2 B).length < 2 ^ 63) (k : Nat) :
    ∃ l, cuesLoop chunk sort (pre ++ records 4 4 2 A ++ record 4 4 2 idCue (cuesBytes qs) ++ records 4 4 2 B).length (k + 3) ⟨pre ++ records 4 4 2 A ++ record 4 4 2 idCue (cuesBytes qs) ++ records 4 4 2 B ++ rest, pre.length, .ok⟩ [] =
        some (some l, ⟨pre ++ records 4 4 2 A ++ record 4 4 2 idCue (cuesBytes qs) ++ records 4 4 2 B ++ rest, (pre ++ records 4 4 2 A ++ record 4 4 2 idCue (cuesBytes qs) ++ records 4 4 2 B).length, .ok⟩) ∧
      l.Perm (qs.map CueEx.base) ∧ l.Pairwise fun a b => a.cue.id ≤ b.cue.id := by
  have hrl := records_long A
  have hrb := records_long B
  have hre := record_even idCue (cuesBytes qs)
  have hcl := cuesBytes_len qs
  have hb : (pre ++ records 4 4 2 A ++ record 4 4 2 idCue (cuesBytes qs) ++ records 4 4 2 B ++ rest).drop ((pre ++ records 4 4 2 A).length + 8) = cuesBytes qs ++ (List.replicate (padding 2 (cuesBytes qs).length) 0 ++ (records 4 4 2 B ++ rest)) := by
    rw [show pre ++ records 4 4 2 A ++ record 4 4 2 idCue (cuesBytes qs) ++ records 4 4 2 B ++ rest =
      (pre ++ records 4 4 2 A ++ leEnc 4 idCue ++ leEnc 4 (cuesBytes qs).length) ++ (cuesBytes qs ++ (List.replicate (padding 2 (cuesBytes qs).length) 0 ++ (records 4 4 2 B ++ rest))) by simp [record]]
    rw [List.drop_left' (by simp only [List.length_append, leEnc_length])]
  obtain ⟨l, l1, l2, l3⟩ := loadCues_spec hc hsort hb hq hn
  refine ⟨l, ?_, l2, l3⟩
  have hf1 := find_found hc (by omega) (e := some (pre ++ records 4 4 2 A ++ record 4 4 2 idCue (cuesBytes qs) ++ records 4 4 2 B).length) (pre := pre) (rest := records 4 4 2 B ++ rest) hA hf (by rw [List.length_append (bs := records 4 4 2 B)] at hl; omega)
    (fun x hx => by cases hx; simp only [List.length_append]; omega) (fuel := (pre ++ records 4 4 2 A ++ record 4 4 2 idCue (cuesBytes qs) ++ records 4 4 2 B ++ rest).length + 1) (by simp only [List.length_append]; omega)
  have hr1 := rd_size hc hf (pre := pre ++ records 4 4 2 A) (rest := records 4 4 2 B ++ rest)
  rw [← List.append_assoc] at hf1 hr1
  have hpos : (pre ++ records 4 4 2 A).length + 8 + (cuesBytes qs).length = (pre ++ records 4 4 2 A ++ record 4 4 2 idCue (cuesBytes qs)).length := by
    rw [List.length_append (bs := record 4 4 2 idCue (cuesBytes qs))]; omega
  rw [hpos] at l1
  rw [cuesLoop, if_pos (by simp only [List.length_append]; omega), hf1]
  simp only
  rw [hr1]
  simp only [Option.bind_some]
  rw [if_neg (by simp), l1]
  simp only [Option.bind_some]
  rw [cuesLoop]
  by_cases h0 : (pre ++ records 4 4 2 A ++ record 4 4 2 idCue (cuesBytes qs)).length < (pre ++ records 4 4 2 A ++ record 4 4 2 idCue (cuesBytes qs) ++ records 4 4 2 B).length
  · rw [if_pos h0, find_none hc (by omega) hB hl (by simp only [List.length_append]; omega)]
    simp only
    rw [cuesLoop, if_neg (by simp)]
  · rw [if_neg h0]
    congr 3
    rw [List.length_append (bs := records 4 4 2 B)] at h0 ⊢
    omega

/-- The second loop: the texts of the one list that has them. -/
theorem listsLoop_spec {chunk fuelR : Nat} (hc : 0 < chunk) {bs : List CueEx → Nat → Option Nat} (hbs : Searches bs) {A B : List (Nat × List Byte)} {ts : List Txt} {l : List CueEx} {pre rest : List Byte}
    (hA : ∀ r ∈ A, Other idLIST adtl r) (hB : ∀ r ∈ B, Other idLIST adtl r) (ht : ∀ t ∈ ts, t.Fits fuelR ∧ Record.Fits 4 4 2 t.rec'.1 t.rec'.2) (hs : l.Pairwise fun a b => a.cue.id ≤ b.cue.id) (hn : (l.map (·.cue.id)).Nodup)
    (hf : Record.Fits 4 4 2 idLIST (leEnc 4 adtl ++ records 4 4 2 (ts.map Txt.rec'))) (hev : pre.length % 2 = 0)
    (hl : (pre ++ records 4 4 2 A ++ record 4 4 2 idLIST (leEnc 4 adtl ++ records 4 4 2 (ts.map Txt.rec')) ++ records 4 4 2 B).length < 2 ^ 63) (k : Nat) :
    listsLoop chunk fuelR bs (pre ++ records 4 4 2 A ++ record 4 4 2 idLIST (leEnc 4 adtl ++ records 4 4 2 (ts.map Txt.rec')) ++ records 4 4 2 B).length (k + 3) ⟨pre ++ records 4 4 2 A ++ record 4 4 2 idLIST (leEnc 4 adtl ++ records 4 4 2 (ts.map Txt.rec')) ++ records 4 4 2 B ++ rest, pre.length, .ok⟩ l =
      some (some (l.map fun e => ts.foldl (fun e t => t.on e) e), ⟨pre ++ records 4 4 2 A ++ record 4 4 2 idLIST (leEnc 4 adtl ++ records 4 4 2 (ts.map Txt.rec')) ++ records 4 4 2 B ++ rest, (pre ++ records 4 4 2 A ++ record 4 4 2 idLIST (leEnc 4 adtl ++ records 4 4 2 (ts.map Txt.rec')) ++ records 4 4 2 B).length, .ok⟩) := by
  have hrl := records_long A
  have hra := records_even A
  have hrb := records_long B
  have hrt := records_long (ts.map Txt.rec')
  have hre := record_even idLIST (leEnc 4 adtl ++ records 4 4 2 (ts.map Txt.rec'))
  have hte := records_even (ts.map Txt.rec')
  have hlen : (leEnc 4 adtl ++ records 4 4 2 (ts.map Txt.rec')).length = 4 + (records 4 4 2 (ts.map Txt.rec')).length := by rw [List.length_append, leEnc_length]
  rw [hlen] at hre
  have hff := find_first_found hc (id := idLIST) (e := (pre ++ records 4 4 2 A ++ record 4 4 2 idLIST (leEnc 4 adtl ++ records 4 4 2 (ts.map Txt.rec')) ++ records 4 4 2 B).length) hA hf (by decide) (rest := records 4 4 2 B ++ rest) hev
    (by simp only [List.length_append] at hre ⊢; omega) (by rw [List.length_append (bs := records 4 4 2 B)] at hl; omega) (fuel := (pre ++ records 4 4 2 A ++ record 4 4 2 idLIST (leEnc 4 adtl ++ records 4 4 2 (ts.map Txt.rec')) ++ records 4 4 2 B ++ rest).length + 1) (by simp only [List.length_append]; omega)
  rw [← List.append_assoc] at hff
  rw [listsLoop, if_pos (by simp only [List.length_append] at hre ⊢; omega), hff]
  simp only [Option.bind_some]
  -- the texts
  have e0 : pre ++ records 4 4 2 A ++ record 4 4 2 idLIST (leEnc 4 adtl ++ records 4 4 2 (ts.map Txt.rec')) =
      (pre ++ records 4 4 2 A ++ leEnc 4 idLIST ++ leEnc 4 (leEnc 4 adtl ++ records 4 4 2 (ts.map Txt.rec')).length ++ leEnc 4 adtl) ++ records 4 4 2 (ts.map Txt.rec') := by
    have : padding 2 (leEnc 4 adtl ++ records 4 4 2 (ts.map Txt.rec')).length = 0 := by rw [hlen]; unfold padding; omega
    unfold record
    rw [this]
    simp only [List.replicate_zero, List.append_nil, List.append_assoc]
  have hl2 := hl
  rw [e0, List.length_append (bs := records 4 4 2 B)] at hl2
  have hta := textLoop_all (fuelR := fuelR) hc hbs (records 4 4 2 B ++ rest) ts l (pre ++ records 4 4 2 A ++ leEnc 4 idLIST ++ leEnc 4 (leEnc 4 adtl ++ records 4 4 2 (ts.map Txt.rec')).length ++ leEnc 4 adtl)
    ((pre ++ records 4 4 2 A ++ record 4 4 2 idLIST (leEnc 4 adtl ++ records 4 4 2 (ts.map Txt.rec')) ++ records 4 4 2 B ++ rest).length + 1) ht hs hn (by omega) (by rw [List.length_map] at hrt; simp only [List.length_append] at hre ⊢; omega)
  rw [← e0, ← List.append_assoc] at hta
  rw [show (pre ++ records 4 4 2 A ++ leEnc 4 idLIST ++ leEnc 4 (leEnc 4 adtl ++ records 4 4 2 (ts.map Txt.rec')).length ++ leEnc 4 adtl).length = (pre ++ records 4 4 2 A).length + 12 by simp only [List.length_append, leEnc_length]] at hta
  rw [show (pre ++ records 4 4 2 A ++ record 4 4 2 idLIST (leEnc 4 adtl ++ records 4 4 2 (ts.map Txt.rec'))).length = (pre ++ records 4 4 2 A).length + 8 + (leEnc 4 adtl ++ records 4 4 2 (ts.map Txt.rec')).length by
    rw [List.length_append (bs := record _ _ _ _ _), hre, hlen]; omega] at hta
  rw [hta]
  simp only [Option.bind_some]
  rw [show (pre ++ records 4 4 2 A).length + 8 + (leEnc 4 adtl ++ records 4 4 2 (ts.map Txt.rec')).length = (pre ++ records 4 4 2 A ++ record 4 4 2 idLIST (leEnc 4 adtl ++ records 4 4 2 (ts.map Txt.rec'))).length by
    rw [List.length_append (bs := record _ _ _ _ _), hre, hlen]; omega]
  rw [listsLoop]
  by_cases h0 : (pre ++ records 4 4 2 A ++ record 4 4 2 idLIST (leEnc 4 adtl ++ records 4 4 2 (ts.map Txt.rec'))).length < (pre ++ records 4 4 2 A ++ record 4 4 2 idLIST (leEnc 4 adtl ++ records 4 4 2 (ts.map Txt.rec')) ++ records 4 4 2 B).length
  · rw [if_pos h0, find_first_none hc hB (by rw [List.length_append, hre, List.length_append]; omega) hl (by simp only [List.length_append]; omega)]
    simp only [Option.bind_some]
    rw [listsLoop, if_neg (by simp)]
  · rw [if_neg h0]
    congr 3
    rw [List.length_append (bs := records 4 4 2 B)] at h0 ⊢
    omega

/-- **C124** `read_cues` gives the cues of the block with all their texts, in the order of their identifiers, whatever other chunks there are, and
leaves the file where it was. -/
theorem read_cues {chunk fuelR fuel : Nat} (hc : 0 < chunk) {sort : List CueEx → List CueEx} (hsort : Sorts sort) {bs : List CueEx → Nat → Option Nat} (hbs : Searches bs) {xs : List CueEx} (hx : ∀ c ∈ xs, c.Fits)
    (hf : CuesFit xs) (hn : (xs.map (·.cue.id)).Nodup) {A B : List (Nat × List Byte)} (hA : ∀ r ∈ A, Foreign r) (hB : ∀ r ∈ B, Foreign r) {pre rest : List Byte} (hev : pre.length % 2 = 0)
    (hl : (pre ++ records 4 4 2 (A ++ cueChunks xs ++ B)).length < 2 ^ 63) (hfu : 3 ≤ fuel) (hfr : (records 4 4 2 (cueChunks xs)).length + 65538 < fuelR) :
    ∃ l, readCueEx chunk fuelR fuel sort bs (pre ++ records 4 4 2 (A ++ cueChunks xs ++ B)).length ⟨pre ++ records 4 4 2 (A ++ cueChunks xs ++ B) ++ rest, pre.length, .ok⟩ [] =
        some (some l, ⟨pre ++ records 4 4 2 (A ++ cueChunks xs ++ B) ++ rest, pre.length, .ok⟩) ∧
      l.Perm xs ∧ l.Pairwise fun a b => a.cue.id ≤ b.cue.id := by
  obtain ⟨k, rfl⟩ : ∃ k, fuel = k + 3 := ⟨fuel - 3, by omega⟩
  have hfits := hf.fits
  have hf1 : Record.Fits 4 4 2 idCue (cuesBytes (xs.map CueEx.cue)) := hfits _ List.mem_cons_self
  have hf2 : Record.Fits 4 4 2 idLIST (leEnc 4 adtl ++ records 4 4 2 (xs.flatMap CueEx.texts)) := hfits _ (List.mem_cons_of_mem _ List.mem_cons_self)
  have hnn : (xs.map CueEx.cue).length ≤ 4294967295 := by
    have := hf (idCue, _) List.mem_cons_self
    simp only [cuesBytes_len] at this
    omega
  -- the first loop
  have e1 : pre ++ records 4 4 2 (A ++ cueChunks xs ++ B) = pre ++ records 4 4 2 A ++ record 4 4 2 idCue (cuesBytes (xs.map CueEx.cue)) ++ records 4 4 2 ((idLIST, leEnc 4 adtl ++ records 4 4 2 (xs.flatMap CueEx.texts)) :: B) := by
    unfold cueChunks
    simp only [records_append, records_cons, List.append_assoc]
    simp [records]
  have hl1 := hl
  rw [e1] at hl1
  obtain ⟨l, l1, l2, l3⟩ := cuesLoop_spec hc hsort (A := A) (rest := rest) (fun r hr => ⟨(hA r hr).1, (hA r hr).2.1⟩) (B := (idLIST, leEnc 4 adtl ++ records 4 4 2 (xs.flatMap CueEx.texts)) :: B)
    (fun r hr => by
      rcases List.mem_cons.1 hr with rfl | hr
      · exact ⟨hf2, by show idLIST ≠ idCue; decide⟩
      · exact ⟨(hB r hr).1, (hB r hr).2.1⟩) (fun q hq => by
      obtain ⟨c, hc, rfl⟩ := List.mem_map.1 hq
      exact (hx c hc).1) hf1 hnn hl1 k
  rw [← e1] at l1
  -- the second loop
  have e2 : pre ++ records 4 4 2 (A ++ cueChunks xs ++ B) = pre ++ records 4 4 2 (A ++ [(idCue, cuesBytes (xs.map CueEx.cue))]) ++ record 4 4 2 idLIST (leEnc 4 adtl ++ records 4 4 2 ((xs.flatMap CueEx.txts).map Txt.rec')) ++ records 4 4 2 B := by
    rw [flatMap_txts]
    unfold cueChunks
    simp only [records_append, records_cons, List.append_assoc]
    simp [records]
  have hl2 := hl
  rw [e2] at hl2
  have hids : l.map (·.cue.id) |>.Perm (xs.map (·.cue.id)) := by
    have := l2.map (·.cue.id)
    rw [List.map_map, List.map_map] at this
    exact this
  have hls := listsLoop_spec (fuelR := fuelR) hc hbs (A := A ++ [(idCue, cuesBytes (xs.map CueEx.cue))]) (B := B) (ts := xs.flatMap CueEx.txts) (l := l) (pre := pre) (rest := rest)
    (fun r hr => by
      rcases List.mem_append.1 hr with hr | hr
      · exact ⟨(hA r hr).1, (hA r hr).2.2⟩
      · rw [List.mem_singleton] at hr
        subst hr
        exact ⟨hf1, fun h => absurd h (by show ¬ idCue = idLIST; decide)⟩) (fun r hr => ⟨(hB r hr).1, (hB r hr).2.2⟩) (txt_fits hx hf hfr) l3 (hids.symm.nodup hn) (by rw [flatMap_txts]; exact hf2) hev hl2 k
  rw [← e2] at hls
  have hsk : ∀ p, seekbeg ⟨pre ++ records 4 4 2 (A ++ cueChunks xs ++ B) ++ rest, p, .ok⟩ pre.length = some ⟨pre ++ records 4 4 2 (A ++ cueChunks xs ++ B) ++ rest, pre.length, .ok⟩ := by
    intro p
    unfold seekbeg
    rw [if_pos (by rw [List.length_append] at hl; omega)]
  refine ⟨l.map fun e => (xs.flatMap CueEx.txts).foldl (fun e t => t.on e) e, ?_, ?_, ?_⟩
  · unfold readCueEx
    rw [l1]
    simp only [Option.bind_some]
    rw [hsk]
    simp only [Option.bind_some]
    rw [hls]
    simp only [Option.bind_some]
    rw [hsk, Option.map_some]
  · have h1 := l2.map fun e => (xs.flatMap CueEx.txts).foldl (fun e t => t.on e) e
    refine h1.trans ?_
    rw [List.map_map, List.map_map]
    have : xs.map (((fun e => (xs.flatMap CueEx.txts).foldl (fun e t => t.on e) e) ∘ CueEx.base) ∘ CueEx.cue) = xs.map id := List.map_congr_left fun c hc => fold_all hn hc
    rw [this, List.map_id]
  · rw [List.pairwise_map]
    have hid : ∀ (ts : List Txt) (e : CueEx), (ts.foldl (fun e t => t.on e) e).cue = e.cue := by
      intro ts
      induction ts with
      | nil => intro e; rfl
      | cons t ts ih => intro e; rw [List.foldl_cons, ih, on_id]
    simpa only [hid] using l3

/-- **C124** Cues that were written are the cues that are read: `<<`, then `read_cues` of the block that was written. -/
theorem cues_written_are_read {chunk fuelR fuel : Nat} (hc : 0 < chunk) {sort : List CueEx → List CueEx} (hsort : Sorts sort) {bs : List CueEx → Nat → Option Nat} (hbs : Searches bs) {xs : List CueEx} (hx : ∀ c ∈ xs, c.Fits)
    (hf : CuesFit xs) (hn : (xs.map (·.cue.id)).Nodup) {pre : List Byte} (hev : pre.length % 2 = 0)
    (hl : (pre ++ records 4 4 2 (cueChunks xs)).length < 2 ^ 63) (hfu : 3 ≤ fuel) (hfr : (records 4 4 2 (cueChunks xs)).length + 65538 < fuelR) :
    ∃ g, writeCueEx chunk xs ⟨pre, pre.length, .ok⟩ = some g ∧ g.pos = g.bytes.length ∧ g.st = .ok ∧
      ∃ l h, readCueEx chunk fuelR fuel sort bs g.pos { g with pos := pre.length } [] = some (some l, h) ∧ l.Perm xs ∧ l.Pairwise fun a b => a.cue.id ≤ b.cue.id := by
  refine ⟨_, write_cues hf pre hl, rfl, rfl, ?_⟩
  obtain ⟨l, l1, l2⟩ := read_cues (fuel := fuel) hc hsort hbs hx hf hn (A := []) (B := []) (fun r hr => nomatch hr) (fun r hr => nomatch hr) (rest := []) hev (by simpa using hl) hfu hfr
  simp only [List.nil_append, List.append_nil] at l1
  exact ⟨l, _, l1, l2⟩

/-- (defect) A block end behind the end of the file, such as the default one, and `read_cues` never ends: at the end of the file the loop
condition holds, the search finds nothing, and the loop goes on with the same file and the same cues. -/
theorem cuesLoop_eof {chunk : Nat} (hc : 0 < chunk) {sort : List CueEx → List CueEx} {e : Nat} {f : File} (hp : f.pos = f.bytes.length) (he : f.bytes.length < e) (cues : List CueEx) (fuel : Nat) :
    (∃ g, find chunk 4 4 2 (some e) idCue (f.bytes.length + 1) f = some (false, g) ∧ f.pos < e ∧ g.bytes = f.bytes ∧ g.pos = g.bytes.length) ∧ cuesLoop chunk sort e fuel f cues = none := by
  have hfind : ∀ f : File, f.pos = f.bytes.length → f.bytes.length < e → ∃ g, find chunk 4 4 2 (some e) idCue (f.bytes.length + 1) f = some (false, g) ∧ g.bytes = f.bytes ∧ g.pos = g.bytes.length := by
    intro f hp he
    obtain ⟨v, g, h1, h2, h3, h4⟩ : ∃ v g, rdNum chunk f 4 = some (v, g) ∧ g.st ≠ .ok ∧ g.bytes = f.bytes ∧ g.pos = f.pos := by
      have hd : (f.bytes.drop f.pos).take 4 = [] := by rw [hp, List.drop_length]; rfl
      unfold rdNum readData readArray
      rw [show (file chunk).state f = f.st from rfl]
      by_cases hs : f.st = .ok
      · rw [if_neg (by simp [hs]), readLoop_file hc _ _ _ (by omega), Nat.mul_one, hd]
        exact ⟨0, ⟨f.bytes, f.pos, .eof⟩, by simp, by simp, rfl, rfl⟩
      · rw [if_pos hs]
        exact ⟨_, _, rfl, hs, rfl, rfl⟩
    refine ⟨g, ?_, h3, by rw [h4, h3, hp]⟩
    rw [find, if_pos (Or.inr ⟨e, rfl, by omega⟩), h1]
    simp only
    rw [if_pos h2]
  constructor
  · obtain ⟨g, h1, h2, h3⟩ := hfind f hp he
    exact ⟨g, h1, by omega, h2, h3⟩
  · induction fuel generalizing f with
    | zero => rfl
    | succ fuel ih =>
      obtain ⟨g, h1, h2, h3⟩ := hfind f hp he
      rw [cuesLoop, if_pos (by omega), h1]
      exact ih h3 (by rw [h2]; exact he)

/-- (defect) The vector is not cleared: cue points that are read into it keep the texts that were there. -/
theorem stale_texts : (cueLoop (file 99) (resize CueEx.zero 1 [{ CueEx.zero with title := [65] }]) none ⟨cueMem ⟨7, 0, 0, 0, 0, 0⟩, 0, .ok⟩).map (fun r => r.1.map fun c => (c.cue.id, c.title)) = some [(7, [65])] := by decide +kernel

/-- A case: two cues, not in order, of which one has no title. -/
def demoCues : List CueEx := [⟨⟨9, 1, 2, 3, 4, 5⟩, 6, 7, 8, 9, 10, 11, [65, 66], [67], []⟩, ⟨⟨3, 0, 0, 0, 0, 0⟩, 1, 0, 0, 0, 0, 0, [], [], [68, 69]⟩]

example : (∀ c ∈ demoCues, c.Fits) ∧ CuesFit demoCues ∧ (demoCues.map (·.cue.id)).Nodup ∧ Foreign (0x61746164, [1, 2, 3]) ∧ Foreign (idLIST, [73, 78, 70, 79, 1]) := by
  refine ⟨?_, ?_, by decide, ⟨⟨by decide, by decide⟩, by decide, fun h => absurd h (by decide)⟩, ⟨⟨by decide, by decide⟩, by decide, fun _ => ⟨by decide, by decide⟩⟩⟩
  · intro c hc
    simp only [demoCues, List.mem_cons, List.not_mem_nil, or_false] at hc
    rcases hc with rfl | rfl <;> (unfold CueEx.Fits Cue.Fits Ltxt.Fits; decide)
  · unfold CuesFit; decide +kernel

/-- There are such sorts and searches. -/
theorem sorts_exists : Sorts fun l => l.mergeSort fun a b => decide (a.cue.id ≤ b.cue.id) := by
  intro l
  refine ⟨List.mergeSort_perm l _, ?_⟩
  have := List.pairwise_mergeSort (le := fun a b : CueEx => decide (a.cue.id ≤ b.cue.id)) (fun a b c h1 h2 => by simp only [decide_eq_true_eq] at *; omega) (fun a b => by simp only [Bool.or_eq_true, decide_eq_true_eq]; omega) l
  simpa only [decide_eq_true_eq] using this

theorem searches_exists : Searches fun l i => l.findIdx? fun c => decide (c.cue.id = i) := by
  intro l i _
  constructor
  · intro k hk
    obtain ⟨h1, h2, -⟩ := List.findIdx?_eq_some_iff_getElem.1 hk
    exact ⟨l[k], List.getElem?_eq_getElem h1, by simpa using h2⟩
  · intro h c hc
    have := List.findIdx?_eq_none_iff.1 h c hc
    simpa using this

end Verif.Record.Wav
