import Verif.Record.WavCues
/-
Cue points of WAV files with their texts: proofs.
-/
namespace Verif.Record.Wav
open Verif.Stream Verif.Stream.MemoryFile Verif.Record
variable {σ τ α : Type}

/-! ### Writing -/

theorem whileOk_end {step : CueEx → File → Option File} {out : CueEx → List Byte} {P : CueEx → List Byte → Prop} (h : ∀ c b, P c b → step c (atEnd b) = some (atEnd (b ++ out c))) :
    ∀ (xs : List CueEx) (b : List Byte), (∀ c ∈ xs, ∀ b', b'.length + (out c).length ≤ (b ++ xs.flatMap out).length → P c b') → whileOk step xs (atEnd b) = some (atEnd (b ++ xs.flatMap out)) := by
  intro xs
  induction xs with
  | nil => intro b _; simp [whileOk]
  | cons c xs ih =>
    intro b hp
    rw [whileOk, if_pos (show (atEnd b).st = .ok from rfl), h c b (hp c List.mem_cons_self b (by simp only [List.flatMap_cons, List.length_append]; omega)), Option.bind_some, ih]
    · rw [List.flatMap_cons, List.append_assoc]
    · intro d hd b' hb
      refine hp d (List.mem_cons_of_mem _ hd) b' ?_
      rw [List.flatMap_cons, ← List.append_assoc]
      exact hb

/-- The record is what is written by opening it, writing the data and closing it. -/
theorem open_close {chunk id : Nat} {payload : List Byte} {data : File → Option File} (hd : ∀ b, data (atEnd b) = some (atEnd (b ++ payload))) (hf : Record.Fits 4 4 2 id payload) (b : List Byte)
    (hl : (b ++ record 4 4 2 id payload).length < 2 ^ 63) : ∃ g e, data (openRec chunk 4 4 id (atEnd b)).2 = some g ∧ closeRec chunk 4 4 2 (openRec chunk 4 4 id (atEnd b)).1 g = some (e, atEnd (b ++ record 4 4 2 id payload)) := by
  have h := writeRecOf_spec (chunk := chunk) hd hf b hl
  unfold writeRecOf at h
  simp only at h
  have hst : (openRec chunk 4 4 id (atEnd b)).2.st = .ok := by
    unfold openRec; simp only; rw [wrNum_end, wrNum_end]; rfl
  rw [if_neg (by simp [hst])] at h
  cases hg : data (openRec chunk 4 4 id (atEnd b)).2 with
  | none => rw [hg] at h; cases h
  | some g =>
    rw [hg, Option.bind_some] at h
    cases hc : closeRec chunk 4 4 2 (openRec chunk 4 4 id (atEnd b)).1 g with
    | none => rw [hc] at h; cases h
    | some r =>
      rw [hc, Option.map_some] at h
      exact ⟨g, r.1, rfl, by rw [hc, ← Option.some.inj h]⟩

theorem texts_fit {c : CueEx} {L : Nat} (hl : (records 4 4 2 c.texts).length ≤ L) (hL : L < 4294967296) : ∀ r ∈ c.texts, Record.Fits 4 4 2 r.1 r.2 := by
  intro r hr
  have h1 : (record 4 4 2 r.1 r.2).length ≤ (records 4 4 2 c.texts).length := by
    obtain ⟨a, b, e⟩ := List.append_of_mem hr
    rw [e, records_append, records_cons, List.length_append, List.length_append]; omega
  rw [record_length] at h1
  refine ⟨?_, by rw [show (256 : Nat) ^ 4 = 4294967296 from rfl]; omega⟩
  unfold CueEx.texts at hr
  rw [show (256 : Nat) ^ 4 = 4294967296 from rfl]
  rcases List.mem_cons.1 hr with rfl | hr
  · show idLtxt < _; decide
  · rcases List.mem_append.1 hr with hr | hr
    · split at hr
      · cases hr
      · rw [List.mem_singleton] at hr; subst hr; show idLabl < _; decide
    · split at hr
      · cases hr
      · rw [List.mem_singleton] at hr; subst hr; show idNote < _; decide

theorem writeTexts_end (chunk : Nat) {c : CueEx} (hf : ∀ r ∈ c.texts, Record.Fits 4 4 2 r.1 r.2) (b : List Byte) (hl : b.length + (records 4 4 2 c.texts).length < 2 ^ 63) :
    writeTexts chunk c (atEnd b) = some (atEnd (b ++ records 4 4 2 c.texts)) := by
  unfold CueEx.texts at hf hl ⊢
  rw [records_cons, records_append, List.length_append, List.length_append] at hl
  simp only at hl
  unfold writeTexts
  rw [writeRecOf_spec (id := idLtxt) (ltxt_writes chunk c.ltxt) (hf (idLtxt, _) List.mem_cons_self) b (by rw [List.length_append]; omega), Option.bind_some]
  have h2 : (if c.title = [] then some (atEnd (b ++ record 4 4 2 idLtxt (ltxtBytes c.ltxt))) else writeRecOf chunk 4 4 2 idLabl (writeLabel (file chunk) ⟨c.cue.id, c.title⟩) (atEnd (b ++ record 4 4 2 idLtxt (ltxtBytes c.ltxt)))) =
      some (atEnd (b ++ record 4 4 2 idLtxt (ltxtBytes c.ltxt) ++ records 4 4 2 (if c.title = [] then [] else [(idLabl, labelBytes ⟨c.cue.id, c.title⟩)]))) := by
    by_cases ht : c.title = []
    · rw [if_pos ht, if_pos ht]; simp [records]
    · rw [if_neg ht] at hl hf
      rw [if_neg ht, if_neg ht]
      have e : records 4 4 2 [(idLabl, labelBytes ⟨c.cue.id, c.title⟩)] = record 4 4 2 idLabl (labelBytes ⟨c.cue.id, c.title⟩) := by rw [records_cons]; simp [records]
      rw [e] at hl ⊢
      exact writeRecOf_spec (id := idLabl) (label_writes chunk _) (hf (idLabl, _) (List.mem_cons_of_mem _ (List.mem_append_left _ List.mem_cons_self))) _ (by rw [List.length_append, List.length_append]; omega)
  rw [h2, Option.bind_some, records_cons, records_append]
  by_cases hn : c.note = []
  · rw [if_pos hn, if_pos hn]; simp [records]
  · rw [if_neg hn] at hl hf
    rw [if_neg hn, if_neg hn]
    have e : records 4 4 2 [(idNote, labelBytes ⟨c.cue.id, c.note⟩)] = record 4 4 2 idNote (labelBytes ⟨c.cue.id, c.note⟩) := by rw [records_cons]; simp [records]
    rw [e] at hl ⊢
    rw [writeRecOf_spec (id := idNote) (label_writes chunk _) (hf (idNote, _) (List.mem_cons_of_mem _ (List.mem_append_right _ List.mem_cons_self))) _ (by rw [List.length_append, List.length_append, List.length_append]; omega)]
    simp only [List.append_assoc]

theorem records_flatMap (xs : List CueEx) : records 4 4 2 (xs.flatMap CueEx.texts) = xs.flatMap fun c => records 4 4 2 c.texts := by
  induction xs with
  | nil => rfl
  | cons c xs ih => rw [List.flatMap_cons, List.flatMap_cons, records_append, ih]

/-- Both chunks fit. -/
def CuesFit (xs : List CueEx) : Prop := ∀ r ∈ cueChunks xs, r.2.length < 4294967295

theorem CuesFit.fits {xs : List CueEx} (h : CuesFit xs) : ∀ r ∈ cueChunks xs, Record.Fits 4 4 2 r.1 r.2 := by
  intro r hr
  have h1 := h r hr
  have p4 : (256 : Nat) ^ 4 = 4294967296 := rfl
  have hp : padding 2 r.2.length < 2 := padding_lt (by omega) _
  refine ⟨?_, by rw [p4]; unfold padding at hp ⊢; omega⟩
  rw [p4]
  unfold cueChunks at hr
  rcases List.mem_cons.1 hr with rfl | hr
  · show idCue < _; decide
  · rw [List.mem_singleton] at hr; subst hr; show idLIST < _; decide

theorem cueChunks_records (xs : List CueEx) : records 4 4 2 (cueChunks xs) = record 4 4 2 idCue (cuesBytes (xs.map CueEx.cue)) ++ record 4 4 2 idLIST (leEnc 4 adtl ++ records 4 4 2 (xs.flatMap CueEx.texts)) := by
  unfold cueChunks
  rw [records_cons, records_cons]; simp [records]

theorem text_fits {xs : List CueEx} (h : CuesFit xs) {c : CueEx} (hc : c ∈ xs) : (∀ r ∈ c.texts, Record.Fits 4 4 2 r.1 r.2) ∧ (records 4 4 2 c.texts).length < 4294967295 := by
  have h1 := h (idLIST, _) (List.mem_cons_of_mem _ List.mem_cons_self)
  simp only [List.length_append, leEnc_length] at h1
  have h2 : (records 4 4 2 c.texts).length ≤ (records 4 4 2 (xs.flatMap CueEx.texts)).length := by
    obtain ⟨a, b, e⟩ := List.append_of_mem hc
    rw [e, List.flatMap_append, List.flatMap_cons, records_append, records_append, List.length_append, List.length_append]; omega
  exact ⟨texts_fit (Nat.le_refl _) (by omega), by omega⟩

/-- **C124** What is written for cues: a chunk with the cue points, and a list with a chunk of labeled text for each, in order, each
followed by its title and its note, if there are. -/
theorem write_cues {chunk : Nat} {xs : List CueEx} (hf : CuesFit xs) (b : List Byte) (hl : (b ++ records 4 4 2 (cueChunks xs)).length < 2 ^ 63) :
    writeCueEx chunk xs (atEnd b) = some (atEnd (b ++ records 4 4 2 (cueChunks xs))) := by
  have hfits := hf.fits
  have hn : xs.length ≤ 4294967295 := by
    have := hf (idCue, _) List.mem_cons_self
    unfold cuesBytes at this
    simp only [List.length_append, leEnc_length, flatMap_cueMem_length, List.length_map] at this
    omega
  rw [cueChunks_records] at hl ⊢
  rw [← List.append_assoc] at hl ⊢
  have hl1 : (b ++ record 4 4 2 idCue (cuesBytes (xs.map CueEx.cue))).length < 2 ^ 63 := by
    rw [List.length_append] at hl; omega
  obtain ⟨g1, e1, a1, c1⟩ := open_close (chunk := chunk) (data := fun f => whileOk (fun c f => some (fwrite f (cueMem c.cue)).2) xs (wrNum chunk f 4 xs.length)) (payload := cuesBytes (xs.map CueEx.cue))
    (fun b => by
      rw [wrNum_end, whileOk_end (out := fun c => cueMem c.cue) (P := fun _ _ => True)
        (fun c b _ => by show some (fwrite ⟨b, b.length, .ok⟩ (cueMem c.cue)).2 = _; rw [fwrite_end]; rfl) xs _ (fun _ _ _ _ => trivial)]
      unfold cuesBytes
      rw [List.append_assoc, List.length_map, List.flatMap_map])
    (hfits _ List.mem_cons_self) b hl1
  obtain ⟨g2, e2, a2, c2⟩ := open_close (chunk := chunk) (id := idLIST) (payload := leEnc 4 adtl ++ records 4 4 2 (xs.flatMap CueEx.texts))
    (data := fun f => some (atEnd (f.bytes ++ (leEnc 4 adtl ++ records 4 4 2 (xs.flatMap CueEx.texts))))) (fun b => rfl)
    (hfits _ (List.mem_cons_of_mem _ List.mem_cons_self)) _ hl
  have ho : (openRec chunk 4 4 idLIST (atEnd (b ++ record 4 4 2 idCue (cuesBytes (xs.map CueEx.cue))))).2 = atEnd (b ++ record 4 4 2 idCue (cuesBytes (xs.map CueEx.cue)) ++ leEnc 4 idLIST ++ leEnc 4 0) := by
    unfold openRec; simp only; rw [wrNum_end, wrNum_end]
  have hw : whileOk (writeTexts chunk) xs (wrNum chunk (openRec chunk 4 4 idLIST (atEnd (b ++ record 4 4 2 idCue (cuesBytes (xs.map CueEx.cue))))).2 4 adtl) = some g2 := by
    rw [ho, wrNum_end, whileOk_end (out := fun c => records 4 4 2 c.texts) (P := fun c b => (∀ r ∈ c.texts, Record.Fits 4 4 2 r.1 r.2) ∧ b.length + (records 4 4 2 c.texts).length < 2 ^ 63)
      (fun c b h => writeTexts_end chunk h.1 b h.2), ← records_flatMap, ← a2, ho]
    · simp only [Option.some.injEq]
      show atEnd _ = atEnd _
      simp [atEnd]
    · intro c hc b' hb
      refine ⟨(text_fits hf hc).1, Nat.lt_of_le_of_lt hb ?_⟩
      rw [← records_flatMap]
      rw [List.length_append, record_length] at hl
      simp only [List.length_append, leEnc_length] at hl ⊢
      omega
  unfold writeCueEx
  simp only
  rw [if_neg (by omega), a1, Option.bind_some, c1, Option.bind_some]
  simp only
  rw [hw, Option.bind_some, c2]
  rfl

end Verif.Record.Wav
