import Verif.Record.WavFind
/-
`read_cues`: the texts, and the whole.
-/
namespace Verif.Record.Wav
open Verif.Stream Verif.Stream.MemoryFile Verif.Record
variable {σ τ α : Type}

/-- The chunks of a list of texts. -/
inductive Txt where
  | ltxt (x : Ltxt) | labl (x : Label) | note (x : Label)

def Txt.rec' : Txt → Nat × List Byte
  | .ltxt x => (idLtxt, ltxtBytes x)
  | .labl x => (idLabl, labelBytes x)
  | .note x => (idNote, labelBytes x)

def Txt.id : Txt → Nat
  | .ltxt x => x.id
  | .labl x => x.id
  | .note x => x.id

def Txt.set : Txt → CueEx → CueEx
  | .ltxt x, c => c.setLtxt x
  | .labl x, c => { c with title := x.text }
  | .note x, c => { c with note := x.text }

def Txt.Fits (fuelR : Nat) : Txt → Prop
  | .ltxt x => x.Fits ∧ x.description.length < 2 ^ 62 ∧ x.description.length + 65538 < fuelR
  | .labl x => x.Fits ∧ x.text.length < 2 ^ 62 ∧ x.text.length + 65538 < fuelR
  | .note x => x.Fits ∧ x.text.length < 2 ^ 62 ∧ x.text.length + 65538 < fuelR

/-- What becomes of a cue. -/
def Txt.on (t : Txt) (c : CueEx) : CueEx := if c.cue.id = t.id then t.set c else c

theorem set_id (t : Txt) (c : CueEx) : (t.set c).cue = c.cue := by cases t <;> rfl
theorem on_id (t : Txt) (c : CueEx) : (t.on c).cue = c.cue := by unfold Txt.on; split; exact set_id t c; rfl

theorem modify_eq {i : Nat} {g : CueEx → CueEx} : ∀ {l : List CueEx} {k : Nat} {c : CueEx}, (l.map (·.cue.id)).Nodup → l[k]? = some c → c.cue.id = i → l.modify k g = l.map fun e => if e.cue.id = i then g e else e := by
  intro l
  induction l with
  | nil => intro k c _ h _; cases k <;> cases h
  | cons d l ih =>
    intro k c hn hk hc
    rw [List.map_cons, List.nodup_cons] at hn
    cases k with
    | zero =>
      simp only [List.getElem?_cons_zero, Option.some.injEq] at hk
      subst hk
      rw [List.modify_zero_cons, List.map_cons, if_pos hc]
      congr 1
      conv => lhs; rw [← List.map_id l]
      refine List.map_congr_left fun e he => ?_
      rw [if_neg]
      · rfl
      · intro h
        exact hn.1 (List.mem_map.2 ⟨e, he, by rw [h, hc]⟩)
    | succ k =>
      rw [List.getElem?_cons_succ] at hk
      rw [List.modify_succ_cons, List.map_cons, ih hn.2 hk hc, if_neg]
      intro h
      exact hn.1 (List.mem_map.2 ⟨c, List.mem_of_getElem? hk, by rw [h, hc]⟩)

theorem update_eq {bs : List CueEx → Nat → Option Nat} (hbs : Searches bs) {l : List CueEx} (hs : l.Pairwise fun a b => a.cue.id ≤ b.cue.id) (hn : (l.map (·.cue.id)).Nodup) (i : Nat) (g : CueEx → CueEx) :
    update bs l i g = l.map fun e => if e.cue.id = i then g e else e := by
  obtain ⟨h1, h2⟩ := hbs l i hs
  unfold update
  cases hb : bs l i with
  | none =>
    simp only
    conv => lhs; rw [← List.map_id l]
    refine List.map_congr_left fun e he => ?_
    rw [if_neg (h2 hb e he)]; rfl
  | some k =>
    obtain ⟨c, k1, k2⟩ := h1 k hb
    exact modify_eq hn k1 k2

/-- One round of the loop. -/
theorem textLoop_step {chunk fuelR : Nat} (hc : 0 < chunk) {bs : List CueEx → Nat → Option Nat} {t : Txt} (ht : t.Fits fuelR) (hf : Record.Fits 4 4 2 t.rec'.1 t.rec'.2) {pre rest : List Byte} {fin : Nat} (hfin : pre.length < fin)
    (hl : (pre ++ record 4 4 2 t.rec'.1 t.rec'.2).length < 2 ^ 63) (l : List CueEx) (fuel : Nat) :
    textLoop chunk fuelR bs fin (fuel + 1) ⟨pre ++ record 4 4 2 t.rec'.1 t.rec'.2 ++ rest, pre.length, .ok⟩ l =
      textLoop chunk fuelR bs fin fuel ⟨pre ++ record 4 4 2 t.rec'.1 t.rec'.2 ++ rest, (pre ++ record 4 4 2 t.rec'.1 t.rec'.2).length, .ok⟩ (update bs l t.id t.set) := by
  have hsz : t.rec'.2.length < fsizeMax := by
    have := hf.2
    rw [show (256 : Nat) ^ 4 = 4294967296 from rfl] at this
    unfold fsizeMax; omega
  have hrd : rdNum chunk ⟨pre ++ record 4 4 2 t.rec'.1 t.rec'.2 ++ rest, pre.length, .ok⟩ 4 = some (t.rec'.1, ⟨pre ++ record 4 4 2 t.rec'.1 t.rec'.2 ++ rest, pre.length + 4, .ok⟩) := by
    refine rdNum_ok (rest := leEnc 4 t.rec'.2.length ++ t.rec'.2 ++ List.replicate (padding 2 t.rec'.2.length) 0 ++ rest) hc rfl hf.1 ?_
    simp only
    rw [List.append_assoc, List.drop_left]
    simp [record]
  rw [textLoop, if_pos hfin, hrd]
  simp only [Option.bind_some]
  rw [if_neg (by simp)]
  cases t with
  | ltxt x =>
    obtain ⟨h1, h2, h3⟩ := ht
    rw [if_pos (show (Txt.ltxt x).rec'.1 = idLtxt from rfl)]
    obtain ⟨v, r1, r2⟩ := readRecOf_spec (chunk := chunk) hc (pre := pre) (rest := rest) hf hsz hl (ltxt_natural fuelR) (ltxt_gets h1 h2 h3)
    rw [r1]
    subst r2
    rfl
  | labl x =>
    obtain ⟨h1, h2, h3⟩ := ht
    rw [if_neg (show ¬ (Txt.labl x).rec'.1 = idLtxt by show ¬ idLabl = idLtxt; decide), if_pos (show (Txt.labl x).rec'.1 = idLabl from rfl)]
    obtain ⟨v, r1, r2⟩ := readRecOf_spec (chunk := chunk) hc (pre := pre) (rest := rest) hf hsz hl (label_natural fuelR) (label_gets h1 h2 h3)
    rw [r1]
    subst r2
    rfl
  | note x =>
    obtain ⟨h1, h2, h3⟩ := ht
    rw [if_neg (show ¬ (Txt.note x).rec'.1 = idLtxt by show ¬ idNote = idLtxt; decide), if_neg (show ¬ (Txt.note x).rec'.1 = idLabl by show ¬ idNote = idLabl; decide), if_pos (show (Txt.note x).rec'.1 = idNote from rfl)]
    obtain ⟨v, r1, r2⟩ := readRecOf_spec (chunk := chunk) hc (pre := pre) (rest := rest) hf hsz hl (label_natural fuelR) (label_gets h1 h2 h3)
    rw [r1]
    subst r2
    rfl

theorem map_on (t : Txt) {l : List CueEx} (hs : l.Pairwise fun a b => a.cue.id ≤ b.cue.id) (hn : (l.map (·.cue.id)).Nodup) :
    ((l.map t.on).Pairwise fun a b => a.cue.id ≤ b.cue.id) ∧ ((l.map t.on).map (·.cue.id)).Nodup := by
  constructor
  · rw [List.pairwise_map]
    simpa only [on_id] using hs
  · rw [List.map_map]
    simpa only [Function.comp_def, on_id] using hn

theorem textLoop_all {chunk fuelR : Nat} (hc : 0 < chunk) {bs : List CueEx → Nat → Option Nat} (hbs : Searches bs) (rest : List Byte) : ∀ (ts : List Txt) (l : List CueEx) (pre : List Byte) (fuel : Nat), (∀ t ∈ ts, t.Fits fuelR ∧ Record.Fits 4 4 2 t.rec'.1 t.rec'.2) →
    (l.Pairwise fun a b => a.cue.id ≤ b.cue.id) → (l.map (·.cue.id)).Nodup → (pre ++ records 4 4 2 (ts.map Txt.rec')).length < 2 ^ 63 → ts.length < fuel →
    textLoop chunk fuelR bs (pre ++ records 4 4 2 (ts.map Txt.rec')).length fuel ⟨pre ++ records 4 4 2 (ts.map Txt.rec') ++ rest, pre.length, .ok⟩ l =
      some (some (l.map fun e => ts.foldl (fun e t => t.on e) e), ⟨pre ++ records 4 4 2 (ts.map Txt.rec') ++ rest, (pre ++ records 4 4 2 (ts.map Txt.rec')).length, .ok⟩) := by
  intro ts
  induction ts with
  | nil =>
    intro l pre fuel _ _ _ _ hfu
    obtain ⟨k, rfl⟩ : ∃ k, fuel = k + 1 := ⟨fuel - 1, by simp at hfu; omega⟩
    rw [textLoop, if_neg (by simp [records])]
    simp [records]
  | cons t ts ih =>
    intro l pre fuel ht hs hn hl hfu
    rw [List.length_cons] at hfu
    obtain ⟨k, rfl⟩ : ∃ k, fuel = k + 1 := ⟨fuel - 1, by omega⟩
    have e1 : pre ++ records 4 4 2 ((t :: ts).map Txt.rec') = pre ++ record 4 4 2 t.rec'.1 t.rec'.2 ++ records 4 4 2 (ts.map Txt.rec') := by
      rw [List.map_cons, records_cons, List.append_assoc]
    rw [e1] at hl ⊢
    obtain ⟨t1, t2⟩ := ht t List.mem_cons_self
    have hre := record_even t.rec'.1 t.rec'.2
    have hst := textLoop_step (bs := bs) hc t1 t2 (pre := pre) (rest := records 4 4 2 (ts.map Txt.rec') ++ rest) (fin := (pre ++ record 4 4 2 t.rec'.1 t.rec'.2 ++ records 4 4 2 (ts.map Txt.rec')).length)
      (by simp only [List.length_append]; omega) (by rw [List.length_append (bs := records 4 4 2 (ts.map Txt.rec'))] at hl; omega) l k
    rw [← List.append_assoc] at hst
    rw [hst, update_eq hbs hs hn]
    have hm := map_on t hs hn
    have hi := ih (l.map t.on) (pre ++ record 4 4 2 t.rec'.1 t.rec'.2) k (fun q hq => ht q (List.mem_cons_of_mem _ hq)) hm.1 hm.2 hl (by omega)
    rw [show (l.map fun e => if e.cue.id = t.id then t.set e else e) = l.map t.on from rfl, hi, List.map_map]
    rfl

/-! ### The texts of cues -/

/-- The texts written for a cue. -/
def CueEx.txts (c : CueEx) : List Txt :=
  .ltxt c.ltxt :: ((if c.title = [] then [] else [.labl ⟨c.cue.id, c.title⟩]) ++ if c.note = [] then [] else [.note ⟨c.cue.id, c.note⟩])

theorem txts_rec (c : CueEx) : c.txts.map Txt.rec' = c.texts := by
  unfold CueEx.txts CueEx.texts
  rw [List.map_cons, List.map_append]
  congr 1
  congr 1
  · split <;> rfl
  · split <;> rfl

theorem txts_id (c : CueEx) : ∀ t ∈ c.txts, t.id = c.cue.id := by
  intro t ht
  unfold CueEx.txts at ht
  rcases List.mem_cons.1 ht with rfl | ht
  · rfl
  · rcases List.mem_append.1 ht with ht | ht
    · split at ht
      · cases ht
      · rw [List.mem_singleton] at ht; subst ht; rfl
    · split at ht
      · cases ht
      · rw [List.mem_singleton] at ht; subst ht; rfl

theorem flatMap_txts (xs : List CueEx) : (xs.flatMap CueEx.txts).map Txt.rec' = xs.flatMap CueEx.texts := by
  induction xs with
  | nil => rfl
  | cons c xs ih => rw [List.flatMap_cons, List.flatMap_cons, List.map_append, ih, txts_rec]

theorem fold_other (e : CueEx) : ∀ (ts : List Txt), (∀ t ∈ ts, t.id ≠ e.cue.id) → ts.foldl (fun e t => t.on e) e = e := by
  intro ts
  induction ts with
  | nil => intro _; rfl
  | cons t ts ih =>
    intro h
    rw [List.foldl_cons, show t.on e = e from if_neg (fun c => h t List.mem_cons_self c.symm), ih (fun q hq => h q (List.mem_cons_of_mem _ hq))]

theorem fold_own (c : CueEx) : c.txts.foldl (fun e t => t.on e) (CueEx.base c.cue) = c := by
  obtain ⟨q, d, p, co, la, di, ch, de, ti, no⟩ := c
  unfold CueEx.txts
  simp only [List.foldl_cons, List.foldl_append]
  have h1 : (Txt.ltxt (CueEx.ltxt ⟨q, d, p, co, la, di, ch, de, ti, no⟩)).on (CueEx.base q) = ⟨q, d, p, co, la, di, ch, de, [], []⟩ := if_pos rfl
  rw [h1]
  have h2 : (if ti = [] then [] else [Txt.labl ⟨q.id, ti⟩]).foldl (fun e t => t.on e) (⟨q, d, p, co, la, di, ch, de, [], []⟩ : CueEx) = ⟨q, d, p, co, la, di, ch, de, ti, []⟩ := by
    by_cases h : ti = []
    · rw [if_pos h, h]; rfl
    · rw [if_neg h]; exact if_pos rfl
  rw [h2]
  by_cases h : no = []
  · rw [if_pos h, h]; rfl
  · rw [if_neg h]; exact if_pos rfl

/-- All the texts turn the cue points into the cues. -/
theorem fold_all {xs : List CueEx} (hn : (xs.map (·.cue.id)).Nodup) {c : CueEx} (hc : c ∈ xs) : (xs.flatMap CueEx.txts).foldl (fun e t => t.on e) (CueEx.base c.cue) = c := by
  obtain ⟨a, b, rfl⟩ := List.append_of_mem hc
  rw [List.map_append, List.map_cons] at hn
  have hna : ∀ x ∈ a, x.cue.id ≠ c.cue.id := by
    intro x hx h
    rw [List.nodup_append] at hn
    exact hn.2.2 x.cue.id (List.mem_map_of_mem hx) c.cue.id List.mem_cons_self h
  have hnb : ∀ x ∈ b, x.cue.id ≠ c.cue.id := by
    intro x hx h
    rw [List.nodup_append, List.nodup_cons] at hn
    exact hn.2.1.1 (List.mem_map.2 ⟨x, hx, h⟩)
  rw [List.flatMap_append, List.flatMap_cons, List.foldl_append, List.foldl_append, fold_other _ (a.flatMap CueEx.txts), fold_own, fold_other]
  · intro t ht
    obtain ⟨x, hx, ht⟩ := List.mem_flatMap.1 ht
    rw [txts_id x t ht]; exact hnb x hx
  · intro t ht
    obtain ⟨x, hx, ht⟩ := List.mem_flatMap.1 ht
    rw [txts_id x t ht]; exact hna x hx

theorem txt_fits {xs : List CueEx} (hx : ∀ c ∈ xs, c.Fits) (hf : CuesFit xs) {fuelR : Nat} (hfu : (records 4 4 2 (cueChunks xs)).length + 65538 < fuelR) :
    ∀ t ∈ xs.flatMap CueEx.txts, t.Fits fuelR ∧ Record.Fits 4 4 2 t.rec'.1 t.rec'.2 := by
  intro t ht
  obtain ⟨c, hc, htc⟩ := List.mem_flatMap.1 ht
  have hmem : t.rec' ∈ c.texts := by rw [← txts_rec]; exact List.mem_map_of_mem htc
  obtain ⟨f1, f2⟩ := text_fits hf hc
  refine ⟨?_, f1 _ hmem⟩
  have hlen : t.rec'.2.length ≤ (records 4 4 2 c.texts).length := by
    obtain ⟨a, b, e⟩ := List.append_of_mem hmem
    rw [e, records_append, records_cons, List.length_append, List.length_append, record_even]; omega
  have hlen2 : (records 4 4 2 c.texts).length ≤ (records 4 4 2 (cueChunks xs)).length := by
    obtain ⟨a, b, e⟩ := List.append_of_mem hc
    rw [cueChunks_records, List.length_append, record_even, record_even, List.length_append, e, List.flatMap_append, List.flatMap_cons, records_append, records_append, List.length_append, List.length_append]
    omega
  have htext : ∀ x : List Byte, x.length ≤ (textBytes x).length := by
    intro x
    unfold textBytes
    split
    · rename_i h; rw [h]; exact Nat.le_refl _
    · simp
  obtain ⟨-, g2, g3, g4⟩ := hx c hc
  unfold CueEx.txts at htc
  rcases List.mem_cons.1 htc with rfl | htc
  · have h1 : (ltxtBytes c.ltxt).length ≤ (records 4 4 2 c.texts).length := hlen
    have := htext c.ltxt.description
    unfold ltxtBytes at h1
    simp only [List.length_append, leEnc_length] at h1
    exact ⟨g2, by omega, by omega⟩
  · rcases List.mem_append.1 htc with htc | htc
    · split at htc
      · cases htc
      · rw [List.mem_singleton] at htc; subst htc
        have h1 : (labelBytes ⟨c.cue.id, c.title⟩).length ≤ (records 4 4 2 c.texts).length := hlen
        have := htext c.title
        unfold labelBytes at h1
        simp only [List.length_append, leEnc_length] at h1
        exact ⟨⟨g2.1, g3⟩, by show c.title.length < _; omega, by show c.title.length + _ < _; omega⟩
    · split at htc
      · cases htc
      · rw [List.mem_singleton] at htc; subst htc
        have h1 : (labelBytes ⟨c.cue.id, c.note⟩).length ≤ (records 4 4 2 c.texts).length := hlen
        have := htext c.note
        unfold labelBytes at h1
        simp only [List.length_append, leEnc_length] at h1
        exact ⟨⟨g2.1, g4⟩, by show c.note.length < _; omega, by show c.note.length + _ < _; omega⟩

end Verif.Record.Wav
