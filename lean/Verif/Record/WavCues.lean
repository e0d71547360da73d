import Verif.Record.WavSpec
import Verif.Stream.FileWindow
/-
Cue points of WAV files with their texts (include/stdex/wav.hpp 391-594).
-/
namespace Verif.Record.Wav
open Verif.Stream Verif.Stream.MemoryFile Verif.Record
variable {σ τ α : Type}

/-! ### Model -/

/-- `cue_ex`, 391-402. -/
structure CueEx where
  cue : Cue
  duration : Nat
  purposeId : Nat
  country : Nat
  language : Nat
  dialect : Nat
  charset : Nat
  description : List Byte
  title : List Byte
  note : List Byte
deriving DecidableEq

/-- The value of `cue_ex` by default. -/
def CueEx.zero : CueEx := ⟨⟨0, 0, 0, 0, 0, 0⟩, 0, 0, 0, 0, 0, 0, [], [], []⟩

/-- Its fields in a labeled text, 429-437. -/
def CueEx.ltxt (c : CueEx) : Ltxt := ⟨c.cue.id, c.duration, c.purposeId, c.country, c.language, c.dialect, c.charset, c.description⟩

/-- `*reinterpret_cast<const id_t*>("adtl")` on a little-endian host. -/
def adtl : Nat := 0x6C746461

/-- One round of the loop 426-451. -/
def writeTexts (chunk : Nat) (c : CueEx) (f : File) : Option File :=
  (writeRecOf chunk 4 4 2 idLtxt (writeLtxt (file chunk) c.ltxt) f).bind fun f =>
    (if c.title = [] then some f else writeRecOf chunk 4 4 2 idLabl (writeLabel (file chunk) ⟨c.cue.id, c.title⟩) f).bind fun f =>
      if c.note = [] then some f else writeRecOf chunk 4 4 2 idNote (writeLabel (file chunk) ⟨c.cue.id, c.note⟩) f

/-- The loops of 420-421 and 426-451. -/
def whileOk (step : CueEx → File → Option File) : List CueEx → File → Option File
  | [], f => some f
  | c :: cs, f => if f.st = .ok then (step c f).bind (whileOk step cs) else some f

/-- `operator <<` of `cue_ex_vector`, 409-455: `none` when it throws. -/
def writeCueEx (chunk : Nat) (xs : List CueEx) (f : File) : Option File :=
  let o := openRec chunk 4 4 idCue f
  if 4294967295 < xs.length then none
  else
    (whileOk (fun c f => some (fwrite f (cueMem c.cue)).2) xs (wrNum chunk o.2 4 xs.length)).bind fun f =>
      (closeRec chunk 4 4 2 o.1 f).bind fun r =>
        let o := openRec chunk 4 4 idLIST r.2
        (whileOk (writeTexts chunk) xs (wrNum chunk o.2 4 adtl)).bind fun f => (closeRec chunk 4 4 2 o.1 f).map Prod.snd

/-- `find_first`, 457-487, for the chunk `id`: the end of the block found, or `none` for false. -/
def findFirst (chunk id : Nat) (subid : Nat) (e : Nat) : Nat → File → Option (Option Nat × File)
  | 0, _ => none
  | fuel + 1, f =>
    if f.pos < e then
      match find chunk 4 4 2 (some e) id (f.bytes.length + 1) f with
      | none => none
      | some (false, f) => some (none, f)
      | some (true, f) =>
        (rdNum chunk f 4).bind fun (size, f) =>
          if f.st ≠ .ok then some (none, f)
          else
            let fin := f.pos + size
            (rdNum chunk f 4).bind fun (i, f) =>
              if f.st ≠ .ok then some (none, f)
              else if i = subid then some (some fin, f)
              else (seekbeg f (fin + (2 ^ 64 + 2 - fin) % 2 ^ 64 % 2)).bind (findFirst chunk id subid e fuel)
    else some (none, f)

/-- `file_window` over the file. -/
def fileI (chunk : Nat) : FileI Byte File := { file chunk with seek := fun f o _ => (o.toNat, f), skip := fun f _ => f, tell := File.pos }

/-- The window as a stream; only `read` is used. -/
def window (chunk : Nat) : Strm Byte (FW File) := ⟨fwRead (fileI chunk), fwWrite (fileI chunk), id, id, FW.st⟩

/-- The loop 527-533 over the resized vector: (cues that were read, whether they are in order, stream). -/
def cueLoop (S : Strm Byte σ) : List CueEx → Option Cue → σ → Option (List CueEx × Bool × σ)
  | [], _, s => some ([], true, s)
  | c :: cs, prev, s =>
    (readArray S 25 s 24 1).bind fun (d, _, s) =>
      if S.state s ≠ .ok then some ([], true, s)
      else
        let q := cueOf (d ++ (cueMem c.cue).drop d.length)
        let ok := match prev with
          | none => true
          | some p => decide (¬ q.id < p.id)
        (cueLoop S cs (some q) s).map fun r => ({ c with cue := q } :: r.1, ok && r.2.1, r.2.2)

/-- Lines 520-537 after the size was read: `none` inside for `return false`. -/
def loadCues (chunk : Nat) (sort : List CueEx → List CueEx) (size : Nat) (f : File) (cues : List CueEx) : Option (Option (List CueEx) × File) :=
  (num (window chunk) (FW.new (fileI chunk) f f.pos size) 4).bind fun (n, w) =>
    if w.st ≠ .ok then some (none, w.src)
    else (cueLoop (window chunk) (resize CueEx.zero n cues) none w).map fun r => (some (if r.2.1 then r.1 else sort r.1), r.2.2.src)

/-- The loop 514-539. -/
def cuesLoop (chunk : Nat) (sort : List CueEx → List CueEx) (e : Nat) : Nat → File → List CueEx → Option (Option (List CueEx) × File)
  | 0, _, _ => none
  | fuel + 1, f, cues =>
    if f.pos < e then
      match find chunk 4 4 2 (some e) idCue (f.bytes.length + 1) f with
      | none => none
      | some (false, f) => cuesLoop chunk sort e fuel f cues
      | some (true, f) =>
        (rdNum chunk f 4).bind fun (size, f) =>
          if f.st ≠ .ok then some (none, f)
          else (loadCues chunk sort size f cues).bind fun (r, f) =>
            match r with
            | none => some (none, f)
            | some cues => cuesLoop chunk sort e fuel f cues
    else some (some cues, f)

/-- What becomes of the cue found for a labeled text, 557-565. -/
def CueEx.setLtxt (c : CueEx) (x : Ltxt) : CueEx :=
  { c with duration := x.duration, purposeId := x.purposeId, country := x.country, language := x.language, dialect := x.dialect, charset := x.charset, description := x.description }

/-- `if (c) …` for the cue that `std::bsearch` found. -/
def update (bs : List CueEx → Nat → Option Nat) (cues : List CueEx) (id : Nat) (g : CueEx → CueEx) : List CueEx :=
  match bs cues id with
  | none => cues
  | some k => cues.modify k g

/-- The loop 546-588: `none` inside for `return false`. -/
def textLoop (chunk fuelR : Nat) (bs : List CueEx → Nat → Option Nat) (fin : Nat) : Nat → File → List CueEx → Option (Option (List CueEx) × File)
  | 0, _, _ => none
  | fuel + 1, f, cues =>
    if f.pos < fin then
      (rdNum chunk f 4).bind fun (id, f) =>
        if f.st ≠ .ok then some (some cues, f)
        else if id = idLtxt then
          (readRecOf chunk 4 2 (readLtxt fuelR) f).bind fun (x, f) =>
            let x := x.getD ⟨0, 0, 0, 0, 0, 0, 0, []⟩
            textLoop chunk fuelR bs fin fuel f (update bs cues x.id (·.setLtxt x))
        else if id = idLabl then
          (readRecOf chunk 4 2 (readLabel fuelR) f).bind fun (x, f) =>
            let x := x.getD ⟨0, []⟩
            textLoop chunk fuelR bs fin fuel f (update bs cues x.id fun c => { c with title := x.text })
        else if id = idNote then
          (readRecOf chunk 4 2 (readLabel fuelR) f).bind fun (x, f) =>
            let x := x.getD ⟨0, []⟩
            textLoop chunk fuelR bs fin fuel f (update bs cues x.id fun c => { c with note := x.text })
        else
          (ignore chunk 4 2 f).bind fun (ok, f) => if ok then textLoop chunk fuelR bs fin fuel f cues else some (none, f)
    else some (some cues, f)

/-- The loop 543-590. -/
def listsLoop (chunk fuelR : Nat) (bs : List CueEx → Nat → Option Nat) (e : Nat) : Nat → File → List CueEx → Option (Option (List CueEx) × File)
  | 0, _, _ => none
  | fuel + 1, f, cues =>
    if f.pos < e then
      (findFirst chunk idLIST adtl e (f.bytes.length + 1) f).bind fun (r, f) =>
        match r with
        | none => listsLoop chunk fuelR bs e fuel f cues
        | some fin =>
          (textLoop chunk fuelR bs fin (f.bytes.length + 1) f cues).bind fun (r, f) =>
            match r with
            | none => some (none, f)
            | some cues => listsLoop chunk fuelR bs e fuel f cues
    else some (some cues, f)

/-- `read_cues`, 509-594: (cues and true, or `none` for false; file). `sort` is `std::sort` by identifier, `bs` is `std::bsearch` (the
index of the element found). -/
def readCueEx (chunk fuelR fuel : Nat) (sort : List CueEx → List CueEx) (bs : List CueEx → Nat → Option Nat) (e : Nat) (f : File) (cues : List CueEx) : Option (Option (List CueEx) × File) :=
  (cuesLoop chunk sort e fuel f cues).bind fun (r, g) =>
    match r with
    | none => some (none, g)
    | some cues =>
      (seekbeg g f.pos).bind fun g =>
        (listsLoop chunk fuelR bs e fuel g cues).bind fun (r, g) =>
          match r with
          | none => some (none, g)
          | some cues => (seekbeg g f.pos).map fun g => (some cues, g)

/-! ### Specification -/

/-- The chunks with the texts of a cue. -/
def CueEx.texts (c : CueEx) : List (Nat × List Byte) :=
  (idLtxt, ltxtBytes c.ltxt) :: ((if c.title = [] then [] else [(idLabl, labelBytes ⟨c.cue.id, c.title⟩)]) ++ if c.note = [] then [] else [(idNote, labelBytes ⟨c.cue.id, c.note⟩)])

/-- The chunks that hold cues: the cue points, and the list of their texts. -/
def cueChunks (xs : List CueEx) : List (Nat × List Byte) :=
  [(idCue, cuesBytes (xs.map CueEx.cue)), (idLIST, leEnc 4 adtl ++ records 4 4 2 (xs.flatMap CueEx.texts))]

/-- The values fit their types, the texts have no zeros. -/
def CueEx.Fits (c : CueEx) : Prop := c.cue.Fits ∧ c.ltxt.Fits ∧ (0 : Byte) ∉ c.title ∧ (0 : Byte) ∉ c.note

/-- `std::sort` by identifier. -/
def Sorts (sort : List CueEx → List CueEx) : Prop := ∀ l, (sort l).Perm l ∧ (sort l).Pairwise fun a b => a.cue.id ≤ b.cue.id

/-- `std::bsearch` by identifier, in an array that is in order. -/
def Searches (bs : List CueEx → Nat → Option Nat) : Prop := ∀ l i, (l.Pairwise fun a b => a.cue.id ≤ b.cue.id) →
  (∀ k, bs l i = some k → ∃ c, l[k]? = some c ∧ c.cue.id = i) ∧ (bs l i = none → ∀ c ∈ l, c.cue.id ≠ i)

/-- A chunk that is neither a list of cue points nor a list of texts. -/
def Foreign (r : Nat × List Byte) : Prop := Record.Fits 4 4 2 r.1 r.2 ∧ r.1 ≠ idCue ∧ (r.1 = idLIST → 4 ≤ r.2.length ∧ leDec (r.2.take 4) ≠ adtl)

end Verif.Record.Wav
