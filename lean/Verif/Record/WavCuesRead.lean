import Verif.Record.WavCuesProof
/-
Reading cue points of WAV files with their texts: proofs.
-/
namespace Verif.Record.Wav
open Verif.Stream Verif.Stream.MemoryFile Verif.Record
variable {σ τ α : Type}

/-! ### The window -/

/-- A window inside an unchanged, working file. -/
def InWin (b : List Byte) (fin : Nat) (w : FW File) : Prop :=
  w.src.bytes = b ∧ w.src.pos = w.off ∧ w.src.st = .ok ∧ w.start ≤ w.off ∧ w.off ≤ w.fin ∧ w.fin = fin ∧ fin ≤ b.length

theorem fwRead_in {chunk : Nat} (hc : 0 < chunk) {b : List Byte} {fin : Nat} {w : FW File} (h : InWin b fin w) (n : Nat) :
    let d := (b.drop w.off).take (min (min n (fin - w.off)) chunk)
    (fwRead (fileI chunk) w n).1 = d ∧ InWin b fin (fwRead (fileI chunk) w n).2 ∧ (fwRead (fileI chunk) w n).2.off = w.off + d.length ∧
      (fwRead (fileI chunk) w n).2.st = if n ≠ 0 ∧ w.off = fin then .eof else .ok := by
  obtain ⟨h1, h2, h3, h4, h5, h6, h7⟩ := h
  intro d
  unfold fwRead FW.inside
  by_cases hi : w.off < w.fin
  · rw [if_pos (by simp [h4, hi])]
    have hd : d.length = min (min n (fin - w.off)) chunk := by
      show ((b.drop w.off).take _).length = _
      rw [List.length_take, List.length_drop]; omega
    have hrd : (fileI chunk).read w.src (min n (w.fin - w.off)) = (d, ⟨b, w.off + d.length, .ok⟩) := by
      show fread chunk w.src (min n (w.fin - w.off)) = _
      unfold fread
      rw [h1, h2, h6]
      simp only [Prod.mk.injEq, File.mk.injEq]
      refine ⟨rfl, trivial, rfl, if_neg ?_⟩
      intro c
      have := congrArg List.length c.2
      rw [show (List.take (min (min n (fin - w.off)) chunk) (List.drop w.off b)).length = d.length from rfl, hd] at this
      simp only [List.length_nil] at this
      omega
    simp only [hrd]
    refine ⟨trivial, ⟨rfl, rfl, rfl, ?_, ?_, h6, h7⟩, trivial, ?_⟩
    · show w.start ≤ w.off + d.length; omega
    · show w.off + d.length ≤ w.fin; omega
    · show St.ok = _
      rw [if_neg (by omega)]
  · rw [if_neg (by simp [hi])]
    have hd : d = [] := by
      show (b.drop w.off).take _ = []
      rw [show min (min n (fin - w.off)) chunk = 0 by omega, List.take_zero]
    rw [hd]
    refine ⟨rfl, ⟨h1, h2, h3, h4, h5, h6, h7⟩, rfl, ?_⟩
    show (if n ≠ 0 then St.eof else St.ok) = _
    by_cases hn : n = 0
    · rw [if_neg (by simp [hn]), if_neg (by simp [hn])]
    · rw [if_pos hn, if_pos ⟨hn, by omega⟩]

/-- The window on such states. -/
def winSub (chunk : Nat) (hc : 0 < chunk) (b : List Byte) (fin : Nat) : Strm Byte { w : FW File // InWin b fin w } where
  read w n := ((fwRead (fileI chunk) w.1 n).1, ⟨(fwRead (fileI chunk) w.1 n).2, (fwRead_in hc w.2 n).2.1⟩)
  write w _ := (0, w)
  close w := w
  flush w := w
  state w := w.1.st

theorem winSub_hom (chunk : Nat) (hc : 0 < chunk) (b : List Byte) (fin : Nat) : Hom (winSub chunk hc b fin) (window chunk) Subtype.val := ⟨fun _ _ => rfl, fun _ => rfl⟩

/-- What is left of the window. -/
def winRem (b : List Byte) (fin : Nat) (w : { w : FW File // InWin b fin w }) : List Byte := (b.drop w.1.off).take (fin - w.1.off)

theorem winRem_length (b : List Byte) (fin : Nat) (w : { w : FW File // InWin b fin w }) : (winRem b fin w).length = fin - w.1.off := by
  obtain ⟨w, h1, h2, h3, h4, h5, h6, h7⟩ := w
  unfold winRem
  rw [List.length_take, List.length_drop]; simp only; omega

theorem winSub_source {chunk : Nat} (hc : 0 < chunk) (b : List Byte) (fin : Nat) : IsSource (winSub chunk hc b fin) (winRem b fin) := by
  have hr : ∀ w n, ((winSub chunk hc b fin).read w n).1 = (winRem b fin w).take (min n chunk) := by
    intro w n
    show (fwRead (fileI chunk) w.1 n).1 = _
    rw [(fwRead_in hc w.2 n).1]
    unfold winRem
    rw [List.take_take]
    congr 1
    omega
  have hst : ∀ w n, (winSub chunk hc b fin).state ((winSub chunk hc b fin).read w n).2 = if n ≠ 0 ∧ w.1.off = fin then .eof else .ok := fun w n => (fwRead_in hc w.2 n).2.2.2
  have hoff : ∀ w n, ((winSub chunk hc b fin).read w n).2.1.off = w.1.off + ((winRem b fin w).take (min n chunk)).length := by
    intro w n
    rw [← hr]
    have := fwRead_in hc w.2 n
    show (fwRead (fileI chunk) w.1 n).2.off = w.1.off + (fwRead (fileI chunk) w.1 n).1.length
    rw [this.2.2.1, this.1]
  have hlen := winRem_length b fin
  refine ⟨?_, ?_, ?_, ?_, ?_⟩
  · intro w n
    rw [hr]
    have hl := hlen w
    have hw : winRem b fin ((winSub chunk hc b fin).read w n).2 = (winRem b fin w).drop (min n chunk) := by
      unfold winRem at hl ⊢
      rw [hoff]
      unfold winRem
      rw [List.drop_take, List.drop_drop, List.length_take, hl]
      rcases Nat.le_total (min n chunk) (fin - w.1.off) with h | h
      · rw [Nat.min_eq_left h, Nat.sub_add_eq]
      · rw [Nat.min_eq_right h, show fin - (w.1.off + (fin - w.1.off)) = 0 by omega, show fin - w.1.off - min n chunk = 0 by omega]
        simp
    rw [hw, List.take_append_drop]
  · intro w n
    rw [hr, List.length_take]; omega
  · intro w n hn hne
    have h0 : (winRem b fin w).length ≠ 0 := fun c => hne (List.eq_nil_of_length_eq_zero c)
    rw [hlen] at h0
    constructor
    · rw [hr]
      intro c
      rcases List.take_eq_nil_iff.1 c with c | c
      · omega
      · exact hne c
    · rw [hst, if_neg (by omega)]
  · intro w n hn he
    have h0 : (winRem b fin w).length = 0 := by rw [he]; rfl
    rw [hlen] at h0
    have := w.2.2.2.2.2.1
    have := w.2.2.2.2.2.2.1
    rw [hst, if_pos ⟨hn, by omega⟩]
  · intro w
    left
    rw [hst, if_neg (by simp)]

/-! ### The cue points -/

theorem cueLoop_hom {S : Strm Byte σ} {T : Strm Byte τ} {φ : σ → τ} (h : Hom S T φ) : ∀ (cs : List CueEx) (prev : Option Cue) (s : σ),
    cueLoop T cs prev (φ s) = (cueLoop S cs prev s).map fun r => (r.1, r.2.1, φ r.2.2) := by
  intro cs
  induction cs with
  | nil => intro prev s; rfl
  | cons c cs ih =>
    intro prev s
    unfold cueLoop
    rw [readArray_hom h]
    cases readArray S 25 s 24 1 with
    | none => rfl
    | some r =>
      obtain ⟨d, q, s'⟩ := r
      simp only [Option.map_some, Option.bind_some]
      rw [h.state]
      split
      · rfl
      · rw [ih, Option.map_map, Option.map_map]; rfl

/-- In order, with the identifier of the previous one. -/
def inOrder : Option Cue → List Cue → Bool
  | _, [] => true
  | prev, c :: cs => (match prev with
      | none => true
      | some p => decide (¬ c.id < p.id)) && inOrder (some c) cs

/-- Cues whose points are replaced. -/
def withCues : List CueEx → List Cue → List CueEx
  | c :: cs, q :: qs => { c with cue := q } :: withCues cs qs
  | _, _ => []

theorem cueLoop_source {S : Strm Byte σ} {rem : σ → List Byte} (h : IsSource S rem) : ∀ (qs : List Cue) (cs : List CueEx) (prev : Option Cue) (s : σ) (rest : List Byte), cs.length = qs.length → (∀ q ∈ qs, q.Fits) →
    S.state s = .ok → rem s = qs.flatMap cueMem ++ rest → ∃ s', cueLoop S cs prev s = some (withCues cs qs, inOrder prev qs, s') ∧ rem s' = rest ∧ S.state s' = .ok := by
  intro qs
  induction qs with
  | nil =>
    intro cs prev s rest hl _ hs hr
    rw [List.eq_nil_of_length_eq_zero hl]
    exact ⟨s, rfl, by simpa using hr, hs⟩
  | cons q qs ih =>
    intro cs prev s rest hl hq hs hr
    cases cs with
    | nil => cases hl
    | cons c cs =>
      rw [List.flatMap_cons, List.append_assoc] at hr
      obtain ⟨s1, e1, e2, e3⟩ := read_array_full h s 24 1 25 (by omega) (by omega) (by rw [hr, List.length_append, cueMem_length]; omega)
      rw [hr, show 24 * 1 = (cueMem q).length from (cueMem_length q).symm, List.take_left] at e1
      rw [hr, show 24 * 1 = (cueMem q).length from (cueMem_length q).symm, List.drop_left] at e2
      obtain ⟨s2, i1, i2, i3⟩ := ih cs (some q) s1 rest (by simpa using hl) (fun x hx => hq x (List.mem_cons_of_mem _ hx)) e3 e2
      refine ⟨s2, ?_, i2, i3⟩
      unfold cueLoop
      rw [e1]
      simp only [Option.bind_some]
      rw [if_neg (by simp [e3]), cueMem_length, List.drop_of_length_le (by rw [cueMem_length]; omega), List.append_nil, cueOf_mem (hq q List.mem_cons_self), i1]
      rfl

theorem inOrder_pairwise : ∀ (qs : List Cue) (prev : Option Cue), inOrder prev qs = true → qs.Pairwise (fun a b => a.id ≤ b.id) ∧ ∀ p, prev = some p → ∀ q ∈ qs, p.id ≤ q.id := by
  intro qs
  induction qs with
  | nil => intro prev _; exact ⟨List.Pairwise.nil, fun p _ q hq => nomatch hq⟩
  | cons c qs ih =>
    intro prev h
    unfold inOrder at h
    rw [Bool.and_eq_true] at h
    obtain ⟨i1, i2⟩ := ih (some c) h.2
    refine ⟨List.Pairwise.cons (fun q hq => i2 c rfl q hq) i1, ?_⟩
    intro p hp q hq
    subst hp
    have h1 : p.id ≤ c.id := by
      have := h.1
      simp only [decide_eq_true_eq] at this
      omega
    rcases List.mem_cons.1 hq with rfl | hq
    · exact h1
    · exact Nat.le_trans h1 (i2 c rfl q hq)

/-- A cue point without texts. -/
def CueEx.base (q : Cue) : CueEx := { CueEx.zero with cue := q }

theorem withCues_zero (qs : List Cue) : withCues (List.replicate qs.length CueEx.zero) qs = qs.map CueEx.base := by
  induction qs with
  | nil => rfl
  | cons q qs ih => rw [List.length_cons, List.replicate_succ, withCues, ih, List.map_cons]; rfl

/-- Loading the cue points of a chunk into an empty vector: they come in the order of their identifiers. -/
theorem loadCues_spec {chunk : Nat} (hc : 0 < chunk) {sort : List CueEx → List CueEx} (hsort : Sorts sort) {b : List Byte} {p : Nat} {qs : List Cue} {rest : List Byte} (hb : b.drop p = cuesBytes qs ++ rest) (hq : ∀ q ∈ qs, q.Fits)
    (hn : qs.length ≤ 4294967295) :
    ∃ l, loadCues chunk sort (cuesBytes qs).length ⟨b, p, .ok⟩ [] = some (some l, ⟨b, p + (cuesBytes qs).length, .ok⟩) ∧ l.Perm (qs.map CueEx.base) ∧ l.Pairwise fun a b => a.cue.id ≤ b.cue.id := by
  have hlen : p + (cuesBytes qs).length ≤ b.length := by
    have := congrArg List.length hb
    rw [List.length_drop, List.length_append] at this
    have h2 : 0 < (cuesBytes qs).length := by unfold cuesBytes; rw [List.length_append, leEnc_length]; omega
    omega
  let w0 : { w : FW File // InWin b (p + (cuesBytes qs).length) w } := ⟨FW.new (fileI chunk) ⟨b, p, .ok⟩ p (cuesBytes qs).length, rfl, rfl, rfl, Nat.le_refl _, Nat.le_add_right _ _, rfl, hlen⟩
  have hrem : winRem b (p + (cuesBytes qs).length) w0 = cuesBytes qs := by
    unfold winRem
    show (b.drop p).take (p + (cuesBytes qs).length - p) = _
    rw [hb, Nat.add_sub_cancel_left, List.take_left]
  have hsrc := winSub_source hc b (p + (cuesBytes qs).length)
  obtain ⟨w1, a1, b1, c1⟩ := num4 hsrc (s := w0) rfl (v := qs.length) (by omega) (rest := qs.flatMap cueMem) (by rw [hrem]; rfl)
  have hh := num_hom (winSub_hom chunk hc b (p + (cuesBytes qs).length)) w0 4
  rw [a1, Option.map_some] at hh
  obtain ⟨w2, a2, b2, c2⟩ := cueLoop_source hsrc qs (List.replicate qs.length CueEx.zero) none w1 [] (by rw [List.length_replicate]) hq c1 (by rw [b1, List.append_nil])
  have hh2 := cueLoop_hom (winSub_hom chunk hc b (p + (cuesBytes qs).length)) (List.replicate qs.length CueEx.zero) none w1
  rw [a2, Option.map_some] at hh2
  have hsrc2 : w2.1.src = ⟨b, p + (cuesBytes qs).length, .ok⟩ := by
    have hl := winRem_length b (p + (cuesBytes qs).length) w2
    rw [b2] at hl
    obtain ⟨k1, k2, k3, k4, k5, k6, k7⟩ := w2.2
    cases hw : w2.1.src with
    | mk bb pp ss =>
      rw [hw] at k1 k2 k3
      simp only at k1 k2 k3
      rw [List.length_nil] at hl
      rw [k1, k3, File.mk.injEq]
      exact ⟨rfl, by omega, rfl⟩
  unfold loadCues
  have hst1 : w1.1.st = .ok := c1
  have hnum : num (window chunk) (FW.new (fileI chunk) ⟨b, p, .ok⟩ p (cuesBytes qs).length) 4 = some (qs.length, w1.1) := hh
  simp only [hnum, Option.bind_some]
  rw [if_neg (by simp [hst1])]
  have hrs : resize CueEx.zero qs.length [] = List.replicate qs.length CueEx.zero := by unfold resize; simp
  rw [hrs, hh2, withCues_zero, Option.map_some]
  simp only [hsrc2]
  by_cases ho : inOrder none qs = true
  · rw [if_pos ho]
    refine ⟨_, rfl, List.Perm.refl _, ?_⟩
    rw [List.pairwise_map]
    exact (inOrder_pairwise qs none ho).1
  · rw [if_neg ho]
    exact ⟨_, rfl, (hsort _).1, (hsort _).2⟩

end Verif.Record.Wav
