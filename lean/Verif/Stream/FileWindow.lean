import Verif.Stream.Basic
/-
Model of `stdex::stream::file_window` (include/stdex/stream.hpp 1691-1794) over an arbitrary file.

The region does not wrap around 2^64.  `lock`/`unlock` and the file times are not modelled.
-/
namespace Verif.Stream
variable {β σ : Type}

/-- `seek_t`, stream.hpp 806-811. -/
inductive How where
  | beg | cur | fin
deriving DecidableEq

/-- The virtual interface of `basic_file` (stream.hpp 796-905) that matters here. -/
structure FileI (β σ : Type) extends Strm β σ where
  seek : σ → Int → How → Nat × σ
  skip : σ → Nat → σ
  tell : σ → Nat

/-- `fpos_max`, 779. -/
def fposMax : Nat := 2 ^ 64 - 1

/-- Contract of a file as to its position: transfers start at `tell` and advance it by what was transferred;
`seek` returns the new position, or `fpos_max` and a state other than ok. -/
structure Positioned (F : FileI β σ) : Prop extends Lawful F.toStrm where
  read : ∀ s n, F.tell (F.read s n).2 = F.tell s + (F.read s n).1.length
  write : ∀ s d, F.tell (F.write s d).2 = F.tell s + (F.write s d).1
  close : ∀ s, F.tell (F.close s) = F.tell s
  flush : ∀ s, F.tell (F.flush s) = F.tell s
  seek : ∀ s o h, (F.state (F.seek s o h).2 = .ok ∧ (F.seek s o h).1 = F.tell (F.seek s o h).2) ∨
    (F.state (F.seek s o h).2 ≠ .ok ∧ (F.seek s o h).1 = fposMax)

/-- `file_window`: source, `m_offset`, `m_region`, `m_state`. -/
structure FW (σ : Type) where
  src : σ
  off : Nat
  start : Nat
  fin : Nat
  st : St

/-- `m_region.contains(m_offset)`, interval.hpp 79. -/
def FW.inside (w : FW σ) (x : Nat) : Bool := decide (w.start ≤ x) && decide (x < w.fin)

/-- Constructor, 1694-1699. -/
def FW.new (F : FileI β σ) (s : σ) (offset length : Nat) : FW σ := ⟨s, F.tell s, offset, offset + length, F.state s⟩

/-- `read`, 1701-1713. -/
def fwRead (F : FileI β σ) (w : FW σ) (length : Nat) : List β × FW σ :=
  if w.inside w.off then
    let r := F.read w.src (min length (w.fin - w.off))
    (r.1, { w with src := r.2, st := F.state r.2, off := w.off + r.1.length })
  else ([], { w with st := if length ≠ 0 then .eof else .ok })

/-- `write`, 1715-1727. -/
def fwWrite (F : FileI β σ) (w : FW σ) (d : List β) : Nat × FW σ :=
  if w.inside w.off then
    let r := F.write w.src (d.take (min d.length (w.fin - w.off)))
    (r.1, { w with src := r.2, st := F.state r.2, off := w.off + r.1 })
  else (0, { w with st := .fail })

/-- `seek`, 1741-1746 (`fpos_t` arithmetic modulo 2^64). -/
def fwSeek (F : FileI β σ) (w : FW σ) (offset : Int) (how : How) : Nat × FW σ :=
  let r := F.seek w.src offset how
  let w := { w with src := r.2, off := r.1, st := F.state r.2 }
  (if w.st = .ok then (w.off + 2 ^ 64 - w.start) % 2 ^ 64 else fposMax, w)

/-- `skip`, 1748-1752: `m_offset` stays. -/
def fwSkip (F : FileI β σ) (w : FW σ) (amount : Nat) : FW σ :=
  let s := F.skip w.src amount
  { w with src := s, st := F.state s }

/-- `tell`, 1754-1758. -/
def fwTell (F : FileI β σ) (w : FW σ) : Nat :=
  let offset := F.tell w.src
  if w.inside offset then offset - w.start else fposMax

/-- `size`, 1780-1783. -/
def fwSize (w : FW σ) : Nat := if w.start ≤ w.fin then w.fin - w.start else 0

/-- A call on the window. -/
inductive FwOp (β : Type) where
  | read (n : Nat) | write (d : List β) | seek (o : Int) (h : How) | skip (n : Nat) | close | flush | truncate

/-- Perform a call (the results play no role here). -/
def fwStep (F : FileI β σ) (w : FW σ) : FwOp β → FW σ
  | .read n => (fwRead F w n).2
  | .write d => (fwWrite F w d).2
  | .seek o h => (fwSeek F w o h).2
  | .skip n => fwSkip F w n
  | .close => { w with src := F.close w.src, st := F.state (F.close w.src) }       -- 1729-1733
  | .flush => { w with src := F.flush w.src, st := F.state (F.flush w.src) }       -- 1735-1739
  | .truncate => { w with st := .fail }                                            -- 1785-1788

def fwRun (F : FileI β σ) (w : FW σ) (ops : List (FwOp β)) : FW σ := ops.foldl (fwStep F) w

/-- The file `F` with a log of the byte ranges read and written: (position, number of bytes). -/
def tracked (F : FileI β σ) : FileI β (σ × List (Nat × Nat)) where
  read s n := let r := F.read s.1 n; (r.1, (r.2, s.2 ++ [(F.tell s.1, r.1.length)]))
  write s d := let r := F.write s.1 d; (r.1, (r.2, s.2 ++ [(F.tell s.1, r.1)]))
  close s := (F.close s.1, s.2)
  flush s := (F.flush s.1, s.2)
  state s := F.state s.1
  seek s o h := let r := F.seek s.1 o h; (r.1, (r.2, s.2))
  skip s n := (F.skip s.1 n, s.2)
  tell s := F.tell s.1

/-- Is it a `skip`? -/
def FwOp.isSkip : FwOp β → Bool
  | .skip _ => true
  | _ => false

/-- C38 (for histories without `skip`): wherever the file was positioned when the window was created, and
whatever is read, written and sought: every byte range read or written lies within the region. -/
theorem file_window_confined_partial (F : FileI β σ) (hF : Positioned F) (s : σ) (offset length : Nat)
    (hw : offset + length ≤ fposMax) (ops : List (FwOp β)) (hs : ∀ op ∈ ops, op.isSkip = false) :
    ∀ a ∈ (fwRun (tracked F) (FW.new (tracked F) (s, []) offset length) ops).src.2,
      a.2 ≠ 0 → offset ≤ a.1 ∧ a.1 + a.2 ≤ offset + length := by
  have key : ∀ (ops : List (FwOp β)) (w : FW (σ × List (Nat × Nat))), (∀ op ∈ ops, op.isSkip = false) →
      w.start = offset → w.fin = offset + length → (w.off = F.tell w.src.1 ∨ w.inside w.off = false) →
      (∀ a ∈ w.src.2, a.2 ≠ 0 → offset ≤ a.1 ∧ a.1 + a.2 ≤ offset + length) →
      ∀ a ∈ (fwRun (tracked F) w ops).src.2, a.2 ≠ 0 → offset ≤ a.1 ∧ a.1 + a.2 ≤ offset + length := by
    intro ops
    induction ops with
    | nil => intro w _ _ _ _ h; exact h
    | cons op ops ih =>
      intro w hs h1 h2 h3 h4
      rw [fwRun, List.foldl_cons]
      refine ih (fwStep (tracked F) w op) (fun o ho => hs o (List.mem_cons_of_mem _ ho)) ?_ ?_ ?_ ?_
      · cases op <;> simp only [fwStep, fwRead, fwWrite, fwSeek, fwSkip] <;> (try split) <;> exact h1
      · cases op <;> simp only [fwStep, fwRead, fwWrite, fwSeek, fwSkip] <;> (try split) <;> exact h2
      · cases op with
        | read n =>
          simp only [fwStep, fwRead]
          split
          · rename_i hin
            left
            have h3 := h3.resolve_right (by rw [hin]; simp)
            show w.off + _ = F.tell (F.read w.src.1 _).2
            rw [hF.read, h3]; rfl
          · exact h3
        | write d =>
          simp only [fwStep, fwWrite]
          split
          · rename_i hin
            left
            have h3 := h3.resolve_right (by rw [hin]; simp)
            show w.off + _ = F.tell (F.write w.src.1 _).2
            rw [hF.write, h3]; rfl
          · exact h3
        | seek o hw' =>
          simp only [fwStep, fwSeek]
          rcases hF.seek w.src.1 o hw' with ⟨_, q⟩ | ⟨_, q⟩
          · left; exact q
          · right
            show (decide (w.start ≤ (F.seek w.src.1 o hw').1) && decide ((F.seek w.src.1 o hw').1 < w.fin)) = false
            rw [q, h2, decide_eq_false (show ¬ fposMax < offset + length by omega), Bool.and_false]
        | skip n => exact absurd (hs (.skip n) (by simp)) (by simp [FwOp.isSkip])
        | close => rcases h3 with q | q
                   · left; show w.off = F.tell (F.close w.src.1); rw [hF.close]; exact q
                   · right; exact q
        | flush => rcases h3 with q | q
                   · left; show w.off = F.tell (F.flush w.src.1); rw [hF.flush]; exact q
                   · right; exact q
        | truncate => exact h3
      · have inn : w.inside w.off = true → offset ≤ w.off ∧ w.off < offset + length := by
          intro hin
          simp only [FW.inside, Bool.and_eq_true, decide_eq_true_eq, h1, h2] at hin
          exact hin
        cases op with
        | read n =>
          simp only [fwStep, fwRead]
          split
          · rename_i hin
            have h3 := h3.resolve_right (by rw [hin]; simp)
            have hi := inn hin
            intro a ha h0
            have ha : a ∈ w.src.2 ++ [(F.tell w.src.1, (F.read w.src.1 (min n (w.fin - w.off))).1.length)] := ha
            rcases List.mem_append.1 ha with ha | ha
            · exact h4 a ha h0
            · have := List.mem_singleton.1 ha
              subst this
              have hl := hF.read_le w.src.1 (min n (w.fin - w.off))
              simp only []
              omega
          · exact h4
        | write d =>
          simp only [fwStep, fwWrite]
          split
          · rename_i hin
            have h3 := h3.resolve_right (by rw [hin]; simp)
            have hi := inn hin
            intro a ha h0
            have ha : a ∈ w.src.2 ++ [(F.tell w.src.1, (F.write w.src.1 (d.take (min d.length (w.fin - w.off)))).1)] := ha
            rcases List.mem_append.1 ha with ha | ha
            · exact h4 a ha h0
            · have := List.mem_singleton.1 ha
              subst this
              have hl := hF.write_le w.src.1 (d.take (min d.length (w.fin - w.off)))
              rw [List.length_take] at hl
              simp only []
              omega
          · exact h4
        | seek o hw' => exact h4
        | skip n => exact h4
        | close => exact h4
        | flush => exact h4
        | truncate => exact h4
  exact key ops _ hs rfl rfl (Or.inl rfl) (by intro a ha; cases ha)

/-- C38 (relative to the position in the underlying file): after a successful seek into the region, `tell` agrees with what
`seek` returned: the distance from the start of the region. -/
theorem file_window_tell_after_seek_partial (F : FileI β σ) (hF : Positioned F) (w : FW σ) (o : Int) (h : How)
    (hmax : w.fin ≤ fposMax) (hok : (fwSeek F w o h).2.st = .ok) (hin : w.inside (F.tell (fwSeek F w o h).2.src) = true) :
    fwTell F (fwSeek F w o h).2 = (fwSeek F w o h).1 ∧
    (fwSeek F w o h).1 = F.tell (F.seek w.src o h).2 - w.start := by
  have hq : (F.seek w.src o h).1 = F.tell (F.seek w.src o h).2 := by
    rcases hF.seek w.src o h with ⟨_, q⟩ | ⟨q, _⟩
    · exact q
    · exact absurd hok q
  have hin : w.inside (F.tell (F.seek w.src o h).2) = true := hin
  have hin2 := hin
  simp only [FW.inside, Bool.and_eq_true, decide_eq_true_eq] at hin2
  have hr : (fwSeek F w o h).1 = F.tell (F.seek w.src o h).2 - w.start := by
    have hok : F.state (F.seek w.src o h).2 = .ok := hok
    unfold fwSeek
    simp only []
    rw [if_pos hok, hq]
    unfold fposMax at hmax
    omega
  refine ⟨?_, hr⟩
  rw [hr]
  show (if w.inside (F.tell (F.seek w.src o h).2) = true then _ else _) = _
  rw [if_pos hin]; rfl

/-! ### A concrete file, and the two ways in which C38 fails -/

/-- A file of fixed contents with a position. -/
def fixedFile (c : List Nat) : FileI Nat (Nat × St) where
  read s n := let d := (c.drop s.1).take n; (d, (s.1 + d.length, if n ≠ 0 ∧ d = [] then .eof else .ok))
  write s _ := (0, (s.1, .fail))
  close s := s
  flush s := s
  state s := s.2
  seek s o h :=
    let p : Int := match h with | .beg => o | .cur => s.1 + o | .fin => c.length + o
    if p < 0 then (fposMax, (s.1, .fail)) else (p.toNat, (p.toNat, .ok))
  skip s n := (s.1 + n, .ok)
  tell s := s.1

theorem fixedFile_positioned (c : List Nat) : Positioned (fixedFile c) where
  read_le s n := by show ((c.drop s.1).take n).length ≤ n; rw [List.length_take]; omega
  write_le s d := Nat.zero_le _
  read s n := rfl
  write s d := rfl
  close s := rfl
  flush s := rfl
  seek s o h := by
    have e : ∀ p : Int, (fun r : Nat × (Nat × St) => ((fixedFile c).state r.2 = .ok ∧ r.1 = (fixedFile c).tell r.2) ∨
        ((fixedFile c).state r.2 ≠ .ok ∧ r.1 = fposMax))
        (if p < 0 then (fposMax, (s.1, .fail)) else (p.toNat, (p.toNat, .ok))) := by
      intro p
      split
      · right; exact ⟨(fun q => nomatch q), rfl⟩
      · left; exact ⟨rfl, rfl⟩
    exact e _

/-- C38 fails after `skip`: the window over the first four bytes of a file then delivers bytes behind its
region. -/
theorem file_window_skip_leaves_region :
    (fwRun (tracked (fixedFile [0, 1, 2, 3, 4, 5, 6, 7, 8, 9])) (FW.new (tracked (fixedFile [0, 1, 2, 3, 4, 5, 6, 7, 8, 9])) ((0, .ok), []) 0 4)
      [.skip 6, .read 2]).src.2 = [(6, 2)] := by decide +kernel

/-- C38 fails for `seek`: positions given are those of the underlying file, positions returned (and those of `tell`) are
those in the window. -/
theorem file_window_seek_not_relative :
    let F := fixedFile [0, 1, 2, 3, 4, 5, 6, 7, 8, 9]
    let w := (FW.new F (4, .ok) 4 4)
    (fwSeek F w 5 .beg).1 = 1 ∧ fwTell F (fwSeek F w 5 .beg).2 = 1 ∧
    fwTell F (fwSeek F w 1 .beg).2 = fposMax ∧ (fwRead F (fwSeek F w 1 .beg).2 1).1 = [] := by decide +kernel

example : (fwRun (tracked (fixedFile [0, 1, 2, 3, 4, 5, 6, 7, 8, 9])) (FW.new (tracked (fixedFile [0, 1, 2, 3, 4, 5, 6, 7, 8, 9])) ((4, .ok), []) 4 4)
      [.read 3, .read 3, .seek 5 .beg, .read 100]).src.2 = [(4, 3), (7, 1), (5, 3)] := by decide +kernel

end Verif.Stream
