import Verif.Stream.Source
/-
Compressed streams, include/stdex/zlib.hpp. The library zlib is any pair of automata that keeps the contract of its manual (`DeflaterOk`,
`InflaterOk`).
-/
namespace Verif.Stream
variable {β σ τ δ ι : Type}

/-! ### Model -/

/-- `deflate`: for a state, `next_in`, whether `Z_FINISH` is asked for and `avail_out`: the number of bytes consumed, those written, and the state. `none`
is a negative result, at which `throw_on_zlib_error` 31-44 throws. -/
structure Deflater (β δ : Type) where
  initial : δ
  call : δ → List β → Bool → Nat → Option (Nat × List β × δ)

/-- `inflate`, as above. -/
structure Inflater (β ι : Type) where
  initial : ι
  call : ι → List β → Nat → Option (Nat × List β × ι)

/-- The inner loop of `zlib_writer::write`, 89-101 (`fin` is false), and the loop of its destructor, 66-73 (`fin`; there empty blocks are written too).
The outer `none`: does not end in so many rounds; the inner: throws; the flag: no write failed. -/
def zout (dz : Deflater β δ) (D : Strm β τ) (block : Nat) (fin : Bool) : Nat → δ → List β → τ → Option (Option (Bool × δ × τ))
  | 0, _, _, _ => none
  | fuel + 1, z, inp, t =>
    match dz.call z inp fin block with
    | none => some none
    | some (k, o, z) =>
      let t := if fin || decide (o.length ≠ 0) then (D.write t o).2 else t
      if (fin || decide (o.length ≠ 0)) ∧ D.state t ≠ .ok then some (some (false, z, t))
      else if block - o.length = 0 then zout dz D block fin fuel z (inp.drop k) t
      else some (some (true, z, t))

/-- `zlib_writer::write`, 80-108; `n` is `num_written`, `chunk` is `UINT_MAX`. What is returned, the state of the stream, of the library and of the sink. -/
def zwrite (dz : Deflater β δ) (D : Strm β τ) (block chunk : Nat) : Nat → Nat → δ → List β → τ → Option (Option (Nat × St × δ × τ))
  | 0, _, _, _, _ => none
  | fuel + 1, n, z, data, t =>
    if data.length = 0 then some (some (n, .ok, z, t))
    else
      let now := min data.length chunk
      match zout dz D block false fuel z (data.take now) t with
      | none => none
      | some none => some none
      | some (some (false, z, t)) => some (some (n, D.state t, z, t))
      | some (some (true, z, t)) => zwrite dz D block chunk fuel (n + now) z (data.drop now) t

/-- `~zlib_writer`, 62-78: throwing from a destructor ends the program (`some none`). -/
def zclose (dz : Deflater β δ) (D : Strm β τ) (block fuel : Nat) (z : δ) (t : τ) : Option (Option τ) :=
  match zout dz D block true fuel z [] t with
  | none => none
  | some none => some none
  | some (some (false, _, _)) => some none
  | some (some (true, _, t)) => some (some t)

/-- The inner loop of `zlib_reader::read`, 146-161: `buf` is what is left at `next_in`, `room` is `avail_out`, `acc` what was written since `next_out` was
set. The flag: the source has nothing more. -/
def zfill (iz : Inflater β ι) (S : Strm β σ) (block : Nat) : Nat → ι → List β → σ → Nat → List β → Option (Option (List β × Bool × ι × List β × σ))
  | 0, _, _, _, _, _ => none
  | fuel + 1, y, buf, s, room, acc =>
    let r := if buf.length = 0 then S.read s block else (buf, s)
    if r.1.length = 0 then some (some (acc, true, y, r.1, r.2))
    else
      match iz.call y r.1 room with
      | none => some none
      | some (k, o, y) =>
        if room - o.length = 0 then some (some (acc ++ o, false, y, r.1.drop k, r.2))
        else zfill iz S block fuel y (r.1.drop k) r.2 (room - o.length) (acc ++ o)

/-- `zlib_reader::read`, 137-168: `got` is what was read before, `n` is `length`. -/
def zread (iz : Inflater β ι) (S : Strm β σ) (block chunk : Nat) : Nat → List β → ι → List β → σ → Nat → Option (Option (List β × St × ι × List β × σ))
  | 0, _, _, _, _, _ => none
  | fuel + 1, got, y, buf, s, n =>
    if n = 0 then some (some (got, .ok, y, buf, s))
    else
      let now := min n chunk
      match zfill iz S block fuel y buf s now [] with
      | none => none
      | some none => some none
      | some (some (d, true, y, buf, s)) => some (some (got ++ d, if (got ++ d).length ≠ 0 then .ok else S.state s, y, buf, s))
      | some (some (d, false, y, buf, s)) => zread iz S block chunk fuel (got ++ d) y buf s (n - now)

/-- Writes, one after the other. -/
def zwrites (dz : Deflater β δ) (D : Strm β τ) (block chunk fuel : Nat) : List (List β) → δ → τ → Option (Option (List (Nat × St) × δ × τ))
  | [], z, t => some (some ([], z, t))
  | d :: ds, z, t =>
    match zwrite dz D block chunk fuel 0 z d t with
    | none => none
    | some none => some none
    | some (some (n, st, z, t)) =>
      match zwrites dz D block chunk fuel ds z t with
      | none => none
      | some none => some none
      | some (some (rs, z, t)) => some (some ((n, st) :: rs, z, t))

/-- Reads, one after the other. -/
def zreads (iz : Inflater β ι) (S : Strm β σ) (block chunk fuel : Nat) : List Nat → ι → List β → σ → Option (Option (List (List β × St)))
  | [], _, _, _ => some (some [])
  | n :: ns, y, buf, s =>
    match zread iz S block chunk fuel [] y buf s n with
    | none => none
    | some none => some none
    | some (some (d, st, y, buf, s)) =>
      match zreads iz S block chunk fuel ns y buf s with
      | none => none
      | some none => some none
      | some (some rs) => some (some ((d, st) :: rs))

/-! ### Specification -/

/-- The contract of `deflate`. `Comp c d`: the stream `c` is a compression of `d`. `run z d c`: to come to the state `z`, `d` was consumed and `c`
written; `fin` the same after `Z_FINISH`. A block that is not filled means that nothing is left to do; a call that cannot do anything (no input and the
block before was not filled) is an error. `work` goes down with every block filled. -/
structure DeflaterOk (dz : Deflater β δ) (Comp : List β → List β → Prop) (run fin : δ → List β → List β → Prop) (full : δ → Prop) (work : Bool → δ → List β → Nat) : Prop where
  initial : run dz.initial [] []
  can : ∀ z d c inp room, run z d c → room ≠ 0 → inp ≠ [] ∨ full z → ∃ r, dz.call z inp false room = some r
  step : ∀ z d c inp room k o z1, run z d c → room ≠ 0 → dz.call z inp false room = some (k, o, z1) →
    k ≤ inp.length ∧ o.length ≤ room ∧ run z1 (d ++ inp.take k) (c ++ o) ∧ (o.length < room → k = inp.length) ∧ (o.length = room → full z1 ∧ work false z1 (inp.drop k) < work false z inp)
  finish : ∀ z d c room, run z d c ∨ fin z d c → room ≠ 0 → ∃ o k z1, dz.call z [] true room = some (k, o, z1) ∧ o.length ≤ room ∧ fin z1 d (c ++ o) ∧
    (o.length < room → Comp (c ++ o) d) ∧ (o.length = room → work true z1 [] < work true z [])

/-- The contract of `inflate`. `at y c d`: to come to the state `y`, `c` was consumed and `d` written. It consumes all it is given or fills the room it
is given; the end of a compressed stream is not consumed before all is written. -/
structure InflaterOk (iz : Inflater β ι) (Comp : List β → List β → Prop) (reach : ι → List β → List β → Prop) : Prop where
  initial : reach iz.initial [] []
  step : ∀ y f g inp rest room d, Comp (f ++ inp ++ rest) d → reach y f g → inp ≠ [] → room ≠ 0 →
    ∃ k o y1, iz.call y inp room = some (k, o, y1) ∧ k ≤ inp.length ∧ o.length ≤ room ∧ reach y1 (f ++ inp.take k) (g ++ o) ∧ (o.length = room ∨ k = inp.length)
  sound : ∀ y f g rest d, Comp (f ++ rest) d → reach y f g → ∃ r, d = g ++ r
  whole : ∀ y c d g, Comp c d → reach y c g → g = d

/-- Consecutive parts of given lengths, as they are there; nothing and the end once there is nothing left. -/
def slices : List β → List Nat → List (List β × St)
  | _, [] => []
  | d, n :: ns => (d.take n, if n ≠ 0 ∧ d.length = 0 then .eof else .ok) :: slices (d.drop n) ns

/-! ### Proofs -/

section Write
variable {dz : Deflater β δ} {Comp : List β → List β → Prop} {run fin : δ → List β → List β → Prop} {full : δ → Prop} {work : Bool → δ → List β → Nat} {D : Strm β τ} {got : τ → List β} {block : Nat}

theorem zout_run (hz : DeflaterOk dz Comp run fin full work) (hD : Reliable D got) (hb : block ≠ 0) : ∀ (fuel : Nat) (z : δ) (inp : List β) (t : τ) (d c : List β), run z d c → inp ≠ [] ∨ full z → work false z inp < fuel →
    ∃ z1 t1 o, zout dz D block false fuel z inp t = some (some (true, z1, t1)) ∧ run z1 (d ++ inp) (c ++ o) ∧ got t1 = got t ++ o := by
  intro fuel
  induction fuel with
  | zero => intro z inp t d c hr hc h; omega
  | succ fuel ih =>
    intro z inp t d c hr hc h
    obtain ⟨⟨k, o, z1⟩, hcall⟩ := hz.can z d c inp block hr hb hc
    obtain ⟨h1, h2, h3, h4, h5⟩ := hz.step z d c inp block k o z1 hr hb hcall
    unfold zout
    rw [hcall]
    simp only [Bool.false_or, decide_eq_true_eq]
    have ht : ∃ t1, (if o.length ≠ 0 then (D.write t o).2 else t) = t1 ∧ got t1 = got t ++ o ∧ ¬ (o.length ≠ 0 ∧ D.state t1 ≠ .ok) := by
      by_cases ho : o.length ≠ 0
      · rw [if_pos ho]
        exact ⟨_, rfl, hD.got t o, fun q => q.2 (hD.ok t o)⟩
      · rw [if_neg ho]
        have : o = [] := List.length_eq_zero_iff.1 (Decidable.not_not.1 ho)
        exact ⟨_, rfl, by rw [this, List.append_nil], fun q => ho q.1⟩
    obtain ⟨t1, e1, e2, e3⟩ := ht
    rw [e1, if_neg e3]
    by_cases hfull : block - o.length = 0
    · rw [if_pos hfull]
      have hl : o.length = block := by omega
      obtain ⟨f1, f2⟩ := h5 hl
      obtain ⟨z2, t2, o2, r1, r2, r3⟩ := ih z1 (inp.drop k) t1 _ _ h3 (Or.inr f1) (by omega)
      refine ⟨z2, t2, o ++ o2, r1, ?_, ?_⟩
      · rw [List.append_assoc, List.take_append_drop, List.append_assoc] at r2
        exact r2
      · rw [r3, e2, List.append_assoc]
    · rw [if_neg hfull]
      have hk := h4 (by omega)
      rw [hk, List.take_length] at h3
      exact ⟨z1, t1, o, rfl, h3, e2⟩

theorem zout_fin (hz : DeflaterOk dz Comp run fin full work) (hD : Reliable D got) (hb : block ≠ 0) : ∀ (fuel : Nat) (z : δ) (t : τ) (d c : List β), run z d c ∨ fin z d c → work true z [] < fuel →
    ∃ z1 t1 o, zout dz D block true fuel z [] t = some (some (true, z1, t1)) ∧ Comp (c ++ o) d ∧ got t1 = got t ++ o := by
  intro fuel
  induction fuel with
  | zero => intro z t d c hr h; omega
  | succ fuel ih =>
    intro z t d c hr h
    obtain ⟨o, k, z1, hcall, h2, h3, h4, h5⟩ := hz.finish z d c block hr hb
    unfold zout
    rw [hcall]
    simp only [Bool.true_or, if_true, true_and]
    rw [if_neg (fun q => q (hD.ok t o))]
    by_cases hfull : block - o.length = 0
    · rw [if_pos hfull, List.drop_nil]
      have hl : o.length = block := by omega
      have f2 := h5 hl
      obtain ⟨z2, t2, o2, r1, r2, r3⟩ := ih z1 (D.write t o).2 _ _ (Or.inr h3) (by omega)
      exact ⟨z2, t2, o ++ o2, r1, by rw [← List.append_assoc]; exact r2, by rw [r3, hD.got, List.append_assoc]⟩
    · rw [if_neg hfull]
      exact ⟨z1, _, o, rfl, h4 (by omega), hD.got t o⟩

/-- More rounds do not change what a loop comes to. -/
theorem zout_mono (dz : Deflater β δ) (D : Strm β τ) (block : Nat) (b : Bool) : ∀ (fuel m : Nat) (z : δ) (inp : List β) (t : τ) (r : Option (Bool × δ × τ)), zout dz D block b fuel z inp t = some r → zout dz D block b (fuel + m) z inp t = some r := by
  intro fuel
  induction fuel with
  | zero => intro m z inp t r h; cases h
  | succ fuel ih =>
    intro m z inp t r h
    rw [show fuel + 1 + m = fuel + m + 1 by omega]
    unfold zout at h ⊢
    cases hcall : dz.call z inp b block with
    | none => rw [hcall] at h; exact h
    | some q =>
      obtain ⟨k, o, z1⟩ := q
      rw [hcall] at h
      simp only [] at h ⊢
      generalize (if (b || decide (o.length ≠ 0)) = true then (D.write t o).2 else t) = t1 at h ⊢
      split
      · next c => rw [if_pos c] at h; exact h
      · next c =>
        rw [if_neg c] at h
        split
        · next c2 => rw [if_pos c2] at h; exact ih m _ _ _ _ h
        · next c2 => rw [if_neg c2] at h; exact h

theorem zwrite_mono (dz : Deflater β δ) (D : Strm β τ) (block chunk : Nat) : ∀ (fuel m n : Nat) (z : δ) (data : List β) (t : τ) (r : Option (Nat × St × δ × τ)), zwrite dz D block chunk fuel n z data t = some r → zwrite dz D block chunk (fuel + m) n z data t = some r := by
  intro fuel
  induction fuel with
  | zero => intro m n z data t r h; cases h
  | succ fuel ih =>
    intro m n z data t r h
    rw [show fuel + 1 + m = fuel + m + 1 by omega]
    unfold zwrite at h ⊢
    split
    · next c => rw [if_pos c] at h; exact h
    · next c =>
      rw [if_neg c] at h
      simp only [] at h ⊢
      cases ho : zout dz D block false fuel z (data.take (min data.length chunk)) t with
      | none => rw [ho] at h; cases h
      | some q =>
        rw [zout_mono dz D block false fuel m _ _ _ _ ho]
        rw [ho] at h
        cases q with
        | none => exact h
        | some q =>
          obtain ⟨b, z1, t1⟩ := q
          cases b with
          | false => exact h
          | true => exact ih m _ _ _ _ _ h

theorem zwrite_run (hz : DeflaterOk dz Comp run fin full work) (hD : Reliable D got) (hb : block ≠ 0) {chunk : Nat} (hc : chunk ≠ 0) : ∀ (len : Nat) (data : List β) (n : Nat) (z : δ) (t : τ) (d c : List β), data.length ≤ len → run z d c →
    ∃ N z1 t1 o, zwrite dz D block chunk N n z data t = some (some (n + data.length, .ok, z1, t1)) ∧ run z1 (d ++ data) (c ++ o) ∧ got t1 = got t ++ o := by
  intro len
  induction len with
  | zero =>
    intro data n z t d c hl hr
    have : data = [] := List.length_eq_zero_iff.1 (by omega)
    subst this
    exact ⟨1, z, t, [], rfl, by rw [List.append_nil, List.append_nil]; exact hr, by rw [List.append_nil]⟩
  | succ len ih =>
    intro data n z t d c hl hr
    by_cases h0 : data.length = 0
    · have : data = [] := List.length_eq_zero_iff.1 h0
      subst this
      exact ⟨1, z, t, [], rfl, by rw [List.append_nil, List.append_nil]; exact hr, by rw [List.append_nil]⟩
    · have hne : data.take (min data.length chunk) ≠ [] := by
        intro e
        have := congrArg List.length e
        rw [List.length_take, List.length_nil] at this
        omega
      obtain ⟨z1, t1, o, e1, e2, e3⟩ := zout_run hz hD hb _ z _ t d c hr (Or.inl hne) (Nat.lt_succ_self _)
      obtain ⟨N, z2, t2, o2, e4, e5, e6⟩ := ih (data.drop (min data.length chunk)) (n + min data.length chunk) z1 t1 _ _ (by rw [List.length_drop]; omega) e2
      refine ⟨(work false z (data.take (min data.length chunk)) + 1 + N) + 1, z2, t2, o ++ o2, ?_, ?_, ?_⟩
      · unfold zwrite
        rw [if_neg h0]
        simp only []
        rw [zout_mono dz D block false _ N _ _ _ _ e1]
        simp only []
        rw [Nat.add_comm _ N, zwrite_mono dz D block chunk N _ _ _ _ _ _ e4, List.length_drop]
        congr 3
        omega
      · rw [List.append_assoc, List.take_append_drop, List.append_assoc] at e5
        exact e5
      · rw [e6, e3, List.append_assoc]

theorem zwrites_run (hz : DeflaterOk dz Comp run fin full work) (hD : Reliable D got) (hb : block ≠ 0) {chunk : Nat} (hc : chunk ≠ 0) : ∀ (ds : List (List β)) (z : δ) (t : τ) (d c : List β), run z d c →
    ∃ N, ∀ m, ∃ z1 t1 o, zwrites dz D block chunk (N + m) ds z t = some (some (ds.map fun x => (x.length, .ok), z1, t1)) ∧ run z1 (d ++ ds.flatten) (c ++ o) ∧ got t1 = got t ++ o ∧ ∀ m', zwrites dz D block chunk (N + m') ds z t = zwrites dz D block chunk (N + m) ds z t := by
  intro ds
  induction ds with
  | nil =>
    intro z t d c hr
    exact ⟨0, fun m => ⟨z, t, [], rfl, by rw [List.flatten_nil, List.append_nil, List.append_nil]; exact hr, by rw [List.append_nil], fun _ => rfl⟩⟩
  | cons x ds ih =>
    intro z t d c hr
    obtain ⟨N, z1, t1, o, e1, e2, e3⟩ := zwrite_run hz hD hb hc _ x 0 z t d c (Nat.le_refl _) hr
    obtain ⟨M, hM⟩ := ih z1 t1 _ _ e2
    obtain ⟨z2, t2, o2, f1, f2, f3, f4⟩ := hM 0
    have key : ∀ m, zwrites dz D block chunk (N + M + m) (x :: ds) z t = some (some ((x :: ds).map fun x => (x.length, .ok), z2, t2)) := by
      intro m
      unfold zwrites
      rw [Nat.add_assoc, zwrite_mono dz D block chunk N _ _ _ _ _ _ e1]
      simp only []
      rw [show N + (M + m) = M + (N + m) by omega, f4 (N + m), f1]
      simp
    refine ⟨N + M, fun m => ⟨z2, t2, o ++ o2, key m, ?_, by rw [f3, e3, List.append_assoc], fun m' => by rw [key m', key m]⟩⟩
    rw [List.flatten_cons, ← List.append_assoc, ← List.append_assoc]
    exact f2

end Write

section Read
variable {iz : Inflater β ι} {Comp : List β → List β → Prop} {reach : ι → List β → List β → Prop} {S : Strm β σ} {rem : σ → List β} {block : Nat}

theorem zfill_spec (hi : InflaterOk iz Comp reach) (hS : IsSource S rem) (hb : block ≠ 0) {c d : List β} (hc : Comp c d) : ∀ (fuel : Nat) (y : ι) (buf : List β) (s : σ) (room : Nat) (acc f g r : List β),
    reach y f g → f ++ buf ++ rem s = c → d = g ++ r → room ≠ 0 → (buf ++ rem s).length < fuel →
    ∃ y1 buf1 s1 f1, zfill iz S block fuel y buf s room acc = some (some (acc ++ r.take room, decide (r.length < room), y1, buf1, s1)) ∧ reach y1 f1 (g ++ r.take room) ∧ f1 ++ buf1 ++ rem s1 = c ∧ (r.length < room → S.state s1 = .eof) := by
  intro fuel
  induction fuel with
  | zero => intro y buf s room acc f g r hr hs hd hm h; omega
  | succ fuel ih =>
    intro y buf s room acc f g r hr hs hd hm h
    -- the block there is, filled if it was empty
    have hq : ∃ b s', (if buf.length = 0 then S.read s block else (buf, s)) = (b, s') ∧ b ++ rem s' = buf ++ rem s ∧ (b = [] → rem s' = [] ∧ S.state s' = .eof) := by
      by_cases h0 : buf.length = 0
      · rw [if_pos h0]
        have : buf = [] := List.length_eq_zero_iff.1 h0
        subst this
        refine ⟨_, _, rfl, hS.split s block, fun hb0 => ?_⟩
        by_cases hre : rem s = []
        · have sp := hS.split s block
          rw [hre] at sp
          exact ⟨(List.append_eq_nil_iff.1 sp).2, hS.eof s block hb hre⟩
        · exact absurd hb0 (hS.more s block hb hre).1
      · rw [if_neg h0]
        exact ⟨buf, s, rfl, rfl, fun e => absurd (by rw [e]; rfl) h0⟩
    obtain ⟨b, s', e1, e2, e3⟩ := hq
    unfold zfill
    rw [e1]
    simp only []
    have hs' : f ++ b ++ rem s' = c := by rw [List.append_assoc, e2, ← List.append_assoc, hs]
    by_cases hb0 : b.length = 0
    · rw [if_pos hb0]
      have hbe : b = [] := List.length_eq_zero_iff.1 hb0
      obtain ⟨q1, q2⟩ := e3 hbe
      have hf : f = c := by rw [hbe, q1, List.append_nil, List.append_nil] at hs'; exact hs'
      rw [hf] at hr
      have hg := hi.whole y c d g hc hr
      have hre : r = [] := by
        rw [hg] at hd
        have := congrArg List.length hd
        rw [List.length_append] at this
        exact List.length_eq_zero_iff.1 (by omega)
      subst hre
      refine ⟨y, b, s', c, ?_, by rw [List.take_nil, List.append_nil]; exact hr, by rw [hbe, q1, List.append_nil, List.append_nil], fun _ => q2⟩
      rw [List.take_nil, List.append_nil]
      have : decide (([] : List β).length < room) = true := by simp; omega
      rw [this]
    · rw [if_neg hb0]
      have hbn : b ≠ [] := fun e => hb0 (by rw [e]; rfl)
      obtain ⟨k, o, y1, hcall, h1, h2, h3, h4⟩ := hi.step y f g b (rem s') room d (by rw [hs']; exact hc) hr hbn hm
      rw [hcall]
      simp only []
      have hs1 : f ++ b.take k ++ b.drop k ++ rem s' = c := by rw [List.append_assoc f, List.take_append_drop, hs']
      obtain ⟨r', hr'⟩ := hi.sound y1 (f ++ b.take k) (g ++ o) (b.drop k ++ rem s') d (by rw [← List.append_assoc, hs1]; exact hc) h3
      have hro : r = o ++ r' := by
        rw [hd, List.append_assoc] at hr'
        exact List.append_cancel_left hr'
      by_cases hfull : room - o.length = 0
      · rw [if_pos hfull]
        have hl : o.length = room := by omega
        have ht : r.take room = o := by rw [hro, ← hl, List.take_left]
        refine ⟨y1, b.drop k, s', f ++ b.take k, ?_, by rw [ht]; exact h3, hs1, fun q => ?_⟩
        · rw [ht]
          have : decide (r.length < room) = false := by rw [decide_eq_false_iff_not, hro, List.length_append]; omega
          rw [this]
        · rw [hro, List.length_append] at q; omega
      · rw [if_neg hfull]
        have hk : k = b.length := by rcases h4 with q | q; omega; exact q
        have hlen : (b ++ rem s').length = (buf ++ rem s).length := congrArg List.length e2
        obtain ⟨y2, buf2, s2, f2, i1, i2, i3, i4⟩ := ih y1 (b.drop k) s' (room - o.length) (acc ++ o) (f ++ b.take k) (g ++ o) r' h3 hs1 hr' hfull (by
          rw [List.length_append, List.length_drop]
          rw [List.length_append] at hlen
          omega)
        have ht : r.take room = o ++ r'.take (room - o.length) := by
          rw [hro, List.take_append, List.take_of_length_le (by omega)]
        refine ⟨y2, buf2, s2, f2, ?_, by rw [ht, ← List.append_assoc]; exact i2, i3, fun q => i4 (by rw [hro, List.length_append] at q; omega)⟩
        rw [i1, ht, List.append_assoc]
        have : decide (r'.length < room - o.length) = decide (r.length < room) := by
          rw [hro, List.length_append]
          apply decide_eq_decide.2
          omega
        rw [this]

theorem zread_spec (hi : InflaterOk iz Comp reach) (hS : IsSource S rem) (hb : block ≠ 0) {chunk : Nat} (hch : chunk ≠ 0) {c d : List β} (hc : Comp c d) : ∀ (fuel n : Nat) (got : List β) (y : ι) (buf : List β) (s : σ) (f g r : List β),
    reach y f g → f ++ buf ++ rem s = c → d = g ++ r → n + c.length < fuel →
    ∃ y1 buf1 s1 f1, zread iz S block chunk fuel got y buf s n = some (some (got ++ r.take n, if n ≠ 0 ∧ (got ++ r).length = 0 then .eof else .ok, y1, buf1, s1)) ∧ reach y1 f1 (g ++ r.take n) ∧ f1 ++ buf1 ++ rem s1 = c := by
  intro fuel
  induction fuel with
  | zero => intro n got y buf s f g r hr hs hd h; omega
  | succ fuel ih =>
    intro n got y buf s f g r hr hs hd h
    unfold zread
    by_cases h0 : n = 0
    · rw [if_pos h0, if_neg (fun q => q.1 h0), h0, List.take_zero, List.append_nil, List.append_nil]
      exact ⟨y, buf, s, f, rfl, hr, hs⟩
    · rw [if_neg h0]
      simp only []
      have hle : (buf ++ rem s).length ≤ c.length := by
        rw [← hs, List.append_assoc]; simp only [List.length_append]; omega
      obtain ⟨y1, buf1, s1, f1, e1, e2, e3, e4⟩ := zfill_spec hi hS hb hc fuel y buf s (min n chunk) [] f g r hr hs hd (by omega) (by omega)
      rw [e1, List.nil_append]
      by_cases hl : r.length < min n chunk
      · rw [show decide (r.length < min n chunk) = true from decide_eq_true hl]
        simp only []
        have t1 : r.take (min n chunk) = r := List.take_of_length_le (by omega)
        have t2 : r.take n = r := List.take_of_length_le (by omega)
        rw [t1] at e2 ⊢
        rw [t2]
        refine ⟨y1, buf1, s1, f1, ?_, e2, e3⟩
        by_cases hz : (got ++ r).length = 0
        · rw [if_pos (show n ≠ 0 ∧ (got ++ r).length = 0 from ⟨h0, hz⟩), if_neg (show ¬ (got ++ r).length ≠ 0 from fun q => q hz), e4 hl]
        · rw [if_neg (show ¬ (n ≠ 0 ∧ (got ++ r).length = 0) from fun q => hz q.2), if_pos hz]
      · rw [show decide (r.length < min n chunk) = false from decide_eq_false hl]
        simp only []
        obtain ⟨y2, buf2, s2, f2, i1, i2, i3⟩ := ih (n - min n chunk) (got ++ r.take (min n chunk)) y1 buf1 s1 f1 (g ++ r.take (min n chunk)) (r.drop (min n chunk)) e2 e3 (by rw [List.append_assoc, List.take_append_drop]; exact hd) (by omega)
        have ht : r.take (min n chunk) ++ (r.drop (min n chunk)).take (n - min n chunk) = r.take n := by
          rw [← List.take_add]
          congr 1
          omega
        refine ⟨y2, buf2, s2, f2, ?_, by rw [← ht, ← List.append_assoc]; exact i2, i3⟩
        rw [i1, List.append_assoc got, List.append_assoc got, ht, List.take_append_drop]
        have hp : (got ++ r).length ≠ 0 := by rw [List.length_append]; omega
        rw [if_neg (fun q => hp q.2), if_neg (fun q => hp q.2)]

theorem zreads_spec (hi : InflaterOk iz Comp reach) (hS : IsSource S rem) (hb : block ≠ 0) {chunk : Nat} (hch : chunk ≠ 0) {c d : List β} (hc : Comp c d) {fuel : Nat} : ∀ (ns : List Nat) (y : ι) (buf : List β) (s : σ) (f g r : List β),
    reach y f g → f ++ buf ++ rem s = c → d = g ++ r → (∀ n ∈ ns, n + c.length < fuel) → zreads iz S block chunk fuel ns y buf s = some (some (slices r ns)) := by
  intro ns
  induction ns with
  | nil => intro y buf s f g r _ _ _ _; rfl
  | cons n ns ih =>
    intro y buf s f g r hr hs hd hn
    obtain ⟨y1, buf1, s1, f1, e1, e2, e3⟩ := zread_spec hi hS hb hch hc fuel n [] y buf s f g r hr hs hd (hn n List.mem_cons_self)
    unfold zreads
    rw [e1]
    simp only []
    rw [ih y1 buf1 s1 f1 (g ++ r.take n) (r.drop n) e2 e3 (by rw [List.append_assoc, List.take_append_drop]; exact hd) fun m hm => hn m (List.mem_cons_of_mem _ hm)]
    rfl

end Read

/-! ### Properties -/

/-- What is written in any pieces, and closed, arrives compressed: every write accepts all of it, and what the sink has got is a compression of the
pieces together. -/
theorem zlib_written {dz : Deflater β δ} {Comp : List β → List β → Prop} {run fin : δ → List β → List β → Prop} {full : δ → Prop} {work : Bool → δ → List β → Nat} (hz : DeflaterOk dz Comp run fin full work)
    {D : Strm β τ} {got : τ → List β} (hD : Reliable D got) {block chunk : Nat} (hb : block ≠ 0) (hc : chunk ≠ 0) (ds : List (List β)) (t : τ) :
    ∃ N, ∀ m, ∃ z t1 t2 c, zwrites dz D block chunk (N + m) ds dz.initial t = some (some (ds.map fun x => (x.length, .ok), z, t1)) ∧ zclose dz D block (N + m) z t1 = some (some t2) ∧
      got t2 = got t ++ c ∧ Comp c ds.flatten := by
  obtain ⟨N, hN⟩ := zwrites_run hz hD hb hc ds dz.initial t [] [] hz.initial
  obtain ⟨z, t1, o, e1, e2, e3, e4⟩ := hN 0
  obtain ⟨z2, t2, o2, f1, f2, f3⟩ := zout_fin hz hD hb _ z t1 _ _ (Or.inl e2) (Nat.lt_succ_self _)
  refine ⟨N + (work true z [] + 1), fun m => ⟨z, t1, t2, o ++ o2, ?_, ?_, by rw [f3, e3, List.append_assoc], f2⟩⟩
  · rw [Nat.add_assoc, e4]; exact e1
  · unfold zclose
    rw [show N + (work true z [] + 1) + m = work true z [] + 1 + (N + m) by omega, zout_mono dz D block true _ _ _ _ _ _ f1]

/-- What is read, in pieces of any size, from a source of a compressed stream that delivers it in pieces of any size, is what was compressed, in order
and nothing but it; every read gets all that is asked for, or all there is; the end is reported at the end and not before. -/
theorem zlib_readback {iz : Inflater β ι} {Comp : List β → List β → Prop} {reach : ι → List β → List β → Prop} (hi : InflaterOk iz Comp reach) {S : Strm β σ} {rem : σ → List β} (hS : IsSource S rem) {block chunk : Nat} (hb : block ≠ 0) (hc : chunk ≠ 0)
    (s : σ) {d : List β} (hd : Comp (rem s) d) (ns : List Nat) : ∃ N, ∀ fuel, N ≤ fuel → zreads iz S block chunk fuel ns iz.initial [] s = some (some (slices d ns)) := by
  refine ⟨ns.foldr max 0 + (rem s).length + 1, fun fuel hf => ?_⟩
  refine zreads_spec hi hS hb hc hd ns iz.initial [] s [] [] d hi.initial (by simp) rfl fun n hn => ?_
  have key : ∀ (l : List Nat) n, n ∈ l → n ≤ l.foldr max 0 := by
    intro l
    induction l with
    | nil => intro n h; cases h
    | cons a l ih =>
      intro n h
      rw [List.foldr_cons]
      rcases List.mem_cons.1 h with q | q
      · omega
      · have := ih n q; omega
  have := key ns n hn
  omega

/-- What is written through `zlib_writer` is read through `zlib_reader`. -/
theorem zlib_roundtrip {dz : Deflater β δ} {iz : Inflater β ι} {Comp : List β → List β → Prop} {run fin : δ → List β → List β → Prop} {full : δ → Prop} {work : Bool → δ → List β → Nat} {reach : ι → List β → List β → Prop}
    (hz : DeflaterOk dz Comp run fin full work) (hi : InflaterOk iz Comp reach) {D : Strm β τ} {got : τ → List β} (hD : Reliable D got) {S : Strm β σ} {rem : σ → List β} (hS : IsSource S rem)
    {block chunk block' chunk' : Nat} (hb : block ≠ 0) (hc : chunk ≠ 0) (hb' : block' ≠ 0) (hc' : chunk' ≠ 0) (ds : List (List β)) (t : τ) (ht : got t = []) :
    ∃ N, ∀ m, ∃ z t1 t2, zwrites dz D block chunk (N + m) ds dz.initial t = some (some (ds.map fun x => (x.length, .ok), z, t1)) ∧ zclose dz D block (N + m) z t1 = some (some t2) ∧
      ∀ (s : σ), rem s = got t2 → ∀ ns, ∃ M, ∀ fuel, M ≤ fuel → zreads iz S block' chunk' fuel ns iz.initial [] s = some (some (slices ds.flatten ns)) := by
  obtain ⟨N, hN⟩ := zlib_written hz hD hb hc ds t
  refine ⟨N, fun m => ?_⟩
  obtain ⟨z, t1, t2, c, e1, e2, e3, e4⟩ := hN m
  refine ⟨z, t1, t2, e1, e2, fun s hs ns => zlib_readback hi hS hb' hc' s ?_ ns⟩
  rw [hs, e3, ht, List.nil_append]
  exact e4

/-- A write that does not take everything reports the state of the sink, which is not ok. -/
theorem zlib_write_short {dz : Deflater β δ} {D : Strm β τ} {block chunk : Nat} : ∀ {fuel n : Nat} {z : δ} {data : List β} {t : τ} {c : Nat} {st : St} {z1 : δ} {t1 : τ},
    zwrite dz D block chunk fuel n z data t = some (some (c, st, z1, t1)) → (st = .ok ∧ c = n + data.length) ∨ (st = D.state t1 ∧ st ≠ .ok ∧ n ≤ c ∧ c ≤ n + data.length) := by
  have zf : ∀ {fuel : Nat} {z : δ} {inp : List β} {t : τ} {z1 : δ} {t1 : τ}, zout dz D block false fuel z inp t = some (some (false, z1, t1)) → D.state t1 ≠ .ok := by
    intro fuel
    induction fuel with
    | zero => intro z inp t z1 t1 h; cases h
    | succ fuel ih =>
      intro z inp t z1 t1 h
      unfold zout at h
      cases hcall : dz.call z inp false block with
      | none => rw [hcall] at h; cases h
      | some q =>
        obtain ⟨k, o, z2⟩ := q
        rw [hcall] at h
        simp only [] at h
        generalize (if (false || decide (o.length ≠ 0)) = true then (D.write t o).2 else t) = t2 at h
        split at h
        · next q => cases h; exact q.2
        · split at h
          · exact ih h
          · cases h
  intro fuel
  induction fuel with
  | zero => intro n z data t c st z1 t1 h; cases h
  | succ fuel ih =>
    intro n z data t c st z1 t1 h
    unfold zwrite at h
    split at h
    · next q => cases h; exact Or.inl ⟨rfl, by omega⟩
    · next q =>
      simp only [] at h
      split at h
      · cases h
      · cases h
      · next z2 t2 e => cases h; exact Or.inr ⟨rfl, zf e, Nat.le_refl _, Nat.le_add_right _ _⟩
      · next z2 t2 e =>
        have := ih h
        rw [List.length_drop] at this
        rcases this with ⟨a, b⟩ | ⟨a, b, b', b''⟩
        · exact Or.inl ⟨a, by omega⟩
        · exact Or.inr ⟨a, b, by omega, by omega⟩

/-! ### The contract can be met -/

section
variable {γ : Type} [OfNat γ 0] [OfNat γ 1] [DecidableEq γ]

/-- A compression that makes things longer: 1 before every byte, and 0 at the end. -/
def demoEnc (d : List γ) : List γ := d.flatMap fun b => [1, b]

def demoComp (c d : List γ) : Prop := c = demoEnc d ++ [0]

/-- Its state: what was consumed, how much was written, and how much was last written in a full block. -/
def demoDeflater : Deflater γ (List γ × Nat × Bool) where
  initial := ([], 0, false)
  call := fun z inp fin room =>
    if ¬ fin ∧ inp = [] ∧ z.2.2 = false then none
    else
      let d := z.1 ++ inp
      let o := ((if fin then demoEnc d ++ [0] else demoEnc d).drop z.2.1).take room
      some (inp.length, o, (d, z.2.1 + o.length, decide (o.length = room)))

def demoRun (z : List γ × Nat × Bool) (d c : List γ) : Prop := z.1 = d ∧ z.2.1 = c.length ∧ c <+: demoEnc d

def demoFin (z : List γ × Nat × Bool) (d c : List γ) : Prop := z.1 = d ∧ z.2.1 = c.length ∧ c <+: demoEnc d ++ [0]

def demoWork (fin : Bool) (z : List γ × Nat × Bool) (inp : List γ) : Nat := (demoEnc (z.1 ++ inp) ++ if fin then [0] else []).length - z.2.1

theorem prefix_more {e c : List γ} (h : c <+: e) (n : Nat) : c ++ (e.drop c.length).take n <+: e ∧ (((e.drop c.length).take n).length < n → c ++ (e.drop c.length).take n = e) := by
  obtain ⟨t, rfl⟩ := h
  rw [List.drop_left]
  refine ⟨(List.prefix_append_right_inj c).2 (List.take_prefix n t), fun q => ?_⟩
  rw [List.length_take] at q
  rw [List.take_of_length_le (by omega)]

theorem demo_deflater : DeflaterOk (demoDeflater (γ := γ)) demoComp demoRun demoFin (fun z => z.2.2 = true) demoWork where
  initial := ⟨rfl, rfl, List.nil_prefix⟩
  can := fun z d c inp room _ _ h => by
    show ∃ r, (if ¬ false = true ∧ inp = [] ∧ z.2.2 = false then none else some _) = some r
    rw [if_neg (by rintro ⟨-, a, b⟩; rcases h with h | h; exact h a; rw [h] at b; cases b)]
    exact ⟨_, rfl⟩
  step := fun z d c inp room k o z1 hr hroom h => by
    obtain ⟨r1, r2, r3⟩ := hr
    simp only [demoDeflater] at h
    split at h
    · cases h
    · simp only [Option.some.injEq, Prod.mk.injEq, Bool.false_eq_true, if_false] at h
      obtain ⟨rfl, ho, rfl⟩ := h
      rw [r1, r2] at ho
      rw [List.take_length, List.drop_length]
      have hp : c <+: demoEnc (d ++ inp) := by
        refine r3.trans ?_
        unfold demoEnc
        rw [List.flatMap_append]
        exact List.prefix_append _ _
      obtain ⟨p1, p2⟩ := prefix_more hp room
      rw [ho] at p1
      refine ⟨Nat.le_refl _, ?_, ⟨?_, ?_, p1⟩, fun _ => rfl, fun hf => ⟨?_, ?_⟩⟩
      · rw [← ho, List.length_take]; omega
      · show z.1 ++ inp = _; rw [r1]
      · show z.2.1 + List.length _ = _
        rw [r1, r2, ho, List.length_append]
      · show decide (List.length _ = room) = true
        rw [r1, r2, ho]; exact decide_eq_true hf
      · show (demoEnc ((z.1 ++ inp) ++ []) ++ []).length - (z.2.1 + List.length _) < (demoEnc (z.1 ++ inp) ++ []).length - z.2.1
        simp only [List.append_nil]
        rw [r1, r2, ho]
        have h1 := p1.length_le
        rw [List.length_append] at h1
        have : o.length ≠ 0 := by
          rw [hf]
          exact hroom
        omega
  finish := fun z d c room hr hroom => by
    have hr' : demoFin z d c := by
      rcases hr with ⟨a, b, q⟩ | q
      · exact ⟨a, b, q.trans (List.prefix_append _ _)⟩
      · exact q
    obtain ⟨r1, r2, r3⟩ := hr'
    obtain ⟨p1, p2⟩ := prefix_more r3 room
    refine ⟨((demoEnc d ++ [0]).drop c.length).take room, 0, (d, c.length + (((demoEnc d ++ [0]).drop c.length).take room).length, decide ((((demoEnc d ++ [0]).drop c.length).take room).length = room)), ?_, ?_, ⟨rfl, ?_, p1⟩, p2, ?_⟩
    · simp only [demoDeflater, not_true_eq_false, false_and, if_false, List.append_nil, if_true, r1, r2, List.length_nil]
    · rw [List.length_take]; omega
    · show c.length + _ = _
      rw [List.length_append]
    · intro hf
      show (demoEnc (d ++ []) ++ [0]).length - (c.length + _) < (demoEnc (z.1 ++ []) ++ [0]).length - z.2.1
      rw [List.append_nil, List.append_nil, r1, r2]
      have h1 := p1.length_le
      rw [List.length_append] at h1
      omega

/-- What it decompresses to, and whether a 1 was the last: the next byte is then what it stands before. -/
def demoDec : Bool → List γ → List γ × Bool
  | p, [] => ([], p)
  | true, b :: r => (b :: (demoDec false r).1, (demoDec false r).2)
  | false, x :: r => demoDec (decide (x = 1)) r

def demoGo : Bool → List γ → Nat → Nat × List γ × Bool
  | p, [], _ => (0, [], p)
  | p, _ :: _, 0 => (0, [], p)
  | true, b :: r, n + 1 => ((demoGo false r n).1 + 1, b :: (demoGo false r n).2.1, (demoGo false r n).2.2)
  | false, x :: r, n + 1 => ((demoGo (decide (x = 1)) r (n + 1)).1 + 1, (demoGo (decide (x = 1)) r (n + 1)).2)

def demoInflater : Inflater γ Bool := ⟨false, fun y inp room => some (demoGo y inp room)⟩

theorem demoDec_append : ∀ (p : Bool) (a b : List γ), demoDec p (a ++ b) = ((demoDec p a).1 ++ (demoDec (demoDec p a).2 b).1, (demoDec (demoDec p a).2 b).2)
  | p, [], b => by simp [demoDec]
  | true, x :: a, b => by simp [demoDec, demoDec_append false a b]
  | false, x :: a, b => by simp [demoDec, demoDec_append (decide (x = 1)) a b]

theorem demoDec_enc (h01 : (0 : γ) ≠ 1) : ∀ d : List γ, demoDec false (demoEnc d ++ [0]) = (d, false)
  | [] => by
    show demoDec (decide ((0 : γ) = 1)) [] = _
    rw [decide_eq_false h01]; rfl
  | b :: d => by
    have := demoDec_enc h01 d
    show demoDec (decide ((1 : γ) = 1)) (b :: (demoEnc d ++ [0])) = _
    rw [decide_eq_true rfl]
    show (b :: (demoDec false (demoEnc d ++ [0])).1, (demoDec false (demoEnc d ++ [0])).2) = _
    rw [this]

omit [OfNat γ 0] in
theorem demoGo_spec : ∀ (p : Bool) (inp : List γ) (n : Nat), (demoGo p inp n).1 ≤ inp.length ∧ (demoGo p inp n).2.1.length ≤ n ∧ demoDec p (inp.take (demoGo p inp n).1) = (demoGo p inp n).2 ∧ ((demoGo p inp n).2.1.length = n ∨ (demoGo p inp n).1 = inp.length)
  | p, [], n => by cases p <;> simp [demoGo, demoDec]
  | p, x :: r, 0 => by cases p <;> simp [demoGo, demoDec]
  | true, b :: r, n + 1 => by
    obtain ⟨a1, a2, a3, a4⟩ := demoGo_spec false r n
    simp only [demoGo, List.length_cons, List.take_succ_cons, demoDec, a3]
    exact ⟨by omega, by omega, trivial, by omega⟩
  | false, x :: r, n + 1 => by
    obtain ⟨a1, a2, a3, a4⟩ := demoGo_spec (decide (x = 1)) r (n + 1)
    simp only [demoGo, List.length_cons, List.take_succ_cons, demoDec, a3]
    exact ⟨by omega, by omega, trivial, by omega⟩

theorem demo_inflater (h01 : (0 : γ) ≠ 1) : InflaterOk (demoInflater (γ := γ)) demoComp (fun y f g => demoDec false f = (g, y)) where
  initial := rfl
  step := fun y f g inp rest room d _ hr _ _ => by
    obtain ⟨a1, a2, a3, a4⟩ := demoGo_spec y inp room
    refine ⟨_, _, _, rfl, a1, a2, ?_, a4⟩
    rw [demoDec_append, hr]
    simp only []
    rw [a3]
  sound := fun y f g rest d hc hr => by
    have h := demoDec_enc h01 d
    rw [← show f ++ rest = demoEnc d ++ [0] from hc, demoDec_append, hr] at h
    exact ⟨_, (congrArg Prod.fst h).symm⟩
  whole := fun y c d g hc hr => by
    rw [show c = demoEnc d ++ [0] from hc, demoDec_enc h01] at hr
    exact (congrArg Prod.fst hr).symm

end

/-- Two writes with blocks of 3 bytes, and what they come to. -/
example : ∃ z t1, zwrites demoDeflater (pipe 2) 3 2 9 [[7, 8, 9], [], [1]] demoDeflater.initial ([], [], .ok) = some (some ([(3, .ok), (0, .ok), (1, .ok)], z, t1)) ∧ zclose demoDeflater (pipe 2) 3 9 z t1 = some (some ([], [1, 7, 1, 8, 1, 9, 1, 1, 0], .ok)) :=
  ⟨_, _, rfl, rfl⟩

/-- And reads of 2, 0, 5 and 1 bytes. -/
example : zreads demoInflater (pipe 2) 3 2 20 [2, 0, 5, 1] demoInflater.initial [] ([1, 7, 1, 8, 1, 9, 1, 1, 0], [], .ok) = some (some [([7, 8], .ok), ([], .ok), ([9, 1], .ok), ([], .eof)]) := by decide +kernel

/-- (defect) A compressed stream that is cut off is read as if it ended there: no error is reported. -/
theorem zlib_truncated : zreads demoInflater (pipe 2) 3 2 20 [4, 1] demoInflater.initial [] ([1, 7, 1, 8, 1], [], .ok) = some (some [([7, 8], .ok), ([], .eof)]) := by decide +kernel

/-! ### Defects -/

/-- (defect) If the sink fails when the writer is destroyed, the program ends. -/
theorem zlib_close_terminates {dz : Deflater β δ} {D : Strm β τ} (hD : ∀ t d, D.state (D.write t d).2 = .fail) {block fuel : Nat} {z : δ} {t : τ} : zclose dz D block (fuel + 1) z t = some none := by
  unfold zclose zout
  cases dz.call z [] true block with
  | none => rfl
  | some q =>
    obtain ⟨k, o, z2⟩ := q
    simp only [Bool.true_or, if_true, true_and]
    rw [if_pos (by rw [hD]; intro q; cases q)]

/-- (defect) Behind the end of a compressed stream, `inflate` reports the end and consumes nothing: if there are more bytes, reading does not end. -/
theorem zlib_trailing_hangs {iz : Inflater β ι} {S : Strm β σ} {block chunk : Nat} {y : ι} (hy : ∀ inp room, iz.call y inp room = some (0, [], y)) {buf : List β} (hbuf : buf ≠ []) (s : σ) : ∀ (fuel n : Nat) (got : List β), n ≠ 0 → chunk ≠ 0 → zread iz S block chunk fuel got y buf s n = none := by
  have key : ∀ (fuel room : Nat) (acc : List β), room ≠ 0 → zfill iz S block fuel y buf s room acc = none := by
    intro fuel
    induction fuel with
    | zero => intro room acc _; rfl
    | succ fuel ih =>
      intro room acc hr
      have hb : buf.length ≠ 0 := fun q => hbuf (List.length_eq_zero_iff.1 q)
      unfold zfill
      rw [if_neg hb]
      simp only []
      rw [if_neg hb, hy]
      simp only []
      rw [if_neg (by rw [List.length_nil]; omega), List.drop_zero, List.length_nil, Nat.sub_zero]
      exact ih room _ hr
  intro fuel n got hn hc
  cases fuel with
  | zero => rfl
  | succ fuel =>
    unfold zread
    rw [if_neg hn]
    simp only []
    rw [key fuel (min n chunk) [] (by omega)]

end Verif.Stream
