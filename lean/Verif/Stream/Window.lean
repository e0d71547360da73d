import Verif.Stream.Limiter
/-
Model of `stdex::stream::window` (include/stdex/stream.hpp 1608-1686) over an arbitrary stream.

`m_source->skip` is `basic::skip` (148-171, `skip` in Helpers): it may throw when the source ends, and
its loops carry a bound `fuel` on the iterations (`none`: exhausted).
-/
namespace Verif.Stream
variable {β σ : Type}

/-- `window`: source, `m_state`, limits and offsets. -/
structure Win (σ : Type) where
  src : σ
  st : St
  rl : Nat
  wl : Nat
  ro : Nat
  wo : Nat

/-- `window::read` behind the skipping of the offset, 1627-1643. The Boolean tells whether an exception
left the function. -/
def winReadLim (S : Strm β σ) (fuel : Nat) (w : Win σ) (length : Nat) : Option (Bool × List β × Win σ) :=
  if w.rl = fsizeMax then
    let r := S.read w.src length
    some (false, r.1, { w with src := r.2, st := S.state r.2 })
  else if length ≤ w.rl then
    let r := S.read w.src length
    some (false, r.1, { w with src := r.2, st := S.state r.2, rl := w.rl - r.1.length })
  else if length ≠ 0 ∧ w.rl = 0 then
    match skip S fuel w.src length with                                   -- 1636
    | none => none
    | some (threw, s) => if threw then some (true, [], { w with src := s }) else some (false, [], { w with src := s, st := .eof })
  else
    let r := S.read w.src w.rl
    some (false, r.1, { w with src := r.2, st := S.state r.2, rl := w.rl - r.1.length })

/-- `window::read`, 1617-1644. -/
def winRead (S : Strm β σ) (fuel : Nat) (w : Win σ) (length : Nat) : Option (Bool × List β × Win σ) :=
  if w.ro ≠ 0 then                                                        -- 1620
    match skip S fuel w.src w.ro with                                     -- 1621
    | none => none
    | some (threw, s) =>
      if threw then some (true, [], { w with src := s })
      else if S.state s ≠ .ok then some (false, [], { w with src := s, st := S.state s })   -- 1623
      else winReadLim S fuel { w with src := s, st := S.state s, ro := 0 } length
  else winReadLim S fuel w length

/-- `window::write`, 1646-1680. -/
def winWrite (S : Strm β σ) (w : Win σ) (d : List β) : Nat × Win σ :=
  if d.length ≤ w.wo then (d.length, { w with wo := w.wo - d.length, st := .ok })   -- 1650
  else
    let num_skipped := w.wo                                                -- 1655-1662
    let d := d.drop w.wo
    let w := { w with wo := 0 }
    if w.wl = fsizeMax then
      let r := S.write w.src d
      (num_skipped + r.1, { w with src := r.2, st := S.state r.2 })
    else if d.length ≤ w.wl then
      let r := S.write w.src d
      (num_skipped + r.1, { w with src := r.2, st := S.state r.2, wl := w.wl - r.1 })
    else if d.length ≠ 0 ∧ w.wl = 0 then (num_skipped + d.length, { w with st := .ok })   -- 1669
    else
      let r := S.write w.src (d.take w.wl)                                 -- 1675-1677
      (num_skipped + (d.length - w.wl) + r.1, { w with src := r.2, st := S.state r.2, wl := w.wl - r.1 })

/-! ### skip beyond the end -/

theorem skipBytes_short {S : Strm β σ} {rem : σ → List β} (h : IsSource S rem) (fuel : Nat) (hf : 1 < fuel) :
    ∀ (i : Nat) (s : σ), (rem s).length < i →
      ∃ s', skipBytes S fuel i s = some (true, s') ∧ rem s' = [] := by
  intro i
  induction i with
  | zero => intro s hi; omega
  | succ i ih =>
    intro s hi
    obtain ⟨s1, e1, e2, e3⟩ := readOne_source h s fuel hf
    rw [skipBytes, e1]
    simp only []
    by_cases hr : rem s = []
    · rw [hr]
      refine ⟨s1, ?_, ?_⟩
      · rfl
      · rw [e2, hr]; rfl
    · have hpos := List.length_pos_iff.2 hr
      have hl : ((rem s).take 1).length = 1 := by rw [List.length_take]; omega
      rw [hl, if_neg (by decide), e3, if_neg hr, if_neg (by decide)]
      exact ih s1 (by rw [e2, List.length_drop]; omega)

theorem skipBlocks_short {S : Strm β σ} {rem : σ → List β} (h : IsSource S rem) (block : Nat) (hb : 0 < block) :
    ∀ (fuel amount : Nat) (s : σ), (rem s).length < amount → amount + block < fuel →
      ∃ s', skipBlocks S block fuel amount s = some (false, s') ∧ rem s' = [] ∧ S.state s' = .eof := by
  intro fuel
  induction fuel with
  | zero => intro amount s _ hf; omega
  | succ fuel ih =>
    intro amount s ha hf
    rw [skipBlocks, if_neg (by omega)]
    by_cases hc : min amount block ≤ (rem s).length
    · obtain ⟨s1, e1, e2, e3⟩ := read_array_full h s 1 (min amount block) (fuel + 1)
        (by rw [Nat.one_mul]; omega) (by rw [Nat.one_mul]; omega) (by rw [Nat.one_mul]; omega)
      rw [Nat.one_mul] at e1 e2
      rw [e1]
      simp only []
      rw [e3, if_neg (by decide)]
      exact ih (amount - min amount block) s1 (by rw [e2, List.length_drop]; omega) (by omega)
    · obtain ⟨s1, e1, e2, _, e4, _⟩ := readLoop_source h (fuel + 1) s (1 * min amount block) (by rw [Nat.one_mul]; omega)
      unfold readArray
      rw [e1, Option.map_some]
      rw [Nat.one_mul] at *
      simp only []
      have := e4 (by omega)
      rw [this, if_pos (by decide)]
      exact ⟨s1, rfl, by rw [e2, List.drop_eq_nil_of_le (by omega)], this⟩

/-- `skip` beyond the end of the source consumes all of it, and either throws (fewer than 16 bytes
asked for) or ends in state eof. -/
theorem skip_short {S : Strm β σ} {rem : σ → List β} (h : IsSource S rem) (s : σ) (amount fuel : Nat)
    (ha : (rem s).length < amount) (hf : amount + 65536 + 1 < fuel) :
    ∃ threw s', skip S fuel s amount = some (threw, s') ∧ rem s' = [] ∧
      (threw = decide (amount < 16)) ∧ (threw = false → S.state s' = .eof) := by
  unfold skip
  by_cases h1 : amount = 1
  · rw [if_pos h1]
    obtain ⟨s1, e1, e2, e3⟩ := readOne_source h s fuel (by omega)
    have hr : rem s = [] := List.length_eq_zero_iff.1 (by omega)
    rw [e1, hr]
    refine ⟨true, s1, by simp, by rw [e2, hr]; rfl, by simp [h1], by simp⟩
  · rw [if_neg h1]
    by_cases h2 : amount < 16
    · rw [if_pos h2]
      obtain ⟨s', e1, e2⟩ := skipBytes_short h fuel (by omega) amount s ha
      exact ⟨true, s', e1, e2, by simp [h2], by simp⟩
    · rw [if_neg h2]
      obtain ⟨s', e1, e2, e3⟩ := skipBlocks_short h (min amount 65536) (by omega) fuel amount s ha (by omega)
      exact ⟨false, s', e1, e2, by simp [h2], fun _ => e3⟩

/-! ### Reading -/

/-- What is left of the region `[offset, offset + limit)` of the source when its unread contents are
`c`. -/
def region (c : List β) (offset limit : Nat) : List β :=
  if limit = fsizeMax then c.drop offset else (c.drop offset).take limit

theorem winReadLim_region {S : Strm β σ} {rem : σ → List β} (h : IsSource S rem) (w : Win σ)
    (n fuel : Nat) (hf : n + 65536 + 1 < fuel) (hro : w.ro = 0) (hmax : w.rl ≤ fsizeMax) :
    ∃ threw d w', winReadLim S fuel w n = some (threw, d, w') ∧
      d ++ region (rem w'.src) w'.ro w'.rl = region (rem w.src) w.ro w.rl ∧ d.length ≤ n ∧ w'.rl ≤ fsizeMax ∧
      (n ≠ 0 → region (rem w.src) w.ro w.rl ≠ [] → threw = false ∧ d ≠ [] ∧ w'.st = .ok) ∧
      (n ≠ 0 → region (rem w.src) w.ro w.rl = [] → d = [] ∧ (threw = false → w'.st = .eof)) ∧
      (threw = true → n < 16 ∧ rem w'.src = []) ∧ w'.ro = 0 := by
  have full : ∀ m, m ≠ 0 → rem w.src = [] → (S.read w.src m).1 = [] ∧ S.state (S.read w.src m).2 = .eof := by
    intro m hm hr
    have := h.split w.src m
    rw [hr] at this
    exact ⟨(List.append_eq_nil_iff.1 this).1, h.eof w.src m hm hr⟩
  unfold winReadLim
  by_cases c1 : w.rl = fsizeMax
  · rw [if_pos c1]
    refine ⟨false, (S.read w.src n).1, { w with src := (S.read w.src n).2, st := S.state (S.read w.src n).2 }, rfl,
      ?_, h.le _ _, hmax, ?_, ?_, by simp, hro⟩
    · simp only [region, if_pos c1, hro, List.drop_zero]; exact h.split _ _
    · simp only [region, if_pos c1, hro, List.drop_zero]
      intro hn hr
      exact ⟨trivial, h.more _ _ hn hr⟩
    · simp only [region, if_pos c1, hro, List.drop_zero]
      intro hn hr
      exact ⟨(full n hn hr).1, fun _ => (full n hn hr).2⟩
  · rw [if_neg c1]
    have lim : ∀ m, m ≤ n → m ≤ w.rl → (n ≠ 0 → w.rl ≠ 0 → m ≠ 0) → (w.rl = 0 → n = 0) → ∃ threw d w', some (false, (S.read w.src m).1,
        { w with src := (S.read w.src m).2, st := S.state (S.read w.src m).2, rl := w.rl - (S.read w.src m).1.length }) = some (threw, d, w') ∧
        d ++ region (rem w'.src) w'.ro w'.rl = region (rem w.src) w.ro w.rl ∧ d.length ≤ n ∧ w'.rl ≤ fsizeMax ∧
        (n ≠ 0 → region (rem w.src) w.ro w.rl ≠ [] → threw = false ∧ d ≠ [] ∧ w'.st = .ok) ∧
        (n ≠ 0 → region (rem w.src) w.ro w.rl = [] → d = [] ∧ (threw = false → w'.st = .eof)) ∧
        (threw = true → n < 16 ∧ rem w'.src = []) ∧ w'.ro = 0 := by
      intro m hmn hml hm0 hz
      have hle := h.le w.src m
      refine ⟨_, _, _, rfl, ?_, by omega, by simp only []; omega, ?_, ?_, by simp, hro⟩
      · simp only [region, hro, List.drop_zero]
        rw [if_neg c1, if_neg (by omega)]
        conv => rhs; rw [← h.split w.src m]
        rw [List.take_append, List.take_of_length_le (show (S.read w.src m).1.length ≤ w.rl by omega)]
      · simp only [region, if_neg c1, hro, List.drop_zero]
        intro hn hr
        have hrem : rem w.src ≠ [] := by intro c; rw [c] at hr; simp at hr
        exact ⟨trivial, h.more _ _ (hm0 hn (fun c => hn (hz c))) hrem⟩
      · simp only [region, if_neg c1, hro, List.drop_zero]
        intro hn hr
        have h0 : w.rl ≠ 0 := fun c => hn (hz c)
        have hrem : rem w.src = [] := (List.take_eq_nil_iff.1 hr).resolve_left h0
        exact ⟨(full m (hm0 hn h0) hrem).1, fun _ => (full m (hm0 hn h0) hrem).2⟩
    by_cases c2 : n ≤ w.rl
    · rw [if_pos c2]
      exact lim n (Nat.le_refl _) c2 (fun a _ => a) (fun a => by omega)
    · rw [if_neg c2]
      by_cases c3 : n ≠ 0 ∧ w.rl = 0
      · rw [if_pos c3]
        have hreg : ∀ c : List β, region c w.ro w.rl = [] := by
          intro c; rw [region, if_neg c1, c3.2]; rfl
        rcases Nat.lt_or_ge (rem w.src).length n with hlt | hge
        · obtain ⟨threw, s', e1, e2, e3, e4⟩ := skip_short h w.src n fuel hlt hf
          rw [e1]
          simp only []
          cases threw with
          | true =>
            refine ⟨true, [], { w with src := s' }, rfl, ?_, by simp, hmax, fun _ q => absurd (hreg _) q, ?_, ?_, hro⟩
            · rw [List.nil_append]; exact (hreg _).trans (hreg _).symm
            · intro _ _; exact ⟨rfl, by simp⟩
            · intro _; exact ⟨by simpa using e3.symm, e2⟩
          | false =>
            refine ⟨false, [], { w with src := s', st := .eof }, rfl, ?_, by simp, hmax, fun _ q => absurd (hreg _) q, ?_, by simp, hro⟩
            · rw [List.nil_append]; exact (hreg _).trans (hreg _).symm
            · intro _ _; exact ⟨rfl, fun _ => rfl⟩
        · obtain ⟨s', e1, e2, e3⟩ := skip_source h w.src n fuel hge hf
          rw [e1]
          refine ⟨false, [], { w with src := s', st := .eof }, rfl, ?_, by simp, hmax, fun _ q => absurd (hreg _) q, ?_, by simp, hro⟩
          · rw [List.nil_append]; exact (hreg _).trans (hreg _).symm
          · intro _ _; exact ⟨rfl, fun _ => rfl⟩
      · rw [if_neg c3]
        exact lim w.rl (by omega) (Nat.le_refl _) (fun _ a => a) (fun a => by omega)

/-- C37.  One read through a window over any well-behaved source: it returns the next bytes of the region,
at least one as long as there are any (then no exception, state ok); when none are left it returns
nothing, and the state is eof unless skipping the request in the source threw. -/
theorem window_read_region {S : Strm β σ} {rem : σ → List β} (h : IsSource S rem) (w : Win σ)
    (n fuel : Nat) (hf : w.ro + n + 65536 + 1 < fuel) (hmax : w.rl ≤ fsizeMax) :
    ∃ threw d w', winRead S fuel w n = some (threw, d, w') ∧
      d ++ region (rem w'.src) w'.ro w'.rl = region (rem w.src) w.ro w.rl ∧ d.length ≤ n ∧ w'.rl ≤ fsizeMax ∧
      w'.ro ≤ w.ro ∧
      (n ≠ 0 → region (rem w.src) w.ro w.rl ≠ [] → threw = false ∧ d ≠ [] ∧ w'.st = .ok) ∧
      (n ≠ 0 → region (rem w.src) w.ro w.rl = [] → d = [] ∧ (threw = false → w'.st = .eof)) := by
  unfold winRead
  by_cases h0 : w.ro ≠ 0
  · rw [if_pos h0]
    rcases Nat.lt_or_ge (rem w.src).length w.ro with hlt | hge
    · obtain ⟨threw, s', e1, e2, e3, e4⟩ := skip_short h w.src w.ro fuel hlt (by omega)
      have hreg : ∀ r, region ([] : List β) r w.rl = [] := by
        intro r; unfold region; split <;> simp
      have hreg0 : region (rem w.src) w.ro w.rl = [] := by
        unfold region; rw [List.drop_eq_nil_of_le (by omega)]; split <;> simp
      rw [e1]
      simp only []
      cases threw with
      | true =>
        refine ⟨true, [], { w with src := s' }, rfl, ?_, by simp, hmax, Nat.le_refl _, fun _ q => absurd hreg0 q, fun _ _ => ⟨rfl, by simp⟩⟩
        rw [hreg0, List.nil_append, e2, hreg]
      | false =>
        have e4 := e4 rfl
        rw [if_neg (by decide), e4, if_pos (by decide)]
        refine ⟨false, [], { w with src := s', st := .eof }, rfl, ?_, by simp, hmax, Nat.le_refl _, fun _ q => absurd hreg0 q, fun _ _ => ⟨rfl, fun _ => rfl⟩⟩
        rw [hreg0, List.nil_append, e2, hreg]
    · obtain ⟨s', e1, e2, e3⟩ := skip_source h w.src w.ro fuel hge (by omega)
      have e3 : S.state s' = .ok := e3.resolve_right (fun c => h0 c.1)
      rw [e1]
      simp only []
      rw [if_neg (by decide), e3, if_neg (by decide)]
      obtain ⟨threw, d, w', g1, g2, g3, g4, g5, g6, g7, g8⟩ := winReadLim_region h { w with src := s', st := .ok, ro := 0 } n fuel (by omega) rfl hmax
      have hreg : region (rem s') 0 w.rl = region (rem w.src) w.ro w.rl := by
        unfold region; rw [e2, List.drop_zero]
      simp only [hreg] at g2 g5 g6
      exact ⟨threw, d, w', g1, g2, g3, g4, by omega, g5, g6⟩
  · rw [if_neg h0]
    obtain ⟨threw, d, w', g1, g2, g3, g4, g5, g6, g7, g8⟩ := winReadLim_region h w n fuel (by omega) (by omega) hmax
    exact ⟨threw, d, w', g1, g2, g3, g4, by omega, g5, g6⟩

/-- A caller reading in pieces of the given sizes, until an exception. -/
def winReads (S : Strm β σ) (fuel : Nat) : Win σ → List Nat → Option (List β × Win σ)
  | w, [] => some ([], w)
  | w, n :: ns =>
    match winRead S fuel w n with
    | none => none
    | some (threw, d, w') => if threw then some (d, w') else (winReads S fuel w' ns).map fun r => (d ++ r.1, r.2)

/-- C37.  Any sequence of reads through the window delivers the bytes of the region in order, from its
first byte on, and nothing else. -/
theorem window_reads_region {S : Strm β σ} {rem : σ → List β} (h : IsSource S rem) (fuel : Nat) :
    ∀ (ns : List Nat) (w : Win σ), w.rl ≤ fsizeMax → (∀ n ∈ ns, w.ro + n + 65536 + 1 < fuel) →
      ∃ d w', winReads S fuel w ns = some (d, w') ∧
        d ++ region (rem w'.src) w'.ro w'.rl = region (rem w.src) w.ro w.rl := by
  intro ns
  induction ns with
  | nil => intro w _ _; exact ⟨[], w, rfl, rfl⟩
  | cons n ns ih =>
    intro w hmax hf
    obtain ⟨threw, d, w1, g1, g2, g3, g4, g5, _, _⟩ := window_read_region h w n fuel (hf n (by simp)) hmax
    rw [winReads, g1]
    cases threw with
    | true => exact ⟨d, w1, rfl, g2⟩
    | false =>
      obtain ⟨d2, w', i1, i2⟩ := ih w1 g4 (fun m hm => by have := hf m (List.mem_cons_of_mem _ hm); omega)
      refine ⟨d ++ d2, w', ?_, ?_⟩
      · show (winReads S fuel w1 ns).map _ = _
        rw [i1]; rfl
      · rw [List.append_assoc, i2, g2]

/-- The end of the window is not always reported as eof: reading on after the last byte of the region
throws when the source ends there, too. -/
theorem window_end_throws :
    (winReads (pipe 16 : Strm Nat _) 70000 ⟨([1, 2, 3, 4, 5], [], .ok), .ok, 3, 0, 2, 0⟩ [3]).map (·.1) = some [3, 4, 5] ∧
    (winRead (pipe 16 : Strm Nat _) 70000 ⟨([], [], .ok), .ok, 0, 0, 0, 0⟩ 3).map (fun r => (r.1, r.2.1)) = some (true, []) := by
  constructor <;> decide +kernel

/-! ### Writing -/

/-- `write` through a window for each piece; the counts returned. -/
def winWrites (S : Strm β σ) : Win σ → List (List β) → List Nat × Win σ
  | w, [] => ([], w)
  | w, d :: ds => let r := winWrite S w d; let q := winWrites S r.2 ds; (r.1 :: q.1, q.2)

theorem winWrite_region {S : Strm β σ} {got : σ → List β} (h : Reliable S got) (w : Win σ) (d : List β) (hmax : w.wl < fsizeMax) :
    (winWrite S w d).1 = d.length ∧ (winWrite S w d).2.wl < fsizeMax ∧
    (∀ e : List β, got (winWrite S w d).2.src ++ (e.drop (winWrite S w d).2.wo).take (winWrite S w d).2.wl =
      got w.src ++ ((d ++ e).drop w.wo).take w.wl) := by
  unfold winWrite
  by_cases c1 : d.length ≤ w.wo
  · rw [if_pos c1]
    refine ⟨rfl, hmax, ?_⟩
    intro e
    simp only []
    rw [List.drop_append, List.drop_eq_nil_of_le c1, List.nil_append]
  · rw [if_neg c1]
    simp only []
    rw [if_neg (by omega)]
    have hdl : (d.drop w.wo).length = d.length - w.wo := List.length_drop
    have hde : ∀ e : List β, (d ++ e).drop w.wo = d.drop w.wo ++ e := by
      intro e
      rw [List.drop_append, show w.wo - d.length = 0 by omega, List.drop_zero]
    by_cases c2 : (d.drop w.wo).length ≤ w.wl
    · rw [if_pos c2]
      refine ⟨by simp only [h.all]; omega, by simp only []; omega, ?_⟩
      intro e
      simp only [h.got, h.all, List.drop_zero]
      rw [hde, List.take_append, List.take_of_length_le c2, List.append_assoc]
    · rw [if_neg c2]
      by_cases c3 : (d.drop w.wo).length ≠ 0 ∧ w.wl = 0
      · rw [if_pos c3]
        refine ⟨by simp only []; omega, hmax, ?_⟩
        intro e
        simp only [c3.2, List.take_zero]
      · rw [if_neg c3]
        have htl : ((d.drop w.wo).take w.wl).length = w.wl := by rw [List.length_take]; omega
        refine ⟨by simp only [h.all, htl]; omega, by simp only []; omega, ?_⟩
        intro e
        simp only [h.got, h.all, htl, Nat.sub_self, List.take_zero, List.append_nil]
        rw [hde, List.take_append, show w.wl - (d.drop w.wo).length = 0 by omega, List.take_zero, List.append_nil]

/-- C37.  Through a window (with a limit) over a destination that accepts everything, any sequence of writes delivers
exactly the bytes `[offset, offset + limit)` of all data written; the rest is discarded and reported as
written. -/
theorem window_writes_region {S : Strm β σ} {got : σ → List β} (h : Reliable S got) :
    ∀ (ds : List (List β)) (w : Win σ), w.wl < fsizeMax →
      got (winWrites S w ds).2.src = got w.src ++ (ds.flatten.drop w.wo).take w.wl ∧
      (winWrites S w ds).1 = ds.map List.length := by
  intro ds
  induction ds with
  | nil => intro w _; simp [winWrites]
  | cons d ds ih =>
    intro w hw
    obtain ⟨g1, g2, g3⟩ := winWrite_region h w d hw
    obtain ⟨i1, i2⟩ := ih (winWrite S w d).2 g2
    refine ⟨?_, ?_⟩
    · show got (winWrites S (winWrite S w d).2 ds).2.src = _
      rw [i1, g3, List.flatten_cons]
    · show (winWrite S w d).1 :: (winWrites S (winWrite S w d).2 ds).1 = _
      rw [g1, i2]; rfl

/-- A write through a window without an end: all of it but what lies before the window. -/
theorem winWrite_open {S : Strm β σ} {got : σ → List β} (h : Reliable S got) (w : Win σ) (d : List β) (hmax : w.wl = fsizeMax) :
    (winWrite S w d).1 = d.length ∧ (winWrite S w d).2.wl = fsizeMax ∧ (winWrite S w d).2.wo = w.wo - d.length ∧
    got (winWrite S w d).2.src = got w.src ++ d.drop w.wo ∧ (winWrite S w d).2.st = .ok := by
  unfold winWrite
  by_cases c1 : d.length ≤ w.wo
  · rw [if_pos c1]
    refine ⟨rfl, hmax, rfl, ?_, rfl⟩
    rw [List.drop_eq_nil_of_le c1, List.append_nil]
  · rw [if_neg c1]
    simp only []
    rw [if_pos hmax]
    refine ⟨?_, hmax, by simp only []; omega, h.got _ _, h.ok _ _⟩
    simp only [h.all, List.length_drop]
    omega

/-- **C37** (writing, no end) Writing through a window without an end: everything from its start on reaches the source, and every write counts fully. -/
theorem window_writes_open {S : Strm β σ} {got : σ → List β} (h : Reliable S got) :
    ∀ (ds : List (List β)) (w : Win σ), w.wl = fsizeMax →
      got (winWrites S w ds).2.src = got w.src ++ ds.flatten.drop w.wo ∧ (winWrites S w ds).1 = ds.map List.length := by
  intro ds
  induction ds with
  | nil => intro w _; simp [winWrites]
  | cons d ds ih =>
    intro w hw
    obtain ⟨g1, g2, g3, g4, _⟩ := winWrite_open h w d hw
    obtain ⟨i1, i2⟩ := ih (winWrite S w d).2 g2
    refine ⟨?_, ?_⟩
    · show got (winWrites S (winWrite S w d).2 ds).2.src = _
      rw [i1, g3, g4, List.flatten_cons, List.drop_append, List.append_assoc]
    · show (winWrite S w d).1 :: (winWrites S (winWrite S w d).2 ds).1 = _
      rw [g1, i2]; rfl

/-- A write that the destination rejects is over-reported when it crosses the end of the window: of four
bytes none was stored, and two of them, the last ones, are reported. -/
theorem window_write_overcounts :
    (winWrite fullDisk ⟨([], .ok), .ok, 0, 2, 0, 0⟩ [1, 2, 3, 4]).1 = 2 := by decide +kernel

example : (winReads (pipe 2 : Strm Nat _) 70000 ⟨([1, 2, 3, 4, 5, 6, 7], [], .ok), .ok, 4, 0, 2, 0⟩ [1, 9, 9, 9]).map (·.1) =
    some [3, 4, 5, 6] := by decide +kernel
example : let r := winWrites (pipe 2 : Strm Nat _) ⟨([], [], .ok), .ok, 0, 3, 0, 2⟩ [[1], [2, 3], [4, 5, 6], [7]]
    (r.1, r.2.src.2.1) = ([1, 2, 3, 1], [3, 4, 5]) := by decide +kernel

example : let r := winWrites (pipe 2 : Strm Nat _) ⟨([], [], .ok), .ok, 0, fsizeMax, 0, 3⟩ [[1], [2, 3, 4], [5]]
    (r.1, r.2.src.2.1) = ([1, 3, 1], [4, 5]) := by decide +kernel

end Verif.Stream
