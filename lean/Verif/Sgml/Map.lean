import Verif.Sgml.Decode
/-
The map that `sgml2str` makes between offsets in the source and in the destination, used with `src2dst` and `dst2src` (include/stdex/mapping.hpp 94-201).
-/
namespace Verif.Sgml
open Verif.Str Verif.Mapping

/-! ### Model -/

/-- The elements pushed to the map, sgml.hpp 241, 245: offsets, with `offset` added. -/
def mapVec (from_ to_ : Nat) (l : List (Nat × Nat)) : List Mp := l.map fun p => ⟨BitVec.ofNat 64 (from_ + p.1), BitVec.ofNat 64 (to_ + p.2)⟩

/-! ### Proofs -/

/-- The points of entities (`true`, with both sizes) and characters (`false`). -/
def pts : List (Bool × Nat × Nat) → Nat → Nat → List (Nat × Nat)
  | [], _, _ => []
  | (false, a, b) :: ps, i, j => pts ps (i + a) (j + b)
  | (true, a, b) :: ps, i, j => (i, j) :: (i + a, j + b) :: pts ps (i + a) (j + b)

def lenA (ps : List (Bool × Nat × Nat)) : Nat := (ps.map fun p => p.2.1).sum
def lenB (ps : List (Bool × Nat × Nat)) : Nat := (ps.map fun p => p.2.2).sum

/-- Sizes: a character is one character, and nothing is empty on the side that is looked up. -/
def Sized (ps : List (Bool × Nat × Nat)) : Prop := ∀ p ∈ ps, 0 < p.2.1 ∧ (p.1 = false → p.2.1 = p.2.2)

theorem pts_ge : ∀ (ps : List (Bool × Nat × Nat)) (i j : Nat), Sized ps → ∀ p ∈ pts ps i j, i ≤ p.1 ∧ j ≤ p.2 ∧ (p.1 = i → p.2 = j) ∧ p.1 ≤ i + lenA ps ∧ p.2 ≤ j + lenB ps := by
  intro ps
  induction ps with
  | nil => intro i j _ p hp; cases hp
  | cons x ps ih =>
    intro i j hs p hp
    obtain ⟨k, a, b⟩ := x
    have h0 := hs _ List.mem_cons_self
    have hs' : Sized ps := fun p hp => hs p (List.mem_cons_of_mem _ hp)
    have e1 : lenA ((k, a, b) :: ps) = a + lenA ps := by simp [lenA]
    have e2 : lenB ((k, a, b) :: ps) = b + lenB ps := by simp [lenB]
    dsimp only at h0
    cases k with
    | false =>
      have := ih (i + a) (j + b) hs' p hp
      rw [e1, e2]
      refine ⟨by omega, by omega, fun q => by omega, by omega, by omega⟩
    | true =>
      rw [pts] at hp
      rw [e1, e2]
      rcases List.mem_cons.1 hp with hp | hp
      · subst hp; exact ⟨by simp, by simp, fun _ => rfl, by dsimp only; omega, by dsimp only; omega⟩
      · rcases List.mem_cons.1 hp with hp | hp
        · subst hp; dsimp only; exact ⟨by omega, by omega, fun q => by omega, by omega, by omega⟩
        · have := ih (i + a) (j + b) hs' p hp
          exact ⟨by omega, by omega, fun q => by omega, by omega, by omega⟩

theorem pts_sorted : ∀ (ps : List (Bool × Nat × Nat)) (i j : Nat), Sized ps → (pts ps i j).Pairwise fun p q => p.1 ≤ q.1 := by
  intro ps
  induction ps with
  | nil => intro i j _; exact List.Pairwise.nil
  | cons x ps ih =>
    intro i j hs
    obtain ⟨k, a, b⟩ := x
    have hs' : Sized ps := fun p hp => hs p (List.mem_cons_of_mem _ hp)
    cases k with
    | false => exact ih _ _ hs'
    | true =>
      rw [pts]
      refine List.Pairwise.cons ?_ (List.Pairwise.cons ?_ (ih _ _ hs'))
      · intro q hq
        rcases List.mem_cons.1 hq with hq | hq
        · subst hq; dsimp only; omega
        · have := pts_ge ps _ _ hs' q hq; dsimp only; omega
      · intro q hq
        have := pts_ge ps _ _ hs' q hq; dsimp only; omega

/-- What the points say about the boundary between `ps` and `qs`. -/
theorem pts_at : ∀ (ps qs : List (Bool × Nat × Nat)) (i j : Nat), Sized (ps ++ qs) →
    (∀ p ∈ pts (ps ++ qs) i j, p.1 = i + lenA ps → p.2 = j + lenB ps) ∧
    (∀ p ∈ pts (ps ++ qs) i j, p.1 < i + lenA ps → (∀ q ∈ pts (ps ++ qs) i j, q.1 < i + lenA ps → q.1 ≤ p.1) → (∀ q ∈ pts (ps ++ qs) i j, q.1 ≠ i + lenA ps) →
      i + lenA ps + p.2 = j + lenB ps + p.1) ∧
    ((∀ q ∈ pts (ps ++ qs) i j, i + lenA ps < q.1) → lenA ps = lenB ps ∧ ∀ q ∈ pts (ps ++ qs) i j, j + lenB ps ≤ q.2) := by
  intro ps
  induction ps with
  | nil =>
    intro qs i j hs
    rw [List.nil_append] at *
    have hg := pts_ge qs i j hs
    refine ⟨fun p hp h => (hg p hp).2.2.1 (by simpa [lenA] using h), fun p hp h => ?_, fun h => ⟨rfl, fun q hq => by have := hg q hq; simp [lenB]; omega⟩⟩
    have := hg p hp
    simp [lenA] at h; omega
  | cons x ps ih =>
    intro qs i j hs
    obtain ⟨k, a, b⟩ := x
    have h0 := hs _ List.mem_cons_self
    have hs' : Sized (ps ++ qs) := fun p hp => hs p (List.mem_cons_of_mem _ hp)
    have e1 : lenA ((k, a, b) :: ps) = a + lenA ps := by simp [lenA]
    have e2 : lenB ((k, a, b) :: ps) = b + lenB ps := by simp [lenB]
    dsimp only at h0
    obtain ⟨i1, i2, i3⟩ := ih qs (i + a) (j + b) hs'
    have hg := pts_ge (ps ++ qs) (i + a) (j + b) hs'
    rw [e1, e2, List.cons_append]
    cases k with
    | false =>
      rw [pts]
      refine ⟨fun p hp h => ?_, fun p hp h1 h2 h3 => ?_, fun h => ?_⟩
      · have := i1 p hp (by omega); omega
      · have := i2 p hp (by omega) (fun q hq h => h2 q hq (by omega)) (fun q hq => by have := h3 q hq; omega); omega
      · obtain ⟨g1, g2⟩ := i3 fun q hq => by have := h q hq; omega
        exact ⟨by have := h0.2 rfl; omega, fun q hq => by have := g2 q hq; omega⟩
    | true =>
      rw [pts]
      have hz : lenA ps = 0 → ps = [] := by
        intro h
        cases ps with
        | nil => rfl
        | cons y ps =>
          have := hs' y (by simp)
          simp [lenA] at h; omega
      refine ⟨fun p hp h => ?_, fun p hp h1 h2 h3 => ?_, fun h => ?_⟩
      · rcases List.mem_cons.1 hp with rfl | hp
        · dsimp only at h; omega
        · rcases List.mem_cons.1 hp with rfl | hp
          · dsimp only at h ⊢
            have := hz (by omega)
            subst this
            simp [lenB]
          · have := i1 p hp (by omega); omega
      · have ha := h2 (i + a, j + b) (by simp)
        have ha3 := h3 (i + a, j + b) (by simp)
        dsimp only at ha ha3
        have sub : ∀ q ∈ pts (ps ++ qs) (i + a) (j + b), q.1 < i + (a + lenA ps) → q.1 ≤ p.1 := fun q hq h => h2 q (by simp [hq]) h
        have sub3 : ∀ q ∈ pts (ps ++ qs) (i + a) (j + b), q.1 ≠ i + (a + lenA ps) := fun q hq => h3 q (by simp [hq])
        rcases List.mem_cons.1 hp with rfl | hp
        · dsimp only at ha; omega
        · rcases List.mem_cons.1 hp with rfl | hp
          · dsimp only at *
            by_cases hx : ∃ q ∈ pts (ps ++ qs) (i + a) (j + b), q.1 < i + (a + lenA ps)
            · obtain ⟨q, hq, hlt⟩ := hx
              have hle := sub q hq hlt
              have hge := hg q hq
              have := i2 q hq (by omega) (fun q' hq' h' => by have := sub q' hq' (by omega); omega) (fun q' hq' => by have := sub3 q' hq'; omega)
              have := hge.2.2.1 (by omega)
              omega
            · have hx' : ∀ q ∈ pts (ps ++ qs) (i + a) (j + b), i + a + lenA ps < q.1 := by
                intro q hq
                have h4 := sub3 q hq
                have h5 : ¬ q.1 < i + (a + lenA ps) := fun h => hx ⟨q, hq, h⟩
                omega
              have := (i3 hx').1
              omega
          · have := i2 p hp (by omega) (fun q hq h => sub q hq (by omega)) (fun q hq => by have := sub3 q hq; omega)
            omega
      · have := h (i, j) (by simp)
        dsimp only at this; omega

/-- The kind and the sizes of a piece. -/
def shape : Piece → Bool × Nat × Nat
  | .chr _ => (false, 1, 1)
  | .ent name u => (true, name.length + 2, u.length)

def swap3 (p : Bool × Nat × Nat) : Bool × Nat × Nat := (p.1, p.2.2, p.2.1)

theorem points_pts : ∀ (ps : List Piece) i j, points ps i j = pts (ps.map shape) i j
  | [], _, _ => rfl
  | .chr _ :: ps, i, j => points_pts ps (i + 1) (j + 1)
  | .ent name u :: ps, i, j => by
    rw [points, points_pts ps, List.map_cons, shape, pts]; rfl

theorem pts_swap : ∀ (ps : List (Bool × Nat × Nat)) i j, (pts ps i j).map Prod.swap = pts (ps.map swap3) j i
  | [], _, _ => rfl
  | (false, a, b) :: ps, i, j => pts_swap ps _ _
  | (true, a, b) :: ps, i, j => by rw [pts, List.map_cons, List.map_cons, pts_swap ps, List.map_cons, swap3, pts]; rfl

theorem lenA_shape (ps : List Piece) : lenA (ps.map shape) = (ps.flatMap Piece.src).length := by
  induction ps with
  | nil => rfl
  | cons p ps ih =>
    have : lenA ((p :: ps).map shape) = (shape p).2.1 + lenA (ps.map shape) := by simp [lenA]
    rw [this, ih, List.flatMap_cons, List.length_append]
    cases p <;> simp [shape, Piece.src]

theorem lenB_shape (ps : List Piece) : lenB (ps.map shape) = (ps.flatMap Piece.out).length := by
  induction ps with
  | nil => rfl
  | cons p ps ih =>
    have : lenB ((p :: ps).map shape) = (shape p).2.2 + lenB (ps.map shape) := by simp [lenB]
    rw [this, ih, List.flatMap_cons, List.length_append]
    cases p <;> simp [shape, Piece.out]

theorem lenA_swap (ps : List (Bool × Nat × Nat)) : lenA (ps.map swap3) = lenB ps := by unfold lenA lenB; rw [List.map_map]; rfl
theorem lenB_swap (ps : List (Bool × Nat × Nat)) : lenB (ps.map swap3) = lenA ps := by unfold lenA lenB; rw [List.map_map]; rfl

/-- An image under points is where the boundary is. -/
theorem image_at {key val : Mp → W} {v : List Mp} {l : List (Nat × Nat)} {A B i j : Nat}
    (hk : v.map (fun m => (key m, val m)) = l.map fun p => (BitVec.ofNat 64 (A + p.1), BitVec.ofNat 64 (B + p.2)))
    (hb : ∀ p ∈ l, A + p.1 < 2 ^ 64 ∧ B + p.2 < 2 ^ 64) (hi : A + i < 2 ^ 64) (hj : B + j < 2 ^ 64)
    (h1 : ∀ p ∈ l, p.1 = i → p.2 = j)
    (h2 : ∀ p ∈ l, p.1 < i → (∀ q ∈ l, q.1 < i → q.1 ≤ p.1) → (∀ q ∈ l, q.1 ≠ i) → i + p.2 = j + p.1)
    (h3 : (∀ q ∈ l, i < q.1) → A + i = B + j ∧ ∀ q ∈ l, j ≤ q.2) {r : W} (hr : Image key val v (BitVec.ofNat 64 (A + i)) r) :
    r = BitVec.ofNat 64 (B + j) := by
  have tn : ∀ n : Nat, n < 2 ^ 64 → (BitVec.ofNat 64 n).toNat = n := fun n h => by rw [BitVec.toNat_ofNat, Nat.mod_eq_of_lt h]
  have fwd : ∀ m ∈ v, ∃ p ∈ l, key m = BitVec.ofNat 64 (A + p.1) ∧ val m = BitVec.ofNat 64 (B + p.2) := by
    intro m hm
    have : (key m, val m) ∈ l.map fun p => (BitVec.ofNat 64 (A + p.1), BitVec.ofNat 64 (B + p.2)) := by rw [← hk]; exact List.mem_map.2 ⟨m, hm, rfl⟩
    obtain ⟨p, hp, e⟩ := List.mem_map.1 this
    simp only [Prod.mk.injEq] at e
    exact ⟨p, hp, e.1.symm, e.2.symm⟩
  have bwd : ∀ p ∈ l, ∃ m ∈ v, key m = BitVec.ofNat 64 (A + p.1) ∧ val m = BitVec.ofNat 64 (B + p.2) := by
    intro p hp
    have : (BitVec.ofNat 64 (A + p.1), BitVec.ofNat 64 (B + p.2)) ∈ v.map (fun m => (key m, val m)) := by rw [hk]; exact List.mem_map.2 ⟨p, hp, rfl⟩
    obtain ⟨m, hm, e⟩ := List.mem_map.1 this
    simp only [Prod.mk.injEq] at e
    exact ⟨m, hm, e.1, e.2⟩
  rcases hr with ⟨e1, e2⟩ | ⟨m, hm, e1, e2⟩ | ⟨h0, m, hm, e1, e2, e3⟩ | ⟨h0, m, e1, e2⟩
  · subst e1
    have hl : l = [] := by cases l with
      | nil => rfl
      | cons p l => simp at hk
    subst hl
    rw [e2, (h3 fun q hq => (nomatch hq)).1]
  · obtain ⟨p, hp, k1, k2⟩ := fwd m hm
    have hbp := hb p hp
    have : p.1 = i := by
      rw [k1] at e1
      have := congrArg BitVec.toNat e1
      rw [tn _ hbp.1, tn _ hi] at this; omega
    rw [e2, k2, h1 p hp this]
  · obtain ⟨p, hp, k1, k2⟩ := fwd m hm
    have hbp := hb p hp
    have hlt : p.1 < i := by
      rw [k1, BitVec.lt_def, tn _ hbp.1, tn _ hi] at e1; omega
    have hc : ∀ q ∈ l, q.1 < i → q.1 ≤ p.1 := by
      intro q hq hqi
      obtain ⟨m', hm', k1', _⟩ := bwd q hq
      have hbq := hb q hq
      have := e2 m' hm' (by rw [k1', BitVec.lt_def, tn _ hbq.1, tn _ hi]; omega)
      rw [k1', k1, BitVec.le_def, tn _ hbq.1, tn _ hbp.1] at this; omega
    have hn : ∀ q ∈ l, q.1 ≠ i := by
      intro q hq hqi
      obtain ⟨m', hm', k1', _⟩ := bwd q hq
      exact h0 m' hm' (by rw [k1', hqi])
    have := h2 p hp hlt hc hn
    rw [e3, k1, k2]
    apply BitVec.eq_of_toNat_eq
    rw [BitVec.toNat_add, BitVec.toNat_sub, tn _ hbp.1, tn _ hbp.2, tn _ hi, tn _ hj]
    omega
  · cases l with
    | nil =>
      have : v = [] := by simpa using hk
      subst this
      cases e1
    | cons p l =>
      cases v with
      | nil => cases e1
      | cons m' v =>
        simp only [List.head?_cons, Option.some.injEq] at e1
        subst e1
        simp only [List.map_cons, List.cons.injEq, Prod.mk.injEq] at hk
        have hall : ∀ q ∈ p :: l, i < q.1 := by
          intro q hq
          obtain ⟨m1, hm1, k1', _⟩ := bwd q hq
          have hbq := hb q hq
          have := h0 m1 hm1
          rw [k1', BitVec.lt_def, tn _ hbq.1, tn _ hi] at this; omega
        obtain ⟨g1, g2⟩ := h3 hall
        have hbp := hb p (by simp)
        have := g2 p (by simp)
        apply BitVec.eq_of_toNat_eq
        rw [e2, hk.1.2, tn _ hi, tn _ hbp.2, tn _ hj]
        omega

theorem pts_mem_le {ps : List Piece} {i j : Nat} (hs : Sized (ps.map shape)) {p : Nat × Nat} (hp : p ∈ points ps i j) :
    i ≤ p.1 ∧ j ≤ p.2 ∧ p.1 ≤ i + (ps.flatMap Piece.src).length ∧ p.2 ≤ j + (ps.flatMap Piece.out).length := by
  rw [points_pts] at hp
  have := pts_ge _ _ _ hs p hp
  rw [lenA_shape, lenB_shape] at this
  exact ⟨this.1, this.2.1, this.2.2.2⟩

theorem sized_src (ps : List Piece) : Sized (ps.map shape) := by
  intro p hp
  obtain ⟨q, _, rfl⟩ := List.mem_map.1 hp
  cases q <;> simp [shape]

theorem sized_out {ps : List Piece} (h : ∀ p ∈ ps, p.out ≠ []) : Sized ((ps.map shape).map swap3) := by
  intro p hp
  rw [List.map_map] at hp
  obtain ⟨q, hq, rfl⟩ := List.mem_map.1 hp
  have := h q hq
  cases q with
  | chr c => simp [shape, swap3]
  | ent name u => simp [shape, swap3]; exact List.length_pos_iff.2 this

/-- An entity in front of the boundary, or right behind it, makes a point up to there. -/
theorem point_below : ∀ (a b : List Piece) (i j : Nat), (∃ name u, .ent name u ∈ a ∨ b.head? = some (.ent name u)) → ∃ p ∈ points (a ++ b) i j, p.1 ≤ i + (a.flatMap Piece.src).length ∧
    p.2 ≤ j + (a.flatMap Piece.out).length
  | [], b, i, j, h => by
    obtain ⟨name, u, h | h⟩ := h
    · cases h
    · cases b with
      | nil => cases h
      | cons x b =>
        simp only [List.head?_cons, Option.some.injEq] at h
        subst h
        exact ⟨(i, j), by simp [points], by simp, by simp⟩
  | .ent name u :: a, b, i, j, h => ⟨(i, j), by simp [points], by simp, by simp⟩
  | .chr c :: a, b, i, j, h => by
    obtain ⟨name, u, h⟩ := h
    obtain ⟨p, h1, h2, h3⟩ := point_below a b (i + 1) (j + 1) ⟨name, u, by
      rcases h with h | h
      · rcases List.mem_cons.1 h with h | h
        · cases h
        · exact Or.inl h
      · exact Or.inr h⟩
    refine ⟨p, by rw [List.cons_append, points]; exact h1, ?_, ?_⟩
    · rw [List.flatMap_cons, List.length_append]; simp only [Piece.src, List.length_singleton]; omega
    · rw [List.flatMap_cons, List.length_append]; simp only [Piece.out, List.length_singleton]; omega

/-! ### Properties -/

/-- **C67** (source to destination) Where the source is split between two pieces - characters or entities - `src2dst` with the map returns the length of
what was in the destination and what the pieces in front stand for. This holds from the first entity on, or if the offsets agree (`offset.from` is `offset.to` plus
the initial size of the destination, as it is for `sgml2str`). -/
theorem sgml_src2dst {s : List Int} {count skip : Nat} (hv : Valid s (some count)) (hc : count < 2 ^ 64) (dst : List Int) (from_ to_ : Nat) {a b : List Piece}
    (hab : pieces skip (text s (some count)) = a ++ b) (h1 : from_ + (text s (some count)).length < 2 ^ 64)
    (h2 : to_ + dst.length + (decodeSpec skip (text s (some count))).length < 2 ^ 64)
    (h : from_ = to_ + dst.length ∨ ∃ name u, .ent name u ∈ a ∨ b.head? = some (.ent name u)) :
    ∃ d m, sgml2strcat s count skip dst = some (d, m) ∧
      src2dst (mapVec from_ to_ m) (BitVec.ofNat 64 (from_ + (a.flatMap Piece.src).length)) = some (BitVec.ofNat 64 (to_ + dst.length + (a.flatMap Piece.out).length)) := by
  refine ⟨_, _, sgml2strcat_pieces hv hc dst, ?_⟩
  have hsrc := congrArg List.length (pieces_src skip (text s (some count)))
  unfold decodeSpec at h2
  rw [hab] at hsrc h2 ⊢
  have hs := sized_src (a ++ b)
  have hbound : ∀ p ∈ points (a ++ b) 0 dst.length, from_ + p.1 < 2 ^ 64 ∧ to_ + p.2 < 2 ^ 64 := by
    intro p hp
    have := pts_mem_le hs hp
    omega
  have hw : Weak Mp.frm (mapVec from_ to_ (points (a ++ b) 0 dst.length)) := by
    unfold Weak mapVec
    rw [List.pairwise_map]
    refine List.Pairwise.imp_of_mem ?_ (by rw [points_pts]; exact pts_sorted _ 0 dst.length hs)
    intro p q hp hq hpq
    have g1 := hbound p hp
    have g2 := hbound q hq
    dsimp only
    rw [BitVec.le_def, BitVec.toNat_ofNat, BitVec.toNat_ofNat, Nat.mod_eq_of_lt g1.1, Nat.mod_eq_of_lt g2.1]
    omega
  obtain ⟨r, hr, him⟩ := src2dst_weak _ hw (BitVec.ofNat 64 (from_ + (a.flatMap Piece.src).length))
  rw [hr]
  congr 1
  have hat := pts_at (a.map shape) (b.map shape) 0 dst.length (by rw [← List.map_append]; exact hs)
  rw [← List.map_append, ← points_pts, lenA_shape, lenB_shape, Nat.zero_add] at hat
  simp only [List.flatMap_append, List.length_append] at hsrc h2
  rw [Nat.add_assoc]
  refine image_at (l := points (a ++ b) 0 dst.length) ?_ hbound (by omega) (by omega) hat.1 ?_ ?_ him
  · unfold mapVec; rw [List.map_map]; rfl
  · intro p hp g1 g2 g3
    exact hat.2.1 p hp g1 g2 g3
  · intro hall
    obtain ⟨g1, g2⟩ := hat.2.2 hall
    rcases h with h | h
    · exact ⟨by omega, g2⟩
    · obtain ⟨p, hp, hle, _⟩ := point_below a b 0 dst.length h
      have := hall p hp
      omega

/-- **C67** (destination to source) Likewise `dst2src` from the destination to the source, if no entity stands for nothing (as `&#0;` does). -/
theorem sgml_dst2src {s : List Int} {count skip : Nat} (hv : Valid s (some count)) (hc : count < 2 ^ 64) (dst : List Int) (from_ to_ : Nat) {a b : List Piece}
    (hab : pieces skip (text s (some count)) = a ++ b) (h1 : from_ + (text s (some count)).length < 2 ^ 64)
    (h2 : to_ + dst.length + (decodeSpec skip (text s (some count))).length < 2 ^ 64) (hne : ∀ p ∈ a ++ b, p.out ≠ [])
    (h : from_ = to_ + dst.length ∨ ∃ name u, .ent name u ∈ a ∨ b.head? = some (.ent name u)) :
    ∃ d m, sgml2strcat s count skip dst = some (d, m) ∧
      dst2src (mapVec from_ to_ m) (BitVec.ofNat 64 (to_ + dst.length + (a.flatMap Piece.out).length)) = some (BitVec.ofNat 64 (from_ + (a.flatMap Piece.src).length)) := by
  refine ⟨_, _, sgml2strcat_pieces hv hc dst, ?_⟩
  have hsrc := congrArg List.length (pieces_src skip (text s (some count)))
  unfold decodeSpec at h2
  rw [hab] at hsrc h2 ⊢
  have hs := sized_src (a ++ b)
  have hs2 := sized_out hne
  have hbound : ∀ p ∈ points (a ++ b) 0 dst.length, from_ + p.1 < 2 ^ 64 ∧ to_ + p.2 < 2 ^ 64 := by
    intro p hp
    have := pts_mem_le hs hp
    omega
  have hsw : (points (a ++ b) 0 dst.length).map Prod.swap = pts (((a ++ b).map shape).map swap3) dst.length 0 := by rw [points_pts, pts_swap]
  have hw : Weak Mp.to (mapVec from_ to_ (points (a ++ b) 0 dst.length)) := by
    unfold Weak mapVec
    rw [List.pairwise_map]
    have hp := pts_sorted _ dst.length 0 hs2
    rw [← hsw, List.pairwise_map] at hp
    refine List.Pairwise.imp_of_mem ?_ hp
    intro p q hp hq hpq
    have g1 := hbound p hp
    have g2 := hbound q hq
    dsimp only
    rw [BitVec.le_def, BitVec.toNat_ofNat, BitVec.toNat_ofNat, Nat.mod_eq_of_lt g1.2, Nat.mod_eq_of_lt g2.2]
    simp only [Prod.swap] at hpq
    omega
  obtain ⟨r, hr, him⟩ := dst2src_weak _ hw (BitVec.ofNat 64 (to_ + dst.length + (a.flatMap Piece.out).length))
  rw [hr]
  congr 1
  have hat := pts_at ((a.map shape).map swap3) ((b.map shape).map swap3) dst.length 0 (by rw [← List.map_append, ← List.map_append]; exact hs2)
  rw [← List.map_append, ← List.map_append, ← hsw, lenA_swap, lenB_swap, lenA_shape, lenB_shape, Nat.zero_add] at hat
  simp only [List.flatMap_append, List.length_append] at hsrc h2
  rw [Nat.add_assoc] at him
  have hb2 : ∀ p ∈ (points (a ++ b) 0 dst.length).map Prod.swap, to_ + p.1 < 2 ^ 64 ∧ from_ + p.2 < 2 ^ 64 := by
    intro p hp
    obtain ⟨q, hq, rfl⟩ := List.mem_map.1 hp
    exact ⟨(hbound q hq).2, (hbound q hq).1⟩
  refine image_at (key := Mp.to) (val := Mp.frm) (l := (points (a ++ b) 0 dst.length).map Prod.swap) ?_ hb2 (by omega) (by omega) hat.1 ?_ ?_ him
  · unfold mapVec; rw [List.map_map, List.map_map]; rfl
  · intro p hp g1 g2 g3
    exact hat.2.1 p hp g1 g2 g3
  · intro hall
    obtain ⟨g1, g2⟩ := hat.2.2 hall
    rcases h with h | h
    · exact ⟨by omega, g2⟩
    · obtain ⟨p, hp, _, hle⟩ := point_below a b 0 dst.length h
      have := hall p.swap (List.mem_map.2 ⟨p, hp, rfl⟩)
      simp only [Prod.swap] at this
      omega

/-- **C67** (defect) In front of the first entity the map is wrong if the destination was not empty: the first character of `a&lt;` appended to `xx` is at 2,
but the map says 0. -/
theorem sgml_src2dst_wrong : ∃ m, sgml2strcat (asc "a&lt;") 5 0 (asc "xx") = some (asc "xxa<", m) ∧ src2dst (mapVec 0 0 m) 0 = some 0 := by
  refine ⟨[(1, 3), (5, 4)], ?_, ?_⟩ <;> decide +kernel

/-- Non-vacuity: `a&lt;&gt;b`, split in front of `b`. -/
example : ∃ m, sgml2strcat (asc "a&lt;&gt;b") 10 0 [] = some (asc "a<>b", m) ∧ src2dst (mapVec 0 0 m) 9 = some 3 ∧ dst2src (mapVec 0 0 m) 3 = some 9 := by
  refine ⟨[(1, 1), (5, 2), (5, 2), (9, 3)], ?_, ?_, ?_⟩ <;> decide +kernel

end Verif.Sgml
