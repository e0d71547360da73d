import Verif.Parser.Sgml
import Verif.Parser.Url
/-
Parsing SGML text is parsing the text it stands for (include/stdex/parser.hpp 79-1267 with `sgml_…` elements). `basic_url<char>` with elements such as `sgml_cp` is `sgml_url`: the composite parsers
are the same for SGML, only the elements differ (the `using sgml_… = basic_…<char>` declarations, e.g. 2475, 2769, 2952, 3405, 3761, 3864).
-/
namespace Verif.Parser
open Verif.Interval Verif.Str Verif.Sgml

/-! ### Specification -/

/-- Where the piece number `k` of a text begins. -/
def place (sp : Int → Bool) (t : List Int) : Nat → Nat
  | 0 => 0
  | k + 1 => match pieceAt sp t (place sp t k) with
    | some (_, j) => j
    | none => place sp t k

/-- The SGML text `t` stands for `w`, piece by character: no entity stands for several characters, or for none. -/
structure Stands (sp : Int → Bool) (t w : List Int) : Prop where
  piece : ∀ k c, w[k]? = some c → ∃ j, pieceAt sp t (place sp t k) = some ([c], j)
  all : place sp t w.length = t.length

/-- `f` takes the positions in the text `w` to positions in the text `t`, from the start to the end. -/
structure Along (v : Env) (t : List Int) (u : Env) (w : List Int) (f : Nat → Nat) : Prop where
  src : v.Ok t
  dst : u.Ok w
  mono : ∀ k < w.length, f k < f (k + 1)
  fin : f w.length = t.length

/-- A match at `f k` ends at `f j` where the one at `k` ends at `j`, within the text. -/
def Mirrors (f : Nat → Nat) (n : Nat) (a' a : Sub) : Prop := ∀ k ≤ n, a' (f k) = (a k).map f ∧ ∀ j, a k = some j → j ≤ n

/-- The same for parsers of their own kind, with the hit offset. -/
def LeafMirrors (f : Nat → Nat) (n : Nat) (m' m : Leaf) : Prop :=
  ∀ k ≤ n, m' (f k) = (m k).map (fun r => r.map fun p => (f p.1, p.2)) ∧ ∀ j h, m k = some (some (j, h)) → k ≤ j ∧ j ≤ n

mutual
/-- Two trees of the same combinators, whose leaves mirror one another. -/
def TreeMirrors (f : Nat → Nat) (n : Nat) : Shape → Shape → Prop
  | .leaf m', .leaf m => LeafMirrors f n m' m
  | .iter e' a' b' g', .iter e a b g => a' = a ∧ b' = b ∧ g' = g ∧ TreeMirrors f n e' e
  | .seq l', .seq l => TreesMirror f n l' l
  | .branch l', .branch l => TreesMirror f n l' l
  | .perm l', .perm l => TreesMirror f n l' l
  | _, _ => False
def TreesMirror (f : Nat → Nat) (n : Nat) : List Shape → List Shape → Prop
  | [], [] => True
  | s' :: r', s :: r => TreeMirrors f n s' s ∧ TreesMirror f n r' r
  | _, _ => False
end

/-! ### Positions -/

theorem along_lt {v u : Env} {t w : List Int} {f : Nat → Nat} (h : Along v t u w f) : ∀ {i j : Nat}, i < j → j ≤ w.length → f i < f j := by
  intro i j
  induction j with
  | zero => intro q; omega
  | succ j ih =>
    intro q hj
    have := h.mono j (by omega)
    by_cases e : i = j
    · subst e; exact this
    · have := ih (by omega) (by omega); omega

theorem along_le {v u : Env} {t w : List Int} {f : Nat → Nat} (h : Along v t u w f) {k : Nat} (hk : k ≤ w.length) : f k ≤ t.length := by
  rw [← h.fin]
  by_cases e : k = w.length
  · rw [e]; exact Nat.le_refl _
  · have := along_lt h (i := k) (j := w.length) (by omega) (Nat.le_refl _); omega

theorem along_inj {v u : Env} {t w : List Int} {f : Nat → Nat} (h : Along v t u w f) {i j : Nat} (hi : i ≤ w.length) (hj : j ≤ w.length) : f i = f j ↔ i = j := by
  constructor
  · intro q
    rcases Nat.lt_trichotomy i j with l | l | l
    · have := along_lt h l hj; omega
    · exact l
    · have := along_lt h l hi; omega
  · intro q; rw [q]

theorem along_iff {v u : Env} {t w : List Int} {f : Nat → Nat} (h : Along v t u w f) {i j : Nat} (hi : i ≤ w.length) (hj : j ≤ w.length) : f i < f j ↔ i < j := by
  constructor
  · intro q
    rcases Nat.lt_trichotomy i j with l | l | l
    · exact l
    · subst l; omega
    · have := along_lt h l hi; omega
  · intro q; exact along_lt h q hj

/-- The loops' condition is the same on both sides. -/
theorem along_cond {v u : Env} {t w : List Int} {f : Nat → Nat} (h : Along v t u w f) {k : Nat} (hk : k ≤ w.length) :
    (k < w.length ∧ (∃ c, Str.cond v.s v.fin (f k) = some (some c)) ∧ ∃ c, Str.cond u.s u.fin k = some (some c)) ∨
    (k = w.length ∧ Str.cond v.s v.fin (f k) = some none ∧ Str.cond u.s u.fin k = some none) := by
  have le := along_le h hk
  rw [cond_eq h.src.valid (by rw [← h.src.text]; exact le), cond_eq h.dst.valid (by rw [← h.dst.text]; exact hk), ← h.src.text, ← h.dst.text]
  by_cases q : k < w.length
  · left
    have := along_lt h q (Nat.le_refl _)
    rw [h.fin] at this
    exact ⟨q, ⟨_, by rw [List.getElem?_eq_getElem this]⟩, ⟨_, by rw [List.getElem?_eq_getElem q]⟩⟩
  · right
    have e : k = w.length := by omega
    subst e
    exact ⟨rfl, by rw [h.fin, List.getElem?_eq_none (Nat.le_refl _)], by rw [List.getElem?_eq_none (Nat.le_refl _)]⟩

theorem place_lt {sp : Int → Bool} {t w : List Int} (h : Stands sp t w) {k : Nat} (hk : k < w.length) : place sp t k < place sp t (k + 1) := by
  obtain ⟨j, q⟩ := h.piece k _ (List.getElem?_eq_getElem hk)
  rw [place, q]
  exact (piece_gt q).1

/-- A text that stands for another is along it. -/
theorem stands_along {v u : Env} {t w : List Int} (h : v.Ok t) (hu : u.Ok w) (hs : Stands v.space t w) : Along v t u w (place v.space t) :=
  ⟨h, hu, fun _ hk => place_lt hs hk, hs.all⟩

/-! ### Trees -/

theorem chain_mirrors {f : Nat → Nat} {n : Nat} : ∀ (l : List (Sem × Sem)), (∀ p ∈ l, Mirrors f n p.1 p.2) → Mirrors f n (chain (l.map Prod.fst)) (chain (l.map Prod.snd)) := by
  intro l
  induction l with
  | nil => intro _ k hk; exact ⟨rfl, fun j q => by cases q; exact hk⟩
  | cons p l ih =>
    intro h k hk
    have ⟨a, b⟩ := h p List.mem_cons_self k hk
    rw [List.map_cons, List.map_cons, chain_cons, chain_cons, a]
    cases q : p.2 k with
    | none => exact ⟨rfl, fun j x => by cases x⟩
    | some j => exact ih (fun p hp => h p (List.mem_cons_of_mem _ hp)) j (b j q)

theorem find_mirrors {f : Nat → Nat} {n : Nat} {α : Type} (a' a : α → Sem) : ∀ (l : List α), (∀ x ∈ l, Mirrors f n (a' x) (a x)) →
    Mirrors f n (fun i => l.findSome? fun x => a' x i) (fun i => l.findSome? fun x => a x i) := by
  intro l
  induction l with
  | nil => intro _ k _; exact ⟨rfl, fun j q => by cases q⟩
  | cons x l ih =>
    intro h k hk
    have ⟨p, b⟩ := h x List.mem_cons_self k hk
    simp only [List.findSome?_cons]
    rw [p]
    cases q : a x k with
    | none => exact ih (fun p hp => h p (List.mem_cons_of_mem _ hp)) k hk
    | some j => exact ⟨rfl, fun j' e => by cases e; exact b j q⟩

theorem iter_mirrors {v u : Env} {t w : List Int} {f : Nat → Nat} (hf : Along v t u w f) {a' a : Sem} (h : Mirrors f w.length a' a) : ∀ (lim mn : Nat),
    Mirrors f w.length (iterSem a' lim mn) (iterSem a lim mn) := by
  intro lim
  induction lim with
  | zero => intro mn k hk; exact ⟨rfl, fun j q => by cases q; exact hk⟩
  | succ lim ih =>
    intro mn k hk
    have ⟨p, b⟩ := h k hk
    simp only [iterSem]
    rw [p]
    cases q : a k with
    | none =>
      simp only [Option.map_none]
      by_cases e : mn = 0
      · simp only [if_pos e]; exact ⟨rfl, fun j x => by cases x; exact hk⟩
      · simp only [if_neg e]; exact ⟨rfl, fun j x => by cases x⟩
    | some j =>
      have hj := b j q
      simp only [Option.map_some]
      by_cases e : j = k
      · subst e; simp only [if_true]; exact ⟨rfl, fun j x => by cases x; exact hk⟩
      · simp only [if_neg e, if_neg (fun x => e ((along_inj hf hj hk).1 x))]
        exact ih (mn - 1) j hj

theorem perm_mirrors {f : Nat → Nat} {n : Nat} (l : List (Sem × Sem)) (h : ∀ p ∈ l, Mirrors f n p.1 p.2) : Mirrors f n (permSem (l.map Prod.fst)) (permSem (l.map Prod.snd)) := by
  have key : ∀ g : Sem × Sem → Sem, permSem (l.map g) = fun i => (orders l).findSome? fun o => chain (o.map g) i := by
    intro g
    funext i
    rw [permSem, orders, orders, List.length_map, ordersN_map, List.findSome?_map]
    rfl
  rw [key, key]
  refine find_mirrors (fun o : List (Sem × Sem) => chain (o.map Prod.fst)) (fun o => chain (o.map Prod.snd)) _ fun o ho => ?_
  exact chain_mirrors o fun p hp => h p (((mem_orders l o).1 ho).mem_iff.1 hp)

mutual
theorem sem_mirrors {v u : Env} {t w : List Int} {f : Nat → Nat} (hf : Along v t u w f) : ∀ (s' s : Shape), TreeMirrors f w.length s' s → Mirrors f w.length (sem s') (sem s)
  | .leaf m', .leaf m, h => by
    rw [TreeMirrors] at h
    intro k hk
    have ⟨a, b⟩ := h k hk
    simp only [sem]
    rw [a]
    cases q : m k with
    | none => exact ⟨rfl, fun j x => by cases x⟩
    | some r =>
      cases r with
      | none => exact ⟨rfl, fun j x => by cases x⟩
      | some p => exact ⟨rfl, fun j x => by cases x; exact (b p.1 p.2 q).2⟩
  | .iter e' a' b' g', .iter e a b g, h => by
    rw [TreeMirrors] at h
    obtain ⟨rfl, rfl, rfl, h⟩ := h
    rw [sem, sem]
    exact iter_mirrors hf (sem_mirrors hf e' e h) _ _
  | .seq l', .seq l, h => by
    rw [TreeMirrors] at h
    obtain ⟨ps, e1, e2, hp⟩ := sems_mirror hf l' l h
    rw [sem, sem, e1, e2]
    exact chain_mirrors ps hp
  | .branch l', .branch l, h => by
    rw [TreeMirrors] at h
    obtain ⟨ps, e1, e2, hp⟩ := sems_mirror hf l' l h
    have := find_mirrors Prod.fst Prod.snd ps hp
    rw [sem, sem, e1, e2]
    intro k hk
    have := this k hk
    simp only [List.findSome?_map] at this ⊢
    exact this
  | .perm l', .perm l, h => by
    rw [TreeMirrors] at h
    obtain ⟨ps, e1, e2, hp⟩ := sems_mirror hf l' l h
    rw [sem, sem, e1, e2]
    exact perm_mirrors ps hp
  | .leaf _, .iter .., h | .leaf _, .seq _, h | .leaf _, .branch _, h | .leaf _, .perm _, h
  | .iter .., .leaf _, h | .iter .., .seq _, h | .iter .., .branch _, h | .iter .., .perm _, h
  | .seq _, .leaf _, h | .seq _, .iter .., h | .seq _, .branch _, h | .seq _, .perm _, h
  | .branch _, .leaf _, h | .branch _, .iter .., h | .branch _, .seq _, h | .branch _, .perm _, h
  | .perm _, .leaf _, h | .perm _, .iter .., h | .perm _, .seq _, h | .perm _, .branch _, h => by simp only [TreeMirrors] at h
theorem sems_mirror {v u : Env} {t w : List Int} {f : Nat → Nat} (hf : Along v t u w f) : ∀ (l' l : List Shape), TreesMirror f w.length l' l →
    ∃ ps : List (Sem × Sem), sems l' = ps.map Prod.fst ∧ sems l = ps.map Prod.snd ∧ ∀ p ∈ ps, Mirrors f w.length p.1 p.2
  | [], [], _ => ⟨[], rfl, rfl, fun _ q => nomatch q⟩
  | s' :: r', s :: r, h => by
    rw [TreesMirror] at h
    obtain ⟨ps, e1, e2, hp⟩ := sems_mirror hf r' r h.2
    refine ⟨(sem s', sem s) :: ps, by rw [sems, e1]; rfl, by rw [sems, e2]; rfl, ?_⟩
    intro p hp'
    rcases List.mem_cons.1 hp' with rfl | q
    · exact sem_mirrors hf s' s h.1
    · exact hp p q
  | [], _ :: _, h | _ :: _, [], h => by simp only [TreesMirror] at h
end

theorem leaf_good {f : Nat → Nat} {n : Nat} {m' m : Leaf} (h : LeafMirrors f n m' m) (hd : ∀ i ≤ n, m i ≠ none) : Good n (.leaf m) := by
  rw [Good]
  exact fun i hi => ⟨hd i hi, (h i hi).2⟩

/-- **C144** (trees) A tree of parsers on the one text and a tree of the same combinators on the other, with leaves that mirror one another: from corresponding positions, in whatever states, both complete with the
same result, and if they match the intervals correspond. -/
theorem tree_mirrors {v u : Env} {t w : List Int} {f : Nat → Nat} (hf : Along v t u w f) {s' s : Shape} (h : TreeMirrors f w.length s' s) (g' : Good t.length s') (g : Good w.length s)
    {fuel' fuel : Nat} (hl' : t.length < fuel') (hl : w.length < fuel) (x' x : St) {k : Nat} (hk : k ≤ w.length) :
    ∃ b y' y, (obj fuel' s').run x' (f k) = some (b, y') ∧ (obj fuel s).run x k = some (b, y) ∧
      (if b then ∃ j, y.iv = ⟨k, j⟩ ∧ y'.iv = ⟨f k, f j⟩ ∧ k ≤ j ∧ j ≤ w.length else y'.iv.valid = false ∧ y.iv.valid = false) := by
  obtain ⟨b', y', a1, a2⟩ := tree_match hl' g' x' (along_le hf hk)
  obtain ⟨b, y, b1, b2⟩ := tree_match hl g x hk
  have ⟨m, _⟩ := sem_mirrors hf s' s h k hk
  rw [m] at a2
  cases q : sem s k with
  | none =>
    rw [q] at a2 b2
    obtain ⟨rfl, a3⟩ := a2
    obtain ⟨rfl, b3⟩ := b2
    exact ⟨false, y', y, a1, b1, a3, b3⟩
  | some j =>
    rw [q] at a2 b2
    obtain ⟨rfl, a3, _, _⟩ := a2
    obtain ⟨rfl, b3, b4, b5⟩ := b2
    exact ⟨true, y', y, a1, b1, j, b3, a3, b4, b5⟩

/-! ### Leaves -/

theorem stands_none {sp : Int → Bool} {t w : List Int} (h : Stands sp t w) : pieceAt sp t (place sp t w.length) = none := by
  rw [h.all]
  unfold pieceAt
  rw [List.getElem?_eq_none (Nat.le_refl _)]
  rfl

theorem stands_at {sp : Int → Bool} {t w : List Int} (h : Stands sp t w) {k : Nat} {c : Int} (hc : w[k]? = some c) : pieceAt sp t (place sp t k) = some ([c], place sp t (k + 1)) := by
  obtain ⟨j, q⟩ := h.piece k c hc
  rw [q, place, q]

/-- A test of the text of a piece is a test of the character. -/
theorem piecewise_mirrors {v u : Env} {t w : List Int} (hv : v.Ok t) (hu : u.Ok w) (hs : Stands v.space t w) {m' m : Leaf} {p : List Int → Bool} {q : Int → Bool} (h' : Piecewise v.space t m' p)
    (h : One w m q) (e : ∀ c, p [c] = q c) : LeafMirrors (place v.space t) w.length m' m := by
  intro k hk
  rw [h' _ (along_le (stands_along hv hu hs) hk), h k hk]
  by_cases lt : k < w.length
  · have hc : w[k]? = some w[k] := List.getElem?_eq_getElem lt
    rw [hc, stands_at hs hc]
    dsimp only
    rw [e]
    by_cases y : q w[k] = true
    · rw [if_pos y, if_pos y]; exact ⟨rfl, fun j h x => by cases x; omega⟩
    · rw [if_neg y, if_neg y]; exact ⟨rfl, fun j h x => by cases x⟩
  · have : k = w.length := by omega
    subst this
    rw [List.getElem?_eq_none (Nat.le_refl _), stands_none hs]
    exact ⟨rfl, fun j h x => by cases x⟩

/-- The parser of the decoded text: `wchar_t`, the same flags, and the facets for wide characters. -/
structure Wider (v : Env) (wd : Wide) (u : Env) : Prop where
  ci : u.ci = v.ci
  ml : u.ml = v.ml
  lower : u.lower = wd.lower
  space : u.space = wd.space
  punct : u.punct = wd.punct

theorem noBreak_one (c : Int) : noBreak [c] = (c != 10 && c != 13) := by
  unfold noBreak
  simp only [List.head?_cons]
  have e : ∀ d : Int, (some c != some d) = (c != d) := by
    intro d; rfl
  rw [e, e]

/-- **C144** (code points) `sgml_cp` with one character mirrors `wcu`, `sgml_space_cp` mirrors `wspace_cu`, `sgml_punct_cp` mirrors `wpunct_cu`, `sgml_space_or_punct_cp` mirrors `wspace_or_punct_cu`. -/
theorem sgml_leaves {v u : Env} {wd : Wide} {t w : List Int} (hv : v.Ok t) (hw : WOk v wd) (hl : t.length < 2 ^ 64) (hu : u.Ok w) (hd : Wider v wd u) (hs : Stands v.space t w) (invert : Bool) :
    (∀ c, c ≠ 0 → LeafMirrors (place v.space t) w.length (sgmlCp v wd [c] invert) (cu u c invert)) ∧
    LeafMirrors (place v.space t) w.length (sgmlSpace v wd invert) (spaceCu u invert) ∧
    LeafMirrors (place v.space t) w.length (sgmlPunct v wd invert) (punctCu u invert) ∧
    LeafMirrors (place v.space t) w.length (sgmlSpaceOrPunct v wd invert) (spaceOrPunctCu u invert) := by
  refine ⟨fun c hc => ?_, ?_, ?_, ?_⟩
  · refine piecewise_mirrors hv hu hs (sgmlCp_spec hv hw hl (by simpa using hc) invert) (cu_spec hu c invert) fun x => ?_
    unfold same
    rw [hd.ci, hd.lower]
    by_cases e : v.ci = true
    · simp [e]
    · simp [e]
  · refine piecewise_mirrors hv hu hs (sgmlSpace_spec hv hw hl invert) (spaceCu_spec hu invert) fun x => ?_
    rw [noBreak_one, hd.ml, hd.space]
    simp
  · refine piecewise_mirrors hv hu hs (sgmlPunct_spec hv hw hl invert) (punctCu_spec hu invert) fun x => ?_
    rw [hd.punct]
    simp
  · refine piecewise_mirrors hv hu hs (sgmlSpaceOrPunct_spec hv hw hl invert) (spaceOrPunctCu_spec hu invert) fun x => ?_
    rw [noBreak_one, hd.ml, hd.space, hd.punct]
    simp

/-- **C144** (sets) `sgml_cp_set` mirrors `wcu_set`, and their hit offsets are the same. -/
theorem sgml_set_mirrors {v u : Env} {wd : Wide} {t w : List Int} (hv : v.Ok t) (hw : WOk v wd) (hl : t.length < 2 ^ 64) (hu : u.Ok w) (hd : Wider v wd u) (hs : Stands v.space t w) {set : List Int}
    (hset : ∀ c ∈ set, c ≠ 0) (invert : Bool) : LeafMirrors (place v.space t) w.length (sgmlSet v wd set invert) (cuSet u set invert) := by
  obtain ⟨hit, h1, h2⟩ := sgmlSet_spec hv hw hl hset invert
  intro k hk
  rw [h1 _ (along_le (stands_along hv hu hs) hk)]
  obtain ⟨hit', g1, g2⟩ := cuSet_spec hu hset invert k hk
  rw [g1]
  by_cases lt : k < w.length
  rotate_left
  · have : k = w.length := by omega
    subst this
    rw [List.getElem?_eq_none (Nat.le_refl _), stands_none hs]
    exact ⟨rfl, fun j h x => by cases x⟩
  have hc : w[k]? = some w[k] := List.getElem?_eq_getElem lt
  have g2 := g2 _ hc
  rw [hc, stands_at hs hc]
  have nz : ∀ c ∈ [w[k]], c ≠ 0 := by
    intro c q
    rw [List.mem_singleton.1 q]
    exact ok_ne_zero hu _ (List.getElem_mem lt)
  have h2 := h2 [w[k]] nz
  have occ : ∀ p, Occurs (if v.ci then wd.lower else id) (if v.ci then wd.lower else id) set [w[k]] p ↔ ∃ x, set[p]? = some x ∧ same u x w[k] = true := by
    intro p
    unfold Occurs same
    rw [hd.ci, hd.lower]
    by_cases lp : p < set.length
    · rw [List.drop_eq_getElem_cons lp]
      simp only [List.map_cons, List.map_nil, List.cons_prefix_cons, List.nil_prefix, and_true, List.getElem?_eq_getElem lp, Option.some.injEq, exists_eq_left']
      by_cases e : v.ci = true
      · simp [e]; try exact ⟨fun q => by first | exact q.symm | exact q.2.symm | omega, fun q => by first | exact q.symm | exact ⟨by omega, q.symm⟩⟩
      · simp [e]; try exact ⟨fun q => by first | exact q.symm | exact q.2.symm | omega, fun q => by first | exact q.symm | exact ⟨by omega, q.symm⟩⟩
    · rw [List.drop_eq_nil_of_le (by omega), List.getElem?_eq_none (by omega)]
      simp
  have same_hit : hit [w[k]] = hit' := by
    cases a : hit [w[k]] with
    | none =>
      rw [a] at h2
      cases b : hit' with
      | none => rfl
      | some p =>
        rw [b] at g2
        exact absurd ((occ p).2 g2.1) (h2 p)
    | some p =>
      rw [a] at h2
      obtain ⟨x, x1, x2⟩ := (occ p).1 h2.1
      cases b : hit' with
      | none =>
        rw [b] at g2
        have := g2 x (List.mem_of_getElem? x1)
        rw [x2] at this; cases this
      | some p' =>
        rw [b] at g2
        obtain ⟨⟨y, y1, y2⟩, y3⟩ := g2
        rcases Nat.lt_trichotomy p p' with l | l | l
        · have := y3 p x l x1; rw [x2] at this; cases this
        · rw [l]
        · exact absurd ((occ p').2 ⟨y, y1, y2⟩) (h2.2 p' l)
  have any : (set.any fun x => same u x w[k]) = (hit [w[k]]).isSome := by
    rw [same_hit]
    cases b : hit' with
    | none =>
      rw [b] at g2
      rw [Option.isSome_none, List.any_eq_false]
      intro x hx
      rw [g2 x hx]; decide
    | some p =>
      rw [b] at g2
      obtain ⟨⟨y, y1, y2⟩, _⟩ := g2
      rw [Option.isSome_some, List.any_eq_true]
      exact ⟨y, List.mem_of_getElem? y1, y2⟩
  dsimp only
  rw [any]
  by_cases y : ((hit [w[k]]).isSome ^^ invert) = true
  · rw [if_pos y, if_pos y, same_hit]; exact ⟨rfl, fun j h x => by cases x; omega⟩
  · rw [if_neg y, if_neg y]; exact ⟨rfl, fun j h x => by cases x⟩

theorem spelled_stands {sp : Int → Bool} {t w : List Int} (hs : Stands sp t w) : ∀ {i j : Nat} {x : List Int}, Spelled sp t i x j → ∀ k ≤ w.length, i = place sp t k →
    j = place sp t (k + x.length) ∧ k + x.length ≤ w.length ∧ x = (w.drop k).take x.length := by
  intro i j x h
  induction h with
  | nil i => intro k hk e; exact ⟨e, hk, by simp⟩
  | @cons i i' j u x' p r ih =>
    intro k hk e
    subst e
    by_cases lt : k < w.length
    · have hc : w[k]? = some w[k] := List.getElem?_eq_getElem lt
      rw [stands_at hs hc] at p
      cases p
      have ⟨a, b, d⟩ := ih (k + 1) lt rfl
      refine ⟨by rw [a]; simp; congr 1; omega, by simp; omega, ?_⟩
      rw [List.drop_eq_getElem_cons lt]
      simp only [List.singleton_append, List.length_cons, List.take_succ_cons]
      rw [← d]
    · have : k = w.length := by omega
      subst this
      rw [stands_none hs] at p
      cases p

theorem stands_spelled {sp : Int → Bool} {t w : List Int} (hs : Stands sp t w) : ∀ (d k : Nat), k + d ≤ w.length → Spelled sp t (place sp t k) ((w.drop k).take d) (place sp t (k + d)) := by
  intro d
  induction d with
  | zero => intro k _; simp; exact .nil _
  | succ d ih =>
    intro k hk
    have lt : k < w.length := by omega
    rw [List.drop_eq_getElem_cons lt, List.take_succ_cons, show k + (d + 1) = k + 1 + d from by omega]
    exact .cons (stands_at hs (List.getElem?_eq_getElem lt)) (ih (k + 1) (by omega))

/-- **C144** (strings) `sgml_string` mirrors `wstring`. -/
theorem sgml_string_mirrors {v u : Env} {wd : Wide} {t w : List Int} (hv : v.Ok t) (hw : WOk v wd) (hl : t.length < 2 ^ 64) (hu : u.Ok w) (hd : Wider v wd u) (hs : Stands v.space t w) {str : List Int}
    (hstr : ∀ c ∈ str, c ≠ 0) : LeafMirrors (place v.space t) w.length (sgmlString v wd str) (string u str) := by
  intro k hk
  obtain ⟨r, a, b, d⟩ := sgmlString_spec hv hw hl str _ (along_le (stands_along hv hu hs) hk)
  rw [a, string_spec hu hstr k hk, hd.ci, hd.lower]
  generalize (if v.ci then wd.lower else id) = g at b d ⊢
  by_cases e : ((w.drop k).take str.length).map g = str.map g
  · rw [if_pos e]
    have len : k + str.length ≤ w.length := by
      have := congrArg List.length e
      simp only [List.length_map, List.length_take, List.length_drop] at this
      omega
    cases r with
    | none => exact absurd e (d rfl _ _ (stands_spelled hs str.length k len))
    | some j =>
      obtain ⟨_, _, x, x1, x2⟩ := b j rfl
      have ⟨y1, y2, y3⟩ := spelled_stands hs x1 k hk rfl
      have : x.length = str.length := by have := congrArg List.length x2; simpa using this
      rw [this] at y1
      subst y1
      exact ⟨rfl, fun j h q => by cases q; omega⟩
  · rw [if_neg e]
    refine ⟨?_, fun j h q => by cases q⟩
    cases r with
    | none => rfl
    | some j =>
      obtain ⟨_, _, x, x1, x2⟩ := b j rfl
      have ⟨y1, y2, y3⟩ := spelled_stands hs x1 k hk rfl
      have : x.length = str.length := by have := congrArg List.length x2; simpa using this
      rw [this] at y3
      rw [y3] at x2
      exact absurd x2 e

/-- All entities of the text are known. -/
def Known (sp : Int → Bool) (t : List Int) : Prop := ∀ i nm, t[i]? = some 38 → entityName sp (t.drop (i + 1)) = some nm → meaning nm ≠ none

/-- **C144** (any) `sgml_any_cp` mirrors `wany_cu` if there are no unknown entities, which it takes as a whole. -/
theorem sgml_any_mirrors {v u : Env} {t w : List Int} (hv : v.Ok t) (hu : u.Ok w) (hs : Stands v.space t w) (hn : Known v.space t) : LeafMirrors (place v.space t) w.length (sgmlAny v) (anyCu u) := by
  intro k hk
  rw [sgmlAny_spec hv _ (along_le (stands_along hv hu hs) hk), anyCu_spec hu k hk]
  by_cases lt : k < w.length
  rotate_left
  · have : k = w.length := by omega
    subst this
    rw [List.getElem?_eq_none (Nat.le_refl _), hs.all, List.getElem?_eq_none (Nat.le_refl _)]
    exact ⟨rfl, fun j h x => by cases x⟩
  have hc : w[k]? = some w[k] := List.getElem?_eq_getElem lt
  have hp := stands_at hs hc
  rw [hc]
  refine ⟨?_, fun j h x => by cases x; omega⟩
  unfold pieceAt at hp
  cases q : t[place v.space t k]? with
  | none => rw [q] at hp; cases hp
  | some c =>
    rw [q, Option.map_some] at hp
    have hp := Option.some.inj hp
    dsimp only
    simp only [if_true, Option.map_some]
    by_cases c1 : c = 38
    · rw [if_pos c1] at hp ⊢
      cases hnm : entityName v.space (t.drop (place v.space t k + 1)) with
      | none => rw [hnm] at hp; exact congrArg (fun x : List Int × Nat => some (some (x.2, (none : Option Nat)))) hp
      | some nm =>
        rw [hnm, Option.bind_some] at hp
        cases hm : meaning nm with
        | none => exact absurd hm (hn _ _ (by rw [q, c1]) hnm)
        | some x => rw [hm] at hp; exact congrArg (fun x : List Int × Nat => some (some (x.2, (none : Option Nat)))) hp
    · rw [if_neg c1] at hp ⊢
      exact congrArg (fun x : List Int × Nat => some (some (x.2, (none : Option Nat)))) hp

end Verif.Parser
