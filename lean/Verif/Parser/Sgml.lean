import Verif.Parser.Leaf
import Verif.Sgml.Decode
import Verif.Str.Crlf
/-
The parsers of SGML text (include/stdex/parser.hpp 131-167, 248-281, 336-374, 423-454, 501-529, 578-608, 771-808, 861-903).
Wide characters are of 32 bits, where `utf32_to_wstr` (sgml.hpp 77-81) is the identity. A wide string returned by
`next_sgml_cp` is the list of its characters; its memory has a terminator behind.
-/
namespace Verif.Parser
open Verif.Interval Verif.Str Verif.Sgml

/-- The facets of the locale for wide characters. -/
structure Wide where
  lower : Int → Int
  space : Int → Bool
  punct : Int → Bool

/-- The search for the `;` of an entity: `next_sgml_cp` 137-160 (with 143 and 154-157), `sgml_any_cp` 265-272. -/
def entEnd (v : Env) (k : Nat) : Option (Option Nat) :=
  match h : Str.cond v.s v.fin k with
  | none => none
  | some none => some none
  | some (some c) => if c = 59 then some (some k) else if c = 38 ∨ v.space c = true then some none else entEnd v (k + 1)
termination_by v.s.length - k
decreasing_by have := cond_lt h; omega

/-- `next_sgml_cp` 132-166: the wide string and `chr_end`. -/
def nextCp (v : Env) (i : Nat) : Option (List Int × Nat) :=
  match rd v.s i with
  | none => none
  | some c =>
    if c = 38 then
      match entEnd v (i + 1) with
      | none => none
      | some none => some ([c], i + 1)
      | some (some k) =>
        match sgml2uni (v.s.drop (i + 1)) (k - i - 1) with
        | none => none
        | some none => some ([c], i + 1)
        | some (some u) => some (u, k + 1)
    else some ([c], i + 1)

/-- `sgml_any_cp::do_match` 254-280. -/
def sgmlAny (v : Env) : Leaf := fun i =>
  match Str.cond v.s v.fin i with
  | none => none
  | some none => some none
  | some (some c) =>
    if c = 38 then
      match entEnd v (i + 1) with
      | none => none
      | some none => some (some (i + 1, none))
      | some (some k) => some (some (k + 1, none))
    else some (some (i + 1, none))

/-- `start < end && text[start]`, `next_sgml_cp`, then a test that gives the outcome and the hit offset. -/
def onCp (v : Env) (p : List Int → Option (Option (Option Nat))) : Leaf := fun i =>
  match Str.cond v.s v.fin i with
  | none => none
  | some none => some none
  | some (some _) =>
    match nextCp v i with
    | none => none
    | some (u, j) =>
      match p u with
      | none => none
      | some none => some none
      | some (some h) => some (some (j, h))

/-- A test without a hit offset, inverted or not. -/
def flip (invert : Bool) (r : Option Bool) : Option (Option (Option Nat)) :=
  match r with
  | none => none
  | some r => some (if hits r invert then some none else none)

/-- `sgml_cp::do_match` 350-370; `chr` is `m_chr`. -/
def sgmlCp (v : Env) (w : Wide) (chr : List Int) (invert : Bool) : Leaf :=
  onCp v fun u => flip invert (match strnlen (u ++ [0]) none with
    | none => none
    | some n => ((if v.ci then strncmp2 w.lower w.lower (u ++ [0]) (some n) chr (some chr.length) else strncmp2 id id (u ++ [0]) (some n) chr (some chr.length))).map fun r => decide (r = 0))

/-- `sgml_space_cp::do_match` 431-453. -/
def sgmlSpace (v : Env) (w : Wide) (invert : Bool) : Leaf :=
  onCp v fun u => flip invert ((islbreakN (u ++ [0]) (2 ^ 64 - 1)).map fun n => (v.ml || decide (n = 0)) && u.all w.space)

/-- `sgml_punct_cp::do_match` 509-528. -/
def sgmlPunct (v : Env) (w : Wide) (invert : Bool) : Leaf := onCp v fun u => flip invert (some (u.all w.punct))

/-- `sgml_space_or_punct_cp::do_match` 586-607. -/
def sgmlSpaceOrPunct (v : Env) (w : Wide) (invert : Bool) : Leaf :=
  onCp v fun u => flip invert ((islbreakN (u ++ [0]) (2 ^ 64 - 1)).map fun n => (v.ml || decide (n = 0)) && u.all fun c => w.space c || w.punct c)

/-- `sgml_cp_set::do_match` 782-805; `set` is `m_set`. -/
def sgmlSet (v : Env) (w : Wide) (set : List Int) (invert : Bool) : Leaf :=
  onCp v fun u =>
    match (if v.ci then strnstr w.lower w.lower set (some set.length) (u ++ [0]) else strnstr id id set (some set.length) (u ++ [0])) with
    | none => none
    | some r => some (if hits r.isSome invert then some r else none)

/-- The loop of `sgml_string` 891-898: what remains of the string behind the characters of `chr`. -/
def consume (f : Int → Int) : List Int → List Int → Option (List Int)
  | [], str => some str
  | _ :: _, [] => none
  | c :: u, x :: str => if f x ≠ f c then none else consume f u str

/-- The loop of `sgml_string::do_match` 880-899: the string left, and `interval.end`. -/
def sgmlStringLoop (v : Env) (f : Int → Int) : Nat → List Int → Nat → Option (Option Nat)
  | 0, _, _ => none
  | _ + 1, [], e => some (some e)
  | fuel + 1, x :: str, e =>
    match Str.cond v.s v.fin e with
    | none => none
    | some none => some none
    | some (some _) =>
      match nextCp v e with
      | none => none
      | some (u, e') =>
        match consume f u (x :: str) with
        | none => some none
        | some str' => sgmlStringLoop v f fuel str' e'

/-- `sgml_string::do_match` 870-900; `str` is `m_str`. -/
def sgmlString (v : Env) (w : Wide) (str : List Int) : Leaf := fun i =>
  (sgmlStringLoop v (if v.ci then w.lower else id) (v.s.length + 2) str i).map fun r => r.map fun j => (j, none)

/-! ### Specification -/

/-- The name of the entity behind an ampersand: the characters before a `;`, none of which is an ampersand or a space. -/
def entityName (sp : Int → Bool) (r : List Int) : Option (List Int) :=
  match r.dropWhile (fun c => c != 59 && c != 38 && !sp c) with
  | 59 :: _ => some (r.takeWhile fun c => c != 59 && c != 38 && !sp c)
  | _ => none

/-- The text that the piece of SGML at `i` stands for, and where it ends: an entity if there is a known one, or else a
character. -/
def pieceAt (sp : Int → Bool) (t : List Int) (i : Nat) : Option (List Int × Nat) :=
  (t[i]?).map fun c =>
    match (if c = 38 then (entityName sp (t.drop (i + 1))).bind fun nm => (meaning nm).map fun u => (u, i + 1 + nm.length + 1) else none) with
    | some p => p
    | none => ([c], i + 1)

/-- The pieces from `i` to `j` stand for the text `w`. -/
inductive Spelled (sp : Int → Bool) (t : List Int) : Nat → List Int → Nat → Prop
  | nil (i : Nat) : Spelled sp t i [] i
  | cons {i i' j : Nat} {u w : List Int} : pieceAt sp t i = some (u, i') → Spelled sp t i' w j → Spelled sp t i (u ++ w) j

/-- What is needed of the locale besides: `is(space)` includes the white space of `stdex::isspace`; the `tolower` of wide
characters maps only the terminator to the terminator. -/
structure WOk (v : Env) (w : Wide) : Prop where
  space : ∀ c, isspace c = true → v.space c = true
  lower : ∀ c, w.lower c = 0 ↔ c = 0

/-! ### Proofs -/

theorem pairs_ne_zero : pairs.all (fun p => p.2.all fun c => c != 0) = true := by decide +kernel

theorem meaning_ne_zero {nm u : List Int} (h : meaning nm = some u) : ∀ c ∈ u, c ≠ 0 := by
  have key : ∀ n, n < 2 ^ 32 → ∀ c ∈ char32 n, c ≠ 0 := by
    intro n hn c hc
    unfold char32 at hc
    split at hc
    · cases hc
    · split at hc
      · have := List.mem_singleton.1 hc; omega
      · have := List.mem_singleton.1 hc; omega
  have n32 : ∀ r t, num32 r t < 2 ^ 32 := by
    intro r t
    unfold num32
    split <;> omega
  unfold meaning at h
  split at h
  · cases h; exact key _ (n32 _ _)
  · cases h; exact key _ (n32 _ _)
  · cases h; exact key _ (n32 _ _)
  · unfold uniOf at h
    cases hf : pairs.find? (fun e => castL e.1 == nm) with
    | none => rw [hf] at h; cases h
    | some e =>
      rw [hf] at h
      have h := Option.some.inj h
      subst h
      have hm := List.mem_of_find?_eq_some hf
      have := List.all_eq_true.1 pairs_ne_zero e hm
      intro c hc
      unfold castL at hc
      have ⟨x, hx, e2⟩ := List.mem_map.1 hc
      have := List.all_eq_true.1 this x hx
      have : x ≠ 0 := by simpa using this
      subst e2
      simpa using this

theorem entityName_cons (sp : Int → Bool) (c : Int) (r : List Int) : entityName sp (c :: r) =
    if c = 59 then some [] else if c = 38 ∨ sp c = true then none else (entityName sp r).map (c :: ·) := by
  unfold entityName
  by_cases h : c = 59
  · subst h; rfl
  · rw [if_neg h]
    by_cases h2 : c = 38 ∨ sp c = true
    · rw [if_pos h2, List.dropWhile_cons_of_neg (by rcases h2 with q | q <;> simp [q])]
      split
      · rename_i q; cases q; exact absurd rfl h
      · rfl
    · rw [if_neg h2]
      have hp : (c != 59 && c != 38 && !sp c) = true := by
        simp only [not_or] at h2
        simp [h, h2.1, h2.2]
      rw [List.dropWhile_cons_of_pos (p := fun c => c != 59 && c != 38 && !sp c) hp, List.takeWhile_cons_of_pos (p := fun c => c != 59 && c != 38 && !sp c) hp]
      split <;> rfl

theorem entEnd_spec {v : Env} {t : List Int} (h : v.Ok t) : ∀ (d k : Nat), t.length - k = d → k ≤ t.length →
    entEnd v k = some ((entityName v.space (t.drop k)).map fun nm => k + nm.length) := by
  intro d
  induction d with
  | zero =>
    intro k hd hk
    have hk' := hk
    rw [h.text] at hk'
    have hc := cond_eq h.valid hk'
    rw [← h.text, List.getElem?_eq_none (by omega)] at hc
    rw [entEnd]
    split
    · rename_i q; rw [hc] at q; cases q
    · rw [List.drop_eq_nil_of_le (by omega)]; rfl
    · rename_i q; rw [hc] at q; cases q
  | succ d ih =>
    intro k hd hk
    have hlt : k < t.length := by omega
    have hk' := hk
    rw [h.text] at hk'
    have hc := cond_eq h.valid hk'
    rw [← h.text, List.getElem?_eq_getElem hlt] at hc
    rw [entEnd]
    split
    · rename_i q; rw [hc] at q; cases q
    · rename_i q; rw [hc] at q; cases q
    · rename_i c q
      rw [hc] at q
      have q := Option.some.inj (Option.some.inj q)
      subst q
      rw [List.drop_eq_getElem_cons hlt, entityName_cons]
      by_cases c1 : t[k] = 59
      · rw [if_pos c1, if_pos c1]; rfl
      · rw [if_neg c1, if_neg c1]
        by_cases c2 : t[k] = 38 ∨ v.space t[k] = true
        · rw [if_pos c2, if_pos c2]; rfl
        · rw [if_neg c2, if_neg c2, ih (k + 1) (by omega) hlt, Option.map_map]
          congr 2
          funext nm
          simp only [Function.comp_apply, List.length_cons]
          omega

theorem entityName_props {sp : Int → Bool} (hs : ∀ c, isspace c = true → sp c = true) : ∀ {r nm : List Int}, (∀ c ∈ r, c ≠ 0) → entityName sp r = some nm →
    (∀ c ∈ nm, inName c = true) ∧ r.take nm.length = nm ∧ r[nm.length]? = some 59 := by
  intro r
  induction r with
  | nil => intro nm _ h; cases h
  | cons c r ih =>
    intro nm hz h
    rw [entityName_cons] at h
    by_cases c1 : c = 59
    · rw [if_pos c1] at h; cases h; subst c1; exact ⟨(fun _ q => nomatch q), rfl, rfl⟩
    · rw [if_neg c1] at h
      by_cases c2 : c = 38 ∨ sp c = true
      · rw [if_pos c2] at h; cases h
      · rw [if_neg c2] at h
        cases hn : entityName sp r with
        | none => rw [hn] at h; cases h
        | some nm' =>
          rw [hn] at h
          cases h
          have ⟨a, b, d⟩ := ih (fun x hx => hz x (List.mem_cons_of_mem _ hx)) hn
          refine ⟨?_, by simp [b], by simpa using d⟩
          intro x hx
          rcases List.mem_cons.1 hx with rfl | q
          · simp only [not_or] at c2
            have hx0 := hz x List.mem_cons_self
            have hsp : isspace x = false := by
              cases e : isspace x with
              | false => rfl
              | true => exact absurd (hs x e) c2.2
            unfold inName
            simp [c1, hx0, c2.1, hsp]
          · exact a x q

theorem ok_ne_zero {v : Env} {t : List Int} (h : v.Ok t) : ∀ c ∈ t, c ≠ 0 := by
  intro c hc; rw [h.text] at hc; exact text_ne_zero hc

theorem ok_rd {v : Env} {t : List Int} (h : v.Ok t) {i : Nat} {c : Int} (hc : t[i]? = some c) : rd v.s i = some c := by
  have hlt := (List.getElem?_eq_some_iff.1 hc).1
  have hlt' := hlt
  rw [h.text] at hlt'
  rw [text_rd hlt', ← hc, h.text, List.getElem?_eq_getElem hlt']

theorem piece_gt {sp : Int → Bool} {t : List Int} {i j : Nat} {u : List Int} (h : pieceAt sp t i = some (u, j)) : i < j ∧ j ≤ t.length ∧ i < t.length := by
  unfold pieceAt at h
  cases hc : t[i]? with
  | none => rw [hc] at h; cases h
  | some c =>
    have hlt := (List.getElem?_eq_some_iff.1 hc).1
    rw [hc, Option.map_some] at h
    have h := Option.some.inj h
    split at h
    · rename_i p q
      subst h
      split at q
      · cases hn : entityName sp (t.drop (i + 1)) with
        | none => rw [hn] at q; cases q
        | some nm =>
          rw [hn, Option.bind_some] at q
          cases hm : meaning nm with
          | none => rw [hm] at q; cases q
          | some u' =>
            rw [hm] at q
            cases q
            have : (t.drop (i + 1))[nm.length]? = some 59 := by
              have key : ∀ (r nm : List Int), entityName sp r = some nm → r[nm.length]? = some 59 := by
                intro r
                induction r with
                | nil => intro nm h; cases h
                | cons c r ih =>
                  intro nm h
                  rw [entityName_cons] at h
                  by_cases c1 : c = 59
                  · rw [if_pos c1] at h; cases h; subst c1; rfl
                  · rw [if_neg c1] at h
                    by_cases c2 : c = 38 ∨ sp c = true
                    · rw [if_pos c2] at h; cases h
                    · rw [if_neg c2] at h
                      cases hn : entityName sp r with
                      | none => rw [hn] at h; cases h
                      | some nm' => rw [hn] at h; cases h; simpa using ih nm' hn
              exact key _ _ hn
            have := (List.getElem?_eq_some_iff.1 this).1
            rw [List.length_drop] at this
            omega
      · cases q
    · cases h; omega

theorem piece_ne_zero {sp : Int → Bool} {t : List Int} (ht : ∀ c ∈ t, c ≠ 0) {i j : Nat} {u : List Int} (h : pieceAt sp t i = some (u, j)) : ∀ c ∈ u, c ≠ 0 := by
  unfold pieceAt at h
  cases hc : t[i]? with
  | none => rw [hc] at h; cases h
  | some c =>
    rw [hc, Option.map_some] at h
    have h := Option.some.inj h
    split at h
    · rename_i p q
      subst h
      split at q
      · cases hn : entityName sp (t.drop (i + 1)) with
        | none => rw [hn] at q; cases q
        | some nm =>
          rw [hn, Option.bind_some] at q
          cases hm : meaning nm with
          | none => rw [hm] at q; cases q
          | some u' => rw [hm] at q; cases q; exact meaning_ne_zero hm
      · cases q
    · cases h
      intro x hx
      rw [List.mem_singleton.1 hx]
      exact ht c (List.mem_of_getElem? hc)

/-- The number of characters of a text fits in `size_t`. -/
theorem nextCp_spec {v : Env} {w : Wide} {t : List Int} (h : v.Ok t) (hw : WOk v w) (hl : t.length < 2 ^ 64) {i : Nat} (hi : i < t.length) :
    nextCp v i = pieceAt v.space t i := by
  have hc : t[i]? = some t[i] := List.getElem?_eq_getElem hi
  unfold nextCp pieceAt
  rw [ok_rd h hc, hc, Option.map_some]
  dsimp only
  by_cases c1 : t[i] = 38
  · rw [if_pos c1, if_pos c1, entEnd_spec h _ (i + 1) rfl (by omega)]
    cases hn : entityName v.space (t.drop (i + 1)) with
    | none => rfl
    | some nm =>
      have ⟨a, b, d⟩ := entityName_props hw.space (fun c hc => ok_ne_zero h c (List.mem_of_mem_drop hc)) hn
      have hd := (List.getElem?_eq_some_iff.1 d).1
      rw [List.length_drop] at hd
      have hget : ∀ j, j ≤ nm.length → (v.s.drop (i + 1))[j]? = (t.drop (i + 1))[j]? := by
        intro j hj
        rw [List.getElem?_drop, List.getElem?_drop]
        have hlt : i + 1 + j < t.length := by omega
        have := ok_rd h (List.getElem?_eq_getElem hlt)
        rw [List.getElem?_eq_getElem hlt]
        exact this
      have htake : (v.s.drop (i + 1)).take nm.length = nm := by
        rw [← b]
        conv => lhs; rw [b]
        apply List.ext_getElem?
        intro j
        by_cases hj : j < nm.length
        · rw [List.getElem?_take_of_lt hj, List.getElem?_take_of_lt hj]; exact hget j (by omega)
        · rw [List.getElem?_take_eq_none (by omega), List.getElem?_take_eq_none (by omega)]
      have h59 : (v.s.drop (i + 1))[nm.length]? = some 59 := by rw [hget _ (Nat.le_refl _)]; exact d
      have hs := sgml2uni_spec (ent := v.s.drop (i + 1)) (k := nm.length) (by omega) (by rw [htake]; exact a) h59
      simp only [Option.map_some, Option.bind_some]
      rw [show i + 1 + nm.length - i - 1 = nm.length from by omega, hs, htake]
      cases meaning nm <;> rfl
  · rw [if_neg c1, if_neg c1]

/-- What is matched at a piece, by a test of its text. -/
theorem onCp_spec {v : Env} {w : Wide} {t : List Int} (h : v.Ok t) (hw : WOk v w) (hl : t.length < 2 ^ 64) (p : List Int → Option (Option (Option Nat)))
    (q : List Int → Option (Option Nat)) (hp : ∀ u, (∀ c ∈ u, c ≠ 0) → p u = some (q u)) {i : Nat} (hi : i ≤ t.length) :
    onCp v p i = some (match pieceAt v.space t i with | none => none | some (u, j) => (q u).map fun k => (j, k)) := by
  unfold onCp
  have hi' := hi
  rw [h.text] at hi'
  rw [cond_eq h.valid hi', ← h.text]
  by_cases c : i < t.length
  · rw [List.getElem?_eq_getElem c]
    dsimp only
    rw [nextCp_spec h hw hl c]
    cases hq : pieceAt v.space t i with
    | none => unfold pieceAt at hq; rw [List.getElem?_eq_getElem c] at hq; cases hq
    | some x =>
      obtain ⟨u, j⟩ := x
      have hz := piece_ne_zero (ok_ne_zero h) hq
      simp only [hp u hz]
      cases q u <;> rfl
  · have : pieceAt v.space t i = none := by unfold pieceAt; rw [List.getElem?_eq_none (by omega)]; rfl
    rw [List.getElem?_eq_none (by omega), this]

theorem text_term {u : List Int} (h : ∀ c ∈ u, c ≠ 0) : Str.text (u ++ [0]) none = u := by
  show (u ++ [0]).takeWhile _ = u
  rw [List.takeWhile_append_of_pos (by intro c hc; simpa using h c hc)]
  simp

theorem text_term_n {u : List Int} (h : ∀ c ∈ u, c ≠ 0) : Str.text (u ++ [0]) (some u.length) = u := by
  show ((u ++ [0]).take u.length).takeWhile _ = u
  have : (u.take u.length).takeWhile _ = u := text_self h
  rw [List.take_length] at this
  rw [List.take_left]
  exact this

/-! ### Theorems -/

/-- The outcome of a parser of one piece: the text of the piece passes a test. -/
def Piecewise (sp : Int → Bool) (t : List Int) (m : Leaf) (p : List Int → Bool) : Prop :=
  ∀ i ≤ t.length, m i = some (match pieceAt sp t i with | none => none | some (u, j) => if p u then some (j, none) else none)

theorem flip_spec (invert r : Bool) : flip invert (some r) = some (if r ^^ invert then some none else none) := by
  unfold flip; dsimp only; rw [hits_xor]

theorem piecewise_of {v : Env} {w : Wide} {t : List Int} (h : v.Ok t) (hw : WOk v w) (hl : t.length < 2 ^ 64) (invert : Bool) (p : List Int → Option Bool) (r : List Int → Bool)
    (hp : ∀ u, (∀ c ∈ u, c ≠ 0) → p u = some (r u)) : Piecewise v.space t (onCp v fun u => flip invert (p u)) fun u => r u ^^ invert := by
  intro i hi
  rw [onCp_spec h hw hl _ (fun u => if r u ^^ invert then some none else none) (fun u hu => by rw [hp u hu, flip_spec]) hi]
  cases pieceAt v.space t i with
  | none => rfl
  | some x =>
    obtain ⟨u, j⟩ := x
    dsimp only
    split <;> rfl

/-- **C72** Any piece: an entity, known or not, or a character. -/
theorem sgmlAny_spec {v : Env} {t : List Int} (h : v.Ok t) : ∀ i ≤ t.length, sgmlAny v i = some (match t[i]? with
    | none => none
    | some c => some (match (if c = 38 then entityName v.space (t.drop (i + 1)) else none) with | some nm => i + 1 + nm.length + 1 | none => i + 1, none)) := by
  intro i hi
  unfold sgmlAny
  have hi' := hi
  rw [h.text] at hi'
  rw [cond_eq h.valid hi', ← h.text]
  by_cases c : i < t.length
  · rw [List.getElem?_eq_getElem c]
    dsimp only
    by_cases c1 : t[i] = 38
    · rw [if_pos c1, if_pos c1, entEnd_spec h _ (i + 1) rfl (by omega)]
      cases entityName v.space (t.drop (i + 1)) <;> rfl
    · rw [if_neg c1, if_neg c1]
  · rw [List.getElem?_eq_none (by omega)]

theorem dec_beq {r : Int} {a b : List Int} (h : r = 0 ↔ a = b) : decide (r = 0) = (a == b) := by
  by_cases e : a = b
  · rw [decide_eq_true (h.2 e), beq_iff_eq.2 e]
  · rw [decide_eq_false (fun q => e (h.1 q)), beq_eq_false_iff_ne.2 e]

/-- **C72** A piece that stands for the given text. -/
theorem sgmlCp_spec {v : Env} {w : Wide} {t : List Int} (h : v.Ok t) (hw : WOk v w) (hl : t.length < 2 ^ 64) {chr : List Int} (hc : ∀ c ∈ chr, c ≠ 0) (invert : Bool) :
    Piecewise v.space t (sgmlCp v w chr invert) fun u => (if v.ci then u.map w.lower == chr.map w.lower else u == chr) ^^ invert := by
  refine piecewise_of h hw hl invert _ _ fun u hu => ?_
  have hv1 : Valid (u ++ [0]) none := .inl (by simp)
  have hv2 : Valid (u ++ [0]) (some u.length) := .inl (by simp)
  have hv3 : Valid chr (some chr.length) := .inr ⟨_, rfl, Nat.le_refl _⟩
  rw [strnlen_spec hv1, text_term hu]
  dsimp only
  by_cases ci : v.ci = true
  · rw [if_pos ci, if_pos ci]
    have ⟨r, a, b, _⟩ := strncmp_equal w.lower w.lower hv2 hv3 hw.lower hw.lower
    rw [text_term_n hu, text_self hc] at b
    rw [a, Option.map_some, dec_beq b]
  · rw [if_neg ci, if_neg ci]
    have ⟨r, a, b, _⟩ := strncmp_equal id id hv2 hv3 (fun _ => Iff.rfl) (fun _ => Iff.rfl)
    rw [text_term_n hu, text_self hc, List.map_id, List.map_id] at b
    rw [a, Option.map_some, dec_beq b]

/-- The text does not begin with CR or LF. -/
def noBreak (u : List Int) : Bool := u.head? != some 10 && u.head? != some 13

theorem islbreak_term {u : List Int} : ∃ n, islbreakN (u ++ [0]) (2 ^ 64 - 1) = some n ∧ (decide (n = 0)) = noBreak u := by
  unfold islbreakN noBreak
  rw [if_pos (by decide)]
  cases u with
  | nil => exact ⟨0, rfl, rfl⟩
  | cons a u =>
    simp only [List.cons_append, rd, List.getElem?_cons_zero, List.head?_cons]
    by_cases h : a = 13 ∨ a = 10
    · rw [if_pos h]
      have e : (some a != some 10 && some a != some 13) = false := by rcases h with q | q <;> subst q <;> rfl
      rw [e]
      cases u with
      | nil =>
        refine ⟨1, ?_, rfl⟩
        simp
      | cons b u =>
        simp only [List.cons_append, List.getElem?_cons_succ, List.getElem?_cons_zero]
        split
        · exact ⟨2, rfl, rfl⟩
        · exact ⟨1, rfl, rfl⟩
    · rw [if_neg h]
      simp only [not_or] at h
      exact ⟨0, rfl, by simp [h.1, h.2]⟩

/-- **C72** A piece that stands for white space. -/
theorem sgmlSpace_spec {v : Env} {w : Wide} {t : List Int} (h : v.Ok t) (hw : WOk v w) (hl : t.length < 2 ^ 64) (invert : Bool) :
    Piecewise v.space t (sgmlSpace v w invert) fun u => ((v.ml || noBreak u) && u.all w.space) ^^ invert := by
  refine piecewise_of h hw hl invert _ _ fun u hu => ?_
  have ⟨n, a, b⟩ := islbreak_term (u := u)
  rw [a, Option.map_some, b]

theorem sgmlPunct_spec {v : Env} {w : Wide} {t : List Int} (h : v.Ok t) (hw : WOk v w) (hl : t.length < 2 ^ 64) (invert : Bool) :
    Piecewise v.space t (sgmlPunct v w invert) fun u => u.all w.punct ^^ invert :=
  piecewise_of h hw hl invert _ _ fun _ _ => rfl

theorem sgmlSpaceOrPunct_spec {v : Env} {w : Wide} {t : List Int} (h : v.Ok t) (hw : WOk v w) (hl : t.length < 2 ^ 64) (invert : Bool) :
    Piecewise v.space t (sgmlSpaceOrPunct v w invert) fun u => ((v.ml || noBreak u) && u.all fun c => w.space c || w.punct c) ^^ invert := by
  refine piecewise_of h hw hl invert _ _ fun u hu => ?_
  have ⟨n, a, b⟩ := islbreak_term (u := u)
  rw [a, Option.map_some, b]

/-- **C72** A piece whose text occurs in the set; the hit offset is where it does first. -/
theorem sgmlSet_spec {v : Env} {w : Wide} {t : List Int} (h : v.Ok t) (hw : WOk v w) (hl : t.length < 2 ^ 64) {set : List Int} (hc : ∀ c ∈ set, c ≠ 0) (invert : Bool) :
    ∃ hit : List Int → Option Nat, (∀ i ≤ t.length, sgmlSet v w set invert i =
        some (match pieceAt v.space t i with | none => none | some (u, j) => if (hit u).isSome ^^ invert then some (j, hit u) else none)) ∧
      ∀ u, (∀ c ∈ u, c ≠ 0) → (match hit u with
        | some k => Occurs (if v.ci then w.lower else id) (if v.ci then w.lower else id) set u k ∧ ∀ j < k, ¬ Occurs (if v.ci then w.lower else id) (if v.ci then w.lower else id) set u j
        | none => ∀ k, ¬ Occurs (if v.ci then w.lower else id) (if v.ci then w.lower else id) set u k) := by
  have hv : Valid set (some set.length) := .inr ⟨_, rfl, Nat.le_refl _⟩
  have key : ∀ u : List Int, ∃ r, strnstr (if v.ci then w.lower else id) (if v.ci then w.lower else id) set (some set.length) (u ++ [0]) = some r ∧
      ((∀ c ∈ u, c ≠ 0) → match r with
        | some k => Occurs (if v.ci then w.lower else id) (if v.ci then w.lower else id) set u k ∧ ∀ j < k, ¬ Occurs (if v.ci then w.lower else id) (if v.ci then w.lower else id) set u j
        | none => ∀ k, ¬ Occurs (if v.ci then w.lower else id) (if v.ci then w.lower else id) set u k) := by
    intro u
    have ⟨r, a, b⟩ := strnstr_spec (if v.ci then w.lower else id) (if v.ci then w.lower else id) hv (p := u ++ [0]) (by simp)
    refine ⟨r, a, fun hu => ?_⟩
    rw [text_term hu, text_self hc] at b
    exact b
  refine ⟨fun u => (key u).choose, ?_, fun u hu => (key u).choose_spec.2 hu⟩
  intro i hi
  unfold sgmlSet
  rw [onCp_spec h hw hl _ (fun u => if (key u).choose.isSome ^^ invert then some (key u).choose else none) ?_ hi]
  · cases pieceAt v.space t i with
    | none => rfl
    | some x =>
      obtain ⟨u, j⟩ := x
      dsimp only
      split <;> rfl
  · intro u hu
    have e : (if v.ci = true then strnstr w.lower w.lower set (some set.length) (u ++ [0]) else strnstr id id set (some set.length) (u ++ [0])) =
        strnstr (if v.ci then w.lower else id) (if v.ci then w.lower else id) set (some set.length) (u ++ [0]) := by split <;> rfl
    rw [e]
    have hk := (key u).choose_spec.1
    generalize (key u).choose = r at hk ⊢
    rw [hk]
    dsimp only
    rw [hits_xor]

theorem consume_spec (f : Int → Int) : ∀ (u str : List Int), consume f u str = if u.map f <+: str.map f then some (str.drop u.length) else none := by
  intro u
  induction u with
  | nil => intro str; simp [consume]
  | cons c u ih =>
    intro str
    cases str with
    | nil => simp [consume]
    | cons x str =>
      rw [consume, ih]
      simp only [List.map_cons, List.cons_prefix_cons, List.length_cons, List.drop_succ_cons]
      by_cases e : f x = f c
      · rw [if_neg (by simpa using e)]
        by_cases e2 : u.map f <+: str.map f
        · rw [if_pos e2, if_pos ⟨e.symm, e2⟩]
        · rw [if_neg e2, if_neg (fun q => e2 q.2)]
      · rw [if_pos e, if_neg (fun q => e q.1.symm)]

theorem spelled_inv {sp : Int → Bool} {t : List Int} {i j : Nat} {w : List Int} (h : Spelled sp t i w j) (hw : w ≠ []) :
    ∃ u w' i', pieceAt sp t i = some (u, i') ∧ w = u ++ w' ∧ Spelled sp t i' w' j := by
  cases h with
  | nil => exact absurd rfl hw
  | cons a b => exact ⟨_, _, _, a, rfl, b⟩

theorem sgmlStringLoop_spec {v : Env} {w : Wide} {t : List Int} (h : v.Ok t) (hw : WOk v w) (hl : t.length < 2 ^ 64) (f : Int → Int) :
    ∀ (fuel : Nat) (str : List Int) (i : Nat), i ≤ t.length → t.length - i < fuel → ∃ r, sgmlStringLoop v f (fuel + 1) str i = some r ∧
      (∀ j, r = some j → i ≤ j ∧ j ≤ t.length ∧ ∃ x, Spelled v.space t i x j ∧ x.map f = str.map f) ∧
      (r = none → ∀ x j, Spelled v.space t i x j → x.map f ≠ str.map f) := by
  intro fuel
  induction fuel with
  | zero => intro str i _ hf; omega
  | succ fuel ih =>
    intro str i hi hf
    cases str with
    | nil =>
      refine ⟨some i, rfl, ?_, (fun q => nomatch q)⟩
      intro j hj
      have hj : i = j := Option.some.inj hj
      subst hj
      exact ⟨Nat.le_refl _, hi, [], .nil i, rfl⟩
    | cons c str =>
      rw [sgmlStringLoop]
      have hi' := hi
      rw [h.text] at hi'
      rw [cond_eq h.valid hi', ← h.text]
      by_cases hlt : i < t.length
      · rw [List.getElem?_eq_getElem hlt]
        dsimp only
        rw [nextCp_spec h hw hl hlt]
        cases hq : pieceAt v.space t i with
        | none => unfold pieceAt at hq; rw [List.getElem?_eq_getElem hlt] at hq; cases hq
        | some x =>
          obtain ⟨u, i'⟩ := x
          have ⟨g1, g2, _⟩ := piece_gt hq
          dsimp only
          rw [consume_spec]
          by_cases hp : u.map f <+: (c :: str).map f
          · rw [if_pos hp]
            dsimp only
            have ⟨r, a, b, d⟩ := ih ((c :: str).drop u.length) i' g2 (by omega)
            have hsplit : (c :: str).map f = u.map f ++ ((c :: str).drop u.length).map f := by
              have e1 := List.prefix_iff_eq_take.1 hp
              rw [List.length_map] at e1
              rw [e1, ← List.map_take, ← List.map_append, List.take_append_drop]
            refine ⟨r, a, ?_, ?_⟩
            · intro j hj
              have ⟨k1, k2, x, k3, k4⟩ := b j hj
              exact ⟨by omega, k2, u ++ x, .cons hq k3, by rw [List.map_append, k4, hsplit]⟩
            · intro hr x j hs hx
              have ⟨u2, x2, i2, p1, p2, p3⟩ := spelled_inv hs (fun q => by subst q; cases hx)
              rw [hq] at p1
              cases p1
              subst p2
              rw [List.map_append, hsplit] at hx
              exact d hr x2 j p3 (List.append_cancel_left hx)
          · rw [if_neg hp]
            refine ⟨none, rfl, (fun j q => nomatch q), ?_⟩
            intro _ x j hs hx
            have ⟨u2, x2, i2, p1, p2, p3⟩ := spelled_inv hs (fun q => by subst q; cases hx)
            rw [hq] at p1
            cases p1
            subst p2
            rw [List.map_append] at hx
            exact hp ⟨_, hx⟩
      · rw [List.getElem?_eq_none (by omega)]
        refine ⟨none, rfl, (fun j q => nomatch q), ?_⟩
        intro _ x j hs hx
        have ⟨u2, x2, i2, p1, _⟩ := spelled_inv hs (fun q => by subst q; cases hx)
        have := piece_gt p1
        omega

/-- **C72** A string parser matches just when some pieces of the text stand for the string; it then ends behind such. -/
theorem sgmlString_spec {v : Env} {w : Wide} {t : List Int} (h : v.Ok t) (hw : WOk v w) (hl : t.length < 2 ^ 64) (str : List Int) : ∀ i ≤ t.length,
    ∃ r, sgmlString v w str i = some (r.map fun j => (j, none)) ∧
      (∀ j, r = some j → i ≤ j ∧ j ≤ t.length ∧ ∃ x, Spelled v.space t i x j ∧ x.map (if v.ci then w.lower else id) = str.map (if v.ci then w.lower else id)) ∧
      (r = none → ∀ x j, Spelled v.space t i x j → x.map (if v.ci then w.lower else id) ≠ str.map (if v.ci then w.lower else id)) := by
  intro i hi
  have hlen : t.length ≤ v.s.length := by rw [h.text]; exact text_length_le _ _
  have ⟨r, a, b⟩ := sgmlStringLoop_spec h hw hl (if v.ci then w.lower else id) (v.s.length + 1) str i hi (by omega)
  refine ⟨r, ?_, b⟩
  unfold sgmlString
  rw [a]; rfl

/-! ### They are good leaves, and examples -/

theorem piecewise_good {sp : Int → Bool} {t : List Int} {m : Leaf} {p : List Int → Bool} (h : Piecewise sp t m p) : Good t.length (.leaf m) := by
  rw [Good]
  intro i hi
  rw [h i hi]
  refine ⟨(fun q => nomatch q), ?_⟩
  intro j k q
  have q := Option.some.inj q
  cases hc : pieceAt sp t i with
  | none => rw [hc] at q; cases q
  | some x =>
    obtain ⟨u, j'⟩ := x
    rw [hc] at q
    have := piece_gt hc
    dsimp only at q
    split at q
    · cases q; omega
    · cases q

theorem sgmlString_good {v : Env} {w : Wide} {t : List Int} (h : v.Ok t) (hw : WOk v w) (hl : t.length < 2 ^ 64) (str : List Int) : Good t.length (.leaf (sgmlString v w str)) := by
  rw [Good]
  intro i hi
  have ⟨r, a, b, _⟩ := sgmlString_spec h hw hl str i hi
  rw [a]
  refine ⟨(fun q => nomatch q), ?_⟩
  intro j k q
  cases r with
  | none => cases q
  | some r => cases q; have := b j rfl; omega

/-- `a&lt;b` -/
def sdemo : Env := ⟨[97, 38, 108, 116, 59, 98, 0], some 6, false, false, fun c => if 65 ≤ c ∧ c ≤ 90 then c + 32 else c, isspace, ispunct⟩
def wdemo : Wide := ⟨fun c => if 65 ≤ c ∧ c ≤ 90 then c + 32 else c, isspace, ispunct⟩

theorem sdemo_ok : sdemo.Ok [97, 38, 108, 116, 59, 98] ∧ WOk sdemo wdemo :=
  ⟨⟨.inl (by decide), by decide, fun n q => by cases q; decide, fun c => by show (if 65 ≤ c ∧ c ≤ 90 then c + 32 else c) = 0 ↔ c = 0; split <;> omega⟩,
    ⟨fun _ h => h, fun c => by show (if 65 ≤ c ∧ c ≤ 90 then c + 32 else c) = 0 ↔ c = 0; split <;> omega⟩⟩

/-- The pieces of `a&lt;b` from 0 to 5 stand for `a<`. -/
example : pieceAt sdemo.space [97, 38, 108, 116, 59, 98] 1 = some ([60], 5) := by decide +kernel

end Verif.Parser
