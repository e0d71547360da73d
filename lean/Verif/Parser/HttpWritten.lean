import Verif.Html.ComesBack
import Verif.Parser.HttpReq
/-
HTTP requests from end to end (include/stdex/parser.hpp 6180-6380, 6820-7140; html.hpp 319-385): what a client writes of parts is what a server gets that parses it.
-/
namespace Verif.Parser
open Verif.Str Verif.Sgml Verif.Html

/-! ### The client -/

/-- Appends `name: value` and a line break, for each. -/
def addHeaders : List (List Int × List Int) → List Int → List Int
  | [], d => d
  | h :: r, d => addHeaders r (d ++ h.1 ++ asc ": " ++ h.2 ++ asc "\r\n")

/-- `verb url type/major.minor`, headers, and an empty line. -/
def writeRequest (verb : List Int) (o : Origin) (segs : List (List Int)) (params : List (List Int × Option (List Int))) (type maj min : List Int) (headers : List (List Int × List Int)) : Option (List Int) :=
  (writeUrl o segs params).map fun url => addHeaders headers (verb ++ asc " " ++ url ++ asc " " ++ type ++ asc "/" ++ maj ++ asc "." ++ min ++ asc "\r\n") ++ asc "\r\n"

/-! ### The server -/

/-- Headers (`http_header`), as long as there are any. -/
def readHeaders (v : Env) : Nat → Nat → Option (List Header × Nat)
  | 0, i => some ([], i)
  | fuel + 1, i =>
    match header v i with
    | none => none
    | some (false, _) => some ([], i)
    | some (true, h) => (readHeaders v fuel ((h.interval.map Prod.snd).getD 0)).map fun r => (h :: r.1, r.2)

/-- `http_request`, headers, `http_line_break`; and where that ends. -/
def readRequest (v : Env) (fuel i : Nat) : Option (Option (Request × List Header × Nat)) :=
  match request v (httpUrl v) i with
  | none => none
  | some (false, _) => some none
  | some (true, r) =>
    match readHeaders v fuel ((r.interval.map Prod.snd).getD 0) with
    | none => none
    | some (hs, j) => (httpBreak v j).map fun b => b.map fun e => (r, hs, e)

/-! ### Proof -/

theorem line_run {p : Int → Prop} {t pre w post : List Int} (ht : t = pre ++ w ++ post) (hw : ∀ c ∈ w, p c ∧ c ≠ 10 ∧ c ≠ 13) {x : Int} (hx : post.head? = some x) (hp : ¬ p x) (n10 : x ≠ 10) (n13 : x ≠ 13) :
    LineTo p t pre.length (pre.length + w.length) := by
  have a : t[pre.length + w.length]? = some x := by
    have := at_end (t := t) (pre := pre ++ w) (post := post) ht
    rw [List.length_append, hx] at this
    exact this
  have lt : pre.length + w.length < t.length := get_lt a
  refine ⟨⟨by omega, fun j h1 h2 => ?_, .inr fun c hc => by rw [a] at hc; rw [← Option.some.inj hc]; exact hp⟩, ?_, lt⟩
  · have l : j - pre.length < w.length := by omega
    have e : t[j]? = some w[j - pre.length] := by rw [ht, List.append_assoc, List.getElem?_append_right h1, List.getElem?_append_left l, List.getElem?_eq_getElem l]
    obtain ⟨k1, k2, k3⟩ := hw _ (List.getElem_mem l)
    refine ⟨?_, _, e, k1⟩
    rintro (q | ⟨q, -⟩)
    · rw [e] at q; exact k2 (Option.some.inj q)
    · rw [e] at q; exact k3 (Option.some.inj q)
  · rintro (q | ⟨q, -⟩)
    · rw [a] at q; exact n10 (Option.some.inj q)
    · rw [a] at q; exact n13 (Option.some.inj q)

theorem lineTo_eq {v : Env} {t : List Int} (h : v.Ok t) {p : Int → Bool} {P : Int → Prop} (hp : ∀ c, p c = true ↔ P c) {i e : Nat} (hl : LineTo P t i e) : lineTo v p i = some (some e) := by
  rcases lineTo_cases h hp (i := i) (by have := hl.1.1; have := hl.2.2; omega) with ⟨e', c, k, -, -, -, -, k'⟩ | ⟨n, -⟩
  · rw [k', lineTo_one k hl]
  · exact absurd hl (n e)

theorem white32 : White 32 := .inl rfl

theorem not_white {c : Int} (h : ¬ White c) : c ≠ 10 ∧ c ≠ 13 := by unfold White at h; omega

/-- A name of a header is not empty, and has no white space and no colon; a value has no line feed, and no white space on its sides. -/
def HeaderOk (h : List Int × List Int) : Prop := h.1 ≠ [] ∧ (∀ c ∈ h.1, ¬ White c ∧ c ≠ 58) ∧ (∀ c ∈ h.2, c ≠ 10) ∧ (∀ c, h.2.head? = some c → ¬ White c) ∧ ∀ c, h.2.getLast? = some c → ¬ White c

def headerText (h : List Int × List Int) : List Int := h.1 ++ [58, 32] ++ h.2 ++ [13, 10]

theorem addHeaders_eq : ∀ (l : List (List Int × List Int)) (d : List Int), addHeaders l d = d ++ l.flatMap headerText
  | [], d => by rw [addHeaders, List.flatMap_nil, List.append_nil]
  | h :: r, d => by
    rw [addHeaders, addHeaders_eq r, show asc ": " = [58, 32] from by decide +kernel, show asc "\r\n" = [13, 10] from by decide +kernel]
    simp only [List.flatMap_cons, headerText, List.append_assoc]

theorem header_at {t m pre post : List Int} (hm : t <+: m) {h : List Int × List Int} (hh : HeaderOk h) (ht : t = pre ++ headerText h ++ post) (hp : (∃ c, post.head? = some c ∧ ¬ White c) ∨ ∃ post', post = [13, 10] ++ post') :
    ∃ r, HeaderAt t pre.length r ∧ r.interval = some (pre.length, pre.length + (headerText h).length) ∧ r.name.map (textAt m) = some h.1 ∧ r.value.map (textAt m) = if h.2 = [] then none else some h.2 := by
  obtain ⟨more, rfl⟩ := hm
  obtain ⟨n, x⟩ := h
  obtain ⟨-, h1, h2, h3, h4⟩ := hh
  dsimp only at h1 h2 h3 h4 ⊢
  have ht1 : t = pre ++ n ++ ([58, 32] ++ x ++ [13, 10] ++ post) := by rw [ht]; simp only [headerText, List.append_assoc]
  have ht2 : t = (pre ++ n ++ [58, 32]) ++ x ++ ([13, 10] ++ post) := by rw [ht]; simp only [headerText, List.append_assoc]
  have name : LineTo (fun c => ¬ White c ∧ c ≠ 58) t pre.length (pre.length + n.length) := line_run (x := 58) ht1 (fun c hc => ⟨h1 c hc, not_white (h1 c hc).1⟩) rfl (fun q => q.2 rfl) (by decide) (by decide)
  have colon := at_end (t := t) (pre := pre ++ n) (post := [58] ++ ([32] ++ x ++ [13, 10] ++ post)) (by rw [ht1]; simp only [List.append_assoc, List.cons_append, List.nil_append])
  have sp := at_end (t := t) (pre := pre ++ n ++ [58]) (post := [32] ++ (x ++ [13, 10] ++ post)) (by rw [ht1]; simp only [List.append_assoc, List.cons_append, List.nil_append])
  have cr := at_end (t := t) (pre := pre ++ n ++ [58, 32] ++ x) (post := [13] ++ ([10] ++ post)) (by rw [ht2]; simp only [List.append_assoc, List.cons_append, List.nil_append])
  have lf := at_end (t := t) (pre := pre ++ n ++ [58, 32] ++ x ++ [13]) (post := [10] ++ post) (by rw [ht2]; simp only [List.append_assoc, List.cons_append, List.nil_append])
  have nx := at_end (t := t) (pre := pre ++ n ++ [58, 32] ++ x ++ [13, 10]) (post := post) (by rw [ht2]; simp only [List.append_assoc])
  have got := textAt_mid (m := t ++ more) (pre := pre) (w := n) (post := [58, 32] ++ x ++ [13, 10] ++ post ++ more) (by rw [ht1]; simp only [List.append_assoc])
  have got2 := textAt_mid (m := t ++ more) (pre := pre ++ n ++ [58, 32]) (w := x) (post := [13, 10] ++ post ++ more) (by rw [ht2]; simp only [List.append_assoc])
  have l1 : (pre ++ n).length = pre.length + n.length := List.length_append
  have l2 : (pre ++ n ++ [58]).length = pre.length + n.length + 1 := by rw [List.length_append, l1]; rfl
  have l3 : (pre ++ n ++ [58, 32]).length = pre.length + n.length + 2 := by rw [List.length_append, l1]; rfl
  have l4 : (pre ++ n ++ [58, 32] ++ x).length = pre.length + n.length + 2 + x.length := by rw [List.length_append, l3]
  have l5 : (pre ++ n ++ [58, 32] ++ x ++ [13]).length = pre.length + n.length + 2 + x.length + 1 := by rw [List.length_append, l4]; rfl
  have l6 : (pre ++ n ++ [58, 32] ++ x ++ [13, 10]).length = pre.length + n.length + 2 + x.length + 2 := by rw [List.length_append, l4]; rfl
  rw [l1] at colon; rw [l2] at sp; rw [l4] at cr; rw [l5] at lf; rw [l6] at nx; rw [l3] at got2
  have colon : t[pre.length + n.length]? = some 58 := colon
  have sp : t[pre.length + n.length + 1]? = some 32 := sp
  have cr : t[pre.length + n.length + 2 + x.length]? = some 13 := cr
  have lf : t[pre.length + n.length + 2 + x.length + 1]? = some 10 := lf
  have inside : ∀ j, pre.length + n.length + 2 ≤ j → (hj : j < pre.length + n.length + 2 + x.length) → ∃ k, ∃ hk : k < x.length, j = pre.length + n.length + 2 + k ∧ t[j]? = some x[k] := by
    intro j k1 k2
    refine ⟨j - (pre.length + n.length + 2), by omega, by omega, ?_⟩
    rw [ht2, List.append_assoc, List.getElem?_append_right (by omega), l3, List.getElem?_append_left (by omega), List.getElem?_eq_getElem (by omega)]
  have no10 : ∀ j, pre.length + n.length + 1 ≤ j → j ≤ pre.length + n.length + 2 + x.length → t[j]? ≠ some 10 := by
    intro j k1 k2
    by_cases e1 : j = pre.length + n.length + 1
    · rw [e1, sp]; decide
    by_cases e2 : j = pre.length + n.length + 2 + x.length
    · rw [e2, cr]; decide
    obtain ⟨k, hk, -, e⟩ := inside j (by omega) (by omega)
    rw [e]
    exact fun q => h2 _ (List.getElem_mem hk) (Option.some.inj q)
  have brk : BreakTo t (pre.length + n.length + 2 + x.length) (pre.length + n.length + 2 + x.length + 2) := .inr ⟨cr, lf, rfl⟩
  have ends : HeaderEnd t (pre.length + n.length + 1) (pre.length + n.length + 2 + x.length) (pre.length + n.length + 2 + x.length + 2) := by
    refine ⟨by omega, fun j f k1 k2 hb => ?_, .inr ⟨brk, ?_⟩⟩
    · rcases hb.1 with ⟨q, -⟩ | ⟨-, q, -⟩
      · exact no10 j (by omega) (by omega) q
      · exact no10 (j + 1) (by omega) (by omega) q
    · rcases hp with ⟨c, hc, hw⟩ | ⟨post', rfl⟩
      · exact .inr fun d hd => by rw [nx, hc] at hd; rw [← Option.some.inj hd]; exact hw
      · have nx : t[pre.length + n.length + 2 + x.length + 2]? = some 13 := nx
        have lf2 := at_end (t := t) (pre := pre ++ n ++ [58, 32] ++ x ++ [13, 10] ++ [13]) (post := [10] ++ post') (by rw [ht2]; simp only [List.append_assoc, List.cons_append, List.nil_append])
        rw [List.length_append, l6] at lf2
        exact .inl (.inr ⟨nx, lf2⟩)
  have fin : pre.length + (headerText (n, x)).length = pre.length + n.length + 2 + x.length + 2 := by
    simp only [headerText, List.length_append, List.length_cons, List.length_nil]; omega
  rw [fin]
  by_cases hx : x = []
  · subst hx
    refine ⟨⟨some (pre.length, pre.length + n.length), none, some (pre.length, _)⟩, ⟨_, _, _, _, .colon name colon, ends, .empty fun j k1 k2 => ?_, rfl, rfl⟩, rfl, by rw [Option.map_some, got], by rw [if_pos rfl]; rfl⟩
    have : j = pre.length + n.length + 1 := by rw [List.length_nil] at k2; omega
    rw [this]
    exact ⟨32, sp, white32⟩
  · have pos := List.length_pos_iff.2 hx
    refine ⟨⟨some (pre.length, pre.length + n.length), some (pre.length + n.length + 2, pre.length + n.length + 2 + x.length), some (pre.length, _)⟩,
      ⟨_, _, _, _, .colon name colon, ends, .some (by omega) (by omega) (Nat.le_refl _) (fun j k1 k2 => ?_) (fun j k1 k2 => by omega) ?_ ?_, rfl, rfl⟩, rfl, by rw [Option.map_some, got], by rw [Option.map_some, got2, if_neg hx]⟩
    · have : j = pre.length + n.length + 1 := by omega
      rw [this]
      exact ⟨32, sp, white32⟩
    · obtain ⟨k, hk, e1, e⟩ := inside (pre.length + n.length + 2) (by omega) (by omega)
      have : k = 0 := by omega
      subst this
      exact ⟨_, e, h3 _ (by rw [List.head?_eq_getElem?, List.getElem?_eq_getElem hk])⟩
    · obtain ⟨k, hk, e1, e⟩ := inside (pre.length + n.length + 2 + x.length - 1) (by omega) (by omega)
      refine ⟨_, e, h4 _ ?_⟩
      rw [List.getLast?_eq_getElem?, List.getElem?_eq_getElem (by omega)]
      have : k = x.length - 1 := by omega
      subst this
      rfl

theorem header_is {v : Env} {t : List Int} (h : v.Ok t) {i : Nat} {r : Header} (hr : HeaderAt t i r) (hi : i ≤ t.length) : header v i = some (true, r) := by
  rcases header_spec h hi with ⟨r', k1, k2⟩ | ⟨n, -⟩
  · rw [k2, headerAt_one k1 hr]
  · exact absurd hr (n r)

theorem readHeaders_at {v : Env} {t post : List Int} (hv : v.Ok t) : ∀ (l : List (List Int × List Int)) (pre : List Int) (fuel : Nat), (∀ h ∈ l, HeaderOk h) → l.length < fuel → t = pre ++ l.flatMap headerText ++ ([13, 10] ++ post) →
    ∃ hs, readHeaders v fuel pre.length = some (hs, pre.length + (l.flatMap headerText).length) ∧ hs.map (fun h => (h.name.map (textAt v.s), h.value.map (textAt v.s))) = l.map fun h => (some h.1, if h.2 = [] then none else some h.2)
  | [], pre, fuel, _, hf, ht => by
    obtain ⟨fuel, rfl⟩ : ∃ k, fuel = k + 1 := ⟨fuel - 1, by simp only [List.length_nil] at hf; omega⟩
    have ht : t = pre ++ ([13, 10] ++ post) := by rw [ht, List.flatMap_nil, List.append_nil]
    have a := at_end ht
    have a : t[pre.length]? = some 13 := a
    rcases header_spec hv (i := pre.length) (by have := get_lt a; omega) with ⟨r, ⟨p, b, d, e, k, -⟩, -⟩ | ⟨-, k⟩
    · exfalso
      have nw : ∀ {p}, LineTo (fun c => ¬ White c ∧ c ≠ 58) t pre.length p → p = pre.length := by
        intro p q
        by_cases z : pre.length < p
        · obtain ⟨-, c, c1, c2, -⟩ := q.1.2.1 _ (Nat.le_refl _) z
          rw [a] at c1
          rw [← Option.some.inj c1] at c2
          exact absurd (.inr (by decide)) c2
        · have := q.1.1; omega
      cases k with
      | colon k1 k2 => rw [nw k1, a] at k2; exact absurd k2 (by decide)
      | space k1 k2 _ _ _ => have := nw k2; omega
    · rw [readHeaders, k]
      exact ⟨[], rfl, rfl⟩
  | h :: r, pre, fuel, ho, hf, ht => by
    obtain ⟨fuel, rfl⟩ : ∃ k, fuel = k + 1 := ⟨fuel - 1, by omega⟩
    have ht1 : t = pre ++ headerText h ++ (r.flatMap headerText ++ ([13, 10] ++ post)) := by rw [ht]; simp only [List.flatMap_cons, List.append_assoc]
    have ht2 : t = (pre ++ headerText h) ++ r.flatMap headerText ++ ([13, 10] ++ post) := by rw [ht1]; simp only [List.append_assoc]
    obtain ⟨hd, k1, k2, k3, k4⟩ := header_at (by rw [hv.text]; exact text_prefix _ _) (ho h List.mem_cons_self) ht1 (by
      cases r with
      | nil => exact .inr ⟨post, rfl⟩
      | cons h2 r2 =>
        obtain ⟨ne, ok, -⟩ := ho h2 (List.mem_cons_of_mem _ List.mem_cons_self)
        obtain ⟨n, x⟩ := h2
        cases n with
        | nil => exact absurd rfl ne
        | cons c n => exact .inl ⟨c, rfl, (ok c List.mem_cons_self).1⟩)
    obtain ⟨hs, m1, m2⟩ := readHeaders_at hv r _ fuel (fun x hx => ho x (List.mem_cons_of_mem _ hx)) (by simp only [List.length_cons] at hf; omega) ht2
    have e := header_is hv k1 (by rw [ht]; simp only [List.length_append]; omega)
    rw [List.length_append] at m1
    refine ⟨hd :: hs, ?_, by rw [List.map_cons, List.map_cons, m2, k3, k4]⟩
    rw [readHeaders, e]
    dsimp only
    rw [k2]
    dsimp only [Option.map_some, Option.getD_some]
    rw [m1, Option.map_some]
    simp only [List.flatMap_cons, List.length_append]
    congr 2
    omega

/-- A number of a version -/
def VersionPart (d : List Int) : Prop := (∀ c ∈ d, Decimal c) ∧ decimal d < 256

theorem decimal_ok {c : Int} (h : Decimal c) : c ≠ 46 ∧ ¬ White c := by unfold Decimal at h; unfold White; omega

theorem protocol_at {t m pre post : List Int} (hm : t <+: m) {type maj min : List Int} (h1 : ∀ c ∈ type, c ≠ 47 ∧ ¬ White c) (h2 : VersionPart maj) (h3 : VersionPart min)
    (ht : t = pre ++ (type ++ [47] ++ maj ++ [46] ++ min) ++ ([13, 10] ++ post)) :
    GoodVersion t pre.length ∧ ¬ OpenVersion t pre.length ∧ ∃ p, ProtocolAt true t pre.length p ∧ p.interval = some (pre.length, pre.length + (type ++ [47] ++ maj ++ [46] ++ min).length) ∧
      p.type.map (textAt m) = some type ∧ p.version = decimal maj * 256 + decimal min := by
  obtain ⟨more, rfl⟩ := hm
  have w13 : White 13 := .inr (by decide)
  have ht1 : t = pre ++ type ++ ([47] ++ maj ++ [46] ++ min ++ [13, 10] ++ post) := by rw [ht]; simp only [List.append_assoc]
  have ht2 : t = (pre ++ type ++ [47]) ++ maj ++ ([46] ++ (min ++ [13, 10] ++ post)) := by rw [ht]; simp only [List.append_assoc]
  have ht3 : t = (pre ++ type ++ [47] ++ maj ++ [46]) ++ min ++ ([13] ++ ([10] ++ post)) := by rw [ht]; simp only [List.append_assoc, List.cons_append, List.nil_append]
  have r1 := run_of (p := fun c => c ≠ 47 ∧ ¬ White c) ht1 h1 fun c hc => by
    have : c = 47 := by simpa using hc.symm
    exact fun q => q.1 this
  have r2 := run_of (p := fun c => c ≠ 46 ∧ ¬ White c) ht2 (fun c hc => decimal_ok (h2.1 c hc)) fun c hc => by
    have : c = 46 := by simpa using hc.symm
    exact fun q => q.1 this
  have r3 := run_of (p := fun c => ¬ White c) ht3 (fun c hc => (decimal_ok (h3.1 c hc)).2) fun c hc => by
    have : c = 13 := by simpa using hc.symm
    rw [this]
    exact fun q => q w13
  have a1 := at_end (t := t) (pre := pre ++ type) (post := [47] ++ (maj ++ [46] ++ min ++ [13, 10] ++ post)) (by rw [ht1]; simp only [List.append_assoc])
  have a2 := at_end (t := t) (pre := pre ++ type ++ [47] ++ maj) (post := [46] ++ (min ++ [13, 10] ++ post)) ht2
  have a3 := at_end (t := t) (pre := pre ++ type ++ [47] ++ maj ++ [46] ++ min) (post := [13] ++ ([10] ++ post)) ht3
  have g1 := textAt_mid (m := t ++ more) (pre := pre) (w := type) (post := [47] ++ maj ++ [46] ++ min ++ [13, 10] ++ post ++ more) (by rw [ht1]; simp only [List.append_assoc])
  have g2 := textAt_mid (m := t) (pre := pre ++ type ++ [47]) (w := maj) (post := [46] ++ (min ++ [13, 10] ++ post)) ht2
  have g3 := textAt_mid (m := t) (pre := pre ++ type ++ [47] ++ maj ++ [46]) (w := min) (post := [13] ++ ([10] ++ post)) ht3
  have l1 : (pre ++ type).length = pre.length + type.length := List.length_append
  have l2 : (pre ++ type ++ [47]).length = pre.length + type.length + 1 := by rw [List.length_append, l1]; rfl
  have l3 : (pre ++ type ++ [47] ++ maj).length = pre.length + type.length + 1 + maj.length := by rw [List.length_append, l2]
  have l4 : (pre ++ type ++ [47] ++ maj ++ [46]).length = pre.length + type.length + 1 + maj.length + 1 := by rw [List.length_append, l3]; rfl
  have l5 : (pre ++ type ++ [47] ++ maj ++ [46] ++ min).length = pre.length + type.length + 1 + maj.length + 1 + min.length := by rw [List.length_append, l4]
  rw [l1] at a1; rw [l3] at a2; rw [l5] at a3; rw [l2] at r2 g2; rw [l4] at r3 g3
  have a1 : t[pre.length + type.length]? = some 47 := a1
  have a2 : t[pre.length + type.length + 1 + maj.length]? = some 46 := a2
  have a3 : t[pre.length + type.length + 1 + maj.length + 1 + min.length]? = some 13 := a3
  have lt := get_lt a3
  unfold textAt at g2 g3
  dsimp only at g2 g3
  have fin : pre.length + (type ++ [47] ++ maj ++ [46] ++ min).length = pre.length + type.length + 1 + maj.length + 1 + min.length := by
    simp only [List.length_append, List.length_cons, List.length_nil]; omega
  rw [fin]
  have prot := ProtocolAt.minor (stop := true) r1 a1 r2 a2 r3 (.inl rfl)
  refine ⟨fun a b k1 k2 k3 => ?_, fun ⟨p, k1, k2⟩ => ?_, _, prot, rfl, by rw [Option.map_some, g1], ?_⟩
  · have := runAt_one k1 r1; subst this
    have := runAt_one k3 r2; subst this
    unfold partValue
    rw [g2]
    refine ⟨h2.1, h2.2, fun e _ k5 => ?_⟩
    have := runAt_one k5 r3; subst this
    rw [g3]
    exact h3
  · have := protocolAt_one k1 prot
    subst this
    have := Option.some.inj k2
    have := (Prod.mk.inj this).2
    omega
  · show partValue t _ _ * 0x100 + partValue t _ _ = _
    unfold partValue
    rw [g2, g3]

/-- **C161** What a client writes of a verb, the parts of a URL, a protocol with its version, and headers, a server gets that parses it, wherever it stands: the verb, the server, the port, the segments and the parameters of the URL, unescaped where they are, the protocol and its version, and each header with its name and its value; and it knows where the request ends, whatever follows it. -/
theorem request_comes_back {T : CT} (hT : T.bits = 8) {verb : List Int} (hverb : verb ≠ [] ∧ ∀ c ∈ verb, ¬ White c) {o : Origin} (ho : o.Ok) {segs : List (List Int)} (hs : segs ≠ []) (h : ∀ w ∈ segs, ∀ c ∈ w, T.has c ∧ c ≠ 0)
    {params : List (List Int × Option (List Int))} (hq : ∀ p ∈ params, p.1 ≠ [] ∧ (∀ c ∈ p.1, T.has c ∧ c ≠ 0) ∧ ∀ x, p.2 = some x → ∀ c ∈ x, T.has c ∧ c ≠ 0)
    {type maj min : List Int} (ht : type ≠ [] ∧ ∀ c ∈ type, c ≠ 47 ∧ ¬ White c) (hmaj : VersionPart maj) (hmin : VersionPart min)
    {headers : List (List Int × List Int)} (hh : ∀ x ∈ headers, x.1 ≠ [] ∧ (∀ c ∈ x.1, ¬ White c ∧ c ≠ 58) ∧ (∀ c ∈ x.2, c ≠ 10) ∧ (∀ c, x.2.head? = some c → ¬ White c) ∧ ∀ c, x.2.getLast? = some c → ¬ White c) :
    ∃ text, writeRequest verb o segs params type maj min headers = some text ∧ ∀ (v : Env) (before rest : List Int) (fuel : Nat), v.Ok (before ++ text ++ rest) → below v.fin (before ++ text ++ rest).length = true → v.lower 47 ≠ v.lower 104 → headers.length < fuel →
      ∃ r hs, readRequest v fuel before.length = some (some (r, hs, before.length + text.length)) ∧
        r.verb.map (fun p => (v.s.drop p.1).take (p.2 - p.1)) = some verb ∧
        r.url.server.map (fun p => (v.s.drop p.1).take (p.2 - p.1)) = o.host ∧ r.url.value = o.number ∧ r.url.segments.map (unescapeAt T v.s) = segs.map some ∧
        r.url.params.map (fun q => (unescapeAt T v.s q.name, q.value.map (unescapeAt T v.s))) = params.map (fun p => (some p.1, p.2.map some)) ∧
        r.protocol.type.map (fun p => (v.s.drop p.1).take (p.2 - p.1)) = some type ∧ r.protocol.version = decimal maj * 256 + decimal min ∧
        hs.map (fun h => (h.name.map fun p => (v.s.drop p.1).take (p.2 - p.1), h.value.map fun p => (v.s.drop p.1).take (p.2 - p.1))) = headers.map fun x => (some x.1, if x.2 = [] then none else some x.2) := by
  obtain ⟨url, e1, r1⟩ := url_comes_back hT ho hs h hq
  have lits : asc " " = [32] ∧ asc "/" = [47] ∧ asc "." = [46] ∧ asc "\r\n" = [13, 10] := by decide +kernel
  refine ⟨verb ++ [32] ++ url ++ [32] ++ (type ++ [47] ++ maj ++ [46] ++ min) ++ [13, 10] ++ headers.flatMap headerText ++ [13, 10], ?_, ?_⟩
  · unfold writeRequest
    rw [e1, Option.map_some, addHeaders_eq, lits.1, lits.2.1, lits.2.2.1, lits.2.2.2]
    simp only [List.append_assoc]
  intro v before rest fuel hv hz hl hf
  generalize hdoc : before ++ (verb ++ [32] ++ url ++ [32] ++ (type ++ [47] ++ maj ++ [46] ++ min) ++ [13, 10] ++ headers.flatMap headerText ++ [13, 10]) ++ rest = t at hv hz
  have hm : t <+: v.s := by rw [hv.text]; exact text_prefix _ _
  have w32 := white32
  obtain ⟨tc, ttl, rfl⟩ : ∃ c l, type = c :: l := by cases type with
    | nil => exact absurd rfl ht.1
    | cons c l => exact ⟨c, l, rfl⟩
  obtain ⟨vc, vtl, rfl⟩ : ∃ c l, verb = c :: l := by cases verb with
    | nil => exact absurd rfl hverb.1
    | cons c l => exact ⟨c, l, rfl⟩
  have nwv := hverb.2 vc List.mem_cons_self
  have nwt := (ht.2 tc List.mem_cons_self).2
  obtain ⟨rest1, hrest1⟩ : ∃ r, r = [32] ++ (tc :: ttl ++ [47] ++ maj ++ [46] ++ min) ++ ([13, 10] ++ (headers.flatMap headerText ++ ([13, 10] ++ rest))) := ⟨_, rfl⟩
  have d1 : t = (before ++ (vc :: vtl) ++ [32]) ++ url ++ rest1 := by rw [← hdoc, hrest1]; simp only [List.append_assoc]
  have d2 : t = (before ++ (vc :: vtl) ++ [32] ++ url ++ [32]) ++ (tc :: ttl ++ [47] ++ maj ++ [46] ++ min) ++ ([13, 10] ++ (headers.flatMap headerText ++ ([13, 10] ++ rest))) := by rw [← hdoc]; simp only [List.append_assoc]
  have d3 : t = (before ++ (vc :: vtl) ++ [32] ++ url ++ [32] ++ (tc :: ttl ++ [47] ++ maj ++ [46] ++ min) ++ [13, 10]) ++ headers.flatMap headerText ++ ([13, 10] ++ rest) := by rw [← hdoc]; simp only [List.append_assoc]
  -- The URL
  obtain ⟨u, u1, u2, u3, u4, u5, u6⟩ := r1 v (before ++ (vc :: vtl) ++ [32]) rest1 (by rw [← d1]; exact hv) (by rw [← d1]; exact hz) hl (fun c hc => by
    have : c = 32 := by rw [hrest1] at hc; exact (Option.some.inj hc).symm
    rw [this]; unfold Blank; omega)
  -- Before it
  have s1 : LineTo White t before.length (before.length + ([] : List Int).length) := line_run (pre := before) (w := []) (post := (vc :: vtl) ++ ([32] ++ url ++ rest1)) (by rw [d1]; simp only [List.append_assoc, List.append_nil]) (fun c hc => by cases hc) rfl nwv (not_white nwv).1 (not_white nwv).2
  have s2 : LineTo (fun c => ¬ White c) t before.length (before.length + (vc :: vtl).length) := line_run (pre := before) (w := vc :: vtl) (post := [32] ++ (url ++ rest1)) (by rw [d1]; simp only [List.append_assoc]) (fun c hc => ⟨hverb.2 c hc, not_white (hverb.2 c hc)⟩) rfl (fun q => q w32) (by decide) (by decide)
  have urlHead : ∃ x, (url ++ rest1).head? = some x ∧ ¬ White x := by
    unfold writeUrl at e1
    rw [addSegs_eq (T := T) segs _ h, Option.bind_some, addParams_eq (T := T) params 63 _ _ (by decide +kernel) hq] at e1
    have e1 := (Option.some.inj e1).symm
    rw [e1]
    have n47 : ¬ White 47 := by unfold White; omega
    have n104 : ¬ White 104 := by unfold White; omega
    cases o with
    | path =>
      cases segs with
      | nil => exact absurd rfl hs
      | cons w r =>
        refine ⟨47, ?_, n47⟩
        simp only [segsText, List.flatMap_cons, slash_asc, Origin.text]
        rfl
    | server hst => exact ⟨104, by simp only [Origin.text, http_asc]; rfl, n104⟩
    | port hst d => exact ⟨104, by simp only [Origin.text, http_asc]; rfl, n104⟩
  obtain ⟨x, hx, nwx⟩ := urlHead
  obtain ⟨y, hxy⟩ : ∃ y, url ++ rest1 = x :: y := by
    cases hl : url ++ rest1 with
    | nil => rw [hl] at hx; cases hx
    | cons a y => rw [hl] at hx; cases hx; exact ⟨y, rfl⟩
  have s3 : LineTo White t (before.length + (vc :: vtl).length + 1) (before.length + (vc :: vtl).length + 1) := by
    have := line_run (p := White) (t := t) (pre := before ++ (vc :: vtl) ++ [32]) (w := []) (post := x :: y) (by rw [← hxy, d1]; simp only [List.append_assoc, List.append_nil]) (fun c hc => by cases hc) rfl nwx (not_white nwx).1 (not_white nwx).2
    rw [List.length_append, List.length_append] at this
    exact this
  -- After it
  have lu : (before ++ (vc :: vtl) ++ [32]).length = before.length + (vc :: vtl).length + 1 := by rw [List.length_append, List.length_append]; rfl
  rw [lu] at u1 u2
  have s4 := line_run (p := White) (t := t) (pre := before ++ (vc :: vtl) ++ [32] ++ url) (w := [32]) (post := tc :: (ttl ++ [47] ++ maj ++ [46] ++ min ++ ([13, 10] ++ (headers.flatMap headerText ++ ([13, 10] ++ rest))))) (by
    rw [d2]; simp only [List.append_assoc, List.cons_append, List.nil_append]) (fun c hc => by rw [List.mem_singleton.1 hc]; exact ⟨w32, by decide, by decide⟩) rfl nwt (not_white nwt).1 (not_white nwt).2
  obtain ⟨gv, ov, p, p1, p2, p3, p4⟩ := protocol_at hm ht.2 hmaj hmin d2
  have lp : (before ++ (vc :: vtl) ++ [32] ++ url ++ [32]).length = before.length + (vc :: vtl).length + 1 + url.length + 1 := by rw [List.length_append, List.length_append, lu]; rfl
  have lp0 : (before ++ (vc :: vtl) ++ [32] ++ url).length = before.length + (vc :: vtl).length + 1 + url.length := by rw [List.length_append, lu]
  rw [lp] at gv ov p1 p2
  rw [lp0] at s4
  have s4 : LineTo White t (before.length + (vc :: vtl).length + 1 + url.length) (before.length + (vc :: vtl).length + 1 + url.length + 1) := s4
  have cr := at_end (t := t) (pre := before ++ (vc :: vtl) ++ [32] ++ url ++ [32] ++ (tc :: ttl ++ [47] ++ maj ++ [46] ++ min)) (post := [13] ++ ([10] ++ (headers.flatMap headerText ++ ([13, 10] ++ rest)))) (by rw [d2]; simp only [List.append_assoc, List.cons_append, List.nil_append])
  have lf := at_end (t := t) (pre := before ++ (vc :: vtl) ++ [32] ++ url ++ [32] ++ (tc :: ttl ++ [47] ++ maj ++ [46] ++ min) ++ [13]) (post := [10] ++ (headers.flatMap headerText ++ ([13, 10] ++ rest))) (by rw [d2]; simp only [List.append_assoc, List.cons_append, List.nil_append])
  rw [List.length_append, lp] at cr
  rw [List.length_append, List.length_append, lp] at lf
  generalize hE : before.length + (vc :: vtl).length + 1 + url.length + 1 + (tc :: ttl ++ [47] ++ maj ++ [46] ++ min).length = E at cr lf p2
  have cr : t[E]? = some 13 := cr
  have lf : t[E + 1]? = some 10 := lf
  have line : LineEnd t E (E + 2) := ⟨E, ⟨Nat.le_refl _, fun j k1 k2 => absurd k2 (Nat.not_lt.2 k1), .inl (.inr ⟨cr, lf⟩)⟩, .inl (.inr ⟨cr, lf, rfl⟩)⟩
  have endAt : RequestEnd true t (before.length + (vc :: vtl).length + 1 + url.length) p (E + 2) := .protocol s4 p1 p2 line
  obtain ⟨p', e', k1, k2⟩ := requestEnd_spec hv (b := before.length + (vc :: vtl).length + 1 + url.length) (by have := s4.1.1; have := s4.2.2; omega) (fun c hc => by
    have := lineTo_one hc s4; subst this
    exact ⟨gv, ov, p, p1⟩)
  obtain ⟨rfl, rfl⟩ := requestEnd_one k1 endAt
  have req : request v (httpUrl v) before.length = some (true, ⟨some (before.length, before.length + (vc :: vtl).length), u, p', some (before.length, E + 2)⟩) := by
    unfold request
    rw [lineTo_eq hv isspace_white s1]
    dsimp only
    rw [List.length_nil, Nat.add_zero, lineTo_eq hv notSpace_spec s2]
    dsimp only
    rw [lineTo_eq hv isspace_white s3]
    dsimp only
    rw [u1]
    dsimp only
    rw [u2]
    dsimp only [Option.map_some, Option.getD_some]
    rw [k2]
  -- The headers
  have l3 : (before ++ (vc :: vtl) ++ [32] ++ url ++ [32] ++ (tc :: ttl ++ [47] ++ maj ++ [46] ++ min) ++ [13, 10]).length = E + 2 := by rw [List.length_append, List.length_append, lp, ← hE]; rfl
  obtain ⟨hds, m1, m2⟩ := readHeaders_at hv headers _ fuel hh hf d3
  rw [l3] at m1
  have brk := at_end (t := t) (pre := before ++ (vc :: vtl) ++ [32] ++ url ++ [32] ++ (tc :: ttl ++ [47] ++ maj ++ [46] ++ min) ++ [13, 10] ++ headers.flatMap headerText) (post := [13] ++ ([10] ++ rest)) (by rw [d3]; simp only [List.append_assoc, List.cons_append, List.nil_append])
  have brk2 := at_end (t := t) (pre := before ++ (vc :: vtl) ++ [32] ++ url ++ [32] ++ (tc :: ttl ++ [47] ++ maj ++ [46] ++ min) ++ [13, 10] ++ headers.flatMap headerText ++ [13]) (post := [10] ++ rest) (by rw [d3]; simp only [List.append_assoc, List.cons_append, List.nil_append])
  rw [List.length_append, l3] at brk
  rw [List.length_append, List.length_append, l3] at brk2
  have brk : t[E + 2 + (headers.flatMap headerText).length]? = some 13 := brk
  have brk2 : t[E + 2 + (headers.flatMap headerText).length + 1]? = some 10 := brk2
  have bt : BreakTo t (E + 2 + (headers.flatMap headerText).length) (E + 2 + (headers.flatMap headerText).length + 2) := .inr ⟨brk, brk2, rfl⟩
  have bk : httpBreak v (E + 2 + (headers.flatMap headerText).length) = some (some (E + 2 + (headers.flatMap headerText).length + 2)) := by
    rcases break_cases hv (i := E + 2 + (headers.flatMap headerText).length) (by have := get_lt brk; omega) with ⟨e, j1, -, -, j2⟩ | ⟨n, -⟩
    · rw [j2, breakTo_one j1 bt]
    · exact absurd (breakTo_at bt) n
  obtain ⟨more, hmore⟩ := hm
  have gotVerb := textAt_mid (m := v.s) (pre := before) (w := vc :: vtl) (post := [32] ++ url ++ rest1 ++ more) (by
    rw [← hmore, d1]; simp only [List.append_assoc])
  refine ⟨⟨some (before.length, before.length + (vc :: vtl).length), u, p', some (before.length, E + 2)⟩, hds, ?_, by rw [Option.map_some]; exact congrArg some gotVerb, u3, u4, u5, u6, p3, p4, m2⟩
  unfold readRequest
  rw [req]
  dsimp only [Option.map_some, Option.getD_some]
  rw [m1]
  dsimp only
  rw [bk]
  simp only [Option.map_some]
  congr 3
  rw [← hE]
  simp only [List.length_append, List.length_cons, List.length_nil]
  congr 1
  omega

/-! ### Requests one after another -/

/-- What a client asks for. -/
structure Asked where
  verb : List Int
  origin : Origin
  segs : List (List Int)
  params : List (List Int × Option (List Int))
  type : List Int
  maj : List Int
  min : List Int
  headers : List (List Int × List Int)

def Asked.write (a : Asked) : Option (List Int) := writeRequest a.verb a.origin a.segs a.params a.type a.maj a.min a.headers

/-- Appends requests. -/
def writeAll : List Asked → Option (List Int)
  | [] => some []
  | a :: r => a.write.bind fun t => (writeAll r).map fun u => t ++ u

/-- Reads requests as long as there are any, `n` at most. -/
def readAll (v : Env) (fuel : Nat) : Nat → Nat → Option (List (Request × List Header) × Nat)
  | 0, i => some ([], i)
  | n + 1, i =>
    match readRequest v fuel i with
    | none => none
    | some none => some ([], i)
    | some (some (r, hs, e)) => (readAll v fuel n e).map fun x => ((r, hs) :: x.1, x.2)

/-- What may be asked for: see `request_comes_back`. -/
def Asked.Ok (T : CT) (a : Asked) : Prop :=
  (a.verb ≠ [] ∧ ∀ c ∈ a.verb, ¬ White c) ∧ a.origin.Ok ∧ a.segs ≠ [] ∧ (∀ w ∈ a.segs, ∀ c ∈ w, T.has c ∧ c ≠ 0) ∧
  (∀ p ∈ a.params, p.1 ≠ [] ∧ (∀ c ∈ p.1, T.has c ∧ c ≠ 0) ∧ ∀ x, p.2 = some x → ∀ c ∈ x, T.has c ∧ c ≠ 0) ∧
  (a.type ≠ [] ∧ ∀ c ∈ a.type, c ≠ 47 ∧ ¬ White c) ∧ VersionPart a.maj ∧ VersionPart a.min ∧
  ∀ x ∈ a.headers, x.1 ≠ [] ∧ (∀ c ∈ x.1, ¬ White c ∧ c ≠ 58) ∧ (∀ c ∈ x.2, c ≠ 10) ∧ (∀ c, x.2.head? = some c → ¬ White c) ∧ ∀ c, x.2.getLast? = some c → ¬ White c

/-- The request that was read is the one that was asked for, and so are the headers. -/
structure Asked.Is (T : CT) (m : List Int) (a : Asked) (r : Request) (hs : List Header) : Prop where
  verb : r.verb.map (fun p => (m.drop p.1).take (p.2 - p.1)) = some a.verb
  server : r.url.server.map (fun p => (m.drop p.1).take (p.2 - p.1)) = a.origin.host
  port : r.url.value = a.origin.number
  segments : r.url.segments.map (unescapeAt T m) = a.segs.map some
  params : r.url.params.map (fun q => (unescapeAt T m q.name, q.value.map (unescapeAt T m))) = a.params.map (fun p => (some p.1, p.2.map some))
  type : r.protocol.type.map (fun p => (m.drop p.1).take (p.2 - p.1)) = some a.type
  version : r.protocol.version = decimal a.maj * 256 + decimal a.min
  headers : hs.map (fun h => (h.name.map fun p => (m.drop p.1).take (p.2 - p.1), h.value.map fun p => (m.drop p.1).take (p.2 - p.1))) = a.headers.map fun x => (some x.1, if x.2 = [] then none else some x.2)

/-- **C161** Requests that are sent one after another are read one after another: none is split, joined or lost. -/
theorem requests_come_back {T : CT} (hT : T.bits = 8) : ∀ (l : List Asked), (∀ a ∈ l, a.Ok T) →
    ∃ text, writeAll l = some text ∧ ∀ (v : Env) (before rest : List Int) (fuel : Nat), v.Ok (before ++ text ++ rest) → below v.fin (before ++ text ++ rest).length = true → v.lower 47 ≠ v.lower 104 → (∀ a ∈ l, a.headers.length < fuel) →
      ∃ rs, readAll v fuel l.length before.length = some (rs, before.length + text.length) ∧ rs.length = l.length ∧ ∀ x ∈ l.zip rs, Asked.Is T v.s x.1 x.2.1 x.2.2
  | [], _ => ⟨[], rfl, fun _ _ _ _ _ _ _ _ => ⟨[], rfl, rfl, fun _ hx => nomatch hx⟩⟩
  | a :: l, ok => by
    obtain ⟨h1, h2, h3, h4, h5, h6, h7, h8, h9⟩ := ok a List.mem_cons_self
    obtain ⟨t, t1, t2⟩ := request_comes_back hT h1 h2 h3 h4 h5 h6 h7 h8 h9
    obtain ⟨u, u1, u2⟩ := requests_come_back hT l fun x hx => ok x (List.mem_cons_of_mem _ hx)
    refine ⟨t ++ u, by rw [writeAll, show a.write = some t from t1, Option.bind_some, u1, Option.map_some], ?_⟩
    intro v before rest fuel hv hz hl hf
    have e1 : before ++ (t ++ u) ++ rest = before ++ t ++ (u ++ rest) := by simp only [List.append_assoc]
    have e2 : before ++ (t ++ u) ++ rest = before ++ t ++ u ++ rest := by simp only [List.append_assoc]
    obtain ⟨r, hs, k1, k2, k3, k4, k5, k6, k7, k8, k9⟩ := t2 v before (u ++ rest) fuel (e1 ▸ hv) (e1 ▸ hz) hl (hf a List.mem_cons_self)
    obtain ⟨rs, m1, m3, m2⟩ := u2 v (before ++ t) rest fuel (e2 ▸ hv) (e2 ▸ hz) hl fun x hx => hf x (List.mem_cons_of_mem _ hx)
    refine ⟨(r, hs) :: rs, ?_, congrArg (· + 1) m3, fun x hx => ?_⟩
    rotate_left
    · rcases List.mem_cons.1 hx with rfl | hx
      · exact ⟨k2, k3, k4, k5, k6, k7, k8, k9⟩
      · exact m2 x hx
    rw [List.length_append] at m1
    rw [List.length_cons, readAll, k1]
    dsimp only
    rw [m1, Option.map_some, List.length_append, Nat.add_assoc]

/-! ### Cases -/

-- Two requests, of which the first one has a header
example : (readAll (ipEnv (asc "GET /a HTTP/1.1\r\nHost: h.si\r\n\r\nPUT /b HTTP/1.0\r\n\r\n")) 5 2 0).map (fun r => r.1.map fun q => q.1.verb) = some [some (0, 3), some (31, 34)] ∧
    (readAll (ipEnv (asc "GET /a HTTP/1.1\r\nHost: h.si\r\n\r\nPUT /b HTTP/1.0\r\n\r\n")) 5 2 0).map (fun r => (r.1.map fun q => q.2.map Header.value, r.2)) = some ([[some (23, 27)], []], 50) := by decide +kernel

/-- What C161 asks of values: one with a line feed is read as two headers. -/
theorem header_split : addHeaders [(asc "X", asc "a\nY: b")] [] = asc "X: a\nY: b\r\n" ∧ readHeaders (ipEnv (asc "X: a\nY: b\r\n\r\n")) 9 0 =
    some ([⟨some (0, 1), some (3, 4), some (0, 5)⟩, ⟨some (5, 6), some (8, 9), some (5, 11)⟩], 11) := by decide +kernel

-- A request with two headers, one of which has no value
example : readRequest (ipEnv (asc "GET /a?b=c HTTP/1.1\r\nHost: h.si\r\nX: \r\n\r\nbody")) 3 0 =
    some (some (⟨some (0, 3), ⟨none, none, 80, some (4, 6), [(5, 6)], [⟨(7, 8), some (9, 10), (7, 10)⟩], some (4, 10)⟩, ⟨some (11, 15), some (16, 17), some (18, 19), 0x101, some (11, 19)⟩, some (0, 21)⟩,
      [⟨some (21, 25), some (27, 31), some (21, 33)⟩, ⟨some (33, 34), none, some (33, 38)⟩], 40)) := by decide +kernel
example : (asc "GET" ≠ [] ∧ ∀ c ∈ asc "GET", ¬ White c) ∧ (asc "HTTP" ≠ [] ∧ ∀ c ∈ asc "HTTP", c ≠ 47 ∧ ¬ White c) ∧ VersionPart (asc "1") ∧
    ∀ x ∈ [(asc "Host", asc "h.si"), (asc "X", [])], x.1 ≠ [] ∧ (∀ c ∈ x.1, ¬ White c ∧ c ≠ 58) ∧ (∀ c ∈ x.2, c ≠ 10) ∧ (∀ c, x.2.head? = some c → ¬ White c) ∧ ∀ c, x.2.getLast? = some c → ¬ White c := by
  have plain : ∀ w ∈ [asc "GET", asc "HTTP", asc "Host", asc "X", asc "h.si"], w ≠ [] ∧ ∀ c ∈ w, 32 < c ∧ c ≠ 47 ∧ c ≠ 58 := by decide +kernel
  have nw : ∀ w ∈ [asc "GET", asc "HTTP", asc "Host", asc "X", asc "h.si"], ∀ c ∈ w, ¬ White c := fun w hw c hc => by have := (plain w hw).2 c hc; unfold White; omega
  refine ⟨⟨(plain _ (by simp)).1, nw _ (by simp)⟩, ⟨(plain _ (by simp)).1, fun c hc => ⟨((plain (asc "HTTP") (by simp)).2 c hc).2.1, nw (asc "HTTP") (by simp) c hc⟩⟩, ⟨?_, by decide +kernel⟩, ?_⟩
  · have : ∀ c ∈ asc "1", 48 ≤ c ∧ c ≤ 57 := by decide +kernel
    exact this
  · intro x hx
    rcases List.mem_cons.1 hx with rfl | hx
    · refine ⟨(plain _ (by simp)).1, fun c hc => ⟨nw (asc "Host") (by simp) c hc, ((plain (asc "Host") (by simp)).2 c hc).2.2⟩, by decide +kernel, fun c hc => nw (asc "h.si") (by simp) c (List.mem_of_mem_head? hc), fun c hc => nw (asc "h.si") (by simp) c (List.mem_of_mem_getLast? hc)⟩
    · rw [List.mem_singleton.1 hx]
      exact ⟨(plain (asc "X") (by simp)).1, fun c hc => ⟨nw (asc "X") (by simp) c hc, ((plain (asc "X") (by simp)).2 c hc).2.2⟩, (fun c hc => nomatch hc), (fun c hc => nomatch hc), (fun c hc => nomatch hc)⟩

end Verif.Parser
