import Verif.Parser.Emoticon
/-
The parsers of HTTP line breaks, white space, tokens, quoted strings and values (include/stdex/parser.hpp 5569-5830). They are for `char`,
which is signed: bytes above 127 are negative. `none` is undefined behaviour (or a loop that does not end), as before.
-/
namespace Verif.Parser
open Verif.Str

/-- `i < end && text[i]`: undefined, false, or true with the character -/
def peek (v : Env) (i : Nat) : Option (Option Int) := Str.cond v.s v.fin i

/-- `http_line_break::do_match` 5572-5599 -/
def httpBreak (v : Env) (i : Nat) : Option (Option Nat) :=
  match peek v i with
  | none => none
  | some none => some none
  | some (some c) =>
    if c = 13 then
      match peek v (i + 1) with
      | none => none
      | some d => some (if d = some 10 then some (i + 2) else none)
    else if c = 10 then some (some (i + 1))
    else some none

/-- A loop `for (;;)` that goes on while there is text and the test holds: 5621, 5685-5713, … -/
def scan (v : Env) (p : Int → Bool) : Nat → Nat → Option Nat
  | 0, _ => none
  | fuel + 1, i =>
    match peek v i with
    | none => none
    | some none => some i
    | some (some c) => if p c then scan v p fuel (i + 1) else some i

/-- It takes at least one character. -/
def scan1 (v : Env) (p : Int → Bool) (i : Nat) : Option (Option Nat) :=
  match peek v i with
  | none => none
  | some none => some none
  | some (some c) => if p c then (scan v p (v.s.length + 2) (i + 1)).map some else some none

/-- `http_space::do_match` 5608-5633 -/
def httpSpace (v : Env) (i : Nat) : Option (Option Nat) :=
  match httpBreak v i with
  | none => none
  | some (some e) => scan1 v isspace e
  | some none => scan1 v isspace i

/-- `while (m_space.match(…))`: 5861, 5867, … -/
def httpSpaces (v : Env) : Nat → Nat → Option Nat
  | 0, _ => none
  | fuel + 1, i =>
    match httpSpace v i with
    | none => none
    | some none => some i
    | some (some e) => httpSpaces v fuel e

/-- `http_text_char::do_match` 5644-5666 -/
def httpText (v : Env) (i : Nat) : Option (Option Nat) :=
  match httpSpace v i with
  | none => none
  | some (some e) => some (some e)
  | some none =>
    match peek v i with
    | none => none
    | some none => some none
    | some (some c) => some (if c ≥ 0x20 then some (i + 1) else none)

/-- The tests 5687-5706; `(unsigned int)` makes negative characters large. -/
def isToken (c : Int) : Bool :=
  !(decide (0 ≤ c ∧ c < 0x20) || c == 0x7f || c == 40 || c == 41 || c == 60 || c == 62 || c == 64 || c == 44 || c == 59 || c == 58 || c == 92 || c == 34 || c == 47 || c == 91 || c == 93 || c == 63 || c == 61 ||
    c == 123 || c == 125 || isspace c)

/-- `http_token::do_match` 5677-5722 -/
def httpToken (v : Env) (i : Nat) : Option (Option Nat) :=
  match scan v isToken (v.s.length + 2) i with
  | none => none
  | some e => some (if i < e then some e else none)

/-- The loop 5753-5776: `content.end` -/
def quotedLoop (v : Env) : Nat → Nat → Option (Option Nat)
  | 0, _ => none
  | fuel + 1, e =>
    match peek v e with
    | none => none
    | some none => some none
    | some (some c) =>
      if c = 34 then some (some e)
      else if c = 92 then
        match peek v (e + 1) with
        | none => none
        | some none => some none
        | some (some _) => quotedLoop v fuel (e + 2)
      else
        match httpText v e with
        | none => none
        | some none => some none
        | some (some _) => quotedLoop v fuel (e + 1)

/-- `http_quoted_string::do_match` 5741-5783: `content` and `interval`. At the end 5749 goes on with what follows. -/
def httpQuoted (v : Env) (i : Nat) : Option (Option ((Nat × Nat) × (Nat × Nat))) :=
  match (if below v.fin i then (rd v.s i).map fun c => decide (c = 34) else some true) with
  | none => none
  | some false => some none
  | some true =>
    match quotedLoop v (v.s.length + 2) (i + 1) with
    | none => none
    | some none => some none
    | some (some e) => some (some ((i + 1, e), (i, e + 1)))

/-- `string.content`, `string.interval`, `token.interval` and `interval` -/
structure HttpValue where
  content : Iv
  string : Iv
  token : Iv
  interval : Iv
deriving DecidableEq

/-- `http_value::do_match` 5805-5829 -/
def httpValue (v : Env) (i : Nat) : Option (Bool × HttpValue) :=
  match httpQuoted v i with
  | none => none
  | some (some (c, q)) => some (true, ⟨some c, some q, none, some (i, q.2)⟩)
  | some none =>
    match httpToken v i with
    | none => none
    | some (some e) => some (true, ⟨none, none, some (i, e), some (i, e)⟩)
    | some none => some (false, ⟨none, none, none, none⟩)

/-! ### Specification -/

/-- RFC 2616 (2.2): CRLF, where LF is allowed; the length of the line break -/
def lineBreak : List Int → Option Nat
  | 13 :: 10 :: _ => some 2
  | 10 :: _ => some 1
  | _ => none

/-- RFC 2616 (2.2): `LWS = [CRLF] 1*( SP | HT )`; the length of the longest -/
def lws (r : List Int) : Option Nat :=
  let k := (lineBreak r).getD 0
  let w := ((r.drop k).takeWhile fun c => c == 32 || c == 9).length
  if w = 0 then none else some (k + w)

/-- RFC 2616 (2.2): separators -/
def Separator (c : Int) : Prop := c ∈ [40, 41, 60, 62, 64, 44, 59, 58, 92, 34, 47, 91, 93, 63, 61, 123, 125, 32, 9]

/-- RFC 2616 (2.2): `token = 1*<any CHAR except CTLs or separators>` -/
def TokenChar (c : Int) : Prop := 32 ≤ c ∧ c < 127 ∧ ¬ Separator c

/-- What a quoted string may contain: text (but no quote and no backslash), a backslash with any character, white space, and line breaks that are followed by white space. -/
inductive QText : List Int → Prop
  | nil : QText []
  | chr {c w} : 32 ≤ c → c ≠ 34 → c ≠ 92 → QText w → QText (c :: w)
  | pair {c w} : QText w → QText (92 :: c :: w)
  | white {c w} : isspace c = true → c ≠ 10 → (c = 13 → w.head? ≠ some 10) → QText w → QText (c :: w)
  | fold {d w} : isspace d = true → QText (d :: w) → QText (10 :: d :: w)
  | crfold {d w} : isspace d = true → QText (10 :: d :: w) → QText (13 :: 10 :: d :: w)

/-! ### Proof -/

theorem peek_at {v : Env} {t : List Int} (h : v.Ok t) {i : Nat} {c : Int} {r : List Int} (hd : t.drop i = c :: r) : peek v i = some (some c) := by
  have := drop_le hd
  unfold peek
  rw [cond_eq h.valid (by rw [← h.text]; omega), ← h.text]
  have := congrArg (fun l : List Int => l[0]?) hd
  simp at this
  rw [this]

theorem peek_end {v : Env} {t : List Int} (h : v.Ok t) {i : Nat} (hi : i ≤ t.length) (hd : t.drop i = []) : peek v i = some none := by
  unfold peek
  rw [cond_eq h.valid (by rw [← h.text]; omega), ← h.text, List.getElem?_eq_none (List.drop_eq_nil_iff.1 hd)]

theorem ok_len {v : Env} {t : List Int} (h : v.Ok t) : t.length ≤ v.s.length := by
  have := text_length_le v.s v.fin
  rw [← h.text] at this
  exact this

theorem drop_len {t r : List Int} {i : Nat} (hd : t.drop i = r) (hi : i ≤ t.length) : i + r.length = t.length := by
  have := congrArg List.length hd
  simp at this
  omega

/-- The rest of the text after `i` -/
theorem break_spec {v : Env} {t : List Int} (h : v.Ok t) {i : Nat} (hi : i ≤ t.length) : httpBreak v i = some ((lineBreak (t.drop i)).map (i + ·)) := by
  unfold httpBreak
  cases hd : t.drop i with
  | nil => rw [peek_end h hi hd]; rfl
  | cons c r =>
    rw [peek_at h hd]
    dsimp only
    by_cases c13 : c = 13
    · subst c13
      rw [if_pos rfl]
      have hl := drop_le hd
      cases r with
      | nil => rw [peek_end h hl (drop_succ hd)]; rfl
      | cons d r =>
        rw [peek_at h (drop_succ hd)]
        dsimp only
        by_cases d10 : d = 10
        · subst d10; rfl
        · rw [if_neg (by simpa using d10)]
          unfold lineBreak
          split
          · rename_i q; cases q; exact absurd rfl d10
          · rename_i q; cases q
          · rfl
    · rw [if_neg c13]
      by_cases c10 : c = 10
      · subst c10; rfl
      · rw [if_neg c10]
        unfold lineBreak
        split
        · rename_i q; cases q; exact absurd rfl c13
        · rename_i q; cases q; exact absurd rfl c10
        · rfl

theorem scan_spec {v : Env} {t : List Int} (h : v.Ok t) (p : Int → Bool) : ∀ (fuel : Nat) {i : Nat}, i ≤ t.length → t.length - i < fuel →
    scan v p fuel i = some (i + ((t.drop i).takeWhile p).length) := by
  intro fuel
  induction fuel with
  | zero => intro i _ q; omega
  | succ fuel ih =>
    intro i hi hf
    unfold scan
    cases hd : t.drop i with
    | nil => rw [peek_end h hi hd]; rfl
    | cons c r =>
      have hl := drop_le hd
      rw [peek_at h hd]
      dsimp only
      by_cases q : p c = true
      · rw [if_pos q, ih hl (by omega), drop_succ hd, List.takeWhile_cons_of_pos q]
        simp; omega
      · rw [if_neg q, List.takeWhile_cons_of_neg q]; rfl

theorem scan_all {v : Env} {t : List Int} (h : v.Ok t) (p : Int → Bool) {i : Nat} (hi : i ≤ t.length) : scan v p (v.s.length + 2) i = some (i + ((t.drop i).takeWhile p).length) :=
  scan_spec h p _ hi (by have := ok_len h; omega)

/-- The length of what is taken, unless it is nothing. -/
def run1 (p : Int → Bool) (r : List Int) : Option Nat := if (r.takeWhile p).length = 0 then none else some (r.takeWhile p).length

theorem scan1_spec {v : Env} {t : List Int} (h : v.Ok t) (p : Int → Bool) {i : Nat} (hi : i ≤ t.length) : scan1 v p i = some ((run1 p (t.drop i)).map (i + ·)) := by
  unfold scan1 run1
  cases hd : t.drop i with
  | nil => rw [peek_end h hi hd]; rfl
  | cons c r =>
    have hl := drop_le hd
    rw [peek_at h hd]
    dsimp only
    by_cases q : p c = true
    · rw [if_pos q, scan_all h p hl, drop_succ hd, List.takeWhile_cons_of_pos q]
      simp; omega
    · rw [if_neg q, List.takeWhile_cons_of_neg q]; rfl

/-- White space as it is taken: all of it after the line break. -/
def blank (r : List Int) : Option Nat :=
  match lineBreak r with
  | some k => (run1 isspace (r.drop k)).map (k + ·)
  | none => run1 isspace r

theorem lineBreak_le {r : List Int} {k : Nat} (h : lineBreak r = some k) : k ≤ r.length ∧ 1 ≤ k := by
  unfold lineBreak at h
  split at h <;> cases h <;> simp

theorem space_spec {v : Env} {t : List Int} (h : v.Ok t) {i : Nat} (hi : i ≤ t.length) : httpSpace v i = some ((blank (t.drop i)).map (i + ·)) := by
  unfold httpSpace blank
  rw [break_spec h hi]
  cases q : lineBreak (t.drop i) with
  | none => exact scan1_spec h _ hi
  | some k =>
    have := (lineBreak_le q).1
    simp at this
    dsimp only [Option.map_some]
    rw [scan1_spec h _ (by omega), List.drop_drop]
    cases run1 isspace (t.drop (i + k)) with
    | none => rfl
    | some w => simp; omega

theorem run1_some {p : Int → Bool} {r : List Int} {k : Nat} (h : run1 p r = some k) : 1 ≤ k ∧ k ≤ r.length ∧ (∀ c ∈ r.take k, p c = true) ∧ ∀ c, (r.drop k).head? = some c → p c = false := by
  unfold run1 at h
  split at h
  · cases h
  · rename_i q
    cases h
    have e : r.takeWhile p = r.take (r.takeWhile p).length := (List.prefix_iff_eq_take.1 (List.takeWhile_prefix p))
    refine ⟨by omega, (List.takeWhile_prefix p).length_le, ?_, ?_⟩
    · rw [← e]
      intro c hc
      exact List.all_eq_true.1 (List.all_takeWhile (l := r) (p := p)) c hc
    · have : r.drop (r.takeWhile p).length = r.dropWhile p := by
        have h1 : r.takeWhile p ++ r.drop (r.takeWhile p).length = r := by conv => lhs; lhs; rw [e]
                                                                           exact List.take_append_drop _ _
        have h2 : r.takeWhile p ++ r.dropWhile p = r := List.takeWhile_append_dropWhile
        exact List.append_cancel_left (h1.trans h2.symm)
      rw [this]
      intro c hc
      have := List.head?_dropWhile_not p r
      rw [hc] at this
      simpa using this

theorem run1_none {p : Int → Bool} {r : List Int} (h : run1 p r = none) : ∀ c, r.head? = some c → p c = false := by
  intro c hc
  cases r with
  | nil => cases hc
  | cons x r =>
    cases hc
    unfold run1 at h
    by_cases q : p c = true
    · rw [List.takeWhile_cons_of_pos q] at h; simp at h
    · simpa using q

theorem blank_pos {r : List Int} {k : Nat} (h : blank r = some k) : 1 ≤ k ∧ k ≤ r.length := by
  unfold blank at h
  split at h
  · rename_i j q
    have := lineBreak_le q
    cases e : run1 isspace (r.drop j) with
    | none => rw [e] at h; cases h
    | some w =>
      rw [e] at h; cases h
      have h2 := run1_some e
      have h3 := h2.2.1
      rw [List.length_drop] at h3
      show 1 ≤ j + w ∧ j + w ≤ r.length
      omega
  · have := run1_some h; exact ⟨this.1, this.2.1⟩

/-- After white space there is none. -/
theorem blank_after {r : List Int} {k : Nat} (h : blank r = some k) : blank (r.drop k) = none := by
  have key : ∀ c, (r.drop k).head? = some c → isspace c = false := by
    unfold blank at h
    split at h
    · rename_i j q
      cases e : run1 isspace (r.drop j) with
      | none => rw [e] at h; cases h
      | some w =>
        rw [e] at h; cases h
        have := (run1_some e).2.2.2
        rw [List.drop_drop] at this
        exact this
    · exact (run1_some h).2.2.2
  cases e : r.drop k with
  | nil => rfl
  | cons c w =>
    have hc := key c (by rw [e]; rfl)
    have h13 : c ≠ 13 := fun q => by rw [q] at hc; revert hc; decide
    have h10 : c ≠ 10 := fun q => by rw [q] at hc; revert hc; decide
    unfold blank
    have : lineBreak (c :: w) = none := by
      unfold lineBreak
      split
      · rename_i q; cases q; exact absurd rfl h13
      · rename_i q; cases q; exact absurd rfl h10
      · rfl
    rw [this]
    unfold run1
    rw [List.takeWhile_cons_of_neg (by rw [hc]; decide)]
    rfl

/-- The `while` loops skip one run of white space. -/
theorem spaces_skip {v : Env} {t : List Int} (h : v.Ok t) {i : Nat} (hi : i ≤ t.length) : httpSpaces v (v.s.length + 2) i = some (i + (blank (t.drop i)).getD 0) := by
  rw [show v.s.length + 2 = (v.s.length + 1) + 1 from rfl]
  unfold httpSpaces
  rw [space_spec h hi]
  cases q : blank (t.drop i) with
  | none => rfl
  | some k =>
    have hk := blank_pos q
    simp at hk
    have a := blank_after q
    rw [List.drop_drop] at a
    dsimp only [Option.map_some]
    unfold httpSpaces
    rw [space_spec h (by omega), a]
    rfl

/-- **C88**, for white space without other characters than spaces and tabs: `http_space` is LWS of RFC 2616. -/
theorem space_lws_partial {v : Env} {t : List Int} (h : v.Ok t) {i : Nat} (hi : i ≤ t.length)
    (hb : ∀ c ∈ ((t.drop i).drop ((lineBreak (t.drop i)).getD 0)).takeWhile isspace, c = 32 ∨ c = 9) : httpSpace v i = some ((lws (t.drop i)).map (i + ·)) := by
  have same : ∀ r : List Int, (∀ c ∈ r.takeWhile isspace, c = 32 ∨ c = 9) → r.takeWhile isspace = r.takeWhile fun c => c == 32 || c == 9 := by
    intro r
    induction r with
    | nil => intro _; rfl
    | cons c r ih =>
      intro q
      by_cases s : isspace c = true
      · rw [List.takeWhile_cons_of_pos s] at q ⊢
        have hc := q c (by simp)
        rw [List.takeWhile_cons_of_pos (by simpa using hc), ih (fun x hx => q x (by simp [hx]))]
      · rw [List.takeWhile_cons_of_neg s, List.takeWhile_cons_of_neg]
        intro u
        have u : c = 32 ∨ c = 9 := by simpa using u
        apply s
        rcases u with rfl | rfl <;> decide
  rw [space_spec h hi]
  unfold blank lws run1
  cases q : lineBreak (t.drop i) with
  | none =>
    rw [q] at hb
    have := same _ hb
    simp only [Option.getD_none, List.drop_zero] at this ⊢
    rw [this]
    simp
  | some k =>
    rw [q] at hb
    have := same _ hb
    simp only [Option.getD_some] at this ⊢
    rw [this]
    split <;> simp

/-- What C88 lacks: white space goes on over line breaks that no white space follows; ` \r\nA` -/
theorem space_break : lws [32, 13, 10, 65] = some 1 ∧ httpSpace (ipEnv [32, 13, 10, 65]) 0 = some (some 3) := by decide

theorem text_spec {v : Env} {t : List Int} (h : v.Ok t) {i : Nat} {c : Int} {r : List Int} (hd : t.drop i = c :: r) :
    httpText v i = some (match blank (c :: r) with | some k => some (i + k) | none => if c ≥ 32 then some (i + 1) else none) := by
  unfold httpText
  have := drop_le hd
  rw [space_spec h (by omega), hd]
  cases blank (c :: r) with
  | some k => rfl
  | none => dsimp only [Option.map_none]; rw [peek_at h hd]

/-! ### Tokens -/

theorem token_char (c : Int) (h : 0 ≤ c) : isToken c = true ↔ TokenChar c ∨ 127 < c := by
  unfold isToken TokenChar Separator isspace
  simp only [Bool.not_eq_true', Bool.or_eq_false_iff, beq_eq_false_iff_ne, decide_eq_false_iff_not, List.mem_cons, List.not_mem_nil, or_false]
  omega

/-- **C88** (tokens) The longest run of token characters; what is not in ASCII counts as one. -/
theorem token_spec {v : Env} {t : List Int} (h : v.Ok t) {i : Nat} (hi : i ≤ t.length) : httpToken v i = some ((run1 isToken (t.drop i)).map (i + ·)) := by
  unfold httpToken run1
  rw [scan_all h isToken hi]
  dsimp only
  by_cases q : ((t.drop i).takeWhile isToken).length = 0
  · rw [if_pos q, if_neg (by omega)]; rfl
  · rw [if_neg q, if_pos (by omega)]; rfl

/-! ### Quoted strings -/

/-- Whether a character may be there. -/
theorem qtext_blank {c : Int} {r : List Int} (h : blank (c :: r) ≠ none) : isspace c = true ∧ (c = 10 → ∃ d w, r = d :: w ∧ isspace d = true) ∧ (c = 13 → ∀ w, r = 10 :: w → ∃ d u, w = d :: u ∧ isspace d = true) := by
  have r1 : ∀ w : List Int, run1 isspace w ≠ none → ∃ d u, w = d :: u ∧ isspace d = true := by
    intro w q
    cases w with
    | nil => exact absurd rfl q
    | cons d u =>
      refine ⟨d, u, rfl, ?_⟩
      cases s : isspace d with
      | true => rfl
      | false =>
        exfalso; apply q
        unfold run1
        rw [List.takeWhile_cons_of_neg (by rw [s]; decide)]; rfl
  unfold blank at h
  split at h
  · rename_i k q
    unfold lineBreak at q
    split at q
    · rename_i w e
      cases e; cases q
      refine ⟨by decide, (fun e => by cases e), fun _ w' e => ?_⟩
      cases e
      apply r1
      intro u
      apply h
      show (run1 isspace _).map _ = none
      rw [show (13 :: 10 :: w : List Int).drop 2 = w from rfl, u]; rfl
    · rename_i w e
      cases e; cases q
      refine ⟨by decide, fun _ => ?_, (fun e => by cases e)⟩
      apply r1
      intro u
      apply h
      show (run1 isspace _).map _ = none
      rw [show (10 :: r : List Int).drop 1 = r from rfl, u]; rfl
    · cases q
  · rename_i q
    obtain ⟨d, u, e, hd⟩ := r1 _ h
    cases e
    refine ⟨hd, fun e => ?_, fun e w e2 => ?_⟩
    · subst e; cases q
    · subst e; subst e2; cases q

theorem qtext_some {c : Int} {r : List Int} (h1 : isspace c = true) (h2 : c = 10 → ∃ d w, r = d :: w ∧ isspace d = true) (h3 : c = 13 → ∀ w, r = 10 :: w → ∃ d u, w = d :: u ∧ isspace d = true) : blank (c :: r) ≠ none := by
  have r1 : ∀ (d : Int) (u : List Int), isspace d = true → run1 isspace (d :: u) ≠ none := by
    intro d u s q
    unfold run1 at q
    rw [List.takeWhile_cons_of_pos s] at q
    simp at q
  unfold blank
  cases q : lineBreak (c :: r) with
  | none => exact r1 _ _ h1
  | some k =>
    dsimp only
    unfold lineBreak at q
    split at q
    · rename_i w e
      cases e; cases q
      obtain ⟨d, u, e, hd⟩ := h3 rfl w rfl
      subst e
      intro n
      rw [Option.map_eq_none_iff] at n
      exact r1 _ _ hd n
    · rename_i w e
      cases e; cases q
      obtain ⟨d, u, e, hd⟩ := h2 rfl
      subst e
      intro n
      rw [Option.map_eq_none_iff] at n
      exact r1 _ _ hd n
    · cases q

theorem quotedLoop_some {v : Env} {t : List Int} (h : v.Ok t) : ∀ (w : List Int), QText w → ∀ (fuel e : Nat) (r : List Int), t.drop e = w ++ 34 :: r → w.length < fuel → quotedLoop v fuel e = some (some (e + w.length)) := by
  have esc : isspace 34 = false := by decide
  intro w hw
  induction hw with
  | nil =>
    intro fuel e r hd hf
    obtain ⟨f, rfl⟩ : ∃ f, fuel = f + 1 := ⟨fuel - 1, by omega⟩
    unfold quotedLoop
    rw [peek_at h hd]
    rfl
  | @chr c w h1 h2 h3 hw ih =>
    intro fuel e r hd hf
    obtain ⟨f, rfl⟩ : ∃ f, fuel = f + 1 := ⟨fuel - 1, by omega⟩
    simp at hf
    rw [List.cons_append] at hd
    unfold quotedLoop
    rw [peek_at h hd]
    dsimp only
    rw [if_neg h2, if_neg h3, text_spec h hd]
    have key : ∃ j, (match blank (c :: (w ++ 34 :: r)) with | some k => some (e + k) | none => if c ≥ 32 then some (e + 1) else none) = some j := by
      split
      · exact ⟨_, rfl⟩
      · rw [if_pos h1]; exact ⟨_, rfl⟩
    obtain ⟨j, hj⟩ := key
    rw [hj]
    dsimp only
    rw [ih f (e + 1) r (drop_succ hd) (by omega)]
    simp; omega
  | @pair c w hw ih =>
    intro fuel e r hd hf
    obtain ⟨f, rfl⟩ : ∃ f, fuel = f + 1 := ⟨fuel - 1, by omega⟩
    simp at hf
    rw [List.cons_append] at hd
    unfold quotedLoop
    rw [peek_at h hd]
    dsimp only
    rw [if_neg (by decide), if_pos rfl, peek_at h (drop_succ hd)]
    dsimp only
    rw [ih f (e + 2) r (drop_succ (drop_succ hd)) (by omega)]
    simp; omega
  | @white c w h1 h2 h3 hw ih =>
    intro fuel e r hd hf
    obtain ⟨f, rfl⟩ : ∃ f, fuel = f + 1 := ⟨fuel - 1, by omega⟩
    simp at hf
    rw [List.cons_append] at hd
    have b : blank (c :: (w ++ 34 :: r)) ≠ none := by
      refine qtext_some h1 (fun e => absurd e h2) ?_
      intro c13 u hu
      cases w with
      | nil => cases hu
      | cons x w => cases hu; exact absurd rfl (h3 c13)
    obtain ⟨k, hk⟩ := Option.ne_none_iff_exists'.1 b
    have n34 : c ≠ 34 := fun q => by rw [q] at h1; revert h1; decide
    have n92 : c ≠ 92 := fun q => by rw [q] at h1; revert h1; decide
    unfold quotedLoop
    rw [peek_at h hd]
    dsimp only
    rw [if_neg n34, if_neg n92, text_spec h hd, hk]
    dsimp only
    rw [ih f (e + 1) r (drop_succ hd) (by omega)]
    simp; omega
  | @fold d w h1 hw ih =>
    intro fuel e r hd hf
    obtain ⟨f, rfl⟩ : ∃ f, fuel = f + 1 := ⟨fuel - 1, by omega⟩
    simp at hf
    rw [List.cons_append] at hd
    have b : blank (10 :: (d :: w ++ 34 :: r)) ≠ none := qtext_some (by decide) (fun _ => ⟨d, _, rfl, h1⟩) (fun q => by cases q)
    obtain ⟨k, hk⟩ := Option.ne_none_iff_exists'.1 b
    unfold quotedLoop
    rw [peek_at h hd]
    dsimp only
    rw [if_neg (by decide), if_neg (by decide), text_spec h hd, hk]
    dsimp only
    rw [ih f (e + 1) r (drop_succ hd) (by simp; omega)]
    simp; omega
  | @crfold d w h1 hw ih =>
    intro fuel e r hd hf
    obtain ⟨f, rfl⟩ : ∃ f, fuel = f + 1 := ⟨fuel - 1, by omega⟩
    simp at hf
    rw [List.cons_append] at hd
    have b : blank (13 :: (10 :: d :: w ++ 34 :: r)) ≠ none := qtext_some (by decide) (fun q => by cases q) (fun _ u e => by cases e; exact ⟨d, _, rfl, h1⟩)
    obtain ⟨k, hk⟩ := Option.ne_none_iff_exists'.1 b
    unfold quotedLoop
    rw [peek_at h hd]
    dsimp only
    rw [if_neg (by decide), if_neg (by decide), text_spec h hd, hk]
    dsimp only
    rw [ih f (e + 1) r (drop_succ hd) (by simp; omega)]
    simp; omega

/-- Whether white space may come before what is left of a quoted string. -/
theorem qtext_cons {c : Int} {w r : List Int} (h1 : c ≠ 34) (h2 : c ≠ 92) (hb : blank (c :: (w ++ 34 :: r)) ≠ none ∨ c ≥ 32) (hw : QText w) : QText (c :: w) := by
  by_cases c32 : 32 ≤ c
  · exact .chr c32 h1 h2 hw
  · obtain ⟨s, s10, s13⟩ := qtext_blank (hb.resolve_right (by omega))
    by_cases c10 : c = 10
    · obtain ⟨d, u, e, hd⟩ := s10 c10
      cases w with
      | nil => cases e; exact absurd hd (by decide)
      | cons x w => cases e; subst c10; exact .fold hd hw
    · by_cases c13 : c = 13
      · cases w with
        | nil => exact .white s c10 (fun _ q => by cases q) hw
        | cons x w =>
          by_cases x10 : x = 10
          · subst x10
            obtain ⟨d, u, e, hd⟩ := s13 c13 _ rfl
            cases w with
            | nil => cases e; exact absurd hd (by decide)
            | cons y w => cases e; subst c13; exact .crfold hd hw
          · exact .white s c10 (fun _ q => by cases q; exact x10 rfl) hw
      · exact .white s c10 (fun q => absurd q c13) hw

theorem quotedLoop_total {v : Env} {t : List Int} (h : v.Ok t) : ∀ (fuel e : Nat), e ≤ t.length → t.length - e < fuel →
    (∃ w r, t.drop e = w ++ 34 :: r ∧ QText w) ∨ quotedLoop v fuel e = some none := by
  intro fuel
  induction fuel with
  | zero => intro e _ q; omega
  | succ fuel ih =>
    intro e he hf
    unfold quotedLoop
    cases hd : t.drop e with
    | nil => rw [peek_end h he hd]; exact .inr rfl
    | cons c r =>
      have hl := drop_le hd
      rw [peek_at h hd]
      dsimp only
      by_cases c34 : c = 34
      · subst c34; exact .inl ⟨[], r, rfl, .nil⟩
      · rw [if_neg c34]
        by_cases c92 : c = 92
        · rw [if_pos c92]
          cases r with
          | nil => rw [peek_end h hl (drop_succ hd)]; exact .inr rfl
          | cons d r =>
            have hl2 := drop_le (drop_succ hd)
            rw [peek_at h (drop_succ hd)]
            dsimp only
            rcases ih (e + 2) hl2 (by omega) with ⟨w, u, q, hw⟩ | q
            · rw [drop_succ (drop_succ hd)] at q
              subst c92
              exact .inl ⟨92 :: d :: w, u, by rw [q]; rfl, .pair hw⟩
            · exact .inr q
        · rw [if_neg c92, text_spec h hd]
          rcases ih (e + 1) hl (by omega) with ⟨w, u, q, hw⟩ | q
          · rw [drop_succ hd] at q
            cases b : blank (c :: r) with
            | some k =>
              refine .inl ⟨c :: w, u, by rw [q]; rfl, qtext_cons (r := u) c34 c92 (.inl ?_) hw⟩
              rw [← q, b]; exact (fun e => nomatch e)
            | none =>
              dsimp only
              by_cases c32 : c ≥ 32
              · exact .inl ⟨c :: w, u, by rw [q]; rfl, .chr c32 c34 c92 hw⟩
              · rw [if_neg c32]; exact .inr rfl
          · split
            · rename_i x; cases x
            · exact .inr rfl
            · exact .inr q

/-- **C88** (quoted strings) A quoted string is matched if there is one, from quote to quote, and nothing else. -/
theorem quoted_spec {v : Env} {t : List Int} (h : v.Ok t) {i : Nat} (hi : i ≤ t.length) :
    (∀ w r, t.drop i = 34 :: w ++ 34 :: r → QText w → httpQuoted v i = some (some ((i + 1, i + 1 + w.length), (i, i + w.length + 2)))) ∧
    ((∀ w r, t.drop i = 34 :: w ++ 34 :: r → ¬ QText w) → httpQuoted v i = some none) := by
  have first : ∀ c r, t.drop i = c :: r → below v.fin i = true ∧ rd v.s i = some c := by
    intro c r hd
    have := peek_at h hd
    unfold peek Str.cond at this
    split at this
    · rename_i b
      refine ⟨b, ?_⟩
      cases q : rd v.s i with
      | none => rw [q] at this; cases this
      | some x =>
        rw [q] at this
        simp only [Option.map_some, Option.some.injEq] at this
        split at this
        · cases this
        · exact this
    · cases this
  refine ⟨?_, ?_⟩
  · intro w r hd hw
    have hl := drop_len hd hi
    simp at hl
    obtain ⟨a, b⟩ := first _ _ hd
    unfold httpQuoted
    rw [if_pos a, b]
    dsimp only [Option.map_some]
    rw [decide_eq_true rfl]
    dsimp only
    rw [quotedLoop_some h w hw (v.s.length + 2) (i + 1) r (drop_succ hd) (by have := ok_len h; omega)]
    dsimp only
    rw [show i + 1 + w.length + 1 = i + w.length + 2 from by omega]
  · intro hn
    unfold httpQuoted
    cases hd : t.drop i with
    | nil =>
      -- at the end, either the terminator is read or the end is found by the loop
      have := peek_end h hi hd
      unfold peek Str.cond at this
      split at this
      · rename_i b
        rw [if_pos b]
        cases q : rd v.s i with
        | none => rw [q] at this; cases this
        | some x =>
          rw [q] at this
          simp only [Option.map_some, Option.some.injEq] at this
          split at this
          · rename_i x0; subst x0; rfl
          · cases this
      · rename_i b
        rw [if_neg b]
        dsimp only
        rw [show v.s.length + 2 = (v.s.length + 1) + 1 from rfl]
        unfold quotedLoop
        have : peek v (i + 1) = some none := by
          unfold peek Str.cond
          rw [if_neg]
          intro q
          apply b
          unfold below at q ⊢
          split at q
          · rfl
          · simp at q ⊢; omega
        rw [this]
    | cons c r =>
      obtain ⟨a, b⟩ := first _ _ hd
      rw [if_pos a, b]
      dsimp only [Option.map_some]
      by_cases c34 : c = 34
      · rw [decide_eq_true c34]
        have hl := drop_le hd
        dsimp only
        rcases quotedLoop_total h (v.s.length + 2) (i + 1) hl (by have := ok_len h; omega) with ⟨w, u, q, hw⟩ | q
        · rw [drop_succ hd] at q
          exact absurd hw (hn w u (by rw [hd, q, c34]; rfl))
        · rw [q]
      · rw [decide_eq_false c34]

/-- The full statement for quoted strings: text is everything but control characters, here for bytes. -/
def ByteText (c : Int) : Prop := (32 ≤ c ∧ c ≠ 127) ∨ c < 0

/-- A text with backslashes before quotes and backslashes -/
def escapeQuotes : List Int → List Int
  | [] => []
  | c :: w => if c = 34 ∨ c = 92 then 92 :: c :: escapeQuotes w else c :: escapeQuotes w

theorem escape_qtext : ∀ (w : List Int), (∀ c ∈ w, 32 ≤ c) → QText (escapeQuotes w) := by
  intro w
  induction w with
  | nil => intro _; exact .nil
  | cons c w ih =>
    intro hw
    have := ih (fun x hx => hw x (by simp [hx]))
    unfold escapeQuotes
    by_cases q : c = 34 ∨ c = 92
    · rw [if_pos q]; exact .pair this
    · rw [if_neg q]; exact .chr (hw c (by simp)) (by omega) (by omega) this

/-- **C88** (quoted strings, ASCII) What is written with backslashes before quotes and backslashes is matched as a whole. Missing: bytes above 127, as `quoted_byte` shows. -/
theorem quoted_escape_partial {v : Env} {t : List Int} (h : v.Ok t) {i : Nat} (hi : i ≤ t.length) {w r : List Int} (hw : ∀ c ∈ w, 32 ≤ c) (hd : t.drop i = 34 :: escapeQuotes w ++ 34 :: r) :
    httpQuoted v i = some (some ((i + 1, i + 1 + (escapeQuotes w).length), (i, i + (escapeQuotes w).length + 2))) :=
  (quoted_spec h hi).1 _ r hd (escape_qtext w hw)

/-- What C88 lacks: `"ä"` (in Latin-1) is text, but not matched. -/
theorem quoted_byte : ByteText (-28) ∧ httpQuoted (ipEnv [34, -28, 34]) 0 = some none := ⟨.inr (by decide), by decide⟩

/-- **C88** (values) A quoted string or a token, and which of them. -/
theorem value_spec {v : Env} {t : List Int} (h : v.Ok t) {i : Nat} (hi : i ≤ t.length) :
    (∀ w r, t.drop i = 34 :: w ++ 34 :: r → QText w → httpValue v i = some (true, ⟨some (i + 1, i + 1 + w.length), some (i, i + w.length + 2), none, some (i, i + w.length + 2)⟩)) ∧
    (∀ k, run1 isToken (t.drop i) = some k → httpValue v i = some (true, ⟨none, none, some (i, i + k), some (i, i + k)⟩)) ∧
    ((∀ w r, t.drop i = 34 :: w ++ 34 :: r → ¬ QText w) → run1 isToken (t.drop i) = none → httpValue v i = some (false, ⟨none, none, none, none⟩)) := by
  refine ⟨?_, ?_, ?_⟩
  · intro w r hd hw
    unfold httpValue
    rw [(quoted_spec h hi).1 w r hd hw]
  · intro k hk
    have hn : ∀ w r, t.drop i = 34 :: w ++ 34 :: r → ¬ QText w := by
      intro w r hd _
      rw [hd] at hk
      have : run1 isToken (34 :: w ++ 34 :: r) = none := rfl
      rw [this] at hk; cases hk
    unfold httpValue
    rw [(quoted_spec h hi).2 hn]
    dsimp only
    rw [token_spec h hi, hk]
    rfl
  · intro hn hk
    unfold httpValue
    rw [(quoted_spec h hi).2 hn]
    dsimp only
    rw [token_spec h hi, hk]
    rfl

/-- `"a\"\r\n b"` is a quoted string, `"\r\nb"` is not; `ab=` begins with a token. -/
example : httpValue (ipEnv [34, 97, 92, 34, 13, 10, 32, 98, 34]) 0 = some (true, ⟨some (1, 8), some (0, 9), none, some (0, 9)⟩) ∧ httpValue (ipEnv [34, 13, 10, 98, 34]) 0 = some (false, ⟨none, none, none, none⟩) ∧
    httpValue (ipEnv [97, 98, 61]) 0 = some (true, ⟨none, none, some (0, 2), some (0, 2)⟩) := ⟨by decide, by decide, by decide⟩

example : QText [97, 92, 34, 13, 10, 32, 98] ∧ ¬ QText [34] := by
  refine ⟨.chr (by decide) (by decide) (by decide) (.pair (.crfold (by decide) (.fold (by decide) (.chr (by decide) (by decide) (by decide) (.chr (by decide) (by decide) (by decide) .nil))))), ?_⟩
  intro q
  cases q with
  | chr _ a _ _ => exact a rfl
  | white a _ _ _ => revert a; decide

end Verif.Parser
