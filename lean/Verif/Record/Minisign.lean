import Verif.Stream.Text
import Verif.Codec.Base64Props
/-
Model of `minisign::parse_minisig` (include/stdex/minisign.hpp 24-125).
Characters are unsigned values of `char`; the stream delivers the text in pieces of any size.
-/
namespace Verif.Minisign
open Verif.Stream Verif.B64
variable {σ : Type}

/-- What the call does: results, or one of the two exceptions (115, 117). -/
inductive Result where
  | ok (algorithm : UInt8) (keyId signature : List UInt8)
  | tooShort
  | notMinisign
deriving DecidableEq

/-- The characters compared with, 36-53. -/
def marker : List Nat := [117, 110, 116, 114, 117, 115, 116, 101, 100, 32, 99, 111, 109, 109, 101, 110, 116, 58]

/-- The comparisons `text[start + i] == ...`, 36-53. -/
def compareFrom (text : List Nat) (start : Nat) : Nat → List Nat → Bool
  | _, [] => true
  | i, c :: cs => (text.getD (start + i) 0 == c) && compareFrom text start (i + 1) cs

/-- `untrusted_comment::do_match`, 27-61: whether it matches. -/
def untrustedComment (text : List Nat) (start stop : Nat) : Bool := decide (start + 17 < stop) && compareFrom text start 0 marker

/-- The loop, 102-113: the decoded data. -/
def findData (S : Strm Byte σ) (fuel : Nat) : Nat → σ → Option (List UInt8 × σ)
  | 0, _ => none
  | n + 1, s =>
    match readln S fuel 1 s with                                                             -- 103
    | none => none
    | some (line, s') =>
      if S.state s' ≠ .ok then some ([], s')                                                  -- 104-105
      else if line.isEmpty || untrustedComment line 0 line.length then findData S fuel n s'   -- 106-108
      else some ((Dec.init.decode line).2.1, s')                                             -- 109-111

/-- Lines 114-120. -/
def classify (data : List UInt8) : Result :=
  if data.length < 74 then .tooShort
  else if data.getD 0 0 ≠ 69 then .notMinisign
  else .ok (data.getD 1 0) ((data.drop 2).take 8) ((data.drop 10).take 64)

/-- `parse_minisig`, 97-121. -/
def parseMinisig (S : Strm Byte σ) (fuel : Nat) (s : σ) : Option (Result × σ) := (findData S fuel fuel s).map fun r => (classify r.1, r.2)

/-! ### Specification -/

/-- How comments start. -/
def comment : List Nat := "untrusted comment:".toList.map Char.toNat

/-- A line that is not to be skipped. -/
def Relevant (line : List Nat) : Prop := line ≠ [] ∧ ¬ (comment <+: line)

/-- The line the signature is taken from: the first relevant one among the terminated ones. -/
def SignatureLine (text line : List Nat) : Prop :=
  ∃ ls before after, Lines text ls ∧ ls.dropLast = before ++ line :: after ∧ Relevant line ∧ ∀ l ∈ before, ¬ Relevant l

/-- No terminated line is relevant. -/
def NoSignatureLine (text : List Nat) : Prop := ∃ ls, Lines text ls ∧ ∀ l ∈ ls.dropLast, ¬ Relevant l

/-- The line is base64 of `data`, perhaps with other characters in between. -/
def Encodes (line : List Nat) (data : List UInt8) : Prop := 0 ∉ line ∧ line.filter isB64 = rfc4648 data

/-! ### Proofs -/

theorem compareFrom_prefix (start : Nat) : ∀ (cs text : List Nat) (i : Nat), start + i + cs.length ≤ text.length →
    (compareFrom text start i cs = true ↔ cs <+: text.drop (start + i)) := by
  intro cs
  induction cs with
  | nil => intro text i _; simp [compareFrom]
  | cons c cs ih =>
    intro text i h
    rw [List.length_cons] at h
    have hlt : start + i < text.length := by omega
    rw [compareFrom, Bool.and_eq_true, ih text (i + 1) (by omega), List.drop_eq_getElem_cons hlt, List.cons_prefix_cons]
    rw [List.getD_eq_getElem?_getD, List.getElem?_eq_getElem hlt, Option.getD_some, beq_iff_eq]
    constructor
    · rintro ⟨a, b⟩; exact ⟨a.symm, b⟩
    · rintro ⟨a, b⟩; exact ⟨a.symm, b⟩

theorem untrusted_iff (line : List Nat) : untrustedComment line 0 line.length = true ↔ comment <+: line := by
  rw [← show marker = comment by decide +kernel]
  unfold untrustedComment
  rw [Bool.and_eq_true, decide_eq_true_iff]
  have hm : marker.length = 18 := rfl
  constructor
  · rintro ⟨h1, h2⟩
    exact (compareFrom_prefix 0 marker line 0 (by omega)).1 h2
  · intro h
    have := h.length_le
    exact ⟨by omega, (compareFrom_prefix 0 marker line 0 (by omega)).2 h⟩

theorem skip_iff (line : List Nat) : (line.isEmpty || untrustedComment line 0 line.length) = true ↔ ¬ Relevant line := by
  rw [Bool.or_eq_true, untrusted_iff]
  unfold Relevant
  cases line with
  | nil => simp
  | cons x l => simp

theorem findData_spec {S : Strm Byte σ} {rem : σ → List Byte} (h : IsSource S rem) (fuel : Nat) (hf : 1 < fuel) (l : List Nat) (ls : List (List Nat))
    (hls : Lines l ls) : ∀ (s : σ) (n : Nat), l.length < fuel → l.length < n → (∀ x ∈ l, x < 256 ^ 1) → rem s = l.flatMap (leEnc 1) →
      ∃ s', ((∀ x ∈ ls.dropLast, ¬ Relevant x) → findData S fuel n s = some ([], s')) ∧
        (∀ before line after, ls.dropLast = before ++ line :: after → Relevant line → (∀ x ∈ before, ¬ Relevant x) →
          findData S fuel n s = some ((Dec.init.decode line).2.1, s')) := by
  have step : ∀ (a rest : List Nat) (ls : List (List Nat)), Lines rest ls → ∀ (s s1 : σ) (n : Nat), readln S fuel 1 s = some (a, s1) → S.state s1 = .ok →
      (∃ s', ((∀ x ∈ ls.dropLast, ¬ Relevant x) → findData S fuel n s1 = some ([], s')) ∧
        (∀ before line after, ls.dropLast = before ++ line :: after → Relevant line → (∀ x ∈ before, ¬ Relevant x) →
          findData S fuel n s1 = some ((Dec.init.decode line).2.1, s'))) →
      ∃ s', ((∀ x ∈ (a :: ls).dropLast, ¬ Relevant x) → findData S fuel (n + 1) s = some ([], s')) ∧
        (∀ before line after, (a :: ls).dropLast = before ++ line :: after → Relevant line → (∀ x ∈ before, ¬ Relevant x) →
          findData S fuel (n + 1) s = some ((Dec.init.decode line).2.1, s')) := by
    intro a rest ls hls s s1 n e1 e3 ih
    obtain ⟨s', i1, i2⟩ := ih
    have hne : ls ≠ [] := by cases hls <;> simp
    have hd : (a :: ls).dropLast = a :: ls.dropLast := List.dropLast_cons_of_ne_nil hne
    rw [hd]
    by_cases hr : Relevant a
    · refine ⟨s1, fun q => absurd hr (q a List.mem_cons_self), ?_⟩
      intro before line after e hl hb
      have : line = a := by
        cases before with
        | nil => injection e with e _; exact e.symm
        | cons b before =>
          injection e with e _
          exact absurd (e ▸ hr) (hb b List.mem_cons_self)
      subst this
      rw [findData, e1]
      dsimp only
      rw [if_neg (by simp [e3]), if_neg (by rw [skip_iff]; exact fun q => q hr)]
    · refine ⟨s', fun q => ?_, ?_⟩
      · rw [findData, e1]
        dsimp only
        rw [if_neg (by simp [e3]), if_pos ((skip_iff a).2 hr)]
        exact i1 fun x hx => q x (List.mem_cons_of_mem _ hx)
      · intro before line after e hl hb
        rw [findData, e1]
        dsimp only
        rw [if_neg (by simp [e3]), if_pos ((skip_iff a).2 hr)]
        cases before with
        | nil => injection e with e _; exact absurd (e ▸ hl) hr
        | cons b before =>
          injection e with _ e
          exact i2 before line after e hl fun x hx => hb x (List.mem_cons_of_mem _ hx)
  induction hls with
  | last a ha =>
    intro s n hl hn hx hr
    cases n with
    | zero => omega
    | succ n =>
      obtain ⟨s', e1, e2, e3⟩ := (readln_line h fuel 1 (by decide) hf a s hl hx hr).1 ha
      refine ⟨s', fun _ => ?_, ?_⟩
      · rw [findData, e1]
        simp [e3]
      · intro before line after e
        simp at e
  | lf a rest ls ha h13 hls ih =>
    intro s n hl hn hx hr
    cases n with
    | zero => omega
    | succ n =>
      obtain ⟨s1, e1, e2, e3⟩ := (readln_line h fuel 1 (by decide) hf _ s hl hx hr).2.1 a rest rfl ha h13
      rw [List.length_append, List.length_cons] at hl hn
      exact step a rest ls hls s s1 n e1 e3 (ih s1 n (by omega) (by omega) (fun x hm => hx x (by simp [hm])) e2)
  | crlf a rest ls ha hls ih =>
    intro s n hl hn hx hr
    cases n with
    | zero => omega
    | succ n =>
      obtain ⟨s1, e1, e2, e3⟩ := (readln_line h fuel 1 (by decide) hf _ s hl hx hr).2.2 a rest rfl ha
      rw [List.length_append, List.length_cons, List.length_cons] at hl hn
      exact step a rest ls hls s s1 n e1 e3 (ih s1 n (by omega) (by omega) (fun x hm => hx x (by simp [hm])) e2)

theorem decode_encodes {line : List Nat} {data : List UInt8} (h : Encodes line data) : (Dec.init.decode line).2.1 = data := by
  have := (b64_decode_inverts data [line] (by simpa using h.1) (by simpa using h.2)).1
  simpa [Dec.session] using this

/-- What the call returns is determined by the decoded signature line. -/
theorem parse_line {S : Strm Byte σ} {rem : σ → List Byte} (h : IsSource S rem) (fuel : Nat) (text : List Nat) (s : σ) (hf : text.length + 1 < fuel)
    (hx : ∀ x ∈ text, x < 256) (hr : rem s = text.flatMap (leEnc 1)) {line : List Nat} (hl : SignatureLine text line) :
    ∃ s', parseMinisig S fuel s = some (classify (Dec.init.decode line).2.1, s') := by
  obtain ⟨ls, before, after, h1, h2, h3, h4⟩ := hl
  obtain ⟨s', -, i2⟩ := findData_spec h fuel (by omega) text ls h1 s fuel (by omega) (by omega) (by simpa using hx) hr
  refine ⟨s', ?_⟩
  unfold parseMinisig
  rw [i2 before line after h2 h3 h4]
  rfl

/-- **C59.** The signature line holding the base64 of `data` is accepted iff `data` has at least 74 bytes and starts with 'E'; then the algorithm is the
second byte, the key id the next 8 and the signature the next 64. Otherwise one of the exceptions is thrown. (Missing for the full property: a signature line
at the end of the file that lacks a line break is not seen, see `unterminated_ignored`.) -/
theorem parse_minisig_partial {S : Strm Byte σ} {rem : σ → List Byte} (h : IsSource S rem) (fuel : Nat) (text : List Nat) (s : σ) (hf : text.length + 1 < fuel)
    (hx : ∀ x ∈ text, x < 256) (hr : rem s = text.flatMap (leEnc 1)) {line : List Nat} (hl : SignatureLine text line) {data : List UInt8} (hd : Encodes line data) :
    ∃ r s', parseMinisig S fuel s = some (r, s') ∧
      (∀ a k g, r = .ok a k g ↔ ∃ more, data = 69 :: a :: (k ++ g ++ more) ∧ k.length = 8 ∧ g.length = 64) ∧
      (r = .tooShort ↔ data.length < 74) ∧ (r = .notMinisign ↔ 74 ≤ data.length ∧ data.head? ≠ some 69) := by
  obtain ⟨s', e⟩ := parse_line h fuel text s hf hx hr hl
  rw [decode_encodes hd] at e
  refine ⟨_, s', e, ?_⟩
  unfold classify
  by_cases c : data.length < 74
  · rw [if_pos c]
    refine ⟨?_, ?_, ?_⟩
    · intro a k g
      constructor
      · intro q; cases q
      · rintro ⟨more, rfl, hk, hg⟩
        simp only [List.length_cons, List.length_append] at c
        omega
    · simp [c]
    · constructor
      · intro q; cases q
      · intro q; omega
  · rw [if_neg c]
    obtain ⟨x, y, rest, rfl⟩ : ∃ x y rest, data = x :: y :: rest := by
      match data, c with
      | [], c => exact absurd (by decide) c
      | [_], c => exact absurd (by simp) c
      | x :: y :: rest, _ => exact ⟨x, y, rest, rfl⟩
    have c' := c
    rw [List.length_cons, List.length_cons] at c'
    · skip
      by_cases hE : x = 69
      · subst hE
        rw [if_neg (by simp)]
        refine ⟨?_, ?_, ?_⟩
        · intro a k g
          simp only [List.getD_cons_succ, List.getD_cons_zero, List.drop_succ_cons, List.drop_zero, Result.ok.injEq, List.cons.injEq, true_and]
          constructor
          · rintro ⟨rfl, rfl, rfl⟩
            refine ⟨rest.drop 72, ⟨rfl, ?_⟩, ?_, ?_⟩
            · rw [show rest.drop 72 = (rest.drop 8).drop 64 by rw [List.drop_drop], List.append_assoc, List.take_append_drop, List.take_append_drop]
            · rw [List.length_take]; omega
            · rw [List.length_take, List.length_drop]; omega
          · rintro ⟨more, ⟨rfl, rfl⟩, hk, hg⟩
            refine ⟨rfl, ?_, ?_⟩
            · rw [List.append_assoc, List.take_left' hk]
            · rw [List.append_assoc, List.drop_left' hk, List.take_left' hg]
        · constructor
          · intro q; cases q
          · intro q; exact absurd q c
        · simp
      · rw [if_pos (by simpa using hE)]
        refine ⟨?_, ?_, ?_⟩
        · intro a k g
          constructor
          · intro q; cases q
          · rintro ⟨more, e, -⟩
            injection e with e _
            exact absurd e hE
        · constructor
          · intro q; cases q
          · intro q; exact absurd q c
        · simp only [List.head?_cons, Option.some.injEq, ne_eq, hE, not_false_eq_true, and_true, List.length_cons, true_iff]
          omega

/-- Without a signature line there is no signature. -/
theorem parse_none {S : Strm Byte σ} {rem : σ → List Byte} (h : IsSource S rem) (fuel : Nat) (text : List Nat) (s : σ) (hf : text.length + 1 < fuel)
    (hx : ∀ x ∈ text, x < 256) (hr : rem s = text.flatMap (leEnc 1)) (hn : NoSignatureLine text) : ∃ s', parseMinisig S fuel s = some (.tooShort, s') := by
  obtain ⟨ls, h1, h2⟩ := hn
  obtain ⟨s', i1, -⟩ := findData_spec h fuel (by omega) text ls h1 s fuel (by omega) (by omega) (by simpa using hx) hr
  refine ⟨s', ?_⟩
  unfold parseMinisig
  rw [i1 h2]
  rfl

/-- Every text has a signature line or none. -/
theorem signature_line_or_not (text : List Nat) : (∃ line, SignatureLine text line) ∨ NoSignatureLine text := by
  obtain ⟨ls, hls⟩ := lines_exist text.length text (Nat.le_refl _)
  have : ∀ l : List (List Nat), (∃ b x a, l = b ++ x :: a ∧ Relevant x ∧ ∀ y ∈ b, ¬ Relevant y) ∨ ∀ x ∈ l, ¬ Relevant x := by
    intro l
    induction l with
    | nil => right; intro x hx; cases hx
    | cons y l ih =>
      by_cases c : Relevant y
      · exact Or.inl ⟨[], y, l, rfl, c, fun z hz => (nomatch hz)⟩
      · rcases ih with ⟨b, x, a, e, hx, hb⟩ | hn
        · refine Or.inl ⟨y :: b, x, a, by rw [e]; rfl, hx, ?_⟩
          intro z hz
          rcases List.mem_cons.1 hz with rfl | hz
          · exact c
          · exact hb z hz
        · right
          intro x hx
          rcases List.mem_cons.1 hx with rfl | hx
          · exact c
          · exact hn x hx
  rcases this ls.dropLast with ⟨b, x, a, e, hx, hb⟩ | hn
  · exact Or.inl ⟨x, ls, b, a, hls, e, hx, hb⟩
  · exact Or.inr ⟨ls, hls, hn⟩

/-- Defect: a signature on a last line without line break is not seen. -/
theorem unterminated_ignored {S : Strm Byte σ} {rem : σ → List Byte} (h : IsSource S rem) (fuel : Nat) (text : List Nat) (s : σ) (hf : text.length + 1 < fuel)
    (hx : ∀ x ∈ text, x < 256) (hr : rem s = text.flatMap (leEnc 1)) (h10 : 10 ∉ text) : ∃ s', parseMinisig S fuel s = some (.tooShort, s') :=
  parse_none h fuel text s hf hx hr ⟨[text], .last text h10, by simp⟩

/-! ### Instances -/

/-- 74 bytes: 'E', 'D', a key id of 8 bytes 1, a signature of 64 bytes 2. -/
def blob : List UInt8 := 69 :: 68 :: (List.replicate 8 1 ++ List.replicate 64 2)
/-- A file: comment, empty line, signature, comment. -/
def file : List Nat := comment ++ [97, 13, 10, 10] ++ rfc4648 blob ++ [10] ++ comment

example : (parseMinisig (pipe 7 : Strm Byte _) 300 (file.flatMap (leEnc 1), [], .ok)).map (·.1) =
    some (.ok 68 (List.replicate 8 1) (List.replicate 64 2)) := by decide +kernel
example : SignatureLine file (rfc4648 blob) := by
  rw [show file = (comment ++ [97]) ++ 13 :: 10 :: ([] ++ 10 :: (rfc4648 blob ++ 10 :: comment)) by simp [file]]
  exact ⟨[comment ++ [97], [], rfc4648 blob, comment], [comment ++ [97], []], [],
    .crlf (comment ++ [97]) _ _ (by decide +kernel) (.lf [] _ _ (by decide) (by decide) (.lf (rfc4648 blob) _ _ (by decide +kernel) (by decide +kernel)
      (.last _ (by decide +kernel)))), rfl, ⟨by decide +kernel, by decide +kernel⟩, fun l hl => by
        intro hr
        rcases List.mem_cons.1 hl with rfl | hl
        · exact hr.2 ⟨[97], rfl⟩
        · exact hr.1 (List.mem_singleton.1 hl)⟩
example : Encodes (rfc4648 blob) blob := ⟨by decide +kernel, by decide +kernel⟩
/-- The same without the last line break and comment. -/
example : (parseMinisig (pipe 7 : Strm Byte _) 300 ((comment ++ [97, 10] ++ rfc4648 blob).flatMap (leEnc 1), [], .ok)).map (·.1) = some .tooShort := by decide +kernel

end Verif.Minisign
