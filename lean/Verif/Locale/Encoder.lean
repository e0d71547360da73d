import Verif.Str.Find
/-
Conversion of texts between character sets, include/stdex/unicode.hpp 138-483 and the functions that use it, 495-827, POSIX branch.
`iconv` is any converter with a state; characters and the buffer are counted in units of `T_from` and `T_to`, not in bytes: iconv neither consumes
nor writes a part of a unit.
-/
namespace Verif.Locale
open Verif.Str
variable {β ζ : Type}

/-! ### Model -/

/-- `errno` after a call of `iconv`. -/
inductive Errno where
  | none | e2big | other
  deriving DecidableEq

/-- `iconv`: what it consumes, what it writes, its state (`iconv_t`) and `errno`, for a state, a text and the room there is. -/
structure Iconv (β ζ : Type) where
  call : ζ → List Int → Nat → Nat × List β × ζ × Errno
  /-- A new converter (`iconv_open`), and the effect of `clear`, 428-433. -/
  initial : ζ

/-- What `strcat` does: it returns, or throws, with the text and the state of the converter it leaves. -/
inductive Enc (β ζ : Type) where
  | returns (dst : List β) (z : ζ)
  | throws (dst : List β) (z : ζ)
  deriving DecidableEq

/-- The loop of `strcat`, 305-316. `none`: it does not end in so many rounds. -/
def encodeLoop (ic : Iconv β ζ) (room : Nat) : Nat → ζ → List Int → List β → Option (Enc β ζ)
  | 0, _, _, _ => none
  | fuel + 1, z, src, dst =>
    let (k, o, z, e) := ic.call z src room
    let dst := dst ++ o
    match e with
    | .none => some (.returns dst z)
    | .e2big => encodeLoop ic room fuel z (src.drop k) dst
    | .other => some (.throws dst z)

/-- `charset_encoder::strcat`, 176-318 (327-346 with the length of a string, or without). The outer `none` is a read past the end. -/
def encodeCat (ic : Iconv β ζ) (room fuel : Nat) (z : ζ) (dst : List β) (src : List Int) (count : Option Nat) : Option (Option (Enc β ζ)) :=
  match strnlen src count with
  | none => none
  | some n => if n = 0 then some (some (.returns dst z)) else some (encodeLoop ic room fuel z (src.take n) dst)

/-- `charset_encoder::strcpy`, 356-390. -/
def encodeCpy (ic : Iconv β ζ) (room fuel : Nat) (z : ζ) (_ : List β) (src : List Int) (count : Option Nat) : Option (Option (Enc β ζ)) := encodeCat ic room fuel z [] src count

/-- `charset_encoder::convert`, 399-426. -/
def convert (ic : Iconv β ζ) (room fuel : Nat) (z : ζ) (src : List Int) (count : Option Nat) : Option (Option (Enc β ζ)) := encodeCat ic room fuel z [] src count

/-- `str2wstr` and `wstr2str`, 605-655 and 777-827: with a new converter. -/
def recode (ic : Iconv β ζ) (room fuel : Nat) (src : List Int) (count : Option Nat) : Option (Option (List β)) :=
  (convert ic room fuel ic.initial src count).map fun r => match r with | some (.returns dst _) => some dst | _ => none

/-! ### Specification -/

/-- What a converter is for: `means z t` is what the text `t` is converted to from the state `z`, and the state it ends in; `none` if the text is not
valid, or not complete. `iconv` converts all of it, or what there is room for, or says that it is not valid after converting what is. -/
structure Converts (ic : Iconv β ζ) (room : Nat) (means : ζ → List Int → Option (List β × ζ)) : Prop where
  nil : ∀ z, means z [] = some ([], z)
  append : ∀ z a b o z1, means z a = some (o, z1) → means z (a ++ b) = (means z1 b).map fun r => (o ++ r.1, r.2)
  done : ∀ z t k o z1, ic.call z t room = (k, o, z1, .none) → means z t = some (o, z1)
  more : ∀ z t k o z1, ic.call z t room = (k, o, z1, .e2big) → 0 < k ∧ k < t.length ∧ means z (t.take k) = some (o, z1)
  bad : ∀ z t k o z1, ic.call z t room = (k, o, z1, .other) → means z t = none ∧ means z (t.take k) = some (o, z1)

/-! ### Proofs -/

theorem text_whole : ∀ l : List Int, (∀ c ∈ l, c ≠ 0) → text l (some l.length) = l := by
  intro l hl
  show (l.take l.length).takeWhile _ = l
  rw [List.take_length]
  induction l with
  | nil => rfl
  | cons c l ih =>
    rw [List.takeWhile_cons_of_pos (by simpa using hl c List.mem_cons_self), ih fun d hd => hl d (List.mem_cons_of_mem _ hd)]


theorem encodeLoop_spec {ic : Iconv β ζ} {room : Nat} {means : ζ → List Int → Option (List β × ζ)} (hc : Converts ic room means) : ∀ (fuel : Nat) (z : ζ) (t : List Int) (dst : List β), t.length < fuel →
    (∃ o z1, means z t = some (o, z1) ∧ encodeLoop ic room fuel z t dst = some (.returns (dst ++ o) z1)) ∨
    (means z t = none ∧ ∃ p s o z1, t = p ++ s ∧ means z p = some (o, z1) ∧ encodeLoop ic room fuel z t dst = some (.throws (dst ++ o) z1)) := by
  intro fuel
  induction fuel with
  | zero => intro z t dst h; omega
  | succ fuel ih =>
    intro z t dst h
    rcases hcall : ic.call z t room with ⟨k, o, z1, e⟩
    unfold encodeLoop
    rw [hcall]
    cases e with
    | none => exact Or.inl ⟨o, z1, hc.done z t k o z1 hcall, rfl⟩
    | other =>
      obtain ⟨h1, h2⟩ := hc.bad z t k o z1 hcall
      exact Or.inr ⟨h1, t.take k, t.drop k, o, z1, (List.take_append_drop k t).symm, h2, rfl⟩
    | e2big =>
      obtain ⟨h1, h2, h3⟩ := hc.more z t k o z1 hcall
      have ha := hc.append z (t.take k) (t.drop k) o z1 h3
      rw [List.take_append_drop] at ha
      have hl : (t.drop k).length < fuel := by rw [List.length_drop]; omega
      rcases ih z1 (t.drop k) (dst ++ o) hl with ⟨o2, z2, m, r⟩ | ⟨m, p, s, o2, z2, e, m2, r⟩
      · refine Or.inl ⟨o ++ o2, z2, by rw [ha, m]; rfl, ?_⟩
        show encodeLoop ic room fuel z1 (t.drop k) (dst ++ o) = _
        rw [r, List.append_assoc]
      · refine Or.inr ⟨by rw [ha, m]; rfl, t.take k ++ p, s, o ++ o2, z2, by rw [List.append_assoc, ← e, List.take_append_drop], ?_, ?_⟩
        · rw [hc.append z (t.take k) p o z1 h3, m2]; rfl
        · show encodeLoop ic room fuel z1 (t.drop k) (dst ++ o) = _
          rw [r, List.append_assoc]

/-! ### Properties -/

/-- Appending a conversion ends, and appends the whole conversion of the text, up to its end or its count, to what was there, however little there is
room for in a call of `iconv`; it throws exactly if the text is not valid, after appending the conversion of what comes before. -/
theorem encoder_strcat {ic : Iconv β ζ} {room : Nat} {means : ζ → List Int → Option (List β × ζ)} (hc : Converts ic room means) {src : List Int} {count : Option Nat} (hv : Valid src count)
    (z : ζ) (dst : List β) {fuel : Nat} (hf : (text src count).length < fuel) :
    (∃ o z1, means z (text src count) = some (o, z1) ∧ encodeCat ic room fuel z dst src count = some (some (.returns (dst ++ o) z1))) ∨
    (means z (text src count) = none ∧ ∃ p s o z1, text src count = p ++ s ∧ means z p = some (o, z1) ∧ encodeCat ic room fuel z dst src count = some (some (.throws (dst ++ o) z1))) := by
  have hn : strnlen src count = some (text src count).length := strnlen_spec hv
  have ht : src.take (text src count).length = text src count := by
    have p : text src count <+: src := by
      cases count with
      | none => exact List.takeWhile_prefix _
      | some n => exact (List.takeWhile_prefix _).trans (List.take_prefix _ _)
    exact (List.prefix_iff_eq_take.1 p).symm
  unfold encodeCat
  rw [hn]
  simp only []
  by_cases h0 : (text src count).length = 0
  · rw [if_pos h0]
    have : text src count = [] := List.length_eq_zero_iff.1 h0
    rw [this]
    exact Or.inl ⟨[], z, hc.nil z, by rw [List.append_nil]⟩
  · rw [if_neg h0, ht]
    rcases encodeLoop_spec hc fuel z (text src count) dst hf with ⟨o, z1, m, r⟩ | ⟨m, p, s, o, z1, e, m2, r⟩
    · exact Or.inl ⟨o, z1, m, by rw [r]⟩
    · exact Or.inr ⟨m, p, s, o, z1, e, m2, by rw [r]⟩

/-- Converting a text in parts, one after the other, gives the conversion of the whole. -/
theorem encoder_parts {ic : Iconv β ζ} {room : Nat} {means : ζ → List Int → Option (List β × ζ)} (hc : Converts ic room means) {a b : List Int} (ha : ∀ c ∈ a, c ≠ 0) (hb : ∀ c ∈ b, c ≠ 0)
    {z z1 z2 : ζ} {dst d1 d2 : List β} {fuel : Nat} (hf : (a ++ b).length < fuel)
    (h1 : encodeCat ic room fuel z dst a (some a.length) = some (some (.returns d1 z1))) (h2 : encodeCat ic room fuel z1 d1 b (some b.length) = some (some (.returns d2 z2))) :
    encodeCat ic room fuel z dst (a ++ b) (some (a ++ b).length) = some (some (.returns d2 z2)) := by
  have tx := text_whole
  have hab : ∀ c ∈ a ++ b, c ≠ 0 := fun c hc => by rcases List.mem_append.1 hc with q | q; exact ha c q; exact hb c q
  rw [List.length_append] at hf
  rcases encoder_strcat hc (src := a) (count := some a.length) (Or.inr ⟨_, rfl, Nat.le_refl _⟩) z dst (fuel := fuel) (by rw [tx a ha]; omega) with ⟨o, z', m, r⟩ | ⟨-, _, _, _, _, -, -, r⟩
  · rw [h1] at r
    cases r
    rcases encoder_strcat hc (src := b) (count := some b.length) (Or.inr ⟨_, rfl, Nat.le_refl _⟩) z1 (dst ++ o) (fuel := fuel) (by rw [tx b hb]; omega) with ⟨o2, z', m2, r⟩ | ⟨-, _, _, _, _, -, -, r⟩
    · rw [h2] at r
      cases r
      rw [tx a ha] at m
      rw [tx b hb] at m2
      have m3 := hc.append z a b o z1 m
      rw [m2] at m3
      rcases encoder_strcat hc (src := a ++ b) (count := some (a ++ b).length) (Or.inr ⟨_, rfl, Nat.le_refl _⟩) z dst (fuel := fuel) (by rw [tx _ hab, List.length_append]; omega) with ⟨o3, z', m4, r⟩ | ⟨m4, -⟩
      · rw [tx _ hab, m3] at m4
        cases m4
        rw [r, List.append_assoc]
      · rw [tx _ hab, m3] at m4; cases m4
    · rw [h2] at r; cases r
  · rw [h1] at r; cases r

/-- Texts converted to another set and back are what they were, if the converters are inverse to each other and the conversion has no terminator in it. -/
theorem encoder_roundtrip {ζ' : Type} {ic : Iconv Int ζ} {jc : Iconv Int ζ'} {room room' : Nat} {means : ζ → List Int → Option (List Int × ζ)} {means' : ζ' → List Int → Option (List Int × ζ')}
    (hc : Converts ic room means) (hd : Converts jc room' means')
    (hinv : ∀ t o z1, means ic.initial t = some (o, z1) → (∀ c ∈ o, c ≠ 0) ∧ ∃ z2, means' jc.initial o = some (t, z2))
    {src : List Int} {count : Option Nat} (hv : Valid src count) {w : List Int} {fuel fuel' : Nat} (hf : (text src count).length < fuel) (hf' : w.length < fuel')
    (h : recode ic room fuel src count = some (some w)) : recode jc room' fuel' w (some w.length) = some (some (text src count)) := by
  unfold recode convert at h
  rcases encoder_strcat hc hv ic.initial [] hf with ⟨o, z1, m, r⟩ | ⟨-, _, _, _, _, -, -, r⟩
  · rw [r] at h
    simp only [Option.map_some, List.nil_append, Option.some.injEq] at h
    subst h
    obtain ⟨nz, z2, m2⟩ := hinv _ _ _ m
    have tx := text_whole o nz
    unfold recode convert
    rcases encoder_strcat hd (src := o) (count := some o.length) (Or.inr ⟨_, rfl, Nat.le_refl _⟩) jc.initial [] (fuel := fuel') (by rw [tx]; exact hf') with ⟨o2, z3, m3, r⟩ | ⟨m3, -⟩
    · rw [tx, m2] at m3
      cases m3
      rw [r]; rfl
    · rw [tx, m2] at m3; cases m3
  · rw [r] at h; cases h

/-! ### Examples and defects -/

/-- A converter with a shift: the characters above 127 are written between `+` and `-`; room for 1 character at a time. -/
def demoIconv : Iconv Int Bool where
  initial := false
  call := fun z t _ => match t with
    | [] => (0, [], z, .none)
    | c :: r =>
      if c < 0 then (0, [], z, .other)
      else (1, (if c ≤ 127 then if z then [45, c] else [c] else if z then [c] else [43, c]), decide (127 < c), if r = [] then .none else .e2big)

def demoMeans : Bool → List Int → Option (List Int × Bool)
  | z, [] => some ([], z)
  | z, c :: r => if c < 0 then none else (demoMeans (decide (127 < c)) r).map fun q => ((if c ≤ 127 then if z then [45, c] else [c] else if z then [c] else [43, c]) ++ q.1, q.2)

theorem demo_converts : Converts demoIconv 1024 demoMeans where
  nil := fun z => rfl
  append := fun z a => by
    induction a generalizing z with
    | nil => intro b o z1 h; cases h; rw [List.nil_append]; cases demoMeans z b <;> rfl
    | cons c a ih =>
      intro b o z1 h
      unfold demoMeans at h
      rw [List.cons_append]
      conv => lhs; unfold demoMeans
      by_cases hc : c < 0
      · rw [if_pos hc] at h; cases h
      · rw [if_neg hc] at h ⊢
        cases hm : demoMeans (decide (127 < c)) a with
        | none => rw [hm] at h; cases h
        | some q =>
          rw [hm] at h
          cases h
          rw [ih _ b q.1 q.2 hm]
          cases demoMeans q.2 b with
          | none => rfl
          | some r => simp [List.append_assoc]
  done := fun z t k o z1 h => by
    cases t with
    | nil => cases h; rfl
    | cons c r =>
      simp only [demoIconv] at h
      by_cases hc : c < 0
      · rw [if_pos hc] at h; cases h
      · rw [if_neg hc] at h
        by_cases hr : r = []
        · subst hr
          cases h
          unfold demoMeans
          rw [if_neg hc]
          simp [demoMeans]
        · rw [if_neg hr] at h; cases h
  more := fun z t k o z1 h => by
    cases t with
    | nil => cases h
    | cons c r =>
      simp only [demoIconv] at h
      by_cases hc : c < 0
      · rw [if_pos hc] at h; cases h
      · rw [if_neg hc] at h
        by_cases hr : r = []
        · rw [if_pos hr] at h; cases h
        · rw [if_neg hr] at h
          cases h
          have := List.length_pos_iff.2 hr
          refine ⟨by omega, by simp only [List.length_cons]; omega, ?_⟩
          rw [List.take_succ_cons, List.take_zero]
          unfold demoMeans
          rw [if_neg hc]
          simp [demoMeans]
  bad := fun z t k o z1 h => by
    cases t with
    | nil => cases h
    | cons c r =>
      simp only [demoIconv] at h
      by_cases hc : c < 0
      · rw [if_pos hc] at h
        cases h
        exact ⟨by unfold demoMeans; rw [if_pos hc], rfl⟩
      · rw [if_neg hc] at h
        by_cases hr : r = []
        · rw [if_pos hr] at h; cases h
        · rw [if_neg hr] at h; cases h

/-- The hypotheses are met: "a", U+160, U+161, "b" to the terminator. -/
example : encodeCat demoIconv 1024 9 false [120] [97, 0x160, 0x161, 98, 0, 99] none = some (some (.returns [120, 97, 43, 0x160, 0x161, 45, 98] false)) := by decide +kernel

/-- What is not valid throws, after what is valid. -/
example : encodeCat demoIconv 1024 9 false [] [97, -1, 98] (some 3) = some (some (.throws [97] false)) := by decide +kernel

/-- (defect) The shift state is not written at the end of a text, and is not left: what is converted next depends on it, so that the same text is
converted to different ones. -/
theorem encoder_shift : ∃ d z, convert demoIconv 1024 9 demoIconv.initial [0x160, 0] none = some (some (.returns d z)) ∧ d = [43, 0x160] ∧
    convert demoIconv 1024 9 z [97, 0] none = some (some (.returns [45, 97] false)) ∧ convert demoIconv 1024 9 demoIconv.initial [97, 0] none = some (some (.returns [97] false)) :=
  ⟨_, true, by decide +kernel, rfl, by decide +kernel, by decide +kernel⟩

/-- (defect) A string with a zero in it is converted only up to there, even if its length is given. -/
theorem encoder_zero : recode demoIconv 1024 9 [97, 0, 98] (some 3) = some (some [97]) := by decide +kernel

end Verif.Locale
