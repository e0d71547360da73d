import Verif.Str.Compare
/-
Integer parsing (include/stdex/string.hpp 1965-2190). Conventions as in `Verif.Str.Find`. `w` is the width of the integer.
-/
namespace Verif.Str

/-- What the parser returns: `value`, `*end`, and the two flags. -/
structure Parsed where
  value : Nat
  stop : Nat
  neg : Bool
  ovf : Bool
deriving DecidableEq

/-- The negation of the loop condition, `i >= count || !str[i]`. -/
def ended (s : List Int) (count : Option Nat) (i : Nat) : Option Bool := (cond s count i).map Option.isNone

/-- 1983-1986: skips spaces; the index, and whether the string ended there. -/
def skipSpaces (s : List Int) (count : Option Nat) (i : Nat) : Option (Nat × Bool) :=
  match h : cond s count i with
  | none => none
  | some none => some (i, true)
  | some (some c) => if isspace c then skipSpaces s count (i + 1) else some (i, false)
termination_by s.length - i
decreasing_by have := cond_lt h; omega

/-- 1989-1998: the index, whether the sign is `-`, and whether the string ended. -/
def readSign (s : List Int) (count : Option Nat) (i : Nat) : Option (Nat × Bool × Bool) :=
  match rd s i with
  | none => none
  | some c =>
    if c = 43 then (ended s count (i + 1)).map fun e => (i + 1, false, e)
    else if c = 45 then (ended s count (i + 1)).map fun e => (i + 1, true, e)
    else some (i, false, false)

/-- 2000-2022: the index, the radix, and whether the string ended. -/
def readPrefix (s : List Int) (count : Option Nat) (radix i : Nat) : Option (Nat × Nat × Bool) :=
  if radix = 16 then
    match rd s i with
    | none => none
    | some c =>
      if c = 48 && below count (i + 1) then
        match rd s (i + 1) with
        | none => none
        | some x => if x = 120 ∨ x = 88 then (ended s count (i + 2)).map fun e => (i + 2, 16, e) else some (i, 16, false)
      else some (i, 16, false)
  else if radix = 0 then
    match rd s i with
    | none => none
    | some c =>
      if c = 48 then
        match cond s count (i + 1) with
        | none => none
        | some none => some (i + 1, 8, true)
        | some (some x) => if x = 120 ∨ x = 88 then (ended s count (i + 2)).map fun e => (i + 2, 16, e) else some (i + 1, 8, false)
      else some (i, 10, false)
  else some (i, radix, false)

/-- 2028-2035. -/
def digitOf (c : Int) : Option Nat :=
  if 48 ≤ c ∧ c ≤ 57 then some (c - 48).toNat
  else if 65 ≤ c ∧ c ≤ 90 then some (c - 65 + 10).toNat
  else if 97 ≤ c ∧ c ≤ 122 then some (c - 97 + 10).toNat
  else none

/-- 2025-2026, 2039-2045: the new value and overflow flag. -/
def accum (w radix v : Nat) (o : Bool) (dg : Nat) : Nat × Bool :=
  if v < (2 ^ w - 1) / radix ∨ (v = (2 ^ w - 1) / radix ∧ dg ≤ (2 ^ w - 1) % radix) then ((v * radix + dg) % 2 ^ w, o)
  else (v, true)

/-- 2027-2050: value, index, overflow. -/
def digits (s : List Int) (count : Option Nat) (w radix i v : Nat) (o : Bool) : Option (Nat × Nat × Bool) :=
  match h : rd s i with
  | none => none
  | some c =>
    match digitOf c with
    | none => some (v, i, o)
    | some dg =>
      if radix ≤ dg then some (v, i, o)
      else
        match cond s count (i + 1) with
        | none => none
        | some none => some ((accum w radix v o dg).1, i + 1, (accum w radix v o dg).2)
        | some (some _) => digits s count w radix (i + 1) (accum w radix v o dg).1 (accum w radix v o dg).2
termination_by s.length - i
decreasing_by have := (List.getElem?_eq_some_iff.1 h).1; omega

/-- From the prefix on. -/
def parsePrefix (s : List Int) (count : Option Nat) (w radix i : Nat) (neg : Bool) : Option Parsed :=
  match readPrefix s count radix i with
  | none => none
  | some (i, _, true) => some ⟨0, i, neg, false⟩
  | some (i, radix, false) => (digits s count w radix i 0 false).map fun r => ⟨r.1, r.2.1, neg, r.2.2⟩

/-- From the sign on. -/
def parseSign (s : List Int) (count : Option Nat) (w radix i : Nat) : Option Parsed :=
  match readSign s count i with
  | none => none
  | some (i, neg, true) => some ⟨0, i, neg, false⟩
  | some (i, neg, false) => parsePrefix s count w radix i neg

/-- `strtoint` with flags, 1966-2055. -/
def parse (s : List Int) (count : Option Nat) (w radix : Nat) : Option Parsed :=
  match skipSpaces s count 0 with
  | none => none
  | some (i, true) => some ⟨0, i, false, false⟩
  | some (i, false) => parseSign s count w radix i

/-- The value as a signed integer of `w` bits. -/
def toSigned (w v : Nat) : Int := Int.bmod v (2 ^ w)

/-- `strtoint`, 2069-2121: value and `*end`. -/
def strtoint (s : List Int) (count : Option Nat) (w radix : Nat) : Option (Int × Nat) :=
  (parse s count w radix).map fun p =>
    let value := toSigned w p.value
    let ovf := p.ovf || (p.neg && p.value.testBit (w - 1))
    (if ovf then (if p.neg then toSigned w (2 ^ (w - 1)) else toSigned w (2 ^ (w - 1) - 1))
     else if p.neg then Int.bmod (-value) (2 ^ w) else value, p.stop)

/-- `strtouint`, 2152-2172. -/
def strtouint (s : List Int) (count : Option Nat) (w radix : Nat) : Option (Nat × Nat) :=
  (parse s count w radix).map fun p =>
    (if p.ovf then (if p.neg then 0 else 2 ^ w - 1) else if p.neg then 2 ^ w - 1 - p.value else p.value, p.stop)

/-! ### Specification -/

/-- 0-9, a-z. -/
def alphabet : List Int := [48, 49, 50, 51, 52, 53, 54, 55, 56, 57, 97, 98, 99, 100, 101, 102, 103, 104, 105, 106, 107, 108, 109, 110, 111,
  112, 113, 114, 115, 116, 117, 118, 119, 120, 121, 122]

/-- The value of a digit, upper or lower case, in the radix. -/
def digitIn (radix : Nat) (c : Int) : Option Nat := (alphabet.take radix).idxOf? (lowerSpec c)

/-- The sign: whether it is negative, and what follows. -/
def signSpec : List Int → Bool × List Int
  | [] => (false, [])
  | c :: r => if c = 45 then (true, r) else if c = 43 then (false, r) else (false, c :: r)

/-- The radix, and what follows its prefix: `0x` if it is 16; if it is 0, `0x` means 16, another 0 means 8, else it is
10. -/
def prefixSpec (radix : Nat) (t : List Int) : Nat × List Int :=
  match t with
  | 48 :: x :: r =>
    if (radix = 16 ∨ radix = 0) ∧ (x = 120 ∨ x = 88) then (16, r)
    else if radix = 0 then (8, x :: r) else (radix, t)
  | 48 :: [] => if radix = 0 then (8, []) else (radix, t)
  | _ => (if radix = 0 then 10 else radix, t)

/-- The value of a digit string. -/
def number (radix : Nat) (ds : List Int) : Nat := ds.foldl (fun n c => n * radix + (digitIn radix c).getD 0) 0

structure Numeral where
  neg : Bool
  value : Nat
  rest : List Int

/-- How a text reads as a number: spaces, sign, prefix, digits. -/
def readSpec (radix : Nat) (t : List Int) : Numeral :=
  let a := t.dropWhile isspace
  let b := signSpec a
  let c := prefixSpec radix b.2
  ⟨b.1, number c.1 (c.2.takeWhile fun x => (digitIn c.1 x).isSome), c.2.dropWhile fun x => (digitIn c.1 x).isSome⟩

/-! ### Proofs -/

theorem digit_table : ∀ n : Fin 128, digitOf (n.val : Int) = alphabet.idxOf? (lowerSpec n.val) := by decide +kernel
theorem alphabet_range : ∀ x ∈ alphabet, 48 ≤ x ∧ x ≤ 122 := by decide +kernel

theorem digitOf_eq (c : Int) : digitOf c = alphabet.idxOf? (lowerSpec c) := by
  by_cases h : 0 ≤ c ∧ c < 128
  · have := digit_table ⟨c.toNat, by omega⟩
    simp only at this
    rwa [show ((c.toNat : Nat) : Int) = c by omega] at this
  · have e : lowerSpec c = c := by unfold lowerSpec; rw [if_neg (by omega)]
    rw [e]
    have hn : alphabet.idxOf? c = none := by
      rw [List.idxOf?_eq_none_iff]
      intro q
      have := alphabet_range c q
      omega
    rw [hn]
    unfold digitOf
    rw [if_neg (by omega), if_neg (by omega), if_neg (by omega)]

theorem idxOf_take (l : List Int) (n : Nat) (c : Int) : (l.take n).idxOf? c = (l.idxOf? c).bind fun i => if i < n then some i else none := by
  induction l generalizing n with
  | nil => simp
  | cons x xs ih =>
    cases n with
    | zero =>
      simp
    | succ n =>
      rw [List.take_succ_cons, List.idxOf?_cons, List.idxOf?_cons]
      by_cases h : x == c
      · simp [h]
      · rw [if_neg h, if_neg h, ih]
        cases xs.idxOf? c with
        | none => rfl
        | some i =>
          simp only [Option.bind_some, Option.map_some]
          by_cases q : i < n
          · rw [if_pos q, if_pos (by omega)]; rfl
          · rw [if_neg q, if_neg (by omega)]; rfl

/-- The code's digit test is that of the specification. -/
theorem digitIn_eq (radix : Nat) (c : Int) : digitIn radix c = (digitOf c).bind fun d => if radix ≤ d then none else some d := by
  unfold digitIn
  rw [idxOf_take, digitOf_eq]
  cases alphabet.idxOf? (lowerSpec c) with
  | none => rfl
  | some d =>
    simp only [Option.bind_some]
    by_cases h : d < radix
    · rw [if_pos h, if_neg (by omega)]
    · rw [if_neg h, if_pos (by omega)]

/-- The state of the accumulator after digits of value `n`. -/
def Tracks (w : Nat) (n v : Nat) (o : Bool) : Prop := v < 2 ^ w ∧ (o = false → v = n) ∧ (o = true → 2 ^ w ≤ n)

theorem accum_tracks {w radix n v : Nat} {o : Bool} {dg : Nat} (hr : 2 ≤ radix) (hd : dg < radix) (h : Tracks w n v o) :
    Tracks w (n * radix + dg) (accum w radix v o dg).1 (accum w radix v o dg).2 := by
  obtain ⟨h1, h2, h3⟩ := h
  have hp : 0 < 2 ^ w := Nat.two_pow_pos w
  have hdm := Nat.div_add_mod (2 ^ w - 1) radix
  have hml := Nat.mod_lt (2 ^ w - 1) (show 0 < radix by omega)
  unfold accum
  by_cases hc : v < (2 ^ w - 1) / radix ∨ (v = (2 ^ w - 1) / radix ∧ dg ≤ (2 ^ w - 1) % radix)
  · rw [if_pos hc]
    have hlt : v * radix + dg < 2 ^ w := by
      rcases hc with c | ⟨c, c2⟩
      · have : (v + 1) * radix ≤ (2 ^ w - 1) / radix * radix := Nat.mul_le_mul_right _ c
        rw [Nat.add_mul] at this
        rw [Nat.mul_comm radix] at hdm
        omega
      · rw [c, Nat.mul_comm]; omega
    refine ⟨Nat.mod_lt _ hp, fun q => ?_, fun q => ?_⟩
    · rw [Nat.mod_eq_of_lt hlt, h2 q]
    · have := h3 q
      have : n ≤ n * radix := Nat.le_mul_of_pos_right _ (by omega)
      omega
  · rw [if_neg hc]
    refine ⟨h1, (fun q => nomatch q), fun _ => ?_⟩
    cases o with
    | true =>
      have := h3 rfl
      have : n ≤ n * radix := Nat.le_mul_of_pos_right _ (by omega)
      omega
    | false =>
      have e := h2 rfl
      subst e
      by_cases q : v = (2 ^ w - 1) / radix
      · have : (2 ^ w - 1) % radix < dg := by omega
        rw [q, Nat.mul_comm]; omega
      · have : (2 ^ w - 1) / radix + 1 ≤ v := by omega
        have := Nat.mul_le_mul_right radix this
        rw [Nat.add_mul, Nat.mul_comm _ radix] at this
        omega

/-- The value of digits continuing from `n`. -/
def numberFrom (radix n : Nat) (ds : List Int) : Nat := ds.foldl (fun n c => n * radix + (digitIn radix c).getD 0) n

theorem digits_from {s : List Int} {count : Option Nat} (hv : Valid s count) {w radix : Nat} (hr : 2 ≤ radix) (i v : Nat) (o : Bool) (n : Nat)
    (hi : i < (text s count).length) (ht : Tracks w n v o) :
    ∃ v' o', digits s count w radix i v o = some (v', i + (((text s count).drop i).takeWhile fun x => (digitIn radix x).isSome).length, o') ∧
      Tracks w (numberFrom radix n (((text s count).drop i).takeWhile fun x => (digitIn radix x).isSome)) v' o' := by
  have hb : below count i = true := by
    cases count with
    | none => rfl
    | some m => have := text_length_take s m; simp only [below, decide_eq_true_eq]; omega
  have hrd := rd_eq hv (Nat.le_of_lt hi) hb
  have hg : (text s count)[i]? = some (text s count)[i] := List.getElem?_eq_getElem hi
  rw [hg] at hrd
  simp only [Option.getD_some] at hrd
  have hdr : (text s count).drop i = (text s count)[i] :: (text s count).drop (i + 1) := List.drop_eq_getElem_cons hi
  generalize (text s count)[i] = c at *
  rw [hdr]
  have hdi := digitIn_eq radix c
  unfold digits
  split
  · rename_i q; rw [hrd] at q; cases q
  · rename_i c' q
    rw [hrd] at q
    cases q
    cases hdg : digitOf c with
    | none =>
      rw [hdg] at hdi
      simp only [Option.bind_none] at hdi
      rw [List.takeWhile_cons_of_neg (by simp [hdi])]
      exact ⟨v, o, rfl, ht⟩
    | some dg =>
      rw [hdg] at hdi
      simp only [Option.bind_some] at hdi
      simp only
      by_cases hge : radix ≤ dg
      · rw [if_pos hge] at hdi
        rw [if_pos hge, List.takeWhile_cons_of_neg (by simp [hdi])]
        exact ⟨v, o, rfl, ht⟩
      · rw [if_neg hge] at hdi
        rw [if_neg hge, List.takeWhile_cons_of_pos (by simp [hdi])]
        have ht' := accum_tracks (dg := dg) hr (by omega) ht
        rw [cond_eq hv hi]
        cases hx : (text s count)[i + 1]? with
        | none =>
          rw [List.drop_of_length_le (List.getElem?_eq_none_iff.1 hx)]
          refine ⟨_, _, rfl, ?_⟩
          simpa [numberFrom, hdi] using ht'
        | some y =>
          have hi2 := (List.getElem?_eq_some_iff.1 hx).1
          obtain ⟨v', o', e1, e2⟩ := digits_from hv hr (i + 1) _ _ _ hi2 ht'
          refine ⟨v', o', ?_, ?_⟩
          · simp only
            rw [e1, List.length_cons]
            exact congrArg some (Prod.ext rfl (Prod.ext (by simp only; omega) rfl))
          · simpa [numberFrom, hdi] using e2
termination_by s.length - i
decreasing_by have := text_length_le s count; omega

theorem takeWhile_drop_length (p : Int → Bool) (t : List Int) : (t.takeWhile p).length + (t.dropWhile p).length = t.length := by
  rw [← List.length_append, List.takeWhile_append_dropWhile]

/-- The parser agrees with a reading of what follows index `i`. -/
def Agrees (w len : Nat) (r : Option Parsed) (neg : Bool) (value : Nat) (rest : List Int) : Prop :=
  ∃ p, r = some p ∧ p.neg = neg ∧ Tracks w value p.value p.ovf ∧ p.stop + rest.length = len

theorem digits_agrees {s : List Int} {count : Option Nat} (hv : Valid s count) {w radix : Nat} (hr : 2 ≤ radix) (i : Nat) (neg : Bool)
    (hi : i < (text s count).length) (t : List Int) (ht : (text s count).drop i = t) :
    Agrees w (text s count).length ((digits s count w radix i 0 false).map fun r => ⟨r.1, r.2.1, neg, r.2.2⟩) neg
      (number radix (t.takeWhile fun x => (digitIn radix x).isSome)) (t.dropWhile fun x => (digitIn radix x).isSome) := by
  obtain ⟨v', o', e1, e2⟩ := digits_from hv hr i 0 false 0 hi (w := w) ⟨Nat.two_pow_pos w, (fun _ => rfl), (fun q => nomatch q)⟩
  rw [e1]
  refine ⟨_, rfl, rfl, ?_, ?_⟩
  · rw [ht] at e2; exact e2
  · have h1 := takeWhile_drop_length (fun x => (digitIn radix x).isSome) t
    have h2 : t.length = (text s count).length - i := by rw [← ht, List.length_drop]
    rw [ht]
    simp only
    omega

theorem ended_agrees {w len i : Nat} {neg : Bool} {radix : Nat} (h : i = len) :
    Agrees w len (some ⟨0, i, neg, false⟩) neg
      (number radix (([] : List Int).takeWhile fun x => (digitIn radix x).isSome)) (([] : List Int).dropWhile fun x => (digitIn radix x).isSome) :=
  ⟨_, rfl, rfl, ⟨Nat.two_pow_pos w, (fun _ => rfl), (fun q => nomatch q)⟩, by simpa using h⟩

theorem drop_cons {t : List Int} {i : Nat} {c : Int} {r : List Int} (h : t.drop i = c :: r) :
    i < t.length ∧ t[i]? = some c ∧ t.drop (i + 1) = r := by
  have hl : i < t.length := by
    by_cases q : i < t.length
    · exact q
    · rw [List.drop_of_length_le (by omega)] at h; cases h
  rw [List.drop_eq_getElem_cons hl] at h
  injection h with h1 h2
  exact ⟨hl, by rw [List.getElem?_eq_getElem hl, h1], h2⟩

theorem rd_at {s : List Int} {count : Option Nat} (hv : Valid s count) {i : Nat} {c : Int} (h : (text s count)[i]? = some c) : rd s i = some c := by
  obtain ⟨hl, e⟩ := List.getElem?_eq_some_iff.1 h
  have hb : below count i = true := by
    cases count with
    | none => rfl
    | some m => have := text_length_take s m; simp only [below, decide_eq_true_eq]; omega
  rw [rd_eq hv (Nat.le_of_lt hl) hb, h]; rfl

theorem ended_at {s : List Int} {count : Option Nat} (hv : Valid s count) {i : Nat} {t : List Int} (hi : i ≤ (text s count).length)
    (h : (text s count).drop i = t) : ended s count i = some t.isEmpty := by
  unfold ended
  rw [cond_eq hv hi]
  cases t with
  | nil =>
    have : (text s count).length ≤ i := by
      have := congrArg List.length h
      simp only [List.length_drop, List.length_nil] at this; omega
    rw [List.getElem?_eq_none_iff.2 this]; rfl
  | cons c r =>
    obtain ⟨_, e, _⟩ := drop_cons h
    rw [e]; rfl

theorem drop_nil {t : List Int} {i : Nat} (hi : i ≤ t.length) (h : t.drop i = []) : i = t.length := by
  have := congrArg List.length h
  simp only [List.length_drop, List.length_nil] at this; omega

/-- The prefix, before any digits. -/
theorem prefix_agrees {s : List Int} {count : Option Nat} (hv : Valid s count) {w radix : Nat} (hr : radix = 0 ∨ 2 ≤ radix) (i : Nat) (neg : Bool)
    (c : Int) (t : List Int) (ht : (text s count).drop i = c :: t) :
    Agrees w (text s count).length (parsePrefix s count w radix i neg) neg
      (number (prefixSpec radix (c :: t)).1 ((prefixSpec radix (c :: t)).2.takeWhile fun x => (digitIn (prefixSpec radix (c :: t)).1 x).isSome))
      ((prefixSpec radix (c :: t)).2.dropWhile fun x => (digitIn (prefixSpec radix (c :: t)).1 x).isSome) := by
  obtain ⟨hl, hg, hd⟩ := drop_cons ht
  have hrd := rd_at hv hg
  -- continuing with the digits at `j`, radix `q`
  have go : ∀ (j q : Nat) (u : List Int), 2 ≤ q → j ≤ (text s count).length → (text s count).drop j = u →
      ∀ e, e = u.isEmpty → Agrees w (text s count).length (match some (j, q, e) with
        | none => none
        | some (i, _, true) => some ⟨0, i, neg, false⟩
        | some (i, radix, false) => (digits s count w radix i 0 false).map fun r => (⟨r.1, r.2.1, neg, r.2.2⟩ : Parsed))
        neg (number q (u.takeWhile fun x => (digitIn q x).isSome)) (u.dropWhile fun x => (digitIn q x).isSome) := by
    intro j q u hq hj hu e he
    cases u with
    | nil => subst he; exact ended_agrees (drop_nil hj hu)
    | cons y ys => subst he; exact digits_agrees hv hq j neg (drop_cons hu).1 _ hu
  unfold parsePrefix readPrefix
  by_cases h16 : radix = 16
  · subst h16
    rw [if_pos rfl, hrd]
    simp only
    by_cases hc : c = 48
    · subst hc
      by_cases hb : below count (i + 1) = true
      · rw [if_pos (by simp [hb])]
        rw [rd_eq hv hl hb]
        simp only
        cases t with
        | nil =>
          have : (text s count)[i + 1]? = none := by
            have := drop_nil hl hd
            exact List.getElem?_eq_none_iff.2 (by omega)
          rw [this]
          rw [if_neg (by simp)]
          exact go i 16 [48] (by decide) (by omega) ht false rfl
        | cons x r =>
          obtain ⟨hl2, hg2, hd2⟩ := drop_cons hd
          rw [hg2]
          simp only [Option.getD_some]
          by_cases hx : x = 120 ∨ x = 88
          · rw [if_pos hx, ended_at hv hl2 hd2, Option.map_some]
            have : prefixSpec 16 (48 :: x :: r) = (16, r) := by unfold prefixSpec; simp [hx]
            rw [this]
            exact go (i + 2) 16 r (by decide) (by omega) hd2 _ rfl
          · rw [if_neg hx]
            have : prefixSpec 16 (48 :: x :: r) = (16, 48 :: x :: r) := by unfold prefixSpec; simp [hx]
            rw [this]
            exact go i 16 _ (by decide) (by omega) ht false rfl
      · rw [if_neg (by simp [hb])]
        have hn := not_below hl (by simpa using hb)
        cases t with
        | nil => exact go i 16 [48] (by decide) (by omega) ht false rfl
        | cons x r =>
          obtain ⟨hl2, _, _⟩ := drop_cons hd
          rw [List.getElem?_eq_none_iff] at hn
          omega
    · rw [if_neg (by simp [hc])]
      have : prefixSpec 16 (c :: t) = (16, c :: t) := by
        unfold prefixSpec
        split
        · rename_i x r q; injection q with q _; exact absurd q hc
        · rename_i q; injection q with q _; exact absurd q hc
        · rfl
      rw [this]
      exact go i 16 _ (by decide) (by omega) ht false rfl
  · rw [if_neg h16]
    by_cases h0 : radix = 0
    · subst h0
      rw [if_pos rfl, hrd]
      simp only
      by_cases hc : c = 48
      · subst hc
        rw [if_pos rfl, cond_eq hv hl]
        cases t with
        | nil =>
          have : (text s count)[i + 1]? = none := by
            have := drop_nil hl hd
            exact List.getElem?_eq_none_iff.2 (by omega)
          rw [this]
          exact go (i + 1) 8 [] (by decide) hl hd true rfl
        | cons x r =>
          obtain ⟨hl2, hg2, hd2⟩ := drop_cons hd
          rw [hg2]
          simp only
          by_cases hx : x = 120 ∨ x = 88
          · rw [if_pos hx, ended_at hv hl2 hd2, Option.map_some]
            have : prefixSpec 0 (48 :: x :: r) = (16, r) := by unfold prefixSpec; simp [hx]
            rw [this]
            exact go (i + 2) 16 r (by decide) (by omega) hd2 _ rfl
          · rw [if_neg hx]
            have : prefixSpec 0 (48 :: x :: r) = (8, x :: r) := by unfold prefixSpec; simp [hx]
            rw [this]
            exact go (i + 1) 8 _ (by decide) (by omega) hd false rfl
      · rw [if_neg hc]
        have : prefixSpec 0 (c :: t) = (10, c :: t) := by
          unfold prefixSpec
          split
          · rename_i x r q; injection q with q _; exact absurd q hc
          · rename_i q; injection q with q _; exact absurd q hc
          · rfl
        rw [this]
        exact go i 10 _ (by decide) (by omega) ht false rfl
    · rw [if_neg h0]
      have : prefixSpec radix (c :: t) = (radix, c :: t) := by
        unfold prefixSpec
        split
        · rename_i x r q
          rw [if_neg (by simp [h16, h0]), if_neg h0]
        · rw [if_neg h0]
        · rw [if_neg h0]
      rw [this]
      exact go i radix _ (by omega) (by omega) ht false rfl

theorem prefixSpec_nil (radix : Nat) : prefixSpec radix [] = (if radix = 0 then 10 else radix, []) := rfl

theorem sign_agrees {s : List Int} {count : Option Nat} (hv : Valid s count) {w radix : Nat} (hr : radix = 0 ∨ 2 ≤ radix) (i : Nat)
    (c : Int) (t : List Int) (ht : (text s count).drop i = c :: t) :
    Agrees w (text s count).length (parseSign s count w radix i) (signSpec (c :: t)).1
      (number (prefixSpec radix (signSpec (c :: t)).2).1 ((prefixSpec radix (signSpec (c :: t)).2).2.takeWhile fun x => (digitIn (prefixSpec radix (signSpec (c :: t)).2).1 x).isSome))
      ((prefixSpec radix (signSpec (c :: t)).2).2.dropWhile fun x => (digitIn (prefixSpec radix (signSpec (c :: t)).2).1 x).isSome) := by
  obtain ⟨hl, hg, hd⟩ := drop_cons ht
  have hrd := rd_at hv hg
  have go : ∀ (j : Nat) (neg : Bool) (u : List Int), j ≤ (text s count).length → (text s count).drop j = u → ∀ e, e = u.isEmpty →
      Agrees w (text s count).length (match some (j, neg, e) with
        | none => none
        | some (i, neg, true) => some (⟨0, i, neg, false⟩ : Parsed)
        | some (i, neg, false) => parsePrefix s count w radix i neg) neg
        (number (prefixSpec radix u).1 ((prefixSpec radix u).2.takeWhile fun x => (digitIn (prefixSpec radix u).1 x).isSome))
        ((prefixSpec radix u).2.dropWhile fun x => (digitIn (prefixSpec radix u).1 x).isSome) := by
    intro j neg u hj hu e he
    cases u with
    | nil => subst he; exact ended_agrees (drop_nil hj hu)
    | cons y ys => subst he; exact prefix_agrees hv hr j neg y ys hu
  unfold parseSign readSign
  rw [hrd]
  simp only
  by_cases h43 : c = 43
  · subst h43
    rw [if_pos rfl, ended_at hv hl hd, Option.map_some]
    exact go (i + 1) false t hl hd _ rfl
  · rw [if_neg h43]
    by_cases h45 : c = 45
    · subst h45
      rw [if_pos rfl, ended_at hv hl hd, Option.map_some]
      exact go (i + 1) true t hl hd _ rfl
    · rw [if_neg h45]
      have : signSpec (c :: t) = (false, c :: t) := by
        show (if c = 45 then (true, t) else if c = 43 then (false, t) else (false, c :: t)) = _
        rw [if_neg h45, if_neg h43]
      rw [this]
      exact go i false _ (by omega) ht false rfl

theorem skip_eq {s : List Int} {count : Option Nat} (hv : Valid s count) (i : Nat) (hi : i ≤ (text s count).length) :
    ∃ j, skipSpaces s count i = some (j, ((text s count).drop j).isEmpty) ∧ j ≤ (text s count).length ∧
      (text s count).drop j = ((text s count).drop i).dropWhile isspace := by
  unfold skipSpaces
  split <;> rename_i h <;> rw [cond_eq hv hi] at h
  · cases h
  · simp only [Option.some.injEq, List.getElem?_eq_none_iff] at h
    refine ⟨i, ?_, hi, ?_⟩
    · rw [List.drop_of_length_le h]; rfl
    · rw [List.drop_of_length_le h]; rfl
  · rename_i c
    simp only [Option.some.injEq] at h
    obtain ⟨hl, e⟩ := List.getElem?_eq_some_iff.1 h
    have hd : (text s count).drop i = c :: (text s count).drop (i + 1) := by rw [List.drop_eq_getElem_cons hl, e]
    by_cases hs : isspace c = true
    · rw [if_pos hs, hd, List.dropWhile_cons_of_pos hs]
      exact skip_eq hv (i + 1) hl
    · rw [if_neg hs, hd, List.dropWhile_cons_of_neg hs]
      exact ⟨i, by rw [hd]; rfl, hi, hd⟩
termination_by s.length - i
decreasing_by have := text_length_le s count; omega

/-- The parser reads the text as specified. -/
theorem parse_agrees {s : List Int} {count : Option Nat} (hv : Valid s count) {w radix : Nat} (hr : radix = 0 ∨ 2 ≤ radix) :
    Agrees w (text s count).length (parse s count w radix) (readSpec radix (text s count)).neg (readSpec radix (text s count)).value
      (readSpec radix (text s count)).rest := by
  obtain ⟨j, e1, e2, e3⟩ := skip_eq hv 0 (Nat.zero_le _)
  rw [List.drop_zero] at e3
  unfold parse readSpec
  rw [e1, ← e3]
  cases hd : (text s count).drop j with
  | nil =>
    simp only [List.isEmpty_nil]
    exact ended_agrees (drop_nil e2 hd)
  | cons c t =>
    simp only [List.isEmpty_cons]
    exact sign_agrees hv hr j c t hd

/-! ### Properties -/

/-- **C49** What the parsing core returns, for any width and radix: the sign; the exact value iff it is representable in `w`
bits, else the overflow flag; and the number of characters up to the first that does not belong to the number. Only
characters of the text are read. -/
theorem parse_spec {s : List Int} {count : Option Nat} (hv : Valid s count) {w radix : Nat} (hr : radix = 0 ∨ 2 ≤ radix) :
    ∃ p, parse s count w radix = some p ∧ p.neg = (readSpec radix (text s count)).neg ∧
      (p.ovf = true ↔ 2 ^ w ≤ (readSpec radix (text s count)).value) ∧
      (p.ovf = false → p.value = (readSpec radix (text s count)).value) ∧ p.value < 2 ^ w ∧
      p.stop + (readSpec radix (text s count)).rest.length = (text s count).length := by
  obtain ⟨p, h1, h2, ⟨h3, h4, h5⟩, h6⟩ := parse_agrees (w := w) hv hr
  refine ⟨p, h1, h2, ⟨h5, fun q => ?_⟩, h4, h3, h6⟩
  cases ho : p.ovf with
  | true => rfl
  | false => have := h4 ho; omega

/-- The nearest integer of `w` bits, signed. -/
def clamp (w : Nat) (x : Int) : Int := max (-(2 ^ (w - 1) : Int)) (min x (2 ^ (w - 1) - 1 : Int))

/-- The number a text reads as. -/
def valueOf (radix : Nat) (t : List Int) : Int := if (readSpec radix t).neg then -((readSpec radix t).value : Int) else (readSpec radix t).value

theorem toSigned_small {w v : Nat} (hw : 0 < w) (h : v < 2 ^ (w - 1)) : toSigned w v = v := by
  have e : 2 ^ w = 2 * 2 ^ (w - 1) := by rw [← Nat.pow_succ']; exact congrArg (2 ^ ·) (by omega)
  unfold toSigned
  rw [e, Int.bmod_eq_of_le] <;> omega

theorem bmod_upper {x : Int} {m : Nat} (h1 : (m : Int) ≤ x) (h2 : x < 2 * m) : Int.bmod x (2 * m) = x - 2 * m := by
  have e : x % ((2 * m : Nat) : Int) = x := Int.emod_eq_of_lt (by omega) (by omega)
  rw [Int.bmod_def, e, if_neg (by omega)]
  omega

theorem toSigned_large {w v : Nat} (hw : 0 < w) (h1 : 2 ^ (w - 1) ≤ v) (h2 : v < 2 ^ w) : toSigned w v = (v : Int) - (2 ^ w : Nat) := by
  have e : 2 ^ w = 2 * 2 ^ (w - 1) := by rw [← Nat.pow_succ']; exact congrArg (2 ^ ·) (by omega)
  unfold toSigned
  rw [e] at h2 ⊢
  rw [bmod_upper (by omega) (by omega)]
  omega

theorem testBit_top {w v : Nat} (hw : 0 < w) (h : v < 2 ^ w) : v.testBit (w - 1) = decide (2 ^ (w - 1) ≤ v) := by
  have e : 2 ^ w = 2 * 2 ^ (w - 1) := by rw [← Nat.pow_succ']; exact congrArg (2 ^ ·) (by omega)
  rw [Nat.testBit_eq_decide_div_mod_eq]
  have hp := Nat.two_pow_pos (w - 1)
  by_cases h1 : 2 ^ (w - 1) ≤ v
  · have : v / 2 ^ (w - 1) = 1 := by
      apply Nat.div_eq_of_lt_le <;> omega
    rw [this]; simp [h1]
  · rw [Nat.div_eq_of_lt (by omega)]; simp [h1]

/-- **C49** (signed; partial: negative numbers, and positive ones below `2^(w-1)` or not below `2^w`) `strtoint` returns
the number, or the nearest one that is representable, and the number of characters processed. Missing: positive numbers
in between, see `strtoint_wraps`. -/
theorem strtoint_partial {s : List Int} {count : Option Nat} (hv : Valid s count) {w radix : Nat} (hw : 0 < w) (hr : radix = 0 ∨ 2 ≤ radix)
    (hx : (readSpec radix (text s count)).neg = true ∨ (readSpec radix (text s count)).value < 2 ^ (w - 1) ∨ 2 ^ w ≤ (readSpec radix (text s count)).value) :
    strtoint s count w radix = some (clamp w (valueOf radix (text s count)), (text s count).length - (readSpec radix (text s count)).rest.length) := by
  obtain ⟨p, h1, h2, h3, h4, h5, h6⟩ := parse_spec (w := w) hv hr
  have e : 2 ^ w = 2 * 2 ^ (w - 1) := by rw [← Nat.pow_succ']; exact congrArg (2 ^ ·) (by omega)
  have hp := Nat.two_pow_pos (w - 1)
  have ec : ((2 ^ (w - 1) : Nat) : Int) = 2 ^ (w - 1) := by push_cast; rfl
  unfold strtoint
  rw [h1, Option.map_some]
  simp only
  rw [testBit_top hw h5, show p.stop = (text s count).length - (readSpec radix (text s count)).rest.length by omega]
  refine congrArg some (Prod.ext ?_ rfl)
  simp only
  unfold valueOf clamp
  rw [← h2] at hx ⊢
  generalize (readSpec radix (text s count)).value = n at *
  rw [← ec]
  generalize 2 ^ (w - 1) = m at *
  have sm : ∀ v, v < m → toSigned w v = v := by
    intro v hv; unfold toSigned; rw [e, Int.bmod_eq_of_le] <;> omega
  have sl : toSigned w m = -m := by
    unfold toSigned
    rw [e, bmod_upper (by omega) (by omega)]
    omega
  cases ho : p.ovf with
  | true =>
    have := h3.1 ho
    simp only [Bool.true_or, if_true]
    cases p.neg with
    | true =>
      simp only [if_true, sl]
      rw [Int.min_eq_left (by omega), Int.max_eq_left (by omega)]
    | false => simp only [Bool.false_eq_true, if_false]; rw [sm _ (by omega)]; omega
  | false =>
    have hpv := h4 ho
    have hno : ¬ 2 ^ w ≤ n := fun q => by rw [h3.2 q] at ho; cases ho
    rw [hpv] at h5 ⊢
    cases hn : p.neg with
    | true =>
      simp only [Bool.false_or, Bool.true_and, if_true, decide_eq_true_eq]
      by_cases q : m ≤ n
      · rw [if_pos q, sl]; omega
      · rw [if_neg q, sm n (by omega), e, Int.bmod_eq_of_le] <;> omega
    | false =>
      rw [hn] at hx
      simp only [Bool.false_or, Bool.false_and, Bool.false_eq_true, if_false]
      rcases hx with q | q | q
      · cases q
      · rw [sm n q]; omega
      · omega

/-- **C49** (defect) A positive number from `2^(w-1)` to `2^w - 1` is not saturated but wraps to a negative one. -/
theorem strtoint_wraps {s : List Int} {count : Option Nat} (hv : Valid s count) {w radix : Nat} (hw : 0 < w) (hr : radix = 0 ∨ 2 ≤ radix)
    (hn : (readSpec radix (text s count)).neg = false) (h1 : 2 ^ (w - 1) ≤ (readSpec radix (text s count)).value)
    (h2 : (readSpec radix (text s count)).value < 2 ^ w) :
    ∃ e, strtoint s count w radix = some (((readSpec radix (text s count)).value : Int) - (2 ^ w : Nat), e) := by
  obtain ⟨p, g1, g2, g3, g4, g5, g6⟩ := parse_spec (w := w) hv hr
  have ho : p.ovf = false := by
    cases ho : p.ovf with
    | false => rfl
    | true => have := g3.1 ho; omega
  refine ⟨p.stop, ?_⟩
  unfold strtoint
  rw [g1, Option.map_some]
  rw [hn] at g2
  simp only [ho, g2, Bool.false_or, Bool.false_and, Bool.false_eq_true, if_false]
  rw [g4 ho, toSigned_large hw h1 h2]

/-- "200" as an `int8_t` is -56. -/
theorem strtoint_wraps_example : strtoint [50, 48, 48, 0] none 8 10 = some (-56, 3) := by decide +kernel

/-- **C49** (unsigned; partial: without a minus sign) `strtouint` returns the number, or the greatest one if it is not
representable. Missing: negative numbers, see `strtouint_neg`. -/
theorem strtouint_partial {s : List Int} {count : Option Nat} (hv : Valid s count) {w radix : Nat} (hr : radix = 0 ∨ 2 ≤ radix)
    (hn : (readSpec radix (text s count)).neg = false) :
    strtouint s count w radix = some (min (readSpec radix (text s count)).value (2 ^ w - 1), (text s count).length - (readSpec radix (text s count)).rest.length) := by
  obtain ⟨p, h1, h2, h3, h4, h5, h6⟩ := parse_spec (w := w) hv hr
  unfold strtouint
  rw [h1, Option.map_some]
  rw [show p.stop = (text s count).length - (readSpec radix (text s count)).rest.length by omega]
  refine congrArg some (Prod.ext ?_ rfl)
  rw [hn] at h2
  simp only [h2, Bool.false_eq_true, if_false]
  cases ho : p.ovf with
  | true =>
    have := h3.1 ho
    simp only [if_true]
    rw [Nat.min_eq_right (by omega)]
  | false => have := h4 ho; simp only [Bool.false_eq_true, if_false]; omega

/-- **C49** (defect) A minus sign gives the one's complement: one less than the negation modulo `2^w`; "-5" is -6. -/
theorem strtouint_neg {s : List Int} {count : Option Nat} (hv : Valid s count) {w radix : Nat} (hr : radix = 0 ∨ 2 ≤ radix)
    (hn : (readSpec radix (text s count)).neg = true) (h : (readSpec radix (text s count)).value < 2 ^ w) :
    ∃ e, strtouint s count w radix = some (2 ^ w - 1 - (readSpec radix (text s count)).value, e) := by
  obtain ⟨p, h1, h2, h3, h4, h5, h6⟩ := parse_spec (w := w) hv hr
  have ho : p.ovf = false := by
    cases ho : p.ovf with
    | false => rfl
    | true => have := h3.1 ho; omega
  refine ⟨p.stop, ?_⟩
  unfold strtouint
  rw [h1, Option.map_some]
  rw [hn] at h2
  simp only [h2, ho, Bool.false_eq_true, if_false, if_true, h4 ho]

theorem strtouint_neg_example : strtouint [45, 53, 0] none 8 10 = some (250, 2) := by decide +kernel

/-- Non-vacuity: " -0x1F g" in radix 0, "+12" in radix 8, "999" saturated. -/
example : strtoint [32, 45, 48, 120, 49, 70, 32, 103, 0] none 32 0 = some (-31, 6) ∧ strtoint [43, 49, 50] (some 3) 16 8 = some (10, 3) ∧
    strtoint [57, 57, 57, 0] none 8 10 = some (127, 3) ∧ strtouint [57, 57, 57, 0] none 8 10 = some (255, 3) ∧
    (readSpec 0 [32, 45, 48, 120, 49, 70, 32, 103]).value = 31 ∧ (readSpec 0 [32, 45, 48, 120, 49, 70, 32, 103]).rest = [32, 103] := by decide +kernel

end Verif.Str
