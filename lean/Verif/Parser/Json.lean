import Verif.Parser.DateTime
import Verif.Parser.SiRef
/-
The parser of JSON strings (include/stdex/parser.hpp 7200-7338). Elements are the functions they compute, as in Parser/Number; `hex` are the sixteen digits
of `m_hex`, which depend on the end that the text is limited to.
-/
namespace Verif.Parser
open Verif.Str

/-- The constructor's arguments 7203-7228, and whether `sizeof(T) > 1`. -/
structure JsonParts where
  quote : Sub
  chr : Sub
  escape : Sub
  sol : Sub
  bs : Sub
  ff : Sub
  lf : Sub
  cr : Sub
  htab : Sub
  uni : Sub
  hex : Nat → List Sub
  wide : Bool

/-- `(T)x` for `T = char`, which is signed. -/
def asChar (x : Nat) : Int := if x < 128 then (x : Int) else (x : Int) - 256

/-- 7284-7299: what is appended to `value` -/
def unicodeUnits (wide : Bool) (x : Nat) : List Int :=
  if wide then [(x : Int)]
  else if x > 0x7ff then [asChar (0xe0 ||| ((x >>> 12) &&& 0x0f)), asChar (0x80 ||| ((x >>> 6) &&& 0x3f)), asChar (0x80 ||| (x &&& 0x3f))]
  else if x > 0x7f then [asChar (0xc0 ||| ((x >>> 6) &&& 0x1f)), asChar (0x80 ||| (x &&& 0x3f))]
  else [asChar (x &&& 0x7f)]

/-- `std::min(m_uni->interval.end + 4, end)` -/
def hexEnd (v : Env) (p : Nat) : Nat := match v.fin with | none => p + 4 | some n => min (p + 4) n

/-- `m_hex->match(…) && m_hex->interval.size() == 4` 7280-7281: the value -/
def jsonHex (v : Env) (c : JsonParts) (p : Nat) : Option (Option (Nat × Nat)) :=
  match integer { v with fin := some (hexEnd v p) } 16 (c.hex (hexEnd v p)) p with
  | none => none
  | some none => some none
  | some (some (j, x)) => if j - p = 4 then some (some (j, x)) else some none

/-- 7302-7306: the escape sequence of the escape -/
def jsonSelf (c : JsonParts) (p : Nat) : Option (Nat × List Int) := (c.escape p).map fun j => (j, [92])

/-- 7278-7306: the escape sequences `\uXXXX` and `\\` -/
def jsonUni (v : Env) (c : JsonParts) (p : Nat) : Option (Option (Nat × List Int)) :=
  match c.uni p with
  | none => some (jsonSelf c p)
  | some q =>
    match jsonHex v c q with
    | none => none
    | some (some (j, x)) => some (some (j, unicodeUnits c.wide x))
    | some none => some (jsonSelf c p)

/-- 7249-7277: the escape sequences of one character -/
def jsonShort (c : JsonParts) (p : Nat) : Option (Nat × List Int) :=
  match c.quote p with
  | some j => some (j, [34])
  | none =>
  match c.sol p with
  | some j => some (j, [47])
  | none =>
  match c.bs p with
  | some j => some (j, [8])
  | none =>
  match c.ff p with
  | some j => some (j, [12])
  | none =>
  match c.lf p with
  | some j => some (j, [10])
  | none =>
  match c.cr p with
  | some j => some (j, [13])
  | none =>
  match c.htab p with
  | some j => some (j, [9])
  | none => none

/-- 7248-7307: an escape sequence at `e`; the inner `none` if there is none. -/
def jsonEscape (v : Env) (c : JsonParts) (e : Nat) : Option (Option (Nat × List Int)) :=
  match c.escape e with
  | none => some none
  | some p =>
    match jsonShort c p with
    | some r => some (some r)
    | none => jsonUni v c p

/-- The loop 7242-7314: `interval.end` and `value`; the inner `none` is `break`. -/
def jsonLoop (v : Env) (c : JsonParts) : Nat → Nat → List Int → Option (Option (Nat × List Int))
  | 0, _, _ => none
  | fuel + 1, e, value =>
    match c.quote e with
    | some j => some (some (j, value))
    | none =>
      match jsonEscape v c e with
      | none => none
      | some (some (j, w)) => jsonLoop v c fuel j (value ++ w)
      | some none =>
        match c.chr e with
        | some j => jsonLoop v c fuel j (value ++ slice v.s (e, j))
        | none => some none

/-- `basic_json_string::do_match` 7232-7320: the result, `value` and `interval`. -/
def json (v : Env) (c : JsonParts) (i : Nat) : Option (Bool × List Int × Iv) :=
  match c.quote i with
  | none => some (false, [], none)
  | some e =>
    match jsonLoop v c (v.s.length + 1) e [] with
    | none => none
    | some none => some (false, [], none)
    | some (some (j, w)) => some (true, w, some (i, j))

/-! ### Specification -/

/-- A hexadecimal digit. -/
def hexDigit (c : Int) : Option Nat :=
  if 48 ≤ c ∧ c ≤ 57 then some (c - 48).toNat
  else if 97 ≤ c ∧ c ≤ 102 then some (c - 87).toNat
  else if 65 ≤ c ∧ c ≤ 70 then some (c - 55).toNat
  else none

/-- An element that matches one code unit that passes a test. -/
def testSub (t : List Int) (p : Int → Bool) : Sub := fun i => match t[i]? with
  | some c => if p c then some (i + 1) else none
  | none => none

/-- The JSON syntax, with the characters `ok` that stand for themselves. -/
def asciiJson (t : List Int) (ok : Int → Bool) (wide : Bool) : JsonParts where
  quote := charSub t 34
  chr := testSub t ok
  escape := charSub t 92
  sol := charSub t 47
  bs := charSub t 98
  ff := charSub t 102
  lf := charSub t 110
  cr := charSub t 114
  htab := charSub t 116
  uni := charSub t 117
  hex := fun lim => (List.range 16).map fun k => testSub (t.take lim) fun c => hexDigit c == some k
  wide := wide

/-- RFC 8259, section 7: the two-character escape sequences. -/
def shortEscapes : List (Int × Int) := [(34, 34), (92, 92), (47, 47), (98, 8), (102, 12), (110, 10), (114, 13), (116, 9)]

/-- RFC 8259, section 7: an escape sequence and its value, where `uni` gives that of a code unit. -/
inductive Esc (uni : Nat → List Int) : List Int → List Int → Prop
  | short {x y : Int} : (x, y) ∈ shortEscapes → Esc uni [92, x] [y]
  | unicode {a b c d : Int} {x y z w : Nat} : hexDigit a = some x → hexDigit b = some y → hexDigit c = some z → hexDigit d = some w →
      Esc uni [92, 117, a, b, c, d] (uni (x * 16 ^ 3 + y * 16 ^ 2 + z * 16 + w))

/-- What is between the quotes, and its value. -/
inductive Body (ok : Int → Bool) (uni : Nat → List Int) : List Int → List Int → Prop
  | nil : Body ok uni [] []
  | raw {c : Int} {r w : List Int} : ok c = true → c ≠ 34 → Body ok uni r w → Body ok uni (c :: r) (c :: w)
  | esc {e x r w : List Int} : Esc uni e x → Body ok uni r w → Body ok uni (e ++ r) (x ++ w)

/-- The UTF-8 encoding of a character (of Lean's library), as `char`s. -/
def utf8Of (c : Char) : List Int := (String.utf8EncodeChar c).map fun b => b.toInt8.toInt

/-! ### Proofs -/

theorem testSub_takes (t : List Int) (p : Int → Bool) : Takes t.length (testSub t p) := by
  intro i _ j h
  unfold testSub at h
  split at h
  · rename_i q
    have := lt_of_get q
    split at h
    · cases h; omega
    · cases h
  · cases h

theorem hexDigit_lt {c : Int} {k : Nat} (h : hexDigit c = some k) : k < 16 := by
  unfold hexDigit at h
  repeat' split at h
  all_goals first | (injection h with h; omega) | cases h

def hexSubs (t : List Int) : List Sub := (List.range 16).map fun k => testSub t fun c => hexDigit c == some k

theorem hexSubs_get {t : List Int} {k : Nat} {d : Sub} (h : (hexSubs t)[k]? = some d) : k < 16 ∧ d = testSub t fun c => hexDigit c == some k := by
  unfold hexSubs at h
  rw [List.getElem?_map] at h
  by_cases q : k < 16
  · rw [List.getElem?_eq_getElem (by simpa using q)] at h
    simp at h
    exact ⟨q, h.symm⟩
  · rw [List.getElem?_eq_none (by simp; omega)] at h; cases h

theorem hexSubs_at {t : List Int} {i k j : Nat} : DigitAt (hexSubs t) i k j ↔ ∃ c, t[i]? = some c ∧ hexDigit c = some k ∧ j = i + 1 := by
  constructor
  · rintro ⟨d, h1, h2, _⟩
    have ⟨_, e⟩ := hexSubs_get h1
    subst e
    unfold testSub at h2
    split at h2
    · rename_i c q
      split at h2
      · rename_i w
        cases h2
        exact ⟨c, q, by simpa using w, rfl⟩
      · cases h2
    · cases h2
  · rintro ⟨c, h1, h2, rfl⟩
    have lt := hexDigit_lt h2
    refine ⟨testSub t fun c => hexDigit c == some k, ?_, ?_, ?_⟩
    · unfold hexSubs; rw [List.getElem?_map, List.getElem?_eq_getElem (by simpa using lt)]; simp
    · unfold testSub; rw [h1]; simp [h2]
    · intro k' lt' d' e
      have ⟨_, e⟩ := hexSubs_get e
      subst e
      unfold testSub
      rw [h1]
      simp [h2]
      omega

theorem hexSubs_takes {t : List Int} : ∀ d ∈ hexSubs t, Takes t.length d := by
  intro d hd
  obtain ⟨k, _, rfl⟩ := List.mem_map.1 hd
  exact testSub_takes t _

theorem hexSubs_written {t : List Int} {n i : Nat} {w : List Nat} {j : Nat} (h : Written n (hexSubs t) i w j) :
    j = i + w.length ∧ ((t.drop i).take w.length).map hexDigit = w.map some := by
  induction h with
  | nil i => simp
  | cons a b c ih =>
    obtain ⟨c, q1, q2, rfl⟩ := hexSubs_at.1 b
    have ⟨lt, e⟩ := List.getElem?_eq_some_iff.1 q1
    rw [List.drop_eq_getElem_cons lt, e]
    refine ⟨by rw [ih.1, List.length_cons]; omega, ?_⟩
    simp only [List.length_cons, List.take_succ_cons, List.map_cons, q2]
    rw [ih.2]

theorem ok_limit {v : Env} {t : List Int} (h : v.Ok t) {p : Nat} (hp : p + 4 < 2 ^ 64) : Env.Ok { v with fin := some (hexEnd v p) } (t.take (p + 4)) ∧ t.take (hexEnd v p) = t.take (p + 4) := by
  have key : ∀ (l : List Int) (n : Nat), (l.take n).takeWhile (fun c => decide (c ≠ 0)) = (l.takeWhile (fun c => decide (c ≠ 0))).take n := by
    intro l
    induction l with
    | nil => intro n; simp
    | cons c l ih =>
      intro n
      cases n with
      | zero => simp
      | succ n =>
        rw [List.take_succ_cons, List.takeWhile_cons, List.takeWhile_cons]
        split
        · rw [ih, List.take_succ_cons]
        · simp
  have ht := h.text
  unfold hexEnd
  cases q : v.fin with
  | none =>
    rw [q] at ht
    dsimp only
    have hz : 0 ∈ v.s := h.valid.elim id fun ⟨n, e, _⟩ => by rw [q] at e; cases e
    refine ⟨⟨.inl hz, ?_, fun n e => by cases e; exact hp, h.lower⟩, rfl⟩
    show t.take (p + 4) = (v.s.take (p + 4)).takeWhile _
    rw [key, ht]
    rfl
  | some n =>
    rw [q] at ht
    dsimp only
    have hl : t.length ≤ n := by rw [ht]; exact text_length_take _ _
    have e : t.take (min (p + 4) n) = t.take (p + 4) := by
      by_cases c : p + 4 ≤ n
      · rw [Nat.min_eq_left c]
      · rw [Nat.min_eq_right (by omega), List.take_of_length_le hl, List.take_of_length_le (by omega)]
    refine ⟨⟨?_, ?_, ?_, h.lower⟩, e⟩
    · rcases h.valid with z | ⟨m, e, le⟩
      · exact .inl z
      · rw [q] at e; cases e
        exact .inr ⟨min (p + 4) n, rfl, by show min (p + 4) n ≤ v.s.length; omega⟩
    · show t.take (p + 4) = (v.s.take (min (p + 4) n)).takeWhile _
      rw [← e, key, ht]
      show ((v.s.take n).takeWhile _).take _ = _
      rw [key, List.take_take]
      congr 1
      omega
    · intro m e'
      have e' : some (min (p + 4) n) = some m := e'
      cases e'
      omega

/-- Four hexadecimal digits. -/
def Hex4 (r : List Int) (x : Nat) : Prop :=
  ∃ a b c d rest x0 x1 x2 x3, r = a :: b :: c :: d :: rest ∧ hexDigit a = some x0 ∧ hexDigit b = some x1 ∧ hexDigit c = some x2 ∧ hexDigit d = some x3 ∧ x = x0 * 16 ^ 3 + x1 * 16 ^ 2 + x2 * 16 + x3

theorem jsonHex_spec {v : Env} {t : List Int} (h : v.Ok t) {ok : Int → Bool} {wide : Bool} {p : Nat} (hp : p ≤ t.length) (hb : p + 4 < 2 ^ 64) :
    (∃ x, Hex4 (t.drop p) x ∧ jsonHex v (asciiJson t ok wide) p = some (some (p + 4, x))) ∨ ((∀ x, ¬ Hex4 (t.drop p) x) ∧ jsonHex v (asciiJson t ok wide) p = some none) := by
  have ⟨h', e⟩ := ok_limit h hb
  have hs : (asciiJson t ok wide).hex (hexEnd v p) = hexSubs (t.take (p + 4)) := by
    rw [← e]; rfl
  unfold jsonHex
  rw [hs]
  have hp' : p ≤ (t.take (p + 4)).length := by rw [List.length_take]; omega
  obtain ⟨w, j, a1, a2, a3, a4, a5⟩ := integer_spec h' 16 (ds := hexSubs (t.take (p + 4))) hexSubs_takes hp'
  rw [a5]
  have ⟨b1, b2⟩ := hexSubs_written a1
  have hd : (t.take (p + 4)).drop p = (t.drop p).take 4 := by rw [List.drop_take]; congr 1; omega
  rw [hd] at b2
  have hlt : ∀ m, m < 4 → p + m < t.length → (t.take (p + 4))[p + m]? = t[p + m]? := by intro m hm _; rw [List.getElem?_take]; rw [if_pos (by omega)]
  by_cases h4 : w.length = 4
  · left
    obtain ⟨x0, w, rfl⟩ := List.exists_cons_of_length_eq_add_one h4
    obtain ⟨x1, w, rfl⟩ := List.exists_cons_of_length_eq_add_one (by simpa using h4)
    obtain ⟨x2, w, rfl⟩ := List.exists_cons_of_length_eq_add_one (by simpa using h4)
    obtain ⟨x3, w, rfl⟩ := List.exists_cons_of_length_eq_add_one (by simpa using h4)
    have : w = [] := by simpa using h4
    subst this
    rcases q : t.drop p with _ | ⟨a, _ | ⟨b, _ | ⟨c, _ | ⟨d, rest⟩⟩⟩⟩ <;> rw [q] at b2 <;> simp at b2
    obtain ⟨c0, c1, c2, c3⟩ := b2
    have l0 := hexDigit_lt c0
    have l1 := hexDigit_lt c1
    have l2 := hexDigit_lt c2
    have l3 := hexDigit_lt c3
    refine ⟨x0 * 16 ^ 3 + x1 * 16 ^ 2 + x2 * 16 + x3, ⟨a, b, c, d, rest, x0, x1, x2, x3, rfl, c0, c1, c2, c3, rfl⟩, ?_⟩
    have v1 : positional 16 [x0, x1, x2, x3] % 2 ^ 64 = x0 * 16 ^ 3 + x1 * 16 ^ 2 + x2 * 16 + x3 := by simp [positional]; omega
    rw [if_neg (by simp), v1]
    dsimp only
    have b1 : j = p + 4 := b1
    rw [if_pos (by omega), b1]
  · right
    constructor
    · rintro x ⟨a, b, c, d, rest, x0, x1, x2, x3, q, c0, c1, c2, c3, _⟩
      have hlen : 4 ≤ t.length - p := by have := congrArg List.length q; simp at this; omega
      have get : ∀ m, m < 4 → (t.take (p + 4))[p + m]? = (a :: b :: c :: d :: rest)[m]? := by
        intro m hm; rw [hlt m hm (by omega), ← q, List.getElem?_drop]
      have l4 : (t.take (p + 4)).length = p + 4 := by rw [List.length_take]; omega
      have wr : Written (t.take (p + 4)).length (hexSubs (t.take (p + 4))) p [x0, x1, x2, x3] (p + 4) := by
        rw [l4]
        refine .cons (by omega) (hexSubs_at.2 ⟨a, get 0 (by omega), c0, rfl⟩) (.cons (by omega) (hexSubs_at.2 ⟨b, get 1 (by omega), c1, rfl⟩)
          (.cons (by omega) (hexSubs_at.2 ⟨c, get 2 (by omega), c2, rfl⟩) (.cons (by omega) (hexSubs_at.2 ⟨d, get 3 (by omega), c3, rfl⟩) (.nil _))))
      have ⟨q, _⟩ := written_unique a1 a2 wr (by intro q; omega)
      exact h4 (by rw [q]; rfl)
    · by_cases q : w = []
      · rw [if_pos q]
      · rw [if_neg q]
        dsimp only
        rw [if_neg (by omega)]

theorem drop_le {t : List Int} {c : Int} {r : List Int} {e : Nat} (hd : t.drop e = c :: r) : e + 1 ≤ t.length := by
  have := congrArg List.length hd
  simp at this
  omega

theorem drop_succ {t : List Int} {c : Int} {r : List Int} {e : Nat} (hd : t.drop e = c :: r) : t.drop (e + 1) = r := by
  rw [← List.drop_drop, hd]; rfl

theorem test_at {t : List Int} {i : Nat} {c : Int} {rest : List Int} (hd : t.drop i = c :: rest) (p : Int → Bool) : testSub t p i = if p c then some (i + 1) else none := by
  have hc : t[i]? = some c := by
    have := congrArg (fun l : List Int => l[0]?) hd
    simpa using this
  unfold testSub
  rw [hc]

theorem test_end {t : List Int} {i : Nat} (hd : t.drop i = []) (p : Int → Bool) : testSub t p i = none := by
  unfold testSub
  rw [List.getElem?_eq_none (List.drop_eq_nil_iff.1 hd)]

theorem jsonEscape_spec {v : Env} {t : List Int} (h : v.Ok t) (hl : t.length + 4 < 2 ^ 64) {ok : Int → Bool} {wide : Bool} {e : Nat} (_he : e ≤ t.length) :
    (∃ x w r, Esc (unicodeUnits wide) x w ∧ t.drop e = x ++ r ∧ jsonEscape v (asciiJson t ok wide) e = some (some (e + x.length, w))) ∨
      ((∀ x w r, Esc (unicodeUnits wide) x w → t.drop e ≠ x ++ r) ∧ jsonEscape v (asciiJson t ok wide) e = some none) := by
  have head : ∀ x w r, Esc (unicodeUnits wide) x w → t.drop e = x ++ r → ∃ r', t.drop e = 92 :: r' := by
    intro x w r hx q; cases hx <;> exact ⟨_, q⟩
  unfold jsonEscape
  rcases q : t.drop e with _ | ⟨c, r⟩
  · right
    have : (asciiJson t ok wide).escape e = none := char_end q 92
    rw [this]
    refine ⟨fun x w r hx w' => ?_, rfl⟩
    obtain ⟨_, w''⟩ := head x w r hx (by rw [q, w'])
    rw [q] at w''; cases w''
  have esc : (asciiJson t ok wide).escape e = if c = 92 then some (e + 1) else none := char_at q 92
  by_cases hc : c = 92
  rotate_left
  · right
    rw [esc, if_neg hc]
    refine ⟨fun x w r hx w' => ?_, rfl⟩
    obtain ⟨_, w''⟩ := head x w r hx (by rw [q, w'])
    rw [q] at w''; cases w''; exact hc rfl
  subst hc
  rw [esc, if_pos rfl]
  dsimp only
  have q2 := drop_succ q
  have le := drop_le q
  rcases r with _ | ⟨a, r⟩
  · right
    refine ⟨fun x w r hx w' => by cases hx <;> simp at w', ?_⟩
    have z : ∀ k, charSub t k (e + 1) = none := char_end q2
    unfold jsonShort jsonUni jsonSelf
    simp only [asciiJson, z]
    rfl
  have z : ∀ k, charSub t k (e + 1) = if a = k then some (e + 2) else none := char_at q2
  by_cases hs : ∃ y, (a, y) ∈ shortEscapes
  · left
    obtain ⟨y, hs⟩ := hs
    refine ⟨[92, a], [y], r, .short hs, rfl, ?_⟩
    unfold jsonShort jsonUni jsonSelf
    simp only [asciiJson, z]
    simp only [shortEscapes, List.mem_cons, Prod.mk.injEq, List.not_mem_nil, or_false] at hs
    rcases hs with ⟨rfl, rfl⟩ | ⟨rfl, rfl⟩ | ⟨rfl, rfl⟩ | ⟨rfl, rfl⟩ | ⟨rfl, rfl⟩ | ⟨rfl, rfl⟩ | ⟨rfl, rfl⟩ | ⟨rfl, rfl⟩ <;> simp
  have ne : ∀ y, (a, y) ∉ shortEscapes := fun y q => hs ⟨y, q⟩
  have hn : a ≠ 34 ∧ a ≠ 92 ∧ a ≠ 47 ∧ a ≠ 98 ∧ a ≠ 102 ∧ a ≠ 110 ∧ a ≠ 114 ∧ a ≠ 116 := by
    refine ⟨?_, ?_, ?_, ?_, ?_, ?_, ?_, ?_⟩ <;> rintro rfl
    · exact ne 34 (by decide)
    · exact ne 92 (by decide)
    · exact ne 47 (by decide)
    · exact ne 8 (by decide)
    · exact ne 12 (by decide)
    · exact ne 10 (by decide)
    · exact ne 13 (by decide)
    · exact ne 9 (by decide)
  obtain ⟨n1, n2, n3, n4, n5, n6, n7, n8⟩ := hn
  have short : jsonShort (asciiJson t ok wide) (e + 1) = none := by
    unfold jsonShort
    simp only [asciiJson, z, if_neg n1, if_neg n3, if_neg n4, if_neg n5, if_neg n6, if_neg n7, if_neg n8]
  have self : jsonSelf (asciiJson t ok wide) (e + 1) = none := by
    unfold jsonSelf
    simp only [asciiJson, z, if_neg n2]
    rfl
  rw [short]
  dsimp only
  unfold jsonUni
  have hu : (asciiJson t ok wide).uni (e + 1) = if a = 117 then some (e + 2) else none := z 117
  rw [hu, self]
  by_cases ha : a = 117
  rotate_left
  · rw [if_neg ha]
    right
    refine ⟨fun x w r' hx w' => ?_, rfl⟩
    cases hx with
    | short m => simp at w'; rw [← w'.1] at m; exact ne _ m
    | unicode _ _ _ _ => simp at w'; exact ha w'.1
  subst ha
  rw [if_pos rfl]
  dsimp only
  have q3 : t.drop (e + 2) = r := drop_succ q2
  rcases jsonHex_spec h (ok := ok) (wide := wide) (p := e + 2) (by have := drop_le q2; omega) (by have := drop_le q2; omega) with ⟨x, hx, w⟩ | ⟨hx, w⟩
  · left
    rw [w]
    obtain ⟨a, b, c, d, rest, x0, x1, x2, x3, u, c0, c1, c2, c3, rfl⟩ := hx
    rw [q3] at u
    subst u
    exact ⟨_, _, rest, .unicode c0 c1 c2 c3, rfl, rfl⟩
  · right
    rw [w]
    refine ⟨fun x w r' hx' w' => ?_, rfl⟩
    cases hx' with
    | short m => simp at w'; rw [← w'.1] at m; exact ne _ m
    | unicode c0 c1 c2 c3 =>
      simp at w'
      exact hx _ ⟨_, _, _, _, r', _, _, _, _, by rw [q3]; exact w', c0, c1, c2, c3, rfl⟩

theorem loop_complete {v : Env} {t : List Int} (h : v.Ok t) (hl : t.length + 4 < 2 ^ 64) {ok : Int → Bool} {wide : Bool} (hk : ok 92 = false) {body val : List Int}
    (hb : Body ok (unicodeUnits wide) body val) : ∀ (fuel e : Nat) (value rest : List Int), e ≤ t.length → t.drop e = body ++ 34 :: rest → body.length < fuel →
      jsonLoop v (asciiJson t ok wide) fuel e value = some (some (e + body.length + 1, value ++ val)) := by
  induction hb with
  | nil =>
    intro fuel e value rest he hd hf
    cases fuel with
    | zero => omega
    | succ fuel =>
      rw [jsonLoop]
      have : (asciiJson t ok wide).quote e = some (e + 1) := by
        show charSub t 34 e = _
        rw [char_at hd, if_pos rfl]
      rw [this]
      simp
  | @raw c r w hc hne hb ih =>
    intro fuel e value rest he hd hf
    cases fuel with
    | zero => omega
    | succ fuel =>
      rw [jsonLoop]
      have hd' : t.drop e = c :: (r ++ 34 :: rest) := hd
      have n1 : (asciiJson t ok wide).quote e = none := by
        show charSub t 34 e = _
        rw [char_at hd', if_neg hne]
      rw [n1]
      dsimp only
      have le := drop_le hd'
      have n2 : jsonEscape v (asciiJson t ok wide) e = some none := by
        unfold jsonEscape
        have : (asciiJson t ok wide).escape e = none := by
          show charSub t 92 e = _
          rw [char_at hd', if_neg (by rintro rfl; rw [hk] at hc; cases hc)]
        rw [this]
      rw [n2]
      dsimp only
      have n3 : (asciiJson t ok wide).chr e = some (e + 1) := by
        show testSub t ok e = _
        rw [test_at hd', if_pos hc]
      rw [n3]
      dsimp only
      rw [List.length_cons] at hf
      rw [ih fuel (e + 1) _ rest le (drop_succ hd') (by omega), slice_text h le]
      have : slice t (e, e + 1) = [c] := by unfold slice; rw [hd']; simp
      rw [this, List.length_cons]
      simp
      omega
  | @esc x y r w hx hb ih =>
    intro fuel e value rest he hd hf
    cases fuel with
    | zero => omega
    | succ fuel =>
      have pos : 0 < x.length := by cases hx <;> simp
      rw [jsonLoop]
      have ⟨r', hd'⟩ : ∃ r', t.drop e = 92 :: r' := by rw [hd]; cases hx <;> exact ⟨_, rfl⟩
      have n1 : (asciiJson t ok wide).quote e = none := by
        show charSub t 34 e = _
        rw [char_at hd', if_neg (by decide)]
      rw [n1]
      dsimp only
      rcases jsonEscape_spec h hl (ok := ok) (wide := wide) he with ⟨x', w', r'', a1, a2, a3⟩ | ⟨a1, _⟩
      · rw [a3]
        dsimp only
        have u : x' = x ∧ w' = y := by
          rw [a2, List.append_assoc] at hd
          cases a1 with
          | short m1 =>
            cases hx with
            | short m2 =>
              simp at hd
              obtain ⟨rfl, _⟩ := hd
              simp only [shortEscapes, List.mem_cons, Prod.mk.injEq, List.not_mem_nil, or_false] at m1 m2
              refine ⟨rfl, ?_⟩
              congr 1
              omega
            | unicode _ _ _ _ => simp at hd; obtain ⟨rfl, _⟩ := hd; simp [shortEscapes] at m1
          | unicode d0 d1 d2 d3 =>
            cases hx with
            | short m2 => simp at hd; obtain ⟨rfl, _⟩ := hd; simp [shortEscapes] at m2
            | unicode c0 c1 c2 c3 =>
              simp at hd
              obtain ⟨rfl, rfl, rfl, rfl, _⟩ := hd
              rw [c0] at d0; rw [c1] at d1; rw [c2] at d2; rw [c3] at d3
              cases d0; cases d1; cases d2; cases d3
              exact ⟨rfl, rfl⟩
        obtain ⟨rfl, rfl⟩ := u
        rw [List.length_append] at hf
        have hd2 : t.drop (e + x'.length) = r ++ 34 :: rest := drop_add (by rw [hd, List.append_assoc])
        have le : e + x'.length ≤ t.length := by
          have := congrArg List.length hd
          simp at this
          omega
        rw [ih fuel _ _ rest le hd2 (by omega), List.length_append, List.append_assoc]
        congr 3
        omega
      · exact absurd (by rw [hd, List.append_assoc]) (a1 x y (r ++ 34 :: rest) hx)

theorem loop_sound {v : Env} {t : List Int} (h : v.Ok t) (hl : t.length + 4 < 2 ^ 64) {ok : Int → Bool} {wide : Bool} : ∀ (fuel e : Nat) (value : List Int), e ≤ t.length → t.length - e < fuel →
    (∃ body val rest, Body ok (unicodeUnits wide) body val ∧ t.drop e = body ++ 34 :: rest ∧ jsonLoop v (asciiJson t ok wide) fuel e value = some (some (e + body.length + 1, value ++ val))) ∨
      jsonLoop v (asciiJson t ok wide) fuel e value = some none := by
  intro fuel
  induction fuel with
  | zero => intro e value _ q; omega
  | succ fuel ih =>
    intro e value he hf
    rw [jsonLoop]
    rcases q : t.drop e with _ | ⟨c, r⟩
    · right
      have n1 : (asciiJson t ok wide).quote e = none := char_end q 34
      have n2 : (asciiJson t ok wide).escape e = none := char_end q 92
      have n3 : (asciiJson t ok wide).chr e = none := test_end q ok
      rw [n1]; dsimp only
      unfold jsonEscape
      rw [n2]; dsimp only
      rw [n3]
    have le := drop_le q
    have n1 : (asciiJson t ok wide).quote e = if c = 34 then some (e + 1) else none := char_at q 34
    rw [n1]
    by_cases hc : c = 34
    · subst hc
      rw [if_pos rfl]
      exact .inl ⟨[], [], r, .nil, rfl, by simp⟩
    rw [if_neg hc]
    dsimp only
    rcases jsonEscape_spec h hl (ok := ok) (wide := wide) he with ⟨x, w, r', a1, a2, a3⟩ | ⟨a1, a3⟩
    · rw [a3]
      dsimp only
      have pos : 0 < x.length := by cases a1 <;> simp
      have le2 : e + x.length ≤ t.length := by
        have := congrArg List.length a2
        simp at this
        omega
      rcases ih (e + x.length) (value ++ w) le2 (by omega) with ⟨body, val, rest, b1, b2, b3⟩ | b
      · left
        refine ⟨x ++ body, w ++ val, rest, .esc a1 b1, ?_, ?_⟩
        · rw [drop_add a2] at b2
          rw [← q, a2, b2, List.append_assoc]
        · rw [b3, List.length_append, List.append_assoc]
          congr 3
          omega
      · exact .inr b
    · rw [a3]
      dsimp only
      have n3 : (asciiJson t ok wide).chr e = if ok c then some (e + 1) else none := test_at q ok
      rw [n3]
      by_cases hk : ok c = true
      · rw [if_pos hk]
        dsimp only
        have : slice v.s (e, e + 1) = [c] := by rw [slice_text h le]; unfold slice; rw [q]; simp
        rw [this]
        rcases ih (e + 1) (value ++ [c]) le (by omega) with ⟨body, val, rest, b1, b2, b3⟩ | b
        · left
          refine ⟨c :: body, c :: val, rest, .raw hk hc b1, ?_, ?_⟩
          · rw [drop_succ q] at b2; rw [b2]; rfl
          · rw [b3, List.length_cons]
            simp
            omega
        · exact .inr b
      · rw [if_neg hk]; exact .inr rfl

/-- **C81** A quoted JSON string that starts at `i` is matched from quote to quote, and `value` is what it stands for. -/
theorem json_match {v : Env} {t : List Int} (h : v.Ok t) (hl : t.length + 4 < 2 ^ 64) {ok : Int → Bool} {wide : Bool} (hk : ok 92 = false) {i : Nat} {body val rest : List Int}
    (hb : Body ok (unicodeUnits wide) body val) (hd : t.drop i = 34 :: (body ++ 34 :: rest)) :
    json v (asciiJson t ok wide) i = some (true, val, some (i, i + body.length + 2)) := by
  unfold json
  have n1 : (asciiJson t ok wide).quote i = some (i + 1) := by
    show charSub t 34 i = _
    rw [char_at hd, if_pos rfl]
  rw [n1]
  dsimp only
  have hlen : t.length ≤ v.s.length := by rw [h.text]; exact text_length_le _ _
  have d2 := drop_succ hd
  have l2 := congrArg List.length d2
  simp at l2
  rw [loop_complete h hl hk hb (v.s.length + 1) (i + 1) [] rest (drop_le hd) d2 (by omega)]
  dsimp only
  rw [List.nil_append, show i + 1 + body.length + 1 = i + body.length + 2 from by omega]

/-- **C81** Nothing else is matched: then the value is empty. Nothing is read outside of the text, and the parser ends. -/
theorem json_only {v : Env} {t : List Int} (h : v.Ok t) (hl : t.length + 4 < 2 ^ 64) {ok : Int → Bool} {wide : Bool} {i : Nat} (_hi : i ≤ t.length) :
    (∃ body val rest, Body ok (unicodeUnits wide) body val ∧ t.drop i = 34 :: (body ++ 34 :: rest) ∧
      json v (asciiJson t ok wide) i = some (true, val, some (i, i + body.length + 2))) ∨
    json v (asciiJson t ok wide) i = some (false, [], none) := by
  unfold json
  have hlen : t.length ≤ v.s.length := by rw [h.text]; exact text_length_le _ _
  rcases q : t.drop i with _ | ⟨c, r⟩
  · have n1 : (asciiJson t ok wide).quote i = none := char_end q 34
    rw [n1]; exact .inr rfl
  have n1 : (asciiJson t ok wide).quote i = if c = 34 then some (i + 1) else none := char_at q 34
  rw [n1]
  by_cases hc : c = 34
  · subst hc
    rw [if_pos rfl]
    dsimp only
    rcases loop_sound h hl (ok := ok) (wide := wide) (v.s.length + 1) (i + 1) [] (drop_le q) (by omega) with ⟨body, val, rest, b1, b2, b3⟩ | b
    · left
      refine ⟨body, val, rest, b1, ?_, ?_⟩
      · rw [drop_succ q] at b2; rw [b2]
      · rw [b3]
        dsimp only
        rw [List.nil_append, show i + 1 + body.length + 1 = i + body.length + 2 from by omega]
    · rw [b]; exact .inr rfl
  · rw [if_neg hc]; exact .inr rfl

theorem asChar_byte {x : Nat} (h : x < 256) : asChar x = (UInt8.ofNat x).toInt8.toInt := by
  have : ∀ y : Fin 256, asChar y.1 = (UInt8.ofNat y.1).toInt8.toInt := by decide +kernel
  exact this ⟨x, h⟩

theorem or_bits : (∀ y, y < 64 → 0x80 ||| y = y + 0x80) ∧ (∀ y, y < 32 → 0xc0 ||| y = y + 0xc0) ∧ (∀ y, y < 16 → 0xe0 ||| y = y + 0xe0) := by
  have h1 : ∀ y : Fin 64, 0x80 ||| y.1 = y.1 + 0x80 := by decide
  have h2 : ∀ y : Fin 32, 0xc0 ||| y.1 = y.1 + 0xc0 := by decide
  have h3 : ∀ y : Fin 16, 0xe0 ||| y.1 = y.1 + 0xe0 := by decide
  exact ⟨fun y q => h1 ⟨y, q⟩, fun y q => h2 ⟨y, q⟩, fun y q => h3 ⟨y, q⟩⟩

/-- **C81** (what is missing: surrogates, see `json_surrogates`) A `\uXXXX` that is a Unicode character by itself becomes its UTF-8 encoding. -/
theorem json_unicode_partial (c : Char) (h : c.toNat < 0x10000) : unicodeUnits false c.toNat = utf8Of c := by
  have e : c.val.toNat = c.toNat := rfl
  unfold unicodeUnits utf8Of String.utf8EncodeChar
  rw [e]
  generalize c.toNat = x at h
  obtain ⟨o1, o2, o3⟩ := or_bits
  have a3 : ∀ y, y &&& 0x3f = y % 64 := fun y => Nat.and_two_pow_sub_one_eq_mod y 6
  have a1 : ∀ y, y &&& 0x1f = y % 32 := fun y => Nat.and_two_pow_sub_one_eq_mod y 5
  have a0 : ∀ y, y &&& 0x0f = y % 16 := fun y => Nat.and_two_pow_sub_one_eq_mod y 4
  have a7 : ∀ y, y &&& 0x7f = y % 128 := fun y => Nat.and_two_pow_sub_one_eq_mod y 7
  have s6 : x >>> 6 = x / 64 := Nat.shiftRight_eq_div_pow x 6
  have s12 : x >>> 12 = x / 4096 := Nat.shiftRight_eq_div_pow x 12
  rw [if_neg (by decide)]
  simp only [a3, a1, a0, a7, s6, s12]
  have m6 : ∀ y, 0x80 ||| (y % 64) = y % 64 + 0x80 := fun y => o1 _ (Nat.mod_lt _ (by decide))
  have m5 : ∀ y, 0xc0 ||| (y % 32) = y % 32 + 0xc0 := fun y => o2 _ (Nat.mod_lt _ (by decide))
  have m4 : ∀ y, 0xe0 ||| (y % 16) = y % 16 + 0xe0 := fun y => o3 _ (Nat.mod_lt _ (by decide))
  simp only [m6, m5, m4]
  by_cases c1 : x ≤ 0x7f
  · rw [if_neg (by omega), if_neg (by omega), if_pos c1, Nat.mod_eq_of_lt (by omega), asChar_byte (by omega)]; rfl
  · rw [if_neg c1]
    by_cases c2 : x ≤ 0x7ff
    · rw [if_neg (by omega), if_pos (by omega), if_pos c2, asChar_byte (by omega), asChar_byte (by omega)]; rfl
    · rw [if_pos (by omega), if_neg c2, if_pos (by omega), asChar_byte (by omega), asChar_byte (by omega), asChar_byte (by omega)]; rfl

/-- How a value can be written: quotes, backslashes and control characters escaped, everything else as it is. -/
def writeJson (hex : Nat → Int) : List Int → List Int
  | [] => []
  | c :: w =>
    (if c = 34 ∨ c = 92 then [92, c] else if 0 ≤ c ∧ c < 32 then [92, 117, 48, 48, hex (c.toNat / 16), hex (c.toNat % 16)] else [c]) ++ writeJson hex w

/-- **C81** (round trip) A text written as a JSON string comes back, whatever code units it has, also zeros. -/
theorem json_roundtrip {v : Env} {w t : List Int} {hex : Nat → Int} (hh : ∀ k, k < 16 → hexDigit (hex k) = some k) {wide : Bool} (ht : t = 34 :: (writeJson hex w ++ [34])) (h : v.Ok t)
    (hl : t.length + 4 < 2 ^ 64) : json v (asciiJson t (fun c => decide ((c < 0 ∨ 32 ≤ c) ∧ c ≠ 92)) wide) 0 = some (true, w, some (0, t.length)) := by
  have hb : ∀ w, Body (fun c => decide ((c < 0 ∨ 32 ≤ c) ∧ c ≠ 92)) (unicodeUnits wide) (writeJson hex w) w := by
    intro w
    induction w with
    | nil => exact .nil
    | cons c w ih =>
      rw [writeJson]
      by_cases c1 : c = 34 ∨ c = 92
      · rw [if_pos c1]
        refine Body.esc (x := [c]) (.short ?_) ih
        rcases c1 with rfl | rfl <;> decide
      rw [if_neg c1]
      by_cases c2 : 0 ≤ c ∧ c < 32
      · rw [if_pos c2]
        have e : unicodeUnits wide (0 * 16 ^ 3 + 0 * 16 ^ 2 + c.toNat / 16 * 16 + c.toNat % 16) = [c] := by
          have q : 0 * 16 ^ 3 + 0 * 16 ^ 2 + c.toNat / 16 * 16 + c.toNat % 16 = c.toNat := by omega
          rw [q]
          unfold unicodeUnits
          have q2 : ((c.toNat : Nat) : Int) = c := by omega
          cases wide
          · rw [if_neg (by decide), if_neg (by omega), if_neg (by omega), show c.toNat &&& 0x7f = c.toNat % 128 from Nat.and_two_pow_sub_one_eq_mod _ 7, Nat.mod_eq_of_lt (by omega)]
            unfold asChar
            rw [if_pos (by omega), q2]
          · rw [if_pos rfl, q2]
        have := Body.esc (ok := fun c => decide ((c < 0 ∨ 32 ≤ c) ∧ c ≠ 92)) (Esc.unicode (uni := unicodeUnits wide) (a := 48) (b := 48) (x := 0) (y := 0) rfl rfl (hh (c.toNat / 16) (by omega)) (hh (c.toNat % 16) (by omega))) ih
        rw [e] at this
        exact this
      · rw [if_neg c2]
        refine Body.raw ?_ (fun q => c1 (.inl q)) ih
        simp only [decide_eq_true_eq]
        omega
  have := json_match h hl (wide := wide) (by decide) (i := 0) (rest := []) (hb w) (by rw [List.drop_zero]; exact ht)
  rw [this, ht]
  simp

/-! ### Examples -/

/-- `"a\\n\u20aC"`, with a stray `"` after it -/
def jsonText : List Int := [34, 97, 92, 110, 92, 117, 50, 48, 97, 67, 34, 34]

def printable : Int → Bool := fun c => decide (32 ≤ c ∧ c ≠ 92)

theorem jsonText_ok : (ipEnv jsonText).Ok jsonText := ⟨.inl (by decide), by decide, (fun n q => nomatch q), fun _ => Iff.rfl⟩

/-- The value is `a`, a line feed, and the three bytes E2 82 AC of the euro sign. -/
example : json (ipEnv jsonText) (asciiJson jsonText printable false) 0 = some (true, [97, 10, -30, -126, -84], some (0, 11)) ∧
    Body printable (unicodeUnits false) [97, 92, 110, 92, 117, 50, 48, 97, 67] [97, 10, -30, -126, -84] ∧ utf8Of '€' = [-30, -126, -84] := by
  refine ⟨by decide +kernel, ?_, by decide +kernel⟩
  exact .raw (by decide) (by decide) (.esc (e := [92, 110]) (x := [10]) (.short (by decide)) (.esc (e := [92, 117, 50, 48, 97, 67]) (x := [-30, -126, -84]) (.unicode (a := 50) (b := 48) (c := 97) (d := 67) rfl rfl rfl rfl) .nil))

/-- An unknown escape sequence, and a string without an end, are no match. -/
example : json (ipEnv [34, 92, 120, 34]) (asciiJson [34, 92, 120, 34] printable false) 0 = some (false, [], none) ∧ json (ipEnv [34, 97]) (asciiJson [34, 97] printable false) 0 = some (false, [], none) :=
  ⟨by decide +kernel, by decide +kernel⟩

/-- What C81 lacks: `"\ud83d\ude00"` stands for the one character U+1F600 (RFC 8259, section 7), but each half becomes three bytes of its own, which are not the UTF-8 encoding of the character. -/
theorem json_surrogates : ∃ v t, Env.Ok v t ∧ t = [34, 92, 117, 100, 56, 51, 100, 92, 117, 100, 101, 48, 48, 34] ∧
    json v (asciiJson t printable false) 0 = some (true, [-19, -96, -67, -19, -72, -128], some (0, 14)) ∧ utf8Of (Char.ofNat 0x1f600) = [-16, -97, -104, -128] :=
  ⟨ipEnv [34, 92, 117, 100, 56, 51, 100, 92, 117, 100, 101, 48, 48, 34], _, ⟨.inl (by decide), by decide, (fun n q => nomatch q), fun _ => Iff.rfl⟩, rfl, by decide +kernel, by decide +kernel⟩

/-- The hypothesis that the backslash does not stand for itself is needed: if `m_chr` takes it, an unknown escape sequence is taken literally, and a backslash before the closing quote too. -/
theorem json_backslash : json (ipEnv [34, 92, 120, 34]) (asciiJson [34, 92, 120, 34] (fun c => decide (32 ≤ c)) false) 0 = some (true, [92, 120], some (0, 4)) := by decide +kernel

end Verif.Parser
