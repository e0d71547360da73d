import Verif.Sgml.RoundTrip
import Verif.Str.Trim
/-
HTML escaping: `escape`, `escape_min` of include/stdex/html.hpp (44-228).

The functions append to a string. Characters are the integers they promote to; a buffer is the list of the characters that may be read, and
`none` is undefined behaviour.
-/
namespace Verif.Html
open Verif.Str Verif.Sgml

/-! ### Model -/

/-- The loop `for (i = 0; i < num_chars && src[i]; ++i)` that appends something for every character: html.hpp 49-60, 76-87, 167-175, 191-199, 313-349, 491-501, 517-527. -/
def eachChar (f : Int → List Int) (s : List Int) (count i : Nat) (dst : List Int) : Option (List Int) :=
  match h : Str.cond s (some count) i with
  | none => none
  | some none => some dst
  | some (some c) => eachChar f s count (i + 1) (dst ++ f c)
termination_by count - i
decreasing_by
  have : i < count := by
    unfold Str.cond below at h
    by_cases q : i < count
    · exact q
    · rw [if_neg (by simpa using q)] at h; cases h
  omega

/-- The cases of `escape`, html.hpp 50-59 (`char`) and 77-86 (`wchar_t`). A `char` that is signed is never 160: the case is dead there. -/
def escapeChar (c : Int) : List Int :=
  if c = 38 then [38, 97, 109, 112, 59]
  else if c = 59 then [38, 115, 101, 109, 105, 59]
  else if c = 34 then [38, 113, 117, 111, 116, 59]
  else if c = 39 then [38, 35, 120, 50, 55, 59]
  else if c = 60 then [38, 108, 116, 59]
  else if c = 62 then [38, 103, 116, 59]
  else if c = 0xa0 then [38, 110, 98, 115, 112, 59]
  else [c]

/-- The cases of `escape_min`, html.hpp 127-133, 145-151, 168-174, 192-198. -/
def escapeMinChar (c : Int) : List Int :=
  if c = 38 then [38, 97, 109, 112, 59]
  else if c = 60 then [38, 108, 116, 59]
  else if c = 62 then [38, 103, 116, 59]
  else if c = 0xa0 then [38, 110, 98, 115, 112, 59]
  else [c]

/-- `escape`, html.hpp 44-61 and 71-88. The overloads for arrays and strings, 97-116, call it. -/
def escape (s : List Int) (count : Nat) (dst : List Int) : Option (List Int) := eachChar escapeChar s count 0 dst

/-- `escape_min` of a string, html.hpp 162-176 and 186-200; overloads 209-228. -/
def escapeMin (s : List Int) (count : Nat) (dst : List Int) : Option (List Int) := eachChar escapeMinChar s count 0 dst

/-- `escape_min` of a character, html.hpp 125-134 and 143-152. -/
def escapeMin1 (c : Int) (dst : List Int) : List Int := dst ++ escapeMinChar c

/-! ### Proofs -/

theorem eachChar_from (f : Int → List Int) {s : List Int} {count : Nat} (hv : Valid s (some count)) : ∀ (d i : Nat), i + d = (text s (some count)).length → ∀ dst,
    eachChar f s count i dst = some (dst ++ ((text s (some count)).drop i).flatMap f) := by
  intro d
  induction d with
  | zero =>
    intro i hi dst
    rw [eachChar]
    have e := cond_eq hv (i := i) (by omega)
    rw [List.getElem?_eq_none_iff.2 (by omega)] at e
    split
    · next h => rw [e] at h; cases h
    · rw [List.drop_of_length_le (by omega)]; simp
    · next c h => rw [e] at h; cases h
  | succ d ih =>
    intro i hi dst
    rw [eachChar]
    have hl : i < (text s (some count)).length := by omega
    have e := cond_eq hv (i := i) (by omega)
    rw [List.getElem?_eq_getElem hl] at e
    split
    · next h => rw [e] at h; cases h
    · next h => rw [e] at h; cases h
    · next c h =>
      rw [e] at h
      injection h with h
      injection h with h
      rw [ih (i + 1) (by omega), List.drop_eq_getElem_cons hl, ← h, List.flatMap_cons, List.append_assoc]

theorem eachChar_eq (f : Int → List Int) {s : List Int} {count : Nat} (hv : Valid s (some count)) (dst : List Int) :
    eachChar f s count 0 dst = some (dst ++ (text s (some count)).flatMap f) := eachChar_from f hv _ 0 (Nat.zero_add _) dst

theorem text_self {o : List Int} (h : ∀ c ∈ o, c ≠ 0) : text o (some o.length) = o :=
  text_eq_of h (List.prefix_refl _) (Or.inr rfl) (by intro n e; cases e; exact Nat.le_refl _)

theorem meaning_amp : meaning [97, 109, 112] = some [38] := by decide +kernel
theorem meaning_semi : meaning [115, 101, 109, 105] = some [59] := by decide +kernel
theorem meaning_quot : meaning [113, 117, 111, 116] = some [34] := by decide +kernel
theorem meaning_apos : meaning [35, 120, 50, 55] = some [39] := by decide +kernel
theorem meaning_lt : meaning [108, 116] = some [60] := by decide +kernel
theorem meaning_gt : meaning [103, 116] = some [62] := by decide +kernel
theorem meaning_nbsp : meaning [110, 98, 115, 112] = some [160] := by decide +kernel

theorem decode_escapeChar (c : Int) (r : List Int) : decodeSpec 0 (escapeChar c ++ r) = c :: decodeSpec 0 r := by
  unfold escapeChar
  by_cases h1 : c = 38
  · rw [if_pos h1, h1]; exact decode_entity (by decide) meaning_amp r
  rw [if_neg h1]
  by_cases h2 : c = 59
  · rw [if_pos h2, h2]; exact decode_entity (by decide) meaning_semi r
  rw [if_neg h2]
  by_cases h3 : c = 34
  · rw [if_pos h3, h3]; exact decode_entity (by decide) meaning_quot r
  rw [if_neg h3]
  by_cases h4 : c = 39
  · rw [if_pos h4, h4]; exact decode_entity (by decide) meaning_apos r
  rw [if_neg h4]
  by_cases h5 : c = 60
  · rw [if_pos h5, h5]; exact decode_entity (by decide) meaning_lt r
  rw [if_neg h5]
  by_cases h6 : c = 62
  · rw [if_pos h6, h6]; exact decode_entity (by decide) meaning_gt r
  rw [if_neg h6]
  by_cases h7 : c = 0xa0
  · rw [if_pos h7, h7]; exact decode_entity (by decide) meaning_nbsp r
  rw [if_neg h7]
  exact decode_chr h1 r

theorem decode_escapeMinChar (c : Int) (r : List Int) : decodeSpec 0 (escapeMinChar c ++ r) = c :: decodeSpec 0 r := by
  unfold escapeMinChar
  by_cases h1 : c = 38
  · rw [if_pos h1, h1]; exact decode_entity (by decide) meaning_amp r
  rw [if_neg h1]
  by_cases h5 : c = 60
  · rw [if_pos h5, h5]; exact decode_entity (by decide) meaning_lt r
  rw [if_neg h5]
  by_cases h6 : c = 62
  · rw [if_pos h6, h6]; exact decode_entity (by decide) meaning_gt r
  rw [if_neg h6]
  by_cases h7 : c = 0xa0
  · rw [if_pos h7, h7]; exact decode_entity (by decide) meaning_nbsp r
  rw [if_neg h7]
  exact decode_chr h1 r

theorem decode_flatMap {f : Int → List Int} (h : ∀ c r, decodeSpec 0 (f c ++ r) = c :: decodeSpec 0 r) : ∀ t : List Int, decodeSpec 0 (t.flatMap f) = t
  | [] => by unfold decodeSpec; rw [List.flatMap_nil, pieces]; rfl
  | c :: t => by rw [List.flatMap_cons, h, decode_flatMap h t]

theorem decode_back {o t : List Int} (h0 : ∀ c ∈ o, c ≠ 0) (hl : o.length < 2 ^ 64) (h : decodeSpec 0 o = t) :
    (sgml2strcat o o.length 0 []).map Prod.fst = some t := by
  rw [sgml2str_decodes (Or.inr ⟨_, rfl, Nat.le_refl _⟩) hl, text_self h0]
  unfold decodeSpec at h
  rw [h]; rfl

theorem flatMap_nonzero {f : Int → List Int} (hf : ∀ c, c ≠ 0 → ∀ x ∈ f c, x ≠ 0) {s : List Int} {count : Nat} :
    ∀ x ∈ (text s (some count)).flatMap f, x ≠ 0 := by
  intro x hx
  obtain ⟨c, hc, hx⟩ := List.mem_flatMap.1 hx
  exact hf c (text_ne_zero hc) x hx

theorem escapeChar_nonzero (c : Int) (hc : c ≠ 0) : ∀ x ∈ escapeChar c, x ≠ 0 := by
  intro x
  unfold escapeChar
  repeat (split; · simp; omega)
  simp; omega

theorem escapeMinChar_nonzero (c : Int) (hc : c ≠ 0) : ∀ x ∈ escapeMinChar c, x ≠ 0 := by
  intro x
  unfold escapeMinChar
  repeat (split; · simp; omega)
  simp; omega

theorem escapeChar_safe (c : Int) : ∀ x ∈ escapeChar c, x ≠ ('<' : Char).toNat ∧ x ≠ ('>' : Char).toNat ∧ x ≠ ('"' : Char).toNat ∧ x ≠ ('\'' : Char).toNat ∧ x ≠ 0xa0 := by
  intro x
  show _ → x ≠ 60 ∧ x ≠ 62 ∧ x ≠ 34 ∧ x ≠ 39 ∧ x ≠ 160
  unfold escapeChar
  repeat (split; · simp; omega)
  simp; omega

theorem escapeMinChar_safe (c : Int) : ∀ x ∈ escapeMinChar c, x ≠ ('<' : Char).toNat ∧ x ≠ ('>' : Char).toNat ∧ x ≠ 0xa0 := by
  intro x
  show _ → x ≠ 60 ∧ x ≠ 62 ∧ x ≠ 160
  unfold escapeMinChar
  repeat (split; · simp; omega)
  simp; omega

/-! ### Specification -/

/-- Text that may stand anywhere in HTML, an attribute value included: it has none of the characters that end a piece of text, and no bare ampersand; it reads as `t`. -/
structure SafeText (o t : List Int) : Prop where
  /-- No markup. -/
  clean : ∀ x ∈ o, x ≠ ('<' : Char).toNat ∧ x ≠ ('>' : Char).toNat ∧ x ≠ ('"' : Char).toNat ∧ x ≠ ('\'' : Char).toNat ∧ x ≠ 0xa0
  /-- Every ampersand begins an entity that has a meaning. -/
  amps : ∀ p r, o = p ++ (('&' : Char).toNat : Int) :: r → ∃ name rest u, r = name ++ ((';' : Char).toNat : Int) :: rest ∧
    (∀ x ∈ name, x ≠ ('&' : Char).toNat ∧ x ≠ (';' : Char).toNat) ∧ meaning name = some u
  /-- Its meaning. -/
  reads : decodeSpec 0 o = t

/-- Text that may stand between tags. -/
structure SafeBody (o t : List Int) : Prop where
  clean : ∀ x ∈ o, x ≠ ('<' : Char).toNat ∧ x ≠ ('>' : Char).toNat ∧ x ≠ 0xa0
  amps : ∀ p r, o = p ++ (('&' : Char).toNat : Int) :: r → ∃ name rest u, r = name ++ ((';' : Char).toNat : Int) :: rest ∧
    (∀ x ∈ name, x ≠ ('&' : Char).toNat ∧ x ≠ (';' : Char).toNat) ∧ meaning name = some u
  reads : decodeSpec 0 o = t

/-- A piece that `f` writes has at most one ampersand, in front, followed by an entity. -/
def Piecewise (f : Int → List Int) : Prop :=
  ∀ c, (38 ∉ f c) ∨ ∃ name u, f c = 38 :: (name ++ [59]) ∧ (∀ x ∈ name, x ≠ 38 ∧ x ≠ 59) ∧ meaning name = some u

theorem amps_of {f : Int → List Int} (hf : Piecewise f) : ∀ (t p r : List Int), t.flatMap f = p ++ (38 : Int) :: r →
    ∃ name rest u, r = name ++ (59 : Int) :: rest ∧ (∀ x ∈ name, x ≠ 38 ∧ x ≠ 59) ∧ meaning name = some u := by
  intro t
  induction t with
  | nil => intro p r h; simp at h
  | cons c t ih =>
    intro p r h
    rw [List.flatMap_cons] at h
    rcases List.append_eq_append_iff.1 h with ⟨q, h1, h2⟩ | ⟨q, h1, h2⟩
    · exact ih q r h2
    · cases q with
      | nil => exact ih [] r (by simpa using h2.symm)
      | cons y q =>
        rw [List.cons_append] at h2
        injection h2 with e h2
        subst e
        rcases hf c with hn | ⟨name, u, e, hn, hm⟩
        · exact absurd (by rw [h1]; simp) hn
        · cases p with
          | nil =>
            rw [e] at h1
            injection h1 with _ h1
            subst h1
            exact ⟨name, t.flatMap f, u, by rw [h2]; simp, hn, hm⟩
          | cons z p =>
            rw [e] at h1
            injection h1 with _ h1
            have : (38 : Int) ∈ name ++ [59] := by rw [h1]; simp
            simp only [List.mem_append, List.mem_singleton] at this
            rcases this with q | q
            · exact absurd rfl (hn _ q).1
            · cases q

theorem escapeChar_pieces : Piecewise escapeChar := by
  intro c
  unfold escapeChar
  by_cases h1 : c = 38
  · rw [if_pos h1]; exact Or.inr ⟨_, _, rfl, by decide, meaning_amp⟩
  rw [if_neg h1]
  by_cases h2 : c = 59
  · rw [if_pos h2]; exact Or.inr ⟨[115, 101, 109, 105], _, rfl, by decide, meaning_semi⟩
  rw [if_neg h2]
  by_cases h3 : c = 34
  · rw [if_pos h3]; exact Or.inr ⟨[113, 117, 111, 116], _, rfl, by decide, meaning_quot⟩
  rw [if_neg h3]
  by_cases h4 : c = 39
  · rw [if_pos h4]; exact Or.inr ⟨[35, 120, 50, 55], _, rfl, by decide, meaning_apos⟩
  rw [if_neg h4]
  by_cases h5 : c = 60
  · rw [if_pos h5]; exact Or.inr ⟨[108, 116], _, rfl, by decide, meaning_lt⟩
  rw [if_neg h5]
  by_cases h6 : c = 62
  · rw [if_pos h6]; exact Or.inr ⟨[103, 116], _, rfl, by decide, meaning_gt⟩
  rw [if_neg h6]
  by_cases h7 : c = 0xa0
  · rw [if_pos h7]; exact Or.inr ⟨[110, 98, 115, 112], _, rfl, by decide, meaning_nbsp⟩
  rw [if_neg h7]
  left; simp; omega

theorem escapeMinChar_pieces : Piecewise escapeMinChar := by
  intro c
  unfold escapeMinChar
  by_cases h1 : c = 38
  · rw [if_pos h1]; exact Or.inr ⟨_, _, rfl, by decide, meaning_amp⟩
  rw [if_neg h1]
  by_cases h5 : c = 60
  · rw [if_pos h5]; exact Or.inr ⟨[108, 116], _, rfl, by decide, meaning_lt⟩
  rw [if_neg h5]
  by_cases h6 : c = 62
  · rw [if_pos h6]; exact Or.inr ⟨[103, 116], _, rfl, by decide, meaning_gt⟩
  rw [if_neg h6]
  by_cases h7 : c = 0xa0
  · rw [if_pos h7]; exact Or.inr ⟨[110, 98, 115, 112], _, rfl, by decide, meaning_nbsp⟩
  rw [if_neg h7]
  left; simp; omega

/-! ### Properties -/

/-- **C100** What `escape` appends has no `<`, `>`, quote, no-break space or bare ampersand, and the library's own decoder gives the source back. -/
theorem escape_safe {s : List Int} {count : Nat} (hv : Valid s (some count)) (dst : List Int) :
    ∃ o, escape s count dst = some (dst ++ o) ∧ SafeText o (text s (some count)) ∧
      (o.length < 2 ^ 64 → (sgml2strcat o o.length 0 []).map Prod.fst = some (text s (some count))) :=
  ⟨_, eachChar_eq escapeChar hv dst,
    ⟨fun x hx => by
        obtain ⟨c, _, hx⟩ := List.mem_flatMap.1 hx
        exact escapeChar_safe c x hx,
      amps_of escapeChar_pieces _, decode_flatMap decode_escapeChar _⟩,
    fun hl => decode_back (flatMap_nonzero escapeChar_nonzero) hl (decode_flatMap decode_escapeChar _)⟩

/-- **C100** What `escape_min` appends has no `<`, `>`, no-break space or bare ampersand, and the library's own decoder gives the source back. -/
theorem escape_min_safe {s : List Int} {count : Nat} (hv : Valid s (some count)) (dst : List Int) :
    ∃ o, escapeMin s count dst = some (dst ++ o) ∧ SafeBody o (text s (some count)) ∧
      (o.length < 2 ^ 64 → (sgml2strcat o o.length 0 []).map Prod.fst = some (text s (some count))) :=
  ⟨_, eachChar_eq escapeMinChar hv dst,
    ⟨fun x hx => by
        obtain ⟨c, _, hx⟩ := List.mem_flatMap.1 hx
        exact escapeMinChar_safe c x hx,
      amps_of escapeMinChar_pieces _, decode_flatMap decode_escapeMinChar _⟩,
    fun hl => decode_back (flatMap_nonzero escapeMinChar_nonzero) hl (decode_flatMap decode_escapeMinChar _)⟩

/-- **C100** Escaping character by character is escaping the string. -/
theorem escape_min_chars {s : List Int} {count : Nat} (hv : Valid s (some count)) (dst : List Int) :
    escapeMin s count dst = some ((text s (some count)).foldl (fun d c => escapeMin1 c d) dst) := by
  unfold escapeMin
  rw [eachChar_eq escapeMinChar hv dst]
  generalize text s (some count) = t
  induction t generalizing dst with
  | nil => simp
  | cons c t ih =>
    have := ih (escapeMin1 c dst)
    rw [List.foldl_cons, ← this, escapeMin1, List.flatMap_cons, List.append_assoc]

/-- **C100** Text without special characters is appended as it is. -/
theorem escape_plain {s : List Int} {count : Nat} (hv : Valid s (some count)) (dst : List Int)
    (h : ∀ c ∈ text s (some count), c ∉ asc "&;\"'<>" ∧ c ≠ 0xa0) :
    escape s count dst = some (dst ++ text s (some count)) ∧ escapeMin s count dst = some (dst ++ text s (some count)) := by
  have key : ∀ (f : Int → List Int) (t : List Int), (∀ c ∈ t, f c = [c]) → t.flatMap f = t := by
    intro f t
    induction t with
    | nil => intro _; rfl
    | cons c t ih =>
      intro h
      rw [List.flatMap_cons, h c List.mem_cons_self, ih fun x hx => h x (List.mem_cons_of_mem _ hx)]
      rfl
  have hs : asc "&;\"'<>" = [38, 59, 34, 39, 60, 62] := by decide +kernel
  rw [hs] at h
  unfold escape escapeMin
  rw [eachChar_eq _ hv, eachChar_eq _ hv, key _ _ ?_, key _ _ ?_]
  · exact ⟨rfl, rfl⟩
  · intro c hc
    have := h c hc
    simp only [List.mem_cons, List.not_mem_nil, not_or] at this
    unfold escapeMinChar
    rw [if_neg (by omega), if_neg (by omega), if_neg (by omega), if_neg (by omega)]
  · intro c hc
    have := h c hc
    simp only [List.mem_cons, List.not_mem_nil, not_or] at this
    unfold escapeChar
    rw [if_neg (by omega), if_neg (by omega), if_neg (by omega), if_neg (by omega), if_neg (by omega), if_neg (by omega), if_neg (by omega)]

/-- Finding: a no-break space of UTF-8 (C2 A0) in a signed `char` is not escaped, and where `char` is unsigned the second octet alone is: the output is not UTF-8 any more. -/
theorem escape_utf8_nbsp : escape [-62, -96] 2 [] = some [-62, -96] ∧ escape [0xc2, 0xa0] 2 [] = some (0xc2 :: asc "&nbsp;") := by decide +kernel

/-- Non-vacuity. -/
example : Valid (asc "a<b & \"c\"; ") (some 11) ∧ escape (asc "a<b & \"c\";") 10 (asc "x") = some (asc "xa&lt;b &amp; &quot;c&quot;&semi;") ∧
    escapeMin (asc "a<b & 'c'") 3 [] = some (asc "a&lt;b") := by
  refine ⟨Or.inr ⟨_, rfl, by decide +kernel⟩, ?_, ?_⟩ <;> decide +kernel

end Verif.Html
