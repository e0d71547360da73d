import Verif.Locale.LangSpec
import Verif.Str.Compare
/-
Names of character sets, include/stdex/unicode.hpp 30-132 and 458-478, POSIX branch.
-/
namespace Verif.Locale
open Verif.Str Verif.Sgml

/-! ### Model -/

/-- `charset_id`, 41-52. -/
inductive Charset where
  | system | utf7 | utf8 | utf16 | utf32 | windows1250 | windows1251 | windows1252
  deriving DecidableEq

/-- `charset_less`, 76-81: `stricmp(a, b) < 0`; `none` is a read past the end. -/
def charsetLess (T : CT) (a b : List Int) : Option Bool := (strncmp2 (tolower T) (tolower T) a none b none).map fun r => decide (r < 0)

/-- `charsets`, 82-115; `big` is `BYTE_ORDER == BIG_ENDIAN`. -/
def charsetTable (big : Bool) : List (String × Charset) := [
  ("UNICODE-1-1-UTF-7", .utf7),
  ("UTF-7", .utf7),
  ("CSUNICODE11UTF7", .utf7),
  ("UTF-8", .utf8),
  ("UTF8", .utf8),
  ("UTF-16", .utf16),
  (if big then "UTF-16BE" else "UTF-16LE", .utf16),
  ("UTF-32", .utf32),
  (if big then "UTF-32BE" else "UTF-32LE", .utf32),
  ("CP1250", .windows1250),
  ("MS-EE", .windows1250),
  ("WINDOWS-1250", .windows1250),
  ("CP1251", .windows1251),
  ("MS-CYRL", .windows1251),
  ("WINDOWS-1251", .windows1251),
  ("CP1252", .windows1252),
  ("MS-ANSI", .windows1252),
  ("WINDOWS-1252", .windows1252)]

/-- `charset_from_name`, 74-119 (and 129-132 with the terminated text of a string). -/
def charsetFrom (T : CT) (big : Bool) (name : List Int) : Option Charset := do
  let m ← mapOf (charsetLess T) [] ((charsetTable big).map fun p => (lit p.1, p.2))
  pure ((← mapFind (charsetLess T) name m).getD .system)

/-- `charset_encoder::to_encoding`, 458-478; `codeset` is `nl_langinfo(CODESET)`. -/
def toEncoding (big : Bool) (codeset : String) : Charset → String
  | .system => codeset
  | .utf7 => "UTF-7"
  | .utf8 => "UTF-8"
  | .utf16 => if big then "UTF-16BE" else "UTF-16LE"
  | .utf32 => if big then "UTF-32BE" else "UTF-32LE"
  | .windows1250 => "CP1250"
  | .windows1251 => "CP1251"
  | .windows1252 => "CP1252"

/-- `charset_encoder::system_charset`, 435-442. -/
def systemCharset (T : CT) (big : Bool) (codeset : String) : Option Charset := charsetFrom T big (lit codeset)

/-! ### Specification -/

/-- The names of the character sets, as registered by IANA or used by iconv. -/
def Charset.names (big : Bool) : Charset → List String
  | .system => []
  | .utf7 => ["utf-7", "unicode-1-1-utf-7", "csunicode11utf7"]
  | .utf8 => ["utf-8", "utf8"]
  | .utf16 => ["utf-16", "utf-16" ++ if big then "be" else "le"]
  | .utf32 => ["utf-32", "utf-32" ++ if big then "be" else "le"]
  | .windows1250 => ["windows-1250", "cp1250", "ms-ee"]
  | .windows1251 => ["windows-1251", "cp1251", "ms-cyrl"]
  | .windows1252 => ["windows-1252", "cp1252", "ms-ansi"]

/-- The texts are the same up to the case of letters. -/
def sameText (a b : List Int) : Prop := a.map lowerSpec = b.map lowerSpec

instance (a b : List Int) : Decidable (sameText a b) := inferInstanceAs (Decidable (_ = _))

/-! ### Proofs -/

theorem charsetLess_spec {T : CT} (hT : 8 ≤ T.bits) {a b : List Int} (ha : 0 ∈ a) (hb : 0 ∈ b) :
    charsetLess T a b = some (decide ((cstr a).map lowerSpec ++ [0] < (cstr b).map lowerSpec ++ [0])) := by
  have hf : tolower T = lowerSpec := funext fun c => tolower_spec T hT c
  have nz : ∀ {s : List Int}, ∀ c ∈ text s none, lowerSpec c ≠ 0 := fun c hc q => text_ne_zero hc (lowerSpec_zero.1 q)
  have nz' : ∀ {s : List Int}, ∀ c ∈ (text s none).map lowerSpec, c ≠ 0 := fun c hc => by obtain ⟨x, hx, rfl⟩ := List.mem_map.1 hc; exact nz x hx
  unfold charsetLess
  rw [hf, strncmp2_from lowerSpec lowerSpec (Or.inl ha) (Or.inl hb) nz nz rfl rfl 0 (Nat.zero_le _) (Nat.zero_le _), List.drop_zero, List.drop_zero]
  show some (decide (cmpR true true ((text a none).map lowerSpec) ((text b none).map lowerSpec) < 0)) = _
  rw [cmpR_terminated _ _ nz' nz']
  show some (decide (cmpL ((cstr a).map lowerSpec ++ [0]) ((cstr b).map lowerSpec ++ [0]) < 0)) = _
  generalize (cstr a).map lowerSpec ++ [0] = x
  generalize (cstr b).map lowerSpec ++ [0] = y
  congr 1
  rcases cmpL_sgn x y with ⟨q, h⟩ | ⟨q, h⟩ | ⟨q, h⟩
  · rw [q]; simp [h]
  · rw [q, h]; simp [List.lt_irrefl]
  · rw [q]; simp [List.lt_asymm h]

theorem charset_orders {T : CT} (hT : 8 ≤ T.bits) : Orders (charsetLess T) (fun s => 0 ∈ s) (fun s => (cstr s).map lowerSpec) where
  total := fun a b ha hb => by rw [charsetLess_spec hT ha hb]; rfl
  irrefl := fun a b ha hb e => by
    rw [charsetLess_spec hT ha hb]
    have e : (cstr a).map lowerSpec = (cstr b).map lowerSpec := e
    rw [e]; simp [List.lt_irrefl]
  connex := fun a b ha hb h1 h2 => by
    rw [charsetLess_spec hT ha hb] at h1
    rw [charsetLess_spec hT hb ha] at h2
    simp only [Option.some.injEq, decide_eq_false_iff_not] at h1 h2
    exact List.append_cancel_right (List.le_antisymm (List.not_lt.1 h2) (List.not_lt.1 h1))
  asymm := fun a b ha hb h1 => by
    rw [charsetLess_spec hT ha hb] at h1
    rw [charsetLess_spec hT hb ha]
    simp only [Option.some.injEq, decide_eq_true_eq, decide_eq_false_iff_not] at h1 ⊢
    exact List.lt_asymm h1
  trans := fun a b c ha hb hc h1 h2 => by
    rw [charsetLess_spec hT ha hb] at h1
    rw [charsetLess_spec hT hb hc] at h2
    rw [charsetLess_spec hT ha hc]
    simp only [Option.some.injEq, decide_eq_true_eq] at h1 h2 ⊢
    exact List.lt_trans h1 h2

theorem table_nz (big : Bool) : ∀ p ∈ charsetTable big, ∀ c ∈ asc p.1, c ≠ 0 := by cases big <;> decide +kernel

theorem find_names (big : Bool) (x : List Int) : (((charsetTable big).map fun p => (lit p.1, p.2)).find? fun e => decide ((cstr e.1).map lowerSpec = x)).map (·.2) = ((charsetTable big).find? fun e => decide ((asc e.1).map lowerSpec = x)).map (·.2) := by
  have hn := table_nz big
  generalize charsetTable big = t at hn ⊢
  induction t with
  | nil => rfl
  | cons p t ih =>
    have ih := ih fun q hq => hn q (List.mem_cons_of_mem _ hq)
    have hp : cstr (lit p.1) = asc p.1 := cstr_lit (hn p List.mem_cons_self) []
    simp only [List.map_cons]
    by_cases h : (asc p.1).map lowerSpec = x
    · rw [List.find?_cons_of_pos (by simpa [hp] using h), List.find?_cons_of_pos (by simpa using h)]; rfl
    · rw [List.find?_cons_of_neg (by simpa [hp] using h), List.find?_cons_of_neg (by simpa using h)]; exact ih

theorem charsetFrom_table {T : CT} (hT : 8 ≤ T.bits) (big : Bool) {s : List Int} (h : 0 ∈ s) :
    charsetFrom T big s = some ((((charsetTable big).find? fun e => decide (sameText (asc e.1) (cstr s))).map (·.2)).getD .system) := by
  obtain ⟨m, h1, h2⟩ := map_spec (charset_orders hT) (l := (charsetTable big).map fun p => (lit p.1, p.2)) (fun e he => by obtain ⟨p, -, rfl⟩ := List.mem_map.1 he; simp [lit]) h
  unfold charsetFrom
  rw [h1]
  simp only [Option.bind_eq_bind, Option.bind_some]
  rw [h2, find_names]
  rfl

/-- Every entry of the table is a name of the specification, and the reverse; and no name is of two sets. -/
theorem table_names (big : Bool) : (∀ e ∈ charsetTable big, e.2 ≠ .system ∧ ∃ n ∈ e.2.names big, (asc e.1).map lowerSpec = (asc n).map lowerSpec) ∧
    (∀ c ∈ [Charset.system, .utf7, .utf8, .utf16, .utf32, .windows1250, .windows1251, .windows1252], ∀ n ∈ c.names big, ∃ e ∈ charsetTable big, (asc e.1).map lowerSpec = (asc n).map lowerSpec ∧ e.2 = c) ∧
    (∀ e ∈ charsetTable big, ∀ e' ∈ charsetTable big, (asc e.1).map lowerSpec = (asc e'.1).map lowerSpec → e.2 = e'.2) := by
  cases big <;> exact ⟨by decide +kernel, by decide +kernel, by decide +kernel⟩

theorem all_charsets (c : Charset) : c ∈ [Charset.system, .utf7, .utf8, .utf16, .utf32, .windows1250, .windows1251, .windows1252] := by cases c <;> decide

/-! ### Properties -/

/-- The set of a name is the one that has the name, whatever its case; without one, the set of the system. No character past the terminator is read. -/
theorem charset_from_name {T : CT} (hT : 8 ≤ T.bits) (big : Bool) {s : List Int} (h : 0 ∈ s) :
    ∃ c, charsetFrom T big s = some c ∧ (c ≠ .system → ∃ n ∈ c.names big, sameText (asc n) (cstr s)) ∧
      ∀ c' : Charset, ∀ n ∈ c'.names big, sameText (asc n) (cstr s) → c = c' := by
  refine ⟨_, charsetFrom_table hT big h, ?_⟩
  obtain ⟨t1, t2, t3⟩ := table_names big
  cases hf : (charsetTable big).find? fun e => decide (sameText (asc e.1) (cstr s)) with
  | none =>
    refine ⟨fun q => absurd rfl q, fun c' n hn hs => ?_⟩
    obtain ⟨e, he, he2, -⟩ := t2 c' (all_charsets c') n hn
    have := List.find?_eq_none.1 hf e he
    rw [decide_eq_true_eq] at this
    exact absurd (he2.trans hs) this
  | some e =>
    have hm := List.mem_of_find?_eq_some hf
    have he := List.find?_some hf
    rw [decide_eq_true_eq] at he
    refine ⟨fun _ => ?_, fun c' n hn hs => ?_⟩
    · obtain ⟨n, hn, q⟩ := (t1 e hm).2
      exact ⟨n, hn, q.symm.trans he⟩
    · obtain ⟨e', he', q, q2⟩ := t2 c' (all_charsets c') n hn
      rw [← q2]
      exact t3 e hm e' he' (he.trans (hs.symm.trans q.symm))

/-- The encoding a set is converted by is a name of that set: naming a set and finding it by its name gives the set. -/
theorem charset_encoding {T : CT} (hT : 8 ≤ T.bits) (big : Bool) (codeset : String) {c : Charset} (hc : c ≠ .system) :
    charsetFrom T big (lit (toEncoding big codeset c)) = some c := by
  have h0 : (0 : Int) ∈ lit (toEncoding big codeset c) := by simp [lit]
  obtain ⟨c', h1, -, h3⟩ := charset_from_name hT big h0
  rw [h1]
  congr 1
  have key : ∃ n ∈ c.names big, sameText (asc n) (cstr (lit (toEncoding big codeset c))) := by
    have e : toEncoding big codeset c = toEncoding big "" c := by cases c <;> first | exact absurd rfl hc | rfl
    rw [e]
    clear h0 h1 h3 e codeset
    cases c
    · exact absurd rfl hc
    all_goals (cases big <;> decide +kernel)
  obtain ⟨n, hn, hs⟩ := key
  exact h3 c n hn hs

/-- The set of the system is what its code set is a name of. -/
theorem charset_system {T : CT} (hT : 8 ≤ T.bits) (big : Bool) (codeset : String) (hz : ∀ c ∈ asc codeset, c ≠ 0) {c : Charset} {n : String} (hn : n ∈ c.names big) (hs : sameText (asc n) (asc codeset)) :
    systemCharset T big codeset = some c := by
  have h0 : (0 : Int) ∈ lit codeset := by simp [lit]
  obtain ⟨c', h1, -, h3⟩ := charset_from_name hT big h0
  unfold systemCharset
  rw [h1, h3 c n hn (by rw [show cstr (lit codeset) = asc codeset from cstr_lit hz []]; exact hs)]

/-- "utf-8" and "Windows-1250" are found; a name of the other byte order is taken for the set of the system. -/
example : charsetFrom ⟨8, true⟩ false (lit "Utf8") = some .utf8 ∧ charsetFrom ⟨8, true⟩ false (lit "windows-1250") = some .windows1250 ∧ charsetFrom ⟨8, true⟩ false (lit "UTF-16BE") = some .system ∧ charsetFrom ⟨8, true⟩ false (lit "latin1") = some .system := by
  refine ⟨?_, ?_, ?_, ?_⟩ <;> rw [charsetFrom_table (by decide) false (by decide)] <;> decide +kernel

end Verif.Locale
