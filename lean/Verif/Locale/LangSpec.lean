import Verif.Locale.LangId
/-
Properties of language names and codes, include/stdex/langid.hpp.
-/
namespace Verif.Locale
open Verif.Str Verif.Sgml

/-! ### Specification: the first entry of the table the name matches -/

/-- The code of the first name in the table that is the same. -/
def codeOf (name : List Int) : Option Nat := (namesTable.find? fun e => decide (sameName (asc e.1) name)).map (·.2)

/-- The name of the first such code in the table. -/
def nameOf (code : Nat) : Option String := (codesTable.find? fun e => decide (e.1 = code)).map (·.2)

/-! ### Proofs -/

theorem codeOf_keyed (x : List Int) : codeOf x = (keyed.find? fun e => decide (e.1 = x.map charKey)).map (·.2) := by
  unfold codeOf keyed
  generalize namesTable = t
  induction t with
  | nil => rfl
  | cons p t ih =>
    simp only [List.map_cons]
    by_cases h : (asc p.1).map charKey = x.map charKey
    · rw [List.find?_cons_of_pos (by rw [decide_eq_true_eq]; exact h), List.find?_cons_of_pos (by simpa using h)]; rfl
    · rw [List.find?_cons_of_neg (by rw [decide_eq_true_eq]; exact h), List.find?_cons_of_neg (by simpa using h)]; exact ih

theorem lookup_find {κ ν : Type} [BEq κ] [LawfulBEq κ] [DecidableEq κ] (k : κ) (l : List (κ × ν)) : l.lookup k = (l.find? fun e => decide (e.1 = k)).map (·.2) := by
  induction l with
  | nil => rfl
  | cons p l ih =>
    obtain ⟨a, b⟩ := p
    by_cases h : a = k
    · rw [List.find?_cons_of_pos (by simpa using h), h]; simp [List.lookup]
    · rw [List.find?_cons_of_neg (by simpa using h), ← ih, List.lookup]
      have : (k == a) = false := by simpa using Ne.symm h
      rw [this]

/-! ### Properties -/

/-- A name's code is that of the first name in the table that is the same, and unknown without; no character past the terminator is read. -/
theorem langid_from_spec {T : CT} (hT : 8 ≤ T.bits) {s : List Int} (h : 0 ∈ s) : langidFrom T s = some ((codeOf (cstr s)).getD 0x7f) := by
  rw [langidFrom_keyed hT h, codeOf_keyed]; rfl

/-- A code's name is that of the table, and the fallback without. -/
theorem name_from_spec (code : Nat) (fallback : Option String) : nameFrom code fallback = some ((nameOf code).or fallback) := by
  obtain ⟨m, h1, h2⟩ := map_spec nat_orders (l := codesTable) (fun _ _ => trivial) (k := code) trivial
  unfold nameFrom
  rw [h1]
  simp only [Option.bind_eq_bind, Option.bind_some]
  rw [h2]
  rfl

/-- How a name is written, its case and what separates its parts, does not matter. -/
theorem langid_same {T : CT} (hT : 8 ≤ T.bits) {s s' : List Int} (h : 0 ∈ s) (h' : 0 ∈ s') (hs : sameName (cstr s) (cstr s')) : langidFrom T s = langidFrom T s' := by
  rw [langid_from_spec hT h, langid_from_spec hT h', codeOf_keyed, codeOf_keyed, hs]

/-- The name of a name's code is the name. -/
theorem langid_name {T : CT} (hT : 8 ≤ T.bits) {s : List Int} (h : 0 ∈ s) {code : Nat} (hc : langidFrom T s = some code) (hu : code ≠ 0x7f) (fallback : Option String) :
    ∃ n, nameFrom code fallback = some (some n) ∧ sameName (asc n) (cstr s) := by
  rw [langidFrom_keyed hT h] at hc
  cases hf : keyed.find? fun e => decide (e.1 = (cstr s).map charKey) with
  | none => rw [hf] at hc; exact absurd (Option.some.inj hc).symm hu
  | some e =>
    rw [hf] at hc
    have hc : e.2 = code := Option.some.inj hc
    obtain ⟨-, n, h1, h2⟩ := tables_names e (List.mem_of_find?_eq_some hf)
    have h3 := of_decide_eq_true (List.find?_some (p := fun e : List (Option Int) × Nat => decide (e.1 = (cstr s).map charKey)) hf)
    refine ⟨n, ?_, h2.trans h3⟩
    rw [name_from_spec, nameOf, ← lookup_find, ← hc, h1]; rfl

/-- The code of a code's name is the code, except for the codes listed: their names stand for other codes. -/
theorem langid_code_partial {T : CT} (hT : 8 ≤ T.bits) {code : Nat} {n : String} (hn : nameFrom code none = some (some n)) :
    langidFrom T (lit n) = some code ↔ code ∉ lostCodes := by
  rw [name_from_spec, nameOf, ← lookup_find] at hn
  have hl : codesTable.lookup code = some n := by simpa using hn
  have hm : (code, n) ∈ codesTable := by
    rw [lookup_find] at hl
    obtain ⟨e, he, rfl⟩ := Option.map_eq_some_iff.1 hl
    have h1 := of_decide_eq_true (List.find?_some (p := fun e : Nat × String => decide (e.1 = code)) he)
    have h2 := List.mem_of_find?_eq_some he
    rw [← h1]; exact h2
  obtain ⟨-, -, h2, h3⟩ := tables_codes _ hm
  have hz : (0 : Int) ∈ lit n := by simp [lit]
  rw [langidFrom_keyed hT hz, ← lookup_find, show cstr (lit n) = asc n from cstr_lit h2 []]
  dsimp only at h3
  have hne : code ≠ unknown ∨ code = unknown := (Decidable.em _).symm
  constructor
  · intro e hlost
    rcases h3 with ⟨-, q⟩ | ⟨-, q⟩
    · exact q hlost
    · cases hk : keyed.lookup ((asc n).map charKey) with
      | none =>
        rw [hk] at e
        have e : unknown = code := Option.some.inj e
        rw [← e] at hlost
        exact absurd hlost (by decide)
      | some x =>
        rw [hk] at e
        have e : x = code := Option.some.inj e
        exact q (by rw [hk, e])
  · intro hlost
    rcases h3 with ⟨q, -⟩ | ⟨q, -⟩
    · rw [q]; rfl
    · exact absurd q hlost

/-- Simplified Chinese in China is what the name of 0x804 is; the name gives 0x7804. -/
theorem langid_lost {T : CT} (hT : 8 ≤ T.bits) : nameFrom 0x804 none = some (some "zh-CN") ∧ langidFrom T (lit "zh-CN") = some 0x7804 := by
  refine ⟨?_, ?_⟩
  · rw [name_from_spec]; decide +kernel
  · rw [langid_from_spec hT (by decide)]; decide +kernel

/-- Every language code is its primary and its sublanguage part, which share no bit. -/
theorem langid_parts (lang : BitVec 16) : primaryLangid lang ||| subLangid lang = lang ∧ primaryLangid lang &&& subLangid lang = 0 ∧ (primaryLangid lang).toNat + (subLangid lang).toNat = lang.toNat ∧ (primaryLangid lang).toNat = lang.toNat % 1024 := by
  have h1 : (primaryLangid lang).toNat = lang.toNat % 1024 := by
    unfold primaryLangid
    rw [BitVec.toNat_and, show (0x3ff#16).toNat = 2 ^ 10 - 1 from rfl, Nat.and_two_pow_sub_one_eq_mod]
  have h2 : primaryLangid lang ||| subLangid lang = lang := by
    unfold primaryLangid subLangid
    rw [← BitVec.and_or_distrib_left, show (0x3ff#16 ||| 0xfc00#16) = BitVec.allOnes 16 from by decide, BitVec.and_allOnes]
  have h3 : primaryLangid lang &&& subLangid lang = 0 := by
    unfold primaryLangid subLangid
    ext i hi
    rcases i with _|_|_|_|_|_|_|_|_|_|_|_|_|_|_|_|i <;> first | omega | simp
  refine ⟨h2, h3, ?_, h1⟩
  have := BitVec.add_eq_or_of_and_eq_zero _ _ h3
  have hlt : (primaryLangid lang).toNat + (subLangid lang).toNat < 65536 := by
    have : (subLangid lang).toNat ≤ 0xfc00 := by
      unfold subLangid; rw [BitVec.toNat_and]; exact Nat.and_le_right
    omega
  rw [h2] at this
  have := congrArg BitVec.toNat this
  rw [BitVec.toNat_add] at this
  omega

example : langidFrom ⟨8, true⟩ (lit "EN_us") = some 0x409 := by rw [langid_from_spec (by decide) (by decide)]; decide +kernel
example : langidFrom ⟨8, true⟩ (lit "klingon") = some 0x7f := by rw [langid_from_spec (by decide) (by decide)]; decide +kernel
example : nameFrom 0x424 none = some (some "sl-SI") := by rw [name_from_spec]; decide +kernel
example : nameFrom 0xffff (some "?") = some (some "?") := by rw [name_from_spec]; decide +kernel

end Verif.Locale
