import Verif.Parser.IbanError
/-
The countries of `basic_iban` (include/stdex/parser.hpp 4679-4786), written out in plain text: the letters, the check digits if they are always the same, and the length.
-/
namespace Verif.Parser
open Verif.Str Verif.Sgml

/-- A row of the list in plain text: `"SI"`, `"56"`, 19. -/
def Country.reads (row : Country) (letters digits : String) (n : Nat) : Prop :=
  asc letters = [row.c0, row.c1] ∧ asc digits = (if row.d0 = 0 then [] else [row.d0]) ++ (if row.d1 = 0 then [] else [row.d1]) ∧ row.length = n

instance (row : Country) (a b : String) (n : Nat) : Decidable (row.reads a b n) := by unfold Country.reads; infer_instance

/-- The list of the countries: the letters, the check digits (if the same for all), how many characters an IBAN has. -/
def ibanRegistry : List (String × String × Nat) := [
  ("AD", "", 24), ("AE", "", 23), ("AL", "", 28), ("AO", "", 25), ("AT", "", 20), ("AZ", "", 28), ("BA", "39", 20), ("BE", "", 16),
  ("BF", "", 28), ("BG", "", 22), ("BH", "", 22), ("BI", "", 27), ("BJ", "", 28), ("BR", "", 29), ("BY", "", 28), ("CF", "", 27),
  ("CG", "", 27), ("CH", "", 21), ("CI", "", 28), ("CM", "", 27), ("CR", "", 22), ("CV", "", 25), ("CY", "", 28), ("CZ", "", 24),
  ("DE", "", 22), ("DJ", "", 27), ("DK", "", 18), ("DO", "", 28), ("DZ", "", 26), ("EE", "", 20), ("EG", "", 29), ("ES", "", 24),
  ("FI", "", 18), ("FO", "", 18), ("FR", "", 27), ("GA", "", 27), ("GB", "", 22), ("GE", "", 22), ("GI", "", 23), ("GL", "", 18),
  ("GQ", "", 27), ("GR", "", 27), ("GT", "", 28), ("GW", "", 25), ("HN", "", 28), ("HR", "", 21), ("HU", "", 28), ("IE", "", 22),
  ("IL", "", 23), ("IQ", "", 23), ("IR", "", 26), ("IS", "", 26), ("IT", "", 27), ("JO", "", 30), ("KM", "", 27), ("KW", "", 30),
  ("KZ", "", 20), ("LB", "", 28), ("LC", "", 32), ("LI", "", 21), ("LT", "", 20), ("LU", "", 20), ("LV", "", 21), ("LY", "", 25),
  ("MA", "", 28), ("MC", "", 27), ("MD", "", 24), ("ME", "25", 22), ("MG", "", 27), ("MK", "07", 19), ("ML", "", 28), ("MR", "13", 27),
  ("MT", "", 31), ("MU", "", 30), ("MZ", "", 25), ("NE", "", 28), ("NI", "", 32), ("NL", "", 18), ("NO", "", 15), ("PK", "", 24),
  ("PL", "", 28), ("PS", "", 29), ("PT", "50", 25), ("QA", "", 29), ("RO", "", 24), ("RS", "35", 22), ("RU", "", 33), ("SA", "", 24),
  ("SC", "", 31), ("SD", "", 18), ("SE", "", 24), ("SI", "56", 19), ("SK", "", 24), ("SM", "", 27), ("SN", "", 28), ("ST", "", 25),
  ("SV", "", 28), ("TD", "", 27), ("TG", "", 28), ("TL", "38", 23), ("TN", "59", 24), ("TR", "", 26), ("UA", "", 29), ("VA", "", 22),
  ("VG", "", 24), ("XK", "", 20)]

/-- **C77** The countries that the parser knows are those of the list, in the order of it, each with its length and its check digits. -/
theorem iban_countries : countries.length = ibanRegistry.length ∧ ∀ i (h : i < countries.length) (h' : i < ibanRegistry.length), countries[i].reads ibanRegistry[i].1 ibanRegistry[i].2.1 ibanRegistry[i].2.2 := by
  decide +kernel

/-- An IBAN is of a country of the list, and has as many characters as the list says. -/
theorem iban_country {t : List Int} {up : Int → Int} {space : Sub} {i : Nat} {a b d0 d1 : Int} {w : List Int} {j : Nat} (h : IbanAt t up space i a b d0 d1 w j) :
    ∃ letters digits n, (letters, digits, n) ∈ ibanRegistry ∧ asc letters = [a, b] ∧ (asc digits = [] ∨ asc digits = [d0, d1]) ∧ w.length + 4 = n := by
  obtain ⟨row, hr, r0, r1, r2, r3, r4⟩ := h.country
  have both : ∀ row ∈ countries, row.d0 = 0 ↔ row.d1 = 0 := by decide +kernel
  obtain ⟨k, hk, e⟩ := List.getElem_of_mem hr
  have ⟨q0, q⟩ := iban_countries
  have q : row.reads (ibanRegistry[k]'(by omega)).1 (ibanRegistry[k]'(by omega)).2.1 (ibanRegistry[k]'(by omega)).2.2 := e ▸ q k hk (by omega)
  have mem : ibanRegistry[k]'(by omega) ∈ ibanRegistry := List.getElem_mem _
  generalize ibanRegistry[k]'(by omega) = x at q mem
  obtain ⟨x1, x2, x3⟩ := x
  obtain ⟨q1, q2, q3⟩ := q
  refine ⟨x1, x2, x3, mem, q1.trans (by rw [r0, r1]), ?_, r4.trans q3⟩
  have q2 : asc x2 = _ := q2
  rw [q2]
  by_cases z : row.d0 = 0
  · left; rw [if_pos z, if_pos ((both row hr).1 z)]; rfl
  · right; rw [if_neg z, if_neg (fun y => z ((both row hr).2 y)), r2 z, r3 (fun y => z ((both row hr).2 y))]; rfl

/-- Known countries are those of the list and no other: of the list is Slovenia with its 56, and not Mongolia. -/
example : ("SI", "56", 19) ∈ ibanRegistry ∧ ∀ n d, ("MN", d, n) ∉ ibanRegistry := by
  refine ⟨by decide +kernel, ?_⟩
  intro n d h
  have : ∀ x ∈ ibanRegistry, x.1 ≠ "MN" := by decide +kernel
  exact this _ h rfl

end Verif.Parser
