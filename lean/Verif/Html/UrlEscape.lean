import Verif.Html.Escape
/-
URL escaping: `url_unescape`, `url_escape` of include/stdex/html.hpp (238-378). `T` is `char`, signed or not.
-/
namespace Verif.Html
open Verif.Str Verif.Sgml

/-! ### Model -/

/-- The tests 253-255, 257-259: the value of a hexadecimal digit. -/
def hexVal (c : Int) : Option Int :=
  if 48 ≤ c ∧ c ≤ 57 then some (c - 48)
  else if 65 ≤ c ∧ c ≤ 70 then some (c - 65 + 10)
  else if 97 ≤ c ∧ c ≤ 102 then some (c - 97 + 10)
  else none

/-- `static_cast<char>(hi << 4)`, then `chr |= static_cast<char>(lo)`: html.hpp 253-259. `int` has 32 bits. -/
def hexByte (T : CT) (hi lo : Int) : Int :=
  T.wrap (BitVec.ofInt 32 (T.wrap (hi * 16)) ||| BitVec.ofInt 32 (T.wrap lo)).toInt

/-- `url_unescape`, html.hpp 238-270. The reads 253-259 do not look at `num_chars`. -/
def urlUnescape (T : CT) (s : List Int) (count i : Nat) (dst : List Int) : Option (List Int) :=
  match h : Str.cond s (some count) i with
  | none => none
  | some none => some dst
  | some (some c) =>
    if c = 43 then urlUnescape T s count (i + 1) (dst ++ [32])
    else if c = 37 then
      match rd s (i + 1) with
      | none => none
      | some a =>
        match hexVal a with
        | none => urlUnescape T s count (i + 1) (dst ++ [37])
        | some hi =>
          match rd s (i + 2) with
          | none => none
          | some b =>
            match hexVal b with
            | none => urlUnescape T s count (i + 2) (dst ++ [37, a])
            | some lo => urlUnescape T s count (i + 3) (dst ++ [hexByte T hi lo])
    else urlUnescape T s count (i + 1) (dst ++ [c])
termination_by count - i
decreasing_by
  all_goals
    have : i < count := by
      unfold Str.cond below at h
      by_cases q : i < count
      · exact q
      · rw [if_neg (by simpa using q)] at h; cases h
    omega

/-- html.hpp 344, 346. -/
def hexUpper (n : Int) : Int := if n < 10 then 48 + n else 65 + n - 10

/-- The cases of `url_escape`, html.hpp 314-348; `static_cast<uint8_t>` is the remainder. -/
def urlEscapeChar (c : Int) : List Int :=
  if c = 32 then [37, 50, 48]
  else if c = 60 then [37, 51, 67]
  else if c = 62 then [37, 51, 69]
  else if c = 35 then [37, 50, 51]
  else if c = 37 then [37, 50, 53]
  else if c = 123 then [37, 55, 66]
  else if c = 125 then [37, 55, 68]
  else if c = 124 then [37, 55, 67]
  else if c = 92 then [37, 53, 67]
  else if c = 94 then [37, 53, 69]
  else if c = 126 then [37, 55, 69]
  else if c = 91 then [37, 53, 66]
  else if c = 93 then [37, 53, 68]
  else if c = 96 then [37, 54, 48]
  else if c = 59 then [37, 51, 66]
  else if c = 43 then [37, 50, 66]
  else if c = 47 then [37, 50, 70]
  else if c = 63 then [37, 51, 70]
  else if c = 58 then [37, 51, 65]
  else if c = 64 then [37, 52, 48]
  else if c = 61 then [37, 51, 68]
  else if c = 38 then [37, 50, 54]
  else if c = 36 then [37, 50, 52]
  else if 0x20 < c % 256 ∧ c % 256 < 0x7f then [c]
  else [37, hexUpper (c % 256 / 16), hexUpper (c % 16)]

/-- `url_escape`, html.hpp 308-350; overloads 359-378. -/
def urlEscape (s : List Int) (count : Nat) (dst : List Int) : Option (List Int) := eachChar urlEscapeChar s count 0 dst

/-! ### Specification -/

/-- The value of a hexadecimal digit, as a character. -/
def digitOf (c : Int) : Option Nat := (List.range 16).find? fun n => c = ((Nat.digitChar n).toNat : Int) ∨ c = ((Nat.digitChar n).toUpper.toNat : Int)

/-- The character of an octet. -/
def octet (T : CT) (n : Nat) : Int := if T.signed ∧ 128 ≤ n then (n : Int) - 256 else n

/-- The text a URL-escaped text stands for: `%` with two hexadecimal digits is an octet, `+` a space, everything else itself. -/
inductive UrlReads (T : CT) : List Int → List Int → Prop
  | nil : UrlReads T [] []
  | plus {t o : List Int} : UrlReads T t o → UrlReads T ((('+' : Char).toNat : Int) :: t) (((' ' : Char).toNat : Int) :: o)
  | hex {a b : Int} {x y : Nat} {t o : List Int} : digitOf a = some x → digitOf b = some y → UrlReads T t o →
      UrlReads T ((('%' : Char).toNat : Int) :: a :: b :: t) (octet T (16 * x + y) :: o)
  | same {c : Int} {t o : List Int} : c ≠ ('+' : Char).toNat →
      (∀ a b t', c :: t = (('%' : Char).toNat : Int) :: a :: b :: t' → digitOf a = none ∨ digitOf b = none) → UrlReads T t o → UrlReads T (c :: t) (c :: o)

/-- What is readable behind the limit does not matter: the text is terminated, or it does not end in the beginning of an escape. -/
def Closed (s : List Int) (count : Nat) : Prop :=
  s[(text s (some count)).length]? = some 0 ∨
  ∀ p r, text s (some count) = p ++ (('%' : Char).toNat : Int) :: r → 2 ≤ r.length ∨ ∃ a, r = [a] ∧ digitOf a = none

/-! ### Proofs -/

theorem digitOf_le {c : Int} {n : Nat} (h : digitOf c = some n) : hexVal c = some (n : Int) ∧ n < 16 ∧ 48 ≤ c ∧ c ≤ 102 := by
  have key : ∀ k : Fin 55, digitOf (48 + (k.val : Int)) = none ∨ ∃ m : Fin 16, digitOf (48 + (k.val : Int)) = some m.val ∧ hexVal (48 + (k.val : Int)) = some (m.val : Int) := by
    decide +kernel
  have hr : 48 ≤ c ∧ c ≤ 102 := by
    have low : ∀ n : Fin 16, 48 ≤ (Nat.digitChar n.val).toNat ∧ (Nat.digitChar n.val).toNat ≤ 102 ∧ 48 ≤ (Nat.digitChar n.val).toUpper.toNat ∧ (Nat.digitChar n.val).toUpper.toNat ≤ 102 := by decide +kernel
    unfold digitOf at h
    have hm := List.mem_of_find?_eq_some h
    have hp := List.find?_some h
    rw [List.mem_range] at hm
    have := low ⟨n, hm⟩
    dsimp only at this
    simp only [decide_eq_true_eq] at hp
    omega
  have e : c = 48 + (((c - 48).toNat : Nat) : Int) := by omega
  have := key ⟨(c - 48).toNat, by omega⟩
  rw [← e, h] at this
  rcases this with q | ⟨m, q, r⟩
  · cases q
  · injection q with q
    exact ⟨by rw [r, q], by omega, hr⟩

theorem hexVal_digit (c : Int) : hexVal c = (digitOf c).map fun n : Nat => (n : Int) := by
  cases h : digitOf c with
  | some n => exact (digitOf_le h).1
  | none =>
    have key : ∀ k : Fin 55, digitOf (48 + (k.val : Int)) = none → hexVal (48 + (k.val : Int)) = none := by decide +kernel
    by_cases hr : 48 ≤ c ∧ c ≤ 102
    · have e : c = 48 + (((c - 48).toNat : Nat) : Int) := by omega
      have := key ⟨(c - 48).toNat, by omega⟩
      rw [← e] at this
      exact this h
    · unfold hexVal
      rw [if_neg (by omega), if_neg (by omega), if_neg (by omega)]; rfl

theorem hexByte_all : ∀ (sg : Bool) (x y : Fin 16), hexByte ⟨8, sg⟩ (x.val : Int) (y.val : Int) = octet ⟨8, sg⟩ (16 * x.val + y.val) := by decide +kernel

theorem hexByte_octet {T : CT} (hT : T.bits = 8) {x y : Nat} (hx : x < 16) (hy : y < 16) : hexByte T x y = octet T (16 * x + y) := by
  have := hexByte_all T.signed ⟨x, hx⟩ ⟨y, hy⟩
  rw [← hT] at this
  exact this

/-- The function that the relation describes. -/
def urlDec (T : CT) : List Int → List Int
  | [] => []
  | [c] => [if c = 43 then 32 else c]
  | [c, a] => (if c = 43 then 32 else c) :: urlDec T [a]
  | c :: a :: b :: t =>
    if c = 43 then 32 :: urlDec T (a :: b :: t)
    else if c = 37 then
      match digitOf a, digitOf b with
      | some x, some y => octet T (16 * x + y) :: urlDec T t
      | _, _ => c :: urlDec T (a :: b :: t)
    else c :: urlDec T (a :: b :: t)

theorem urlDec_reads (T : CT) (t : List Int) : UrlReads T t (urlDec T t) := by
  induction t using urlDec.induct with
  | case1 => exact .nil
  | case2 c =>
    rw [urlDec]
    by_cases h : c = 43
    · rw [if_pos h, h]; exact .plus .nil
    · rw [if_neg h]; exact .same h (fun a b t' q => by simp at q) .nil
  | case3 c a ih =>
    rw [urlDec]
    by_cases h : c = 43
    · rw [if_pos h, h]; exact .plus ih
    · rw [if_neg h]; exact .same h (fun a b t' q => by simp at q) ih
  | case4 a b t ih => rw [urlDec, if_pos rfl]; exact .plus ih
  | case5 a b t x y n2 n1 _ ih =>
    rw [urlDec, if_neg (by decide), if_pos rfl, n1, n2]
    exact .hex (by assumption) (by assumption) ih
  | case6 a b t hn h1 ih =>
    rw [urlDec, if_neg h1, if_pos rfl]
    have e : (match digitOf a, digitOf b with
      | some x, some y => octet T (16 * x + y) :: urlDec T t
      | _, _ => 37 :: urlDec T (a :: b :: t)) = 37 :: urlDec T (a :: b :: t) := by
      split
      · next x y n1 n2 => exact absurd n2 (hn x y n1)
      · rfl
    rw [e]
    refine .same h1 ?_ ih
    intro a' b' t' q
    injection q with q1 q2
    injection q2 with q2 q3
    injection q3 with q3 q4
    subst q2 q3
    cases n1 : digitOf a with
    | none => exact Or.inl rfl
    | some x =>
      cases n2 : digitOf b with
      | none => exact Or.inr rfl
      | some y => exact absurd n2 (hn x y n1)
  | case7 c a b t h1 h2 ih =>
    rw [urlDec, if_neg h1, if_neg h2]
    exact .same h1 (fun a b t' q => by injection q with q; exact absurd q h2) ih

theorem urlReads_one {T : CT} {t o o' : List Int} (h : UrlReads T t o) (h' : UrlReads T t o') : o = o' := by
  induction h generalizing o' with
  | nil => cases h'; rfl
  | plus _ ih =>
    cases h' with
    | plus q => rw [ih q]
    | same n => exact absurd rfl n
  | hex n1 n2 _ ih =>
    cases h' with
    | hex m1 m2 q =>
      rw [n1] at m1; rw [n2] at m2
      cases m1; cases m2
      rw [ih q]
    | same _ n =>
      rcases n _ _ _ rfl with q | q
      · rw [q] at n1; cases n1
      · rw [q] at n2; cases n2
  | same n1 n2 _ ih =>
    cases h' with
    | plus => exact absurd rfl n1
    | hex m1 m2 q =>
      rcases n2 _ _ _ rfl with r | r
      · rw [r] at m1; cases m1
      · rw [r] at m2; cases m2
    | same _ _ q => rw [ih q]

theorem urlUnescape_from {T : CT} (hT : T.bits = 8) {s : List Int} {count : Nat} (hv : Valid s (some count)) (hcl : Closed s count) : ∀ (t : List Int) (i : Nat),
    (text s (some count)).drop i = t → i ≤ (text s (some count)).length → ∀ dst, urlUnescape T s count i dst = some (dst ++ urlDec T t) := by
  intro t
  -- what is read behind a character of the text
  have beyond : ∀ (i : Nat), i = (text s (some count)).length → (∃ p r, text s (some count) = p ++ 37 :: r ∧ (r.length < 2 ∧ ∀ a, r = [a] → (digitOf a).isSome = true)) → rd s i = some 0 := by
    intro i hi ⟨p, r, e, h1, h2⟩
    rcases hcl with q | q
    · rw [hi]; exact q
    · rcases q p r e with q | ⟨a, q, q'⟩
      · omega
      · have := h2 a q; rw [q'] at this; cases this
  induction t using urlDec.induct with
  | case1 =>
    intro i hd hi dst
    have e := cond_eq hv (i := i) hi
    rw [List.getElem?_eq_none_iff.2 (by have := congrArg List.length hd; simp at this; omega)] at e
    rw [urlUnescape]
    split
    · next h => rw [e] at h; cases h
    · rw [urlDec, List.append_nil]
    · next c h => rw [e] at h; cases h
  | case2 c =>
    intro i hd hi dst
    obtain ⟨hl, hc, hr⟩ := drop_cons hd
    have hn : i + 1 = (text s (some count)).length := by have := congrArg List.length hd; simp at this; omega
    have e := cond_eq hv (i := i) hi
    rw [hc] at e
    have ee := cond_eq hv (i := i + 1) (by omega)
    rw [List.getElem?_eq_none_iff.2 (by omega)] at ee
    have fin : ∀ d, urlUnescape T s count (i + 1) d = some d := by
      intro d
      rw [urlUnescape]
      split
      · next h => rw [ee] at h; cases h
      · rfl
      · next c h => rw [ee] at h; cases h
    rw [urlUnescape]
    split
    · next h => rw [e] at h; cases h
    · next h => rw [e] at h; cases h
    · next c' h =>
      rw [e] at h; injection h with h; injection h with h; subst h
      rw [urlDec]
      by_cases h1 : c = 43
      · rw [if_pos h1, if_pos h1, fin]
      · rw [if_neg h1, if_neg h1]
        by_cases h2 : c = 37
        · rw [if_pos h2]
          have := beyond (i + 1) hn ⟨(text s (some count)).take i, [], by rw [← h2, ← hd, List.take_append_drop], by simp, by simp⟩
          rw [this]
          show urlUnescape T s count (i + 1) (dst ++ [37]) = _
          rw [fin, h2]
        · rw [if_neg h2, fin]
  | case3 c a ih =>
    intro i hd hi dst
    obtain ⟨hl, hc, hr⟩ := drop_cons hd
    obtain ⟨hl2, ha, hr2⟩ := drop_cons hr
    have hn : i + 2 = (text s (some count)).length := by have := congrArg List.length hd; simp at this; omega
    have e := cond_eq hv (i := i) hi
    rw [hc] at e
    have ih := ih (i + 1) hr (by omega)
    rw [urlUnescape]
    split
    · next h => rw [e] at h; cases h
    · next h => rw [e] at h; cases h
    · next c' h =>
      rw [e] at h; injection h with h; injection h with h; subst h
      rw [urlDec]
      by_cases h1 : c = 43
      · rw [if_pos h1, if_pos h1, ih, List.append_assoc]; rfl
      · rw [if_neg h1, if_neg h1]
        by_cases h2 : c = 37
        · rw [if_pos h2, rd_at hv ha]
          dsimp only
          rw [hexVal_digit]
          cases hda : digitOf a with
          | none =>
            show urlUnescape T s count (i + 1) (dst ++ [37]) = _
            rw [ih, h2, List.append_assoc]; rfl
          | some x =>
            have := beyond (i + 2) hn ⟨(text s (some count)).take i, [a], by rw [← h2, ← hd, List.take_append_drop], by simp, by
              intro a' q; cases q; rw [hda]; rfl⟩
            rw [this]
            show urlUnescape T s count (i + 2) (dst ++ [37, a]) = _
            have ee := cond_eq hv (i := i + 2) (by omega)
            rw [List.getElem?_eq_none_iff.2 (by omega)] at ee
            have ha43 : a ≠ 43 := by have := (digitOf_le hda).2.2; omega
            rw [urlUnescape]
            split
            · next h => rw [ee] at h; cases h
            · rw [urlDec, h2, if_neg ha43]
            · next c h => rw [ee] at h; cases h
        · rw [if_neg h2, ih, List.append_assoc]; rfl
  | case4 a b t ih =>
    intro i hd hi dst
    obtain ⟨hl, hc, hr⟩ := drop_cons hd
    have e := cond_eq hv (i := i) hi
    rw [hc] at e
    rw [urlUnescape]
    split
    · next h => rw [e] at h; cases h
    · next h => rw [e] at h; cases h
    · next c' h =>
      rw [e] at h; injection h with h; injection h with h; subst h
      rw [urlDec, if_pos rfl, if_pos rfl, ih (i + 1) hr (by omega), List.append_assoc]; rfl
  | case5 a b t x y n2 n1 _ ih =>
    intro i hd hi dst
    obtain ⟨hl, hc, hr⟩ := drop_cons hd
    obtain ⟨hl2, ha, hr2⟩ := drop_cons hr
    obtain ⟨hl3, hb, hr3⟩ := drop_cons hr2
    have e := cond_eq hv (i := i) hi
    rw [hc] at e
    rw [urlUnescape]
    split
    · next h => rw [e] at h; cases h
    · next h => rw [e] at h; cases h
    · next c' h =>
      rw [e] at h; injection h with h; injection h with h; subst h
      rw [urlDec, if_neg (by decide), if_pos rfl, if_neg (by decide), if_pos rfl, rd_at hv ha]
      dsimp only
      rw [hexVal_digit, n1]
      rw [rd_at hv hb]
      dsimp only
      rw [hexVal_digit, n2]
      simp only [Option.map_some]
      rw [hexByte_octet hT (digitOf_le n1).2.1 (digitOf_le n2).2.1, ih (i + 3) hr3 (by omega), List.append_assoc]; rfl
  | case6 a b t hn h1 ih =>
    intro i hd hi dst
    obtain ⟨hl, hc, hr⟩ := drop_cons hd
    obtain ⟨hl2, ha, hr2⟩ := drop_cons hr
    obtain ⟨hl3, hb, hr3⟩ := drop_cons hr2
    have e := cond_eq hv (i := i) hi
    rw [hc] at e
    have ih := ih (i + 1) hr (by omega)
    have ed : urlDec T (37 :: a :: b :: t) = 37 :: urlDec T (a :: b :: t) := by
      rw [urlDec, if_neg h1, if_pos rfl]
      split
      · next x y n1 n2 => exact absurd n2 (hn x y n1)
      · rfl
    rw [urlUnescape]
    split
    · next h => rw [e] at h; cases h
    · next h => rw [e] at h; cases h
    · next c' h =>
      rw [e] at h; injection h with h; injection h with h; subst h
      rw [ed, if_neg (by decide), if_pos rfl, rd_at hv ha]
      dsimp only
      rw [hexVal_digit]
      cases n1 : digitOf a with
      | none =>
        show urlUnescape T s count (i + 1) (dst ++ [37]) = _
        rw [ih, List.append_assoc]; rfl
      | some x =>
        rw [rd_at hv hb]
        dsimp only
        rw [hexVal_digit]
        cases n2 : digitOf b with
        | some y => exact absurd n2 (hn x y n1)
        | none =>
          show urlUnescape T s count (i + 2) (dst ++ [37, a]) = _
          -- one step of the induction hypothesis, backwards
          have hda := (digitOf_le n1).2.2
          have := ih (dst ++ [37])
          rw [urlUnescape] at this
          have ea := cond_eq hv (i := i + 1) (by omega)
          rw [ha] at ea
          split at this
          · next h => rw [ea] at h; cases h
          · next h => rw [ea] at h; cases h
          · next c' h =>
            rw [ea] at h; injection h with h; injection h with h; subst h
            rw [if_neg (by omega), if_neg (by omega)] at this
            simp only [List.append_assoc, List.cons_append, List.nil_append] at this ⊢
            exact this
  | case7 c a b t h1 h2 ih =>
    intro i hd hi dst
    obtain ⟨hl, hc, hr⟩ := drop_cons hd
    have e := cond_eq hv (i := i) hi
    rw [hc] at e
    rw [urlUnescape]
    split
    · next h => rw [e] at h; cases h
    · next h => rw [e] at h; cases h
    · next c' h =>
      rw [e] at h; injection h with h; injection h with h; subst h
      rw [urlDec, if_neg h1, if_neg h1, if_neg h2, if_neg h2, ih (i + 1) hr (by omega), List.append_assoc]; rfl

/-! #### Escaping -/

/-- Characters that stand in a URL as they are. -/
def unescaped : List Int := asc "ABCDEFGHIJKLMNOPQRSTUVWXYZabcdefghijklmnopqrstuvwxyz0123456789-_.!*'(),\""

theorem urlEscape_all : ∀ (sg : Bool) (n : Fin 256), urlEscapeChar (octet ⟨8, sg⟩ n.val) =
    if octet ⟨8, sg⟩ n.val ∈ unescaped then [octet ⟨8, sg⟩ n.val]
    else (('%' : Char).toNat : Int) :: [((Nat.digitChar (n.val / 16)).toUpper.toNat : Int), ((Nat.digitChar (n.val % 16)).toUpper.toNat : Int)] := by decide +kernel

theorem octet_of {T : CT} (hT : T.bits = 8) {c : Int} (h : T.has c) : ∃ n : Fin 256, c = octet T n.val := by
  unfold CT.has at h
  rw [hT] at h
  refine ⟨⟨(c % 256).toNat, by omega⟩, ?_⟩
  show c = octet T (c % 256).toNat
  unfold octet
  by_cases s : T.signed = true
  · rw [if_pos s] at h
    by_cases q : (128 : Int) ≤ c % 256
    · rw [if_pos ⟨s, by omega⟩]; omega
    · rw [if_neg (by omega)]; omega
  · rw [if_neg s] at h
    rw [if_neg (by simp [s])]; omega

theorem upper_digit : ∀ n : Fin 16, digitOf ((Nat.digitChar n.val).toUpper.toNat : Int) = some n.val := by decide +kernel

theorem urlReads_escape {T : CT} (hT : T.bits = 8) : ∀ t : List Int, (∀ c ∈ t, T.has c) → UrlReads T (t.flatMap urlEscapeChar) t
  | [], _ => .nil
  | c :: t, h => by
    have ih := urlReads_escape hT t fun x hx => h x (List.mem_cons_of_mem _ hx)
    obtain ⟨n, rfl⟩ := octet_of hT (h c List.mem_cons_self)
    rw [List.flatMap_cons]
    have := urlEscape_all T.signed n
    rw [← hT] at this
    rw [show (⟨T.bits, T.signed⟩ : CT) = T from rfl] at this
    rw [this]
    by_cases q : octet T n.val ∈ unescaped
    · rw [if_pos q]
      refine .same ?_ ?_ ih
      · intro e; rw [e] at q; revert q; decide +kernel
      · intro a b t' e; injection e with e; rw [e] at q; exact absurd q (by decide +kernel)
    · rw [if_neg q]
      have h1 := upper_digit ⟨n.val / 16, by omega⟩
      have h2 := upper_digit ⟨n.val % 16, by omega⟩
      have := UrlReads.hex (T := T) h1 h2 ih
      dsimp only at this
      rw [show 16 * (n.val / 16) + n.val % 16 = n.val by omega] at this
      exact this

theorem urlEscape_nonzero {T : CT} (hT : T.bits = 8) {c : Int} (hc : T.has c) (h0 : c ≠ 0) : ∀ x ∈ urlEscapeChar c, x ≠ 0 := by
  obtain ⟨n, rfl⟩ := octet_of hT hc
  have := urlEscape_all T.signed n
  rw [← hT] at this
  rw [show (⟨T.bits, T.signed⟩ : CT) = T from rfl] at this
  rw [this]
  have dig : ∀ n : Fin 16, ((Nat.digitChar n.val).toUpper.toNat : Int) ≠ 0 := by decide +kernel
  have h1 := dig ⟨n.val / 16, by omega⟩
  have h2 := dig ⟨n.val % 16, by omega⟩
  dsimp only at h1 h2
  split
  · simpa using h0
  · intro x hx
    simp only [List.mem_cons, List.not_mem_nil, or_false] at hx
    rcases hx with e | e | e
    · rw [e]; decide
    · rw [e]; exact h1
    · rw [e]; exact h2

/-! ### Properties -/

/-- The text that an escaped text stands for is there, and is one. -/
theorem url_reads_unique (T : CT) (t : List Int) : ∃ o, UrlReads T t o ∧ ∀ o', UrlReads T t o' → o' = o :=
  ⟨urlDec T t, urlDec_reads T t, fun _ h => urlReads_one h (urlDec_reads T t)⟩

/-- **C101** `url_unescape` appends the text that the source stands for, if the source is terminated (like every `std::string`), or does not end in the middle of an escape.
Missing: a source of `num_chars` characters, not terminated, that ends in the middle of an escape, see `url_unescape_overrun`. -/
theorem url_unescape_partial {T : CT} (hT : T.bits = 8) {s : List Int} {count : Nat} (hv : Valid s (some count)) (hcl : Closed s count) (dst : List Int) :
    ∃ o, urlUnescape T s count 0 dst = some (dst ++ o) ∧ UrlReads T (text s (some count)) o :=
  ⟨_, urlUnescape_from hT hv hcl _ 0 rfl (Nat.zero_le _) dst, urlDec_reads T _⟩

/-- **C101** Escape and unescape: for every text, nothing is lost, whatever follows in memory. -/
theorem url_round_trip {T : CT} (hT : T.bits = 8) {s : List Int} {count : Nat} (hv : Valid s (some count)) (ht : ∀ c ∈ text s (some count), T.has c) (dst : List Int) :
    ∃ o, urlEscape s count dst = some (dst ++ o) ∧ ∀ (rest dst' : List Int), urlUnescape T (o ++ rest) o.length 0 dst' = some (dst' ++ text s (some count)) := by
  refine ⟨_, eachChar_eq urlEscapeChar hv dst, fun rest dst' => ?_⟩
  have hz : ∀ x ∈ (text s (some count)).flatMap urlEscapeChar, x ≠ 0 := by
    intro x hx
    obtain ⟨c, hc, hx⟩ := List.mem_flatMap.1 hx
    exact urlEscape_nonzero hT (ht c hc) (text_ne_zero hc) x hx
  have hr := urlReads_escape hT _ ht
  have key : ∀ (t : List Int), (∀ c ∈ t, T.has c) → ∀ p r, t.flatMap urlEscapeChar = p ++ (37 : Int) :: r → 2 ≤ r.length := by
    intro t
    induction t with
    | nil => intro _ p r h; simp at h
    | cons c t ih =>
      intro hc p r h
      rw [List.flatMap_cons] at h
      rcases List.append_eq_append_iff.1 h with ⟨q, h1, h2⟩ | ⟨q, h1, h2⟩
      · exact ih (fun x hx => hc x (List.mem_cons_of_mem _ hx)) q r h2
      · cases q with
        | nil => exact ih (fun x hx => hc x (List.mem_cons_of_mem _ hx)) [] r (by simpa using h2.symm)
        | cons y q =>
          rw [List.cons_append] at h2
          injection h2 with e h2
          subst e
          obtain ⟨n, rfl⟩ := octet_of hT (hc c List.mem_cons_self)
          have := urlEscape_all T.signed n
          rw [← hT] at this
          rw [show (⟨T.bits, T.signed⟩ : CT) = T from rfl] at this
          rw [this] at h1
          have dig : ∀ n : Fin 16, ((Nat.digitChar n.val).toUpper.toNat : Int) ≠ 37 := by decide +kernel
          have d1 := dig ⟨n.val / 16, by omega⟩
          have d2 := dig ⟨n.val % 16, by omega⟩
          dsimp only at d1 d2
          by_cases m : octet T n.val ∈ unescaped
          · rw [if_pos m] at h1
            have : (37 : Int) = octet T n.val := by
              have : (37 : Int) ∈ [octet T n.val] := by rw [h1]; simp
              simpa using this
            rw [← this] at m
            exact absurd m (by decide +kernel)
          · rw [if_neg m] at h1
            cases p with
            | nil =>
              injection h1 with _ h1
              rw [h2, ← h1]; simp
            | cons z p =>
              injection h1 with _ h1
              have : (37 : Int) ∈ [((Nat.digitChar (n.val / 16)).toUpper.toNat : Int), ((Nat.digitChar (n.val % 16)).toUpper.toNat : Int)] := by rw [h1]; simp
              simp only [List.mem_cons, List.not_mem_nil, or_false] at this
              rcases this with q | q
              · exact absurd q.symm d1
              · exact absurd q.symm d2
  generalize ho : (text s (some count)).flatMap urlEscapeChar = o at hz hr
  have et : text (o ++ rest) (some o.length) = o :=
    text_eq_of hz (List.prefix_append _ _) (Or.inr rfl) (by intro n e; cases e; exact Nat.le_refl _)
  have hv' : Valid (o ++ rest) (some o.length) := Or.inr ⟨_, rfl, by simp⟩
  obtain ⟨o', e, h⟩ := url_unescape_partial hT hv' (Or.inr (by rw [et]; intro p r q; exact Or.inl (key _ ht p r (ho.trans q)))) dst'
  rw [et] at h
  rw [e, urlReads_one h hr]

/-- **C101** What `url_escape` writes: letters, digits and `-_.!*'(),"` as they are, every other octet as `%` with two upper-case hexadecimal digits. -/
theorem url_escape_writes {T : CT} (hT : T.bits = 8) {s : List Int} {count : Nat} (hv : Valid s (some count)) (ht : ∀ c ∈ text s (some count), T.has c) (dst : List Int) :
    urlEscape s count dst = some (dst ++ (text s (some count)).flatMap fun c => if c ∈ unescaped then [c] else
      asc "%" ++ [((Nat.digitChar ((c % 256).toNat / 16)).toUpper.toNat : Int), ((Nat.digitChar ((c % 256).toNat % 16)).toUpper.toNat : Int)]) := by
  unfold urlEscape
  rw [eachChar_eq _ hv]
  congr 2
  generalize text s (some count) = t at ht
  induction t with
  | nil => rfl
  | cons c t ih =>
    rw [List.flatMap_cons, List.flatMap_cons, ih fun x hx => ht x (List.mem_cons_of_mem _ hx)]
    congr 1
    obtain ⟨n, rfl⟩ := octet_of hT (ht c List.mem_cons_self)
    have := urlEscape_all T.signed n
    rw [← hT] at this
    rw [show (⟨T.bits, T.signed⟩ : CT) = T from rfl] at this
    have e : (octet T n.val % 256).toNat = n.val := by
      unfold octet
      split <;> omega
    rw [this, e]
    rfl

/-- Finding: digits behind the limit are read: the text is `%4`, followed in memory by `1`; or nothing may be read there. -/
theorem url_unescape_overrun : urlUnescape ⟨8, true⟩ (asc "%41") 2 0 [] = some (asc "A") ∧ urlUnescape ⟨8, true⟩ (asc "%4") 2 0 [] = none ∧
    urlUnescape ⟨8, true⟩ (asc "%") 1 0 [] = none := by decide +kernel

/-- Finding: a double quote is not escaped: the output is not fit for an attribute value. -/
theorem url_escape_quote : urlEscape (asc "\"") 1 [] = some (asc "\"") := by decide +kernel

/-- Non-vacuity. -/
example : Valid (asc "a b/é" ++ [0]) (some 100) ∧ Closed (asc "%zz+%4" ++ [0]) 100 ∧ urlEscape (asc "a b/" ++ [-61, -87, 0]) 100 [] = some (asc "a%20b%2F%C3%A9") ∧
    urlUnescape ⟨8, true⟩ (asc "%zz+%4%C3" ++ [0]) 100 0 [] = some (asc "%zz %4" ++ [-61]) := by
  refine ⟨Or.inl (by simp), Or.inl (by decide +kernel), ?_, ?_⟩ <;> decide +kernel

end Verif.Html
