import Verif.Str.ToInt
import Verif.Stream.Serialize
/-
UUIDs as text (include/stdex/uuid.hpp), the variant that is not for Windows. A `uuid_t` is 16 bytes; the host is little-endian.
-/
namespace Verif.Str
open Verif.Stream (Byte leEnc leDec)

/-! ### Formatting -/

/-- A hexadecimal digit, as `%X` writes it. -/
def hexChar (d : Nat) : Int := if d < 10 then 48 + d else 55 + d

/-- The digits of a number without leading zeros; none for 0. -/
def hexDigs (n : Nat) : List Int := if n = 0 then [] else hexDigs (n / 16) ++ [hexChar (n % 16)]

/-- The conversion `%0kX`. -/
def fmtX (k n : Nat) : List Int := List.replicate (k - (hexDigs n).length) 48 ++ hexDigs n

/-- `{%08X-%04X-%04X-%02X%02X-%02X%02X%02X%02X%02X%02X}` of the arguments. -/
def fmtUuid (a : Nat → Nat) : List Int :=
  123 :: fmtX 8 (a 0) ++ 45 :: fmtX 4 (a 1) ++ 45 :: fmtX 4 (a 2) ++ 45 :: fmtX 2 (a 3) ++ fmtX 2 (a 4) ++ 45 :: fmtX 2 (a 5) ++ fmtX 2 (a 6) ++
    fmtX 2 (a 7) ++ fmtX 2 (a 8) ++ fmtX 2 (a 9) ++ fmtX 2 (a 10) ++ [125]

/-- The arguments, uuid.hpp 47-51. -/
def uuidArgs (id : List Byte) : List Nat :=
  [leDec (id.take 4), leDec ((id.drop 4).take 2), leDec ((id.drop 6).take 2)] ++ (id.drop 8).map BitVec.toNat

/-- `uuidtostr(char*)`, uuid.hpp 34-53: what is written before the terminator, unless it is cut off at 38 characters. -/
def uuidToStr (id : List Byte) : List Int := (fmtUuid fun i => (uuidArgs id).getD i 0).take 38

/-- `uuidtostr(wchar_t*)`, uuid.hpp 61-80: there is an additional argument NULL in front (strictly undefined behaviour; on the usual 64-bit ABIs
it is taken as the number 0). -/
def uuidToWstr (id : List Byte) : List Int := (fmtUuid fun i => (0 :: uuidArgs id).getD i 0).take 38

/-! ### Parsing -/

/-- Continue unless `false` was returned. -/
def andThen {α β : Type} (x : Option (Option α)) (f : α → Option (Option β)) : Option (Option β) :=
  match x with
  | none => none
  | some none => some none
  | some (some a) => f a

/-- The loops that skip spaces, uuid.hpp 99 etc. -/
def skipSp (s : List Int) (count i : Nat) : Option (Option Nat) := (skipSpaces s (some count) i).map fun r => some r.1

/-- `if (i >= count || str[i] != c) return false; ++i;`, 100-101 etc. -/
def sep (s : List Int) (count : Nat) (c : Int) (i : Nat) : Option (Option Nat) :=
  if i ≥ count then some none else (rd s i).map fun x => if x ≠ c then none else some (i + 1)

/-- `if (i >= count && str[i] != '-') return false; ++i;`, 149-150, as written. -/
def sep4 (s : List Int) (count i : Nat) : Option (Option Nat) :=
  if i ≥ count then (rd s i).map fun x => if x ≠ 45 then none else some (i + 1) else some (some (i + 1))

/-- Spaces, a number, spaces: 102-111 etc. `count - i` is a `size_t`. -/
def fld (s : List Int) (count max i : Nat) : Option (Option (Nat × Nat)) :=
  andThen (skipSp s count i) fun i =>
    match strtouint (s.drop i) (some ((count + 2 ^ 64 - i) % 2 ^ 64)) 64 16 with
    | none => none
    | some (n, j) => if n > max then some none else andThen (skipSp s count (i + j)) fun k => some (some (n, k))

/-- The end, 173-174. -/
def atStop (s : List Int) (count i : Nat) : Option (Option Unit) :=
  if i ≥ count then some (some ()) else (rd s i).map fun x => if x = 0 then some () else none

/-- The bytes of the UUID, 105-108, 117-120, 129-132, 141-147, 155-170. -/
def uuidBytes (n1 n2 n3 n4 n5 : Nat) : List Byte :=
  leEnc 4 n1 ++ leEnc 2 n2 ++ leEnc 2 n3 ++ [n4 / 2 ^ 8, n4, n5 / 2 ^ 40, n5 / 2 ^ 32, n5 / 2 ^ 24, n5 / 2 ^ 16, n5 / 2 ^ 8, n5].map (BitVec.ofNat 8)

/-- `strtouuid`, 91-175: `some none` is `false` (then `id` may have been written in part). -/
def strToUuid (s : List Int) (count : Nat) : Option (Option (List Byte)) :=
  andThen (skipSp s count 0) fun i =>
  andThen (sep s count 123 i) fun i =>
  andThen (fld s count (2 ^ 32 - 1) i) fun r1 =>
  andThen (sep s count 45 r1.2) fun i =>
  andThen (fld s count (2 ^ 16 - 1) i) fun r2 =>
  andThen (sep s count 45 r2.2) fun i =>
  andThen (fld s count (2 ^ 16 - 1) i) fun r3 =>
  andThen (sep s count 45 r3.2) fun i =>
  andThen (fld s count (2 ^ 16 - 1) i) fun r4 =>
  andThen (sep4 s count r4.2) fun i =>
  andThen (fld s count (2 ^ 48 - 1) i) fun r5 =>
  andThen (sep s count 125 r5.2) fun i =>
  andThen (skipSp s count i) fun i =>
  andThen (atStop s count i) fun _ => some (some (uuidBytes r1.1 r2.1 r3.1 r4.1 r5.1))

/-! ### Specification of what is accepted -/

/-- The number a text starts with, as `strtou64` returns it (C49). -/
def numS (r : Numeral) : Nat := if r.neg then (if 2 ^ 64 ≤ r.value then 0 else 2 ^ 64 - 1 - r.value) else min r.value (2 ^ 64 - 1)

/-- A field: a hexadecimal number not above `max`, surrounded by spaces. -/
def fldS (max : Nat) (t : List Int) : Option (Nat × List Int) :=
  if numS (readSpec 16 t) > max then none else some (numS (readSpec 16 t), (readSpec 16 t).rest.dropWhile isspace)

/-- A certain character. -/
def sepS (c : Int) : List Int → Option (List Int)
  | [] => none
  | x :: r => if x = c then some r else none

/-- Up to the end of the fourth field. -/
def headS (t : List Int) : Option ((Nat × Nat × Nat × Nat) × List Int) := do
  let t ← sepS 123 (t.dropWhile isspace)
  let (n1, t) ← fldS (2 ^ 32 - 1) t
  let t ← sepS 45 t
  let (n2, t) ← fldS (2 ^ 16 - 1) t
  let t ← sepS 45 t
  let (n3, t) ← fldS (2 ^ 16 - 1) t
  let t ← sepS 45 t
  let (n4, t) ← fldS (2 ^ 16 - 1) t
  some ((n1, n2, n3, n4), t)

/-- The fifth field and the end. -/
def tailS (t : List Int) : Option Nat := do
  let (n5, t) ← fldS (2 ^ 48 - 1) t
  let t ← sepS 125 t
  if t.dropWhile isspace = [] then some n5 else none

/-- A text that denotes a UUID, and the five numbers. -/
def uuidS (t : List Int) : Option (List Byte) := do
  let (n, t) ← headS t
  let t ← sepS 45 t
  let n5 ← tailS t
  some (uuidBytes n.1 n.2.1 n.2.2.1 n.2.2.2 n5)

/-! ### Proofs: parsing -/

/-- Index `i` of the text is where `t` starts. -/
def At (s : List Int) (count i : Nat) (t : List Int) : Prop := i ≤ (text s (some count)).length ∧ (text s (some count)).drop i = t

theorem text_drop : ∀ (i : Nat) (s : List Int) (count : Nat), i ≤ (text s (some count)).length →
    text (s.drop i) (some (count - i)) = (text s (some count)).drop i := by
  intro i
  induction i with
  | zero => intro s count _; simp
  | succ i ih =>
    intro s count h
    cases s with
    | nil => simp [text] at h
    | cons x xs =>
      cases count with
      | zero => simp [text] at h
      | succ count =>
        have e : text (x :: xs) (some (count + 1)) = if x ≠ 0 then x :: text xs (some count) else [] := by
          simp only [text, List.take_succ_cons, List.takeWhile_cons]
          by_cases q : x = 0 <;> simp [q]
        rw [e] at h ⊢
        by_cases q : x = 0
        · simp [q] at h
        · rw [if_pos q] at h ⊢
          rw [List.drop_succ_cons, List.drop_succ_cons, show count + 1 - (i + 1) = count - i by omega]
          exact ih xs count (by simpa using h)

theorem mem_takeWhile_sat (p : Int → Bool) : ∀ {l : List Int} {x : Int}, x ∈ l.takeWhile p → p x = true := by
  intro l
  induction l with
  | nil => intro x h; simp at h
  | cons y ys ih =>
    intro x h
    rw [List.takeWhile_cons] at h
    by_cases q : p y = true
    · rw [if_pos q] at h
      rcases List.mem_cons.1 h with rfl | h
      · exact q
      · exact ih h
    · rw [if_neg q] at h; cases h

theorem valid_drop {s : List Int} {count i : Nat} (hv : Valid s (some count)) (hi : i ≤ (text s (some count)).length) :
    Valid (s.drop i) (some (count - i)) := by
  rcases hv with h | ⟨n, hn, hl⟩
  · by_cases c : 0 ∈ s.drop i
    · exact Or.inl c
    · -- the terminator lies before `i`, so `count` ends the text
      refine absurd ?_ (show ¬ (0 ∈ s.take i) from ?_)
      · rw [← List.take_append_drop i s, List.mem_append] at h
        exact h.resolve_right c
      · intro hm
        have hp : (text s (some count)).take i = s.take i := by
          have hpre : text s (some count) <+: s := (List.takeWhile_prefix _).trans (List.take_prefix _ _)
          obtain ⟨r, hr⟩ := hpre
          conv => rhs; rw [← hr]
          rw [List.take_append_of_le_length hi]
        rw [← hp] at hm
        have := mem_takeWhile_sat _ (List.mem_of_mem_take hm)
        simp at this
  · injection hn with hn
    subst hn
    exact Or.inr ⟨_, rfl, by rw [List.length_drop]; omega⟩

/-- A step of the parser goes as the specification says: fails where it fails, else stops where it stops. -/
def Goes {α β : Type} (x : Option (Option α)) (y : Option β) (R : α → β → Prop) : Prop :=
  match y with
  | none => x = some none
  | some b => ∃ a, x = some (some a) ∧ R a b

theorem Goes.bind {α β γ δ : Type} {x : Option (Option α)} {y : Option β} {R : α → β → Prop} {f : α → Option (Option γ)} {g : β → Option δ} {S : γ → δ → Prop}
    (h : Goes x y R) (hf : ∀ a b, y = some b → R a b → Goes (f a) (g b) S) : Goes (andThen x f) (y.bind g) S := by
  cases y with
  | none => simp only [Goes] at h; rw [h]; rfl
  | some b =>
    obtain ⟨a, e, r⟩ := h
    rw [e]
    exact hf a b rfl r

theorem skip_goes {s : List Int} {count : Nat} (hv : Valid s (some count)) {i : Nat} {t : List Int} (h : At s count i t) :
    Goes (skipSp s count i) (some (t.dropWhile isspace)) (At s count) := by
  obtain ⟨j, e1, e2, e3⟩ := skip_eq hv i h.1
  refine ⟨j, ?_, e2, ?_⟩
  · unfold skipSp; rw [e1]; rfl
  · rw [e3, h.2]

theorem at_cons {s : List Int} {count : Nat} (hv : Valid s (some count)) {i : Nat} {x : Int} {r : List Int} (h : At s count i (x :: r)) :
    i < count ∧ rd s i = some x ∧ At s count (i + 1) r := by
  obtain ⟨hl, hg, hd⟩ := drop_cons h.2
  have := text_length_take s count
  exact ⟨by omega, rd_at hv hg, hl, hd⟩

theorem at_nil {s : List Int} {count : Nat} (hv : Valid s (some count)) {i : Nat} (h : At s count i []) :
    count ≤ i ∨ (i < count ∧ rd s i = some 0) := by
  have e := drop_nil h.1 h.2
  have hc := cond_eq hv h.1
  rw [List.getElem?_eq_none (by omega)] at hc
  unfold cond at hc
  by_cases c : i < count
  · right
    refine ⟨c, ?_⟩
    rw [if_pos (by simp [below, c])] at hc
    cases hr : rd s i with
    | none => rw [hr] at hc; cases hc
    | some x =>
      rw [hr] at hc
      by_cases q : x = 0
      · rw [q]
      · simp [q] at hc
  · left; omega

theorem sep_goes {s : List Int} {count : Nat} (hv : Valid s (some count)) {c : Int} (hc : c ≠ 0) {i : Nat} {t : List Int} (h : At s count i t) :
    Goes (sep s count c i) (sepS c t) (At s count) := by
  unfold sep
  cases t with
  | nil =>
    show _ = some none
    rcases at_nil hv h with q | ⟨q1, q2⟩
    · rw [if_pos q]
    · rw [if_neg (by omega), q2, Option.map_some, if_pos (Ne.symm hc)]
  | cons x r =>
    obtain ⟨h1, h2, h3⟩ := at_cons hv h
    rw [if_neg (by omega), h2, Option.map_some]
    rw [show sepS c (x :: r) = if x = c then some r else none from rfl]
    by_cases q : x = c
    · rw [if_neg (by simpa using q), if_pos q]
      exact ⟨_, rfl, h3⟩
    · rw [if_pos q, if_neg q]
      rfl

theorem dropWhile_idem (p : Int → Bool) : ∀ t : List Int, (t.dropWhile p).dropWhile p = t.dropWhile p := by
  intro t
  induction t with
  | nil => rfl
  | cons x t ih =>
    by_cases q : p x = true
    · rw [List.dropWhile_cons_of_pos q, ih]
    · rw [List.dropWhile_cons_of_neg q, List.dropWhile_cons_of_neg q]

theorem readSpec_trim (t : List Int) : readSpec 16 (t.dropWhile isspace) = readSpec 16 t := by
  unfold readSpec
  rw [dropWhile_idem]

/-- `strtou64` in full. -/
theorem strtou64_eq {s : List Int} {count : Option Nat} (hv : Valid s count) :
    ∃ j, strtouint s count 64 16 = some (numS (readSpec 16 (text s count)), j) ∧
      j + (readSpec 16 (text s count)).rest.length = (text s count).length := by
  obtain ⟨p, h1, h2, h3, h4, h5, h6⟩ := parse_spec (w := 64) hv (radix := 16) (Or.inr (by omega))
  refine ⟨p.stop, ?_, h6⟩
  unfold strtouint numS
  rw [h1, Option.map_some, ← h2]
  refine congrArg some (Prod.ext ?_ rfl)
  simp only
  cases ho : p.ovf with
  | true =>
    have := h3.1 ho
    simp only [if_true]
    cases p.neg
    · simp only [Bool.false_eq_true, if_false]; exact (Nat.min_eq_right (Nat.le_trans (Nat.sub_le _ _) this)).symm
    · simp only [if_true]; rw [if_pos this]
  | false =>
    have h4 := h4 ho
    simp only [Bool.false_eq_true, if_false]
    cases p.neg
    · simp only [Bool.false_eq_true, if_false]; omega
    · simp only [if_true]; rw [if_neg (by omega), h4]

/-- What is left of a number is the end of the text. -/
theorem rest_suffix (t : List Int) : (readSpec 16 t).rest <:+ t := by
  have h1 : (readSpec 16 t).rest <:+ (prefixSpec 16 (signSpec (t.dropWhile isspace)).2).2 := List.dropWhile_suffix _
  have h2 : ∀ u, (prefixSpec 16 u).2 <:+ u := by
    intro u
    unfold prefixSpec
    split
    · split
      · exact ⟨[48, _], rfl⟩
      · split
        · exact ⟨[48], rfl⟩
        · exact List.suffix_refl _
    · split
      · exact ⟨[48], rfl⟩
      · exact List.suffix_refl _
    · exact List.suffix_refl _
  have h3 : ∀ u, (signSpec u).2 <:+ u := by
    intro u
    cases u with
    | nil => exact List.suffix_refl _
    | cons c r =>
      rw [show signSpec (c :: r) = if c = 45 then (true, r) else if c = 43 then (false, r) else (false, c :: r) from rfl]
      split
      · exact List.suffix_cons _ _
      · split
        · exact List.suffix_cons _ _
        · exact List.suffix_refl _
  exact h1.trans ((h2 _).trans ((h3 _).trans (List.dropWhile_suffix _)))

theorem fld_goes {s : List Int} {count : Nat} (hc : count < 2 ^ 64) (hv : Valid s (some count)) (max : Nat) {i : Nat} {t : List Int} (h : At s count i t) :
    Goes (fld s count max i) (fldS max t) (fun a b => a.1 = b.1 ∧ At s count a.2 b.2) := by
  obtain ⟨k, e, hk⟩ := skip_goes hv h
  have hcount := text_length_take s count
  have hk1 := hk.1
  unfold fld fldS
  rw [e]
  simp only [andThen]
  rw [show (count + 2 ^ 64 - k) % 2 ^ 64 = count - k by omega]
  obtain ⟨j, e2, e3⟩ := strtou64_eq (valid_drop hv hk1)
  have ht : text (s.drop k) (some (count - k)) = t.dropWhile isspace := by rw [text_drop k s count hk1, hk.2]
  rw [ht] at e2 e3
  rw [readSpec_trim] at e2 e3
  rw [e2]
  simp only
  by_cases c : numS (readSpec 16 t) > max
  · rw [if_pos c, if_pos c]
    rfl
  · rw [if_neg c, if_neg c]
    have hat : At s count (k + j) (readSpec 16 t).rest := by
      have hlen : (t.dropWhile isspace).length + k = (text s (some count)).length := by
        rw [← hk.2, List.length_drop]; omega
      refine ⟨by omega, ?_⟩
      rw [← List.drop_drop, hk.2]
      have hs := rest_suffix (t.dropWhile isspace)
      rw [readSpec_trim] at hs
      obtain ⟨pre, hp⟩ := hs
      have : pre.length = j := by
        have := congrArg List.length hp
        rw [List.length_append] at this; omega
      rw [← hp, List.drop_left' this]
    obtain ⟨m, e4, hm⟩ := skip_goes hv hat
    rw [e4]
    exact ⟨_, rfl, rfl, hm⟩

theorem sep4_goes {s : List Int} {count : Nat} (hv : Valid s (some count)) {i : Nat} {x : Int} {r : List Int} (h : At s count i (x :: r)) :
    sep4 s count i = some (some (i + 1)) ∧ At s count (i + 1) r := by
  obtain ⟨h1, -, h3⟩ := at_cons hv h
  unfold sep4
  rw [if_neg (by omega)]
  exact ⟨rfl, h3⟩

theorem stop_goes {s : List Int} {count : Nat} (hv : Valid s (some count)) {i : Nat} {t : List Int} (h : At s count i t) :
    Goes (atStop s count i) (if t = [] then some () else none) (fun _ _ => True) := by
  unfold atStop
  cases t with
  | nil =>
    rw [if_pos rfl]
    rcases at_nil hv h with q | ⟨q1, q2⟩
    · rw [if_pos q]; exact ⟨(), rfl, trivial⟩
    · rw [if_neg (by omega), q2]; exact ⟨(), rfl, trivial⟩
  | cons x r =>
    obtain ⟨h1, h2, h3⟩ := at_cons hv h
    rw [if_neg (show ¬ (i ≥ count) by omega), if_neg (show ¬ (x :: r = []) by simp), h2, Option.map_some]
    have hx : x ≠ 0 := by
      have hm : x ∈ text s (some count) := by
        have : x ∈ (text s (some count)).drop i := by rw [h.2]; exact List.mem_cons_self
        exact List.mem_of_mem_drop this
      have := mem_takeWhile_sat _ hm
      simpa using this
    rw [if_neg hx]
    rfl

/-- The parser up to the end of the fourth field, with what it does then. -/
theorem head_goes {s : List Int} {count : Nat} (hc : count < 2 ^ 64) (hv : Valid s (some count)) {γ δ : Type} {f : Nat × Nat × Nat × Nat → Nat → Option (Option γ)}
    {g : (Nat × Nat × Nat × Nat) × List Int → Option δ} {S : γ → δ → Prop}
    (hf : ∀ n i t, headS (text s (some count)) = some (n, t) → At s count i t → Goes (f n i) (g (n, t)) S) :
    Goes (andThen (skipSp s count 0) fun i =>
      andThen (sep s count 123 i) fun i =>
      andThen (fld s count (2 ^ 32 - 1) i) fun r1 =>
      andThen (sep s count 45 r1.2) fun i =>
      andThen (fld s count (2 ^ 16 - 1) i) fun r2 =>
      andThen (sep s count 45 r2.2) fun i =>
      andThen (fld s count (2 ^ 16 - 1) i) fun r3 =>
      andThen (sep s count 45 r3.2) fun i =>
      andThen (fld s count (2 ^ 16 - 1) i) fun r4 => f (r1.1, r2.1, r3.1, r4.1) r4.2) ((headS (text s (some count))).bind g) S := by
  have hS : headS (text s (some count)) = (some ((text s (some count)).dropWhile isspace)).bind fun t =>
      (sepS 123 t).bind fun t => (fldS (2 ^ 32 - 1) t).bind fun r1 => (sepS 45 r1.2).bind fun t => (fldS (2 ^ 16 - 1) t).bind fun r2 =>
      (sepS 45 r2.2).bind fun t => (fldS (2 ^ 16 - 1) t).bind fun r3 => (sepS 45 r3.2).bind fun t => (fldS (2 ^ 16 - 1) t).bind fun r4 =>
      some ((r1.1, r2.1, r3.1, r4.1), r4.2) := rfl
  rw [hS] at hf ⊢
  simp only [Option.bind_assoc]
  refine Goes.bind (skip_goes hv ⟨Nat.zero_le _, List.drop_zero⟩) fun i t e0 h => ?_
  refine Goes.bind (sep_goes hv (by decide) h) fun i t e1 h => ?_
  refine Goes.bind (fld_goes hc hv _ h) fun r1 q1 e2 h1 => ?_
  refine Goes.bind (sep_goes hv (by decide) h1.2) fun i t e3 h => ?_
  refine Goes.bind (fld_goes hc hv _ h) fun r2 q2 e4 h2 => ?_
  refine Goes.bind (sep_goes hv (by decide) h2.2) fun i t e5 h => ?_
  refine Goes.bind (fld_goes hc hv _ h) fun r3 q3 e6 h3 => ?_
  refine Goes.bind (sep_goes hv (by decide) h3.2) fun i t e7 h => ?_
  refine Goes.bind (fld_goes hc hv _ h) fun r4 q4 e8 h4 => ?_
  simp only [Option.bind_some]
  rw [h1.1, h2.1, h3.1, h4.1]
  refine hf _ _ _ ?_ h4.2
  simp only [e0, e1, e2, e3, e4, e5, e6, e7, e8, Option.bind_some]

theorem tail_goes {s : List Int} {count : Nat} (hc : count < 2 ^ 64) (hv : Valid s (some count)) {i : Nat} {t : List Int} (h : At s count i t)
    {γ : Type} {f : Nat → γ} :
    Goes (andThen (fld s count (2 ^ 48 - 1) i) fun r5 =>
      andThen (sep s count 125 r5.2) fun i =>
      andThen (skipSp s count i) fun i =>
      andThen (atStop s count i) fun _ => some (some (f r5.1))) ((tailS t).map f) Eq := by
  have hT : (tailS t).map f = (fldS (2 ^ 48 - 1) t).bind fun r5 => (sepS 125 r5.2).bind fun t => (some (t.dropWhile isspace)).bind fun t =>
      (if t = [] then some () else none).bind fun _ => some (f r5.1) := by
    rw [show tailS t = (fldS (2 ^ 48 - 1) t).bind fun r5 => (sepS 125 r5.2).bind fun t =>
      if t.dropWhile isspace = [] then some r5.1 else none from rfl]
    rw [Option.map_bind]
    congr 1; funext r5
    simp only [Function.comp_apply, Option.map_bind]
    congr 1; funext t
    simp only [Function.comp_apply, Option.bind_some]
    by_cases c : t.dropWhile isspace = []
    · rw [if_pos c, if_pos c]; rfl
    · rw [if_neg c, if_neg c]; rfl
  rw [hT]
  refine Goes.bind (fld_goes hc hv _ h) fun r1 q1 e2 h1 => ?_
  refine Goes.bind (sep_goes hv (by decide) h1.2) fun i t e3 h => ?_
  refine Goes.bind (skip_goes hv h) fun i t e0 h => ?_
  refine Goes.bind (stop_goes hv h) fun _ _ _ _ => ?_
  exact ⟨_, rfl, by rw [h1.1]⟩

theorem Goes.eq {α : Type} {x : Option (Option α)} {y : Option α} (h : Goes x y Eq) : x = some y := by
  cases y with
  | none => exact h
  | some b => obtain ⟨a, e, rfl⟩ := h; exact e

/-- The parser as it is, C58: after the fourth field any character is skipped. (If there is none, see `sep4_outside`.) -/
theorem strtouuid_lax {s : List Int} {count : Nat} (hc : count < 2 ^ 64) (hv : Valid s (some count))
    (h4 : ∀ n, headS (text s (some count)) ≠ some (n, [])) :
    strToUuid s count = some ((headS (text s (some count))).bind fun h => (tailS h.2.tail).map fun n5 => uuidBytes h.1.1 h.1.2.1 h.1.2.2.1 h.1.2.2.2 n5) := by
  refine Goes.eq (head_goes hc hv (f := fun n i => andThen (sep4 s count i) fun i => andThen (fld s count (2 ^ 48 - 1) i) fun r5 =>
    andThen (sep s count 125 r5.2) fun i => andThen (skipSp s count i) fun i => andThen (atStop s count i) fun _ =>
      some (some (uuidBytes n.1 n.2.1 n.2.2.1 n.2.2.2 r5.1))) ?_)
  intro n i t e h
  cases t with
  | nil => exact absurd e (h4 n)
  | cons x r =>
    obtain ⟨q1, q2⟩ := sep4_goes hv h
    rw [q1]
    exact tail_goes hc hv q2

/-- **C58.** Parsing accepts exactly the texts that denote a UUID and gives that UUID, provided that there is a dash after the fourth field. (Missing for
the full property: other characters there are accepted, too, and at the end of the text the read is outside; see the examples.) -/
theorem strtouuid_partial {s : List Int} {count : Nat} (hc : count < 2 ^ 64) (hv : Valid s (some count))
    (h4 : ∀ n t, headS (text s (some count)) = some (n, t) → t.head? = some 45) :
    strToUuid s count = some (uuidS (text s (some count))) := by
  rw [strtouuid_lax hc hv fun n e => by have := h4 n _ e; cases this]
  congr 1
  rw [show uuidS (text s (some count)) = (headS (text s (some count))).bind fun h => (sepS 45 h.2).bind fun t => (tailS t).bind fun n5 =>
    some (uuidBytes h.1.1 h.1.2.1 h.1.2.2.1 h.1.2.2.2 n5) from rfl]
  cases e : headS (text s (some count)) with
  | none => rfl
  | some h =>
    obtain ⟨n, t⟩ := h
    have := h4 n t e
    cases t with
    | nil => cases this
    | cons x r =>
      simp only [List.head?_cons, Option.some.injEq] at this
      subst this
      simp only [Option.bind_some, List.tail_cons]
      rw [show sepS 45 (45 :: r) = some r from rfl, Option.bind_some]
      cases tailS r <;> rfl

/-- What denotes a UUID is accepted. -/
theorem strtouuid_complete {s : List Int} {count : Nat} (hc : count < 2 ^ 64) (hv : Valid s (some count)) {u : List Byte}
    (h : uuidS (text s (some count)) = some u) : strToUuid s count = some (some u) := by
  rw [strtouuid_partial hc hv, h]
  intro n t e
  rw [show uuidS (text s (some count)) = (headS (text s (some count))).bind fun h => (sepS 45 h.2).bind fun t => (tailS t).bind fun n5 =>
    some (uuidBytes h.1.1 h.1.2.1 h.1.2.2.1 h.1.2.2.2 n5) from rfl, e, Option.bind_some] at h
  cases t with
  | nil => cases h
  | cons x r =>
    by_cases c : x = 45
    · rw [c]; rfl
    · rw [show sepS 45 (x :: r) = if x = 45 then some r else none from rfl, if_neg c] at h
      cases h

/-! ### Proofs: formatting and the round trip -/

/-- An upper-case hexadecimal digit. -/
def IsHex (x : Int) : Prop := (48 ≤ x ∧ x ≤ 57) ∨ (65 ≤ x ∧ x ≤ 70)

theorem hexChar_isHex {d : Nat} (h : d < 16) : IsHex (hexChar d) := by
  unfold hexChar IsHex
  by_cases c : d < 10
  · rw [if_pos c]; omega
  · rw [if_neg c]; omega

theorem hexChar_digit : ∀ d : Fin 16, digitIn 16 (hexChar d.val) = some d.val := by decide +kernel

theorem isHex_char {x : Int} (h : IsHex x) : ∃ d : Fin 16, x = hexChar d.val := by
  rcases h with h | h
  · refine ⟨⟨(x - 48).toNat, by omega⟩, ?_⟩
    simp only [hexChar]; rw [if_pos (by omega)]; omega
  · refine ⟨⟨(x - 55).toNat, by omega⟩, ?_⟩
    simp only [hexChar]; rw [if_neg (by omega)]; omega

theorem isHex_digit {x : Int} (h : IsHex x) : (digitIn 16 x).isSome = true := by
  obtain ⟨d, rfl⟩ := isHex_char h
  rw [hexChar_digit]; rfl

theorem number_append (a b : List Int) : number 16 (a ++ b) = number 16 a * 16 ^ b.length + number 16 b := by
  have : ∀ (b : List Int) (n m : Nat), b.foldl (fun n c => n * 16 + (digitIn 16 c).getD 0) (n * 16 ^ 0 + m) =
      n * 16 ^ b.length + b.foldl (fun n c => n * 16 + (digitIn 16 c).getD 0) m := by
    intro b
    induction b with
    | nil => intro n m; simp
    | cons x b ih =>
      intro n m
      simp only [List.foldl_cons, List.length_cons]
      rw [show (n * 16 ^ 0 + m) * 16 + (digitIn 16 x).getD 0 = (n * 16) * 16 ^ 0 + (m * 16 + (digitIn 16 x).getD 0) by omega, ih]
      rw [Nat.pow_succ, Nat.mul_assoc, Nat.mul_comm 16 (16 ^ b.length)]
  unfold number
  rw [List.foldl_append]
  have h := this b (a.foldl (fun n c => n * 16 + (digitIn 16 c).getD 0) 0) 0
  rw [Nat.pow_zero, Nat.mul_one, Nat.add_zero] at h
  exact h

theorem hexDigs_props : ∀ n : Nat, (∀ x ∈ hexDigs n, IsHex x) ∧ number 16 (hexDigs n) = n ∧ ∀ k, n < 16 ^ k → (hexDigs n).length ≤ k := by
  intro n
  induction n using Nat.strongRecOn with
  | _ n ih =>
    rw [hexDigs]
    by_cases c : n = 0
    · rw [if_pos c]
      exact ⟨fun x h => (nomatch h), by rw [c]; rfl, fun k _ => Nat.zero_le _⟩
    · rw [if_neg c]
      obtain ⟨h1, h2, h3⟩ := ih (n / 16) (by omega)
      refine ⟨?_, ?_, ?_⟩
      · intro x hx
        rcases List.mem_append.1 hx with hx | hx
        · exact h1 x hx
        · rw [List.mem_singleton.1 hx]; exact hexChar_isHex (by omega)
      · rw [number_append, h2]
        have : number 16 [hexChar (n % 16)] = n % 16 := by
          have := hexChar_digit ⟨n % 16, by omega⟩
          simp only at this
          simp [number, this]
        rw [this]
        simp only [List.length_singleton]
        omega
      · intro k hk
        cases k with
        | zero => omega
        | succ k =>
          have := h3 k (by rw [Nat.pow_succ] at hk; omega)
          rw [List.length_append]
          simp only [List.length_singleton]; omega

theorem number_zeros (k : Nat) : number 16 (List.replicate k 48) = 0 := by
  induction k with
  | zero => rfl
  | succ k ih =>
    rw [List.replicate_succ', number_append, ih]
    have : number 16 [48] = 0 := by decide +kernel
    rw [this]; omega

theorem fmtX_props {k n : Nat} (h : n < 16 ^ k) : (fmtX k n).length = k ∧ (∀ x ∈ fmtX k n, IsHex x) ∧ number 16 (fmtX k n) = n := by
  obtain ⟨h1, h2, h3⟩ := hexDigs_props n
  have := h3 k h
  unfold fmtX
  refine ⟨?_, ?_, ?_⟩
  · rw [List.length_append, List.length_replicate]; omega
  · intro x hx
    rcases List.mem_append.1 hx with hx | hx
    · rw [(List.mem_replicate.1 hx).2]; exact Or.inl ⟨by decide, by decide⟩
    · exact h1 x hx
  · rw [number_append, number_zeros, h2]; omega

theorem takeWhile_stop (p : Int → Bool) {c : Int} (hc : p c = false) (r : List Int) : ∀ ds : List Int, (∀ x ∈ ds, p x = true) →
    (ds ++ c :: r).takeWhile p = ds ∧ (ds ++ c :: r).dropWhile p = c :: r := by
  intro ds
  induction ds with
  | nil => intro _; simp [hc]
  | cons x ds ih =>
    intro h
    obtain ⟨h1, h2⟩ := ih fun y hy => h y (List.mem_cons_of_mem _ hy)
    have hx := h x List.mem_cons_self
    rw [List.cons_append, List.takeWhile_cons_of_pos hx, List.dropWhile_cons_of_pos hx, h1, h2]
    exact ⟨rfl, rfl⟩

theorem readSpec_hex {ds : List Int} (hds : ∀ x ∈ ds, IsHex x) {c : Int} (hc : c = 45 ∨ c = 125) (r : List Int) (hne : ds ≠ []) :
    readSpec 16 (ds ++ c :: r) = ⟨false, number 16 ds, c :: r⟩ := by
  obtain ⟨d, ds', rfl⟩ : ∃ d ds', ds = d :: ds' := by
    cases ds with
    | nil => exact absurd rfl hne
    | cons d ds' => exact ⟨d, ds', rfl⟩
  have hd := hds d List.mem_cons_self
  have e1 : (d :: ds' ++ c :: r).dropWhile isspace = d :: ds' ++ c :: r := by
    rw [List.cons_append, List.dropWhile_cons_of_neg]
    unfold isspace IsHex at *
    simp; omega
  have e2 : signSpec (d :: ds' ++ c :: r) = (false, d :: ds' ++ c :: r) := by
    rw [List.cons_append]
    rw [show ∀ q, signSpec (d :: q) = if d = 45 then (true, q) else if d = 43 then (false, q) else (false, d :: q) from fun _ => rfl]
    unfold IsHex at hd
    rw [if_neg (by omega), if_neg (by omega)]
  have e3 : prefixSpec 16 (d :: ds' ++ c :: r) = (16, d :: ds' ++ c :: r) := by
    have hx : ∀ x q, ds' ++ c :: r = x :: q → ¬ (x = 120 ∨ x = 88) := by
      intro x q e
      cases ds' with
      | nil =>
        rw [List.nil_append] at e
        injection e with e _
        omega
      | cons y ds' =>
        have := hds y (by simp)
        rw [List.cons_append] at e
        injection e with e _
        unfold IsHex at this
        omega
    rw [List.cons_append]
    cases hq : ds' ++ c :: r with
    | nil => simp at hq
    | cons x q =>
      unfold prefixSpec
      split
      · next e =>
        injection e with _ e
        injection e with e _
        have := hx x q hq
        rw [if_neg (by rw [← e]; exact fun h => this h.2), if_neg (by decide)]
      · next e => injection e with _ e; cases e
      · rfl
  unfold readSpec
  dsimp only
  rw [e1, e2]
  dsimp only
  rw [e3]
  dsimp only
  have hcd : (digitIn 16 c).isSome = false := by rcases hc with rfl | rfl <;> decide +kernel
  obtain ⟨t1, t2⟩ := takeWhile_stop (fun x => (digitIn 16 x).isSome) hcd r (d :: ds') fun x hx => isHex_digit (hds x hx)
  rw [t1, t2]

theorem fldS_hex {ds : List Int} (hds : ∀ x ∈ ds, IsHex x) {c : Int} (hc : c = 45 ∨ c = 125) (r : List Int) (hne : ds ≠ []) {max : Nat}
    (hm : number 16 ds ≤ max) (hm2 : max < 2 ^ 64) : fldS max (ds ++ c :: r) = some (number 16 ds, c :: r) := by
  unfold fldS
  rw [readSpec_hex hds hc r hne]
  have : numS ⟨false, number 16 ds, c :: r⟩ = number 16 ds := by
    unfold numS
    simp only [Bool.false_eq_true, if_false]
    exact Nat.min_eq_left (by omega)
  rw [this, if_neg (by omega)]
  have : (c :: r).dropWhile isspace = c :: r := by
    rw [List.dropWhile_cons_of_neg]
    rcases hc with rfl | rfl <;> decide
  simp only [this]

/-- A registry text of hexadecimal digits denotes the UUID with these numbers. -/
theorem uuidS_hex {d1 d2 d3 d4 d5 : List Int} (h1 : ∀ x ∈ d1, IsHex x) (h2 : ∀ x ∈ d2, IsHex x) (h3 : ∀ x ∈ d3, IsHex x) (h4 : ∀ x ∈ d4, IsHex x)
    (h5 : ∀ x ∈ d5, IsHex x) (n1 : d1 ≠ []) (n2 : d2 ≠ []) (n3 : d3 ≠ []) (n4 : d4 ≠ []) (n5 : d5 ≠ []) (b1 : number 16 d1 < 2 ^ 32) (b2 : number 16 d2 < 2 ^ 16)
    (b3 : number 16 d3 < 2 ^ 16) (b4 : number 16 d4 < 2 ^ 16) (b5 : number 16 d5 < 2 ^ 48) :
    uuidS (123 :: (d1 ++ 45 :: (d2 ++ 45 :: (d3 ++ 45 :: (d4 ++ 45 :: (d5 ++ 125 :: [])))))) =
      some (uuidBytes (number 16 d1) (number 16 d2) (number 16 d3) (number 16 d4) (number 16 d5)) := by
  have hs : ∀ c r, sepS c (c :: r) = some r := fun c r => if_pos rfl
  unfold uuidS headS tailS
  rw [show ∀ r, (123 :: r : List Int).dropWhile isspace = 123 :: r from fun r => rfl, hs]
  simp only [bind, Option.bind_some]
  rw [fldS_hex h1 (Or.inl rfl) _ n1 (by omega) (by decide)]
  simp only [Option.bind_some, hs]
  rw [fldS_hex h2 (Or.inl rfl) _ n2 (by omega) (by decide)]
  simp only [Option.bind_some, hs]
  rw [fldS_hex h3 (Or.inl rfl) _ n3 (by omega) (by decide)]
  simp only [Option.bind_some, hs]
  rw [fldS_hex h4 (Or.inl rfl) _ n4 (by omega) (by decide)]
  simp only [Option.bind_some, hs]
  rw [fldS_hex h5 (Or.inr rfl) _ n5 (by omega) (by decide)]
  simp only [Option.bind_some, hs]
  rfl

theorem leDec_lt : ∀ l : List Byte, leDec l < 256 ^ l.length := by
  intro l
  induction l with
  | nil => decide
  | cons b l ih =>
    rw [leDec, List.length_cons, Nat.pow_succ]
    have := b.isLt
    omega

theorem leEnc_leDec : ∀ l : List Byte, leEnc l.length (leDec l) = l := by
  intro l
  induction l with
  | nil => rfl
  | cons b l ih =>
    have hb := b.isLt
    rw [List.length_cons, leDec, leEnc, show (b.toNat + 256 * leDec l) / 256 = leDec l by omega, ih]
    congr 1
    apply BitVec.eq_of_toNat_eq
    rw [BitVec.toNat_ofNat]
    omega

/-- What is written before it is cut off. -/
theorem uuidArgs_16 {b0 b1 b2 b3 b4 b5 b6 b7 b8 b9 b10 b11 b12 b13 b14 b15 : Byte} :
    uuidArgs [b0, b1, b2, b3, b4, b5, b6, b7, b8, b9, b10, b11, b12, b13, b14, b15] =
      [leDec [b0, b1, b2, b3], leDec [b4, b5], leDec [b6, b7], b8.toNat, b9.toNat, b10.toNat, b11.toNat, b12.toNat, b13.toNat, b14.toNat, b15.toNat] := rfl

theorem fmt_byte (b : Byte) : (fmtX 2 b.toNat).length = 2 ∧ (∀ x ∈ fmtX 2 b.toNat, IsHex x) ∧ number 16 (fmtX 2 b.toNat) = b.toNat :=
  fmtX_props (show b.toNat < 256 from b.isLt)

theorem number2 (a b : Byte) : number 16 (fmtX 2 a.toNat ++ fmtX 2 b.toNat) = a.toNat * 256 + b.toNat := by
  rw [number_append, (fmt_byte a).2.2, (fmt_byte b).2.2, (fmt_byte b).1]

theorem ofNat_byte {n : Nat} {b : Byte} (h : n % 256 = b.toNat) : BitVec.ofNat 8 n = b := by
  apply BitVec.eq_of_toNat_eq
  rw [BitVec.toNat_ofNat]
  exact h

theorem list16 {u : List Byte} (h : u.length = 16) : ∃ b0 b1 b2 b3 b4 b5 b6 b7 b8 b9 b10 b11 b12 b13 b14 b15,
    u = [b0, b1, b2, b3, b4, b5, b6, b7, b8, b9, b10, b11, b12, b13, b14, b15] := by
  match u, h with
  | [b0, b1, b2, b3, b4, b5, b6, b7, b8, b9, b10, b11, b12, b13, b14, b15], _ => exact ⟨_, _, _, _, _, _, _, _, _, _, _, _, _, _, _, _, rfl⟩

/-- The formatted text: its length, that it has no terminator inside, and what it denotes. -/
theorem uuidToStr_props {u : List Byte} (h : u.length = 16) :
    (uuidToStr u).length = 38 ∧ (∀ x ∈ uuidToStr u, x ≠ 0) ∧ uuidS (uuidToStr u) = some u := by
  obtain ⟨b0, b1, b2, b3, b4, b5, b6, b7, b8, b9, b10, b11, b12, b13, b14, b15, rfl⟩ := list16 h
  have q1 : leDec [b0, b1, b2, b3] < 2 ^ 32 := by have := leDec_lt [b0, b1, b2, b3]; simpa using this
  have q2 : leDec [b4, b5] < 2 ^ 16 := by have := leDec_lt [b4, b5]; simpa using this
  have q3 : leDec [b6, b7] < 2 ^ 16 := by have := leDec_lt [b6, b7]; simpa using this
  have p1 := fmtX_props (k := 8) (n := leDec [b0, b1, b2, b3]) (by omega)
  have p2 := fmtX_props (k := 4) (n := leDec [b4, b5]) (by omega)
  have p3 := fmtX_props (k := 4) (n := leDec [b6, b7]) (by omega)
  
  have l := fun b => (fmt_byte b).1
  have e : fmtUuid (fun i => (uuidArgs [b0, b1, b2, b3, b4, b5, b6, b7, b8, b9, b10, b11, b12, b13, b14, b15]).getD i 0) =
      123 :: (fmtX 8 (leDec [b0, b1, b2, b3]) ++ 45 :: (fmtX 4 (leDec [b4, b5]) ++ 45 :: (fmtX 4 (leDec [b6, b7]) ++ 45 :: ((fmtX 2 b8.toNat ++ fmtX 2 b9.toNat) ++
        45 :: ((fmtX 2 b10.toNat ++ (fmtX 2 b11.toNat ++ (fmtX 2 b12.toNat ++ (fmtX 2 b13.toNat ++ (fmtX 2 b14.toNat ++ fmtX 2 b15.toNat))))) ++ 125 :: []))))) := by
    rw [uuidArgs_16]
    simp only [fmtUuid, List.getD_cons_zero, List.getD_cons_succ, List.append_assoc, List.cons_append]
  have hl : (fmtUuid (fun i => (uuidArgs [b0, b1, b2, b3, b4, b5, b6, b7, b8, b9, b10, b11, b12, b13, b14, b15]).getD i 0)).length = 38 := by
    rw [e]
    simp only [List.length_cons, List.length_append, List.length_nil, p1.1, p2.1, p3.1, l]
  have ht : uuidToStr [b0, b1, b2, b3, b4, b5, b6, b7, b8, b9, b10, b11, b12, b13, b14, b15] =
      fmtUuid (fun i => (uuidArgs [b0, b1, b2, b3, b4, b5, b6, b7, b8, b9, b10, b11, b12, b13, b14, b15]).getD i 0) := by
    unfold uuidToStr
    rw [List.take_of_length_le (by rw [hl]; exact Nat.le_refl _)]
  rw [ht]
  refine ⟨hl, ?_, ?_⟩
  · rw [e]
    have hb := fun b => (fmt_byte b).2.1
    have hh : ∀ x, IsHex x → x ≠ 0 := by intro x hx; unfold IsHex at hx; omega
    intro x hx
    simp only [List.mem_cons, List.mem_append, List.not_mem_nil, or_false] at hx
    rcases hx with hx | hx | hx | hx | hx | hx | hx | (hx | hx) | hx | (hx | hx | hx | hx | hx | hx) | hx
    · rw [hx]; decide
    · exact hh x (p1.2.1 x hx)
    · rw [hx]; decide
    · exact hh x (p2.2.1 x hx)
    · rw [hx]; decide
    · exact hh x (p3.2.1 x hx)
    · rw [hx]; decide
    · exact hh x (hb _ x hx)
    · exact hh x (hb _ x hx)
    · rw [hx]; decide
    · exact hh x (hb _ x hx)
    · exact hh x (hb _ x hx)
    · exact hh x (hb _ x hx)
    · exact hh x (hb _ x hx)
    · exact hh x (hb _ x hx)
    · exact hh x (hb _ x hx)
    · rw [hx]; decide
  · have hex : ∀ {a b : List Int}, (∀ x ∈ a, IsHex x) → (∀ x ∈ b, IsHex x) → ∀ x ∈ a ++ b, IsHex x := by
      intro a b ha hb x hx
      rcases List.mem_append.1 hx with h | h
      · exact ha x h
      · exact hb x h
    have hne : ∀ {a : List Int} {k : Nat}, a.length = k + 1 → a ≠ [] := by
      intro a k h e; rw [e] at h; cases h
    have hb := fun b => (fmt_byte b).2.1
    have n5 : number 16 (fmtX 2 b10.toNat ++ (fmtX 2 b11.toNat ++ (fmtX 2 b12.toNat ++ (fmtX 2 b13.toNat ++ (fmtX 2 b14.toNat ++ fmtX 2 b15.toNat))))) =
        b10.toNat * 2 ^ 40 + (b11.toNat * 2 ^ 32 + (b12.toNat * 2 ^ 24 + (b13.toNat * 2 ^ 16 + (b14.toNat * 2 ^ 8 + b15.toNat)))) := by
      rw [number_append, number_append, number_append, number_append, number2]
      simp only [(fmt_byte _).2.2, List.length_append, l]
    have z8 := b8.isLt
    have z9 := b9.isLt
    have z10 := b10.isLt
    have z11 := b11.isLt
    have z12 := b12.isLt
    have z13 := b13.isLt
    have z14 := b14.isLt
    have z15 := b15.isLt
    rw [e, uuidS_hex p1.2.1 p2.2.1 p3.2.1 (hex (hb _) (hb _)) (hex (hb _) (hex (hb _) (hex (hb _) (hex (hb _) (hex (hb _) (hb _)))))) (hne p1.1) (hne p2.1) (hne p3.1)
      (hne (k := 3) (by rw [List.length_append, l, l])) (hne (k := 11) (by simp only [List.length_append, l])) (by rw [p1.2.2]; exact q1) (by rw [p2.2.2]; exact q2)
      (by rw [p3.2.2]; exact q3) (by rw [number2]; omega) (by rw [n5]; omega)]
    rw [p1.2.2, p2.2.2, p3.2.2, number2, n5]
    unfold uuidBytes
    rw [show leEnc 4 (leDec [b0, b1, b2, b3]) = [b0, b1, b2, b3] from leEnc_leDec [b0, b1, b2, b3], show leEnc 2 (leDec [b4, b5]) = [b4, b5] from leEnc_leDec [b4, b5],
      show leEnc 2 (leDec [b6, b7]) = [b6, b7] from leEnc_leDec [b6, b7]]
    simp only [List.map_cons, List.map_nil, List.cons_append, List.nil_append]
    rw [ofNat_byte (b := b8) (by omega), ofNat_byte (b := b9) (by omega), ofNat_byte (b := b10) (by omega), ofNat_byte (b := b11) (by omega),
      ofNat_byte (b := b12) (by omega), ofNat_byte (b := b13) (by omega), ofNat_byte (b := b14) (by omega), ofNat_byte (b := b15) (by omega)]

theorem takeWhile_nz : ∀ {l : List Int}, (∀ x ∈ l, x ≠ 0) → ∀ r, (l ++ 0 :: r).takeWhile (fun c => decide (c ≠ 0)) = l := by
  intro l h r
  exact (takeWhile_stop (fun c => decide (c ≠ 0)) (c := 0) (by decide) r l fun x hx => by simpa using h x hx).1

/-- **C58, round trip.** Parsing what `uuidtostr` wrote into its 39 characters gives back every UUID. -/
theorem uuid_roundtrip {u : List Byte} (h : u.length = 16) : strToUuid (uuidToStr u ++ [0]) 39 = some (some u) := by
  obtain ⟨h1, h2, h3⟩ := uuidToStr_props h
  have ht : text (uuidToStr u ++ [0]) (some 39) = uuidToStr u := by
    unfold text
    dsimp only
    rw [List.take_of_length_le (by simp [h1]), takeWhile_nz h2]
  exact strtouuid_complete (by decide) (Or.inl (by simp)) (by rw [ht]; exact h3)

/-- The same in the middle of a longer text, given its length. -/
theorem uuid_roundtrip_count {u : List Byte} (h : u.length = 16) (more : List Int) : strToUuid (uuidToStr u ++ more) 38 = some (some u) := by
  obtain ⟨h1, h2, h3⟩ := uuidToStr_props h
  have ht : text (uuidToStr u ++ more) (some 38) = uuidToStr u := by
    unfold text
    dsimp only
    rw [List.take_left' h1]
    have : ∀ l : List Int, (∀ x ∈ l, x ≠ 0) → l.takeWhile (fun c => decide (c ≠ 0)) = l := by
      intro l hl
      induction l with
      | nil => rfl
      | cons x l ih =>
        rw [List.takeWhile_cons_of_pos (by simpa using hl x List.mem_cons_self), ih fun y hy => hl y (List.mem_cons_of_mem _ hy)]
    exact this _ h2
  exact strtouuid_complete (by decide) (Or.inr ⟨38, rfl, by rw [List.length_append]; omega⟩) (by rw [ht]; exact h3)

/-- Different UUIDs have different texts. -/
theorem uuidtostr_injective {u v : List Byte} (hu : u.length = 16) (hv : v.length = 16) (h : uuidToStr u = uuidToStr v) : u = v := by
  have h1 := (uuidToStr_props hu).2.2
  rw [h, (uuidToStr_props hv).2.2] at h1
  exact ((Option.some.inj h1)).symm

/-! ### Defects -/

/-- Characters of a string literal. -/
def chars (s : String) : List Int := s.toList.map fun c => (c.toNat : Int)

/-- Every text is accepted with any other character `x` in place of the fourth dash, and means the same. -/
theorem strtouuid_any_separator {a : List Int} {n : Nat × Nat × Nat × Nat} {x : Int} {r : List Int} {n5 : Nat} {s : List Int} {count : Nat}
    (hc : count < 2 ^ 64) (hv : Valid s (some count)) (ha : text s (some count) = a) (hh : headS a = some (n, x :: r)) (ht : tailS r = some n5) :
    strToUuid s count = some (some (uuidBytes n.1 n.2.1 n.2.2.1 n.2.2.2 n5)) := by
  rw [strtouuid_lax hc hv (by rw [ha, hh]; intro m e; cases e), ha, hh, Option.bind_some]
  simp only [List.tail_cons]
  rw [ht]
  rfl

/-- The wide `uuidtostr` writes 00000000 as the first number of every UUID. -/
theorem uuidtowstr_wrong (u : List Byte) : (uuidToWstr u).take 10 = chars "{00000000-" := by
  unfold uuidToWstr fmtUuid
  rw [List.take_take, show min 10 38 = 10 from rfl]
  have : fmtX 8 ((0 :: uuidArgs u).getD 0 0) = [48, 48, 48, 48, 48, 48, 48, 48] := by
    rw [List.getD_cons_zero, fmtX, hexDigs]; rfl
  rw [this]
  simp only [List.cons_append, List.nil_append, List.append_assoc, List.take_succ_cons, List.take_zero]
  decide +kernel

/-- So reading it back does not give the UUID. -/
theorem uuidtowstr_roundtrip_fails : ∃ u : List Byte, u.length = 16 ∧ strToUuid (uuidToWstr u ++ [0]) 39 ≠ some (some u) := by
  refine ⟨List.replicate 16 0x11#8, by decide, ?_⟩
  decide +kernel

/-- At the end of the text where the fourth separator should be, the next thing read is after the terminator (a string without anything after it, or
whose length is given): undefined behaviour. -/
example : strToUuid (chars "{1-2-3-4" ++ [0]) 100 = none := by decide +kernel
example : strToUuid (chars "{1-2-3-4") 8 = none := by decide +kernel
example : Valid (chars "{1-2-3-4" ++ [0]) (some 100) := Or.inl (by decide +kernel)
/-- Text after the terminator is taken for the rest. -/
example : (strToUuid (chars "{1-2-3-4" ++ [0] ++ chars "5}" ++ [0]) 100).isSome = true ∧
    strToUuid (chars "{1-2-3-4" ++ [0] ++ chars "5}" ++ [0]) 100 = some (some (uuidBytes 1 2 3 4 5)) := by decide +kernel
/-- An ill-formed text is accepted, and not as the UUID one would guess. -/
example : strToUuid (chars "{1-2-3-4 5}" ++ [0]) 12 = some (some (uuidBytes 1 2 3 4 0)) ∧ strToUuid (chars "{1-2-3-4x5}" ++ [0]) 12 = some (some (uuidBytes 1 2 3 4 5)) ∧
    strToUuid (chars "{1-2-3-4}5}" ++ [0]) 12 = some (some (uuidBytes 1 2 3 4 5)) := by decide +kernel
/-- Numbers may be missing, signed, or prefixed. -/
example : strToUuid (chars "{1-2-3-4-}" ++ [0]) 11 = some (some (uuidBytes 1 2 3 4 0)) ∧ strToUuid (chars "{----}" ++ [0]) 7 = some none := by decide +kernel
example : strToUuid (chars "{+0x1-2-3-4-5}" ++ [0]) 20 = some (some (uuidBytes 1 2 3 4 5)) := by decide +kernel

/-! ### Instances -/

example : uuidToStr [0x33#8, 0x22#8, 0x11#8, 0x00#8, 0x55#8, 0x44#8, 0x77#8, 0x66#8, 0x88#8, 0x99#8, 0xaa#8, 0xbb#8, 0xcc#8, 0xdd#8, 0xee#8, 0xff#8] =
    chars "{00112233-4455-6677-8899-AABBCCDDEEFF}" := by decide +kernel
example : strToUuid (chars " {00112233-4455-6677-8899-aabbccddeeff} " ++ [0]) 100 =
    some (some [0x33#8, 0x22#8, 0x11#8, 0x00#8, 0x55#8, 0x44#8, 0x77#8, 0x66#8, 0x88#8, 0x99#8, 0xaa#8, 0xbb#8, 0xcc#8, 0xdd#8, 0xee#8, 0xff#8]) := by decide +kernel
/-- The hypotheses of `strtouuid_partial`, with a text it accepts and one it rejects. -/
example : (headS (text (chars "{1-2-3-4-5}" ++ [0]) (some 12))).map (fun h => h.2.head?) = some (some 45) ∧ (headS (chars "{1-2-3-10000-5}")).isNone := by decide +kernel
/-- Those of `strtouuid_any_separator`. -/
example : (headS (chars "{1-2-3-4x5}")).map (fun h => h.2) = some (chars "x5}") ∧ tailS (chars "5}") = some 5 := by decide +kernel

end Verif.Str
