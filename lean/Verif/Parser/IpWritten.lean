import Verif.Parser.Ip
import Verif.Parser.DateWritten
/-
Internet addresses from end to end (include/stdex/parser.hpp 2967-3395): what is written in the usual way is found, wherever it stands.
-/
namespace Verif.Parser
open Verif.Str Verif.Html Verif.Sgml

/-! ### The writer -/

/-- `:x:y` and so on -/
def colonGroups : List (List Int) → List Int
  | [] => []
  | x :: r => 58 :: x ++ colonGroups r

/-- `x:y` and so on -/
def groupText : List (List Int) → List Int
  | [] => []
  | x :: r => x ++ colonGroups r

/-! ### Specification -/

/-- `0`–`9`, `a`–`f` -/
def HexChar (c : Int) : Prop := (48 ≤ c ∧ c ≤ 57) ∨ (97 ≤ c ∧ c ≤ 102)

/-- One to four hexadecimal digits -/
def IsGroup (x : List Int) : Prop := x ≠ [] ∧ x.length ≤ 4 ∧ ∀ c ∈ x, HexChar c

/-- What follows an address: no digit, and no colon -/
def AfterIp (l : List Int) : Prop := ∀ c, l.head? = some c → ¬ HexChar c ∧ c ≠ 58

/-- A scope id after `%`, from `p` to `q`; or none, and the address ends at `e`. -/
def ScopeHere (t : List Int) (scope : Sub) (e : Nat) (iv : Iv) (j : Nat) : Prop :=
  (∃ q, t[e]? = some 37 ∧ scope (e + 1) = some q ∧ iv = some (e + 1, q) ∧ j = q) ∨ (¬ (t[e]? = some 37 ∧ ∃ q, scope (e + 1) = some q) ∧ iv = none ∧ j = e)

/-! ### Proofs -/

theorem ascii10_takes (t : List Int) : ∀ x ∈ ascii10 t, Takes t.length x := by
  intro x hx
  unfold ascii10 at hx
  have ⟨k, _, e⟩ := List.mem_map.1 hx
  subst e
  exact charSub_takes t _

theorem ascii16_takes (t : List Int) : ∀ x ∈ ascii16 t, Takes t.length x := by
  intro d hd
  rcases List.mem_append.1 hd with hd | hd
  · exact ascii10_takes t d hd
  · obtain ⟨k, _, e⟩ := List.mem_map.1 hd; subst e; exact charSub_takes _ _

/-- **C165** (IPv4) Four numbers up to 255 with dots between them, anywhere in a text where no digit follows, are found: the address has their value, its components are the four numbers as
they are written, and it takes just the text of the address. -/
theorem ipv4_written {v : Env} {a b c d : Nat} {t pre post : List Int} (h : v.Ok t) (ht : t = pre ++ dotted a b c d ++ post) (hp : NoDigit post) (ha : a ≤ 255) (hb : b ≤ 255) (hc : c ≤ 255)
    (hd : d ≤ 255) : ∃ comps, comps.map (textAt t) = [decText a, decText b, decText c, decText d] ∧
      ipv4 v (ascii10 t) (charSub t 46) pre.length = some (true, ⟨comps, a * 2 ^ 24 + b * 2 ^ 16 + c * 2 ^ 8 + d, some (pre.length, pre.length + (dotted a b c d).length)⟩) := by
  have dot : ∀ (r : List Int) (x : Int), ((46 : Int) :: r).head? = some x → isDec x = false := fun r x q => by cases q; rfl
  have ⟨p0, q0⟩ := bounded_dec (t := t) (i := pre.length) (a := a) (rest := 46 :: (decText b ++ 46 :: (decText c ++ 46 :: (decText d ++ post)))) (by rw [ht, List.append_assoc, List.drop_left]; simp [dotted]) (dot _) ha
  have ⟨s1, r1⟩ := charSub_at q0
  have ⟨p1, q1⟩ := bounded_dec r1 (dot _) hb
  have ⟨s2, r2⟩ := charSub_at q1
  have ⟨p2, q2⟩ := bounded_dec r2 (dot _) hc
  have ⟨s3, r3⟩ := charSub_at q2
  have ⟨p3, q3⟩ := bounded_dec r3 (noDigit_isDec hp) hd
  have spec := (ipv4_spec h (ascii10_takes t) (sep := charSub t 46) (fun i hi j q => (charSub_takes t 46 i hi j q).2) (by rw [ht]; simp)).1 _ _ _ _ _ _ _ _ _ _ _ ⟨p0, s1, p1, s2, p2, s3, p3⟩
  have tx : ∀ {i : Nat} {w r : List Int}, t.drop i = w ++ r → textAt t (i, i + w.length) = w := by
    intro i w r q
    unfold textAt
    dsimp only
    rw [q, show i + w.length - i = w.length from by omega, List.take_left]
  rw [show pre.length + (dotted a b c d).length = pre.length + (decText a).length + 1 + (decText b).length + 1 + (decText c).length + 1 + (decText d).length from by
    unfold dotted; simp only [List.length_append, List.length_cons]; omega]
  refine ⟨_, ?_, spec⟩
  simp only [List.map_cons, List.map_nil]
  rw [tx r1, tx r2, tx r3, tx (i := pre.length) (w := decText a) (by rw [ht, List.append_assoc, List.drop_left]; simp only [dotted, List.append_assoc]; rfl)]

/-- The value of a hexadecimal digit -/
def hexVal (c : Int) : Nat := if c ≤ 57 then (c - 48).toNat else (c - 87).toNat

def hexChars : List Int := [48, 49, 50, 51, 52, 53, 54, 55, 56, 57, 97, 98, 99, 100, 101, 102]

theorem ascii16_eq (t : List Int) : ascii16 t = hexChars.map (charSub t) := rfl

theorem hexVal_spec {c : Int} (h : HexChar c) : hexChars[hexVal c]? = some c ∧ hexVal c < 16 := by
  have : c = 48 ∨ c = 49 ∨ c = 50 ∨ c = 51 ∨ c = 52 ∨ c = 53 ∨ c = 54 ∨ c = 55 ∨ c = 56 ∨ c = 57 ∨ c = 97 ∨ c = 98 ∨ c = 99 ∨ c = 100 ∨ c = 101 ∨ c = 102 := by unfold HexChar at h; omega
  rcases this with rfl | rfl | rfl | rfl | rfl | rfl | rfl | rfl | rfl | rfl | rfl | rfl | rfl | rfl | rfl | rfl <;> exact ⟨rfl, by decide⟩

theorem digit16_at {t : List Int} {i : Nat} {c : Int} (h : t[i]? = some c) (hc : HexChar c) : DigitAt (ascii16 t) i (hexVal c) (i + 1) := by
  have ⟨e, l⟩ := hexVal_spec hc
  refine ⟨charSub t c, by rw [ascii16_eq, List.getElem?_map, e]; rfl, by unfold charSub; rw [if_pos h], fun k' hk d' hd => ?_⟩
  rw [ascii16_eq, List.getElem?_map] at hd
  cases q : hexChars[k']? with
  | none => rw [q] at hd; cases hd
  | some x =>
    rw [q] at hd
    cases hd
    unfold charSub
    rw [if_neg]
    intro u
    rw [h] at u
    cases u
    have n : hexChars.Nodup := by decide
    have l16 : k' < hexChars.length := by show k' < 16; omega
    have := (List.getElem?_inj (j := hexVal c) l16 n).1 (by rw [q, e])
    omega

theorem digit16_no {t : List Int} {i : Nat} (h : ∀ c, t[i]? = some c → ¬ HexChar c) {d e : Nat} : ¬ DigitAt (ascii16 t) i d e := by
  rintro ⟨x, a, b, _⟩
  rw [ascii16_eq, List.getElem?_map] at a
  cases q : hexChars[d]? with
  | none => rw [q] at a; cases a
  | some c =>
    rw [q] at a
    cases a
    unfold charSub at b
    split at b
    · rename_i u
      refine h c u ?_
      have m := List.mem_of_getElem? q
      simp only [hexChars, List.mem_cons, List.not_mem_nil, or_false] at m
      unfold HexChar; omega
    · cases b

theorem written16 {t : List Int} : ∀ (x : List Int) {pre post : List Int}, t = pre ++ x ++ post → (∀ c ∈ x, HexChar c) → Written t.length (ascii16 t) pre.length (x.map hexVal) (pre.length + x.length) := by
  intro x
  induction x with
  | nil => intro pre post _ _; exact .nil _
  | cons c x ih =>
    intro pre post ht hx
    have g : t[pre.length]? = some c := at_end (pre := pre) (post := c :: x ++ post) (by rw [ht, List.append_assoc])
    have := ih (pre := pre ++ [c]) (post := post) (by rw [ht]; simp) fun y hy => hx y (List.mem_cons_of_mem _ hy)
    rw [List.length_append, List.length_singleton] at this
    rw [List.map_cons, List.length_cons, show pre.length + (x.length + 1) = pre.length + 1 + x.length from by omega]
    exact .cons (get_lt g) (digit16_at g (hx c (List.mem_cons_self ..))) this

theorem positional16 (x : List Int) (hx : ∀ c ∈ x, HexChar c) : positional 16 (x.map hexVal) < 16 ^ x.length := by
  induction x with
  | nil => decide
  | cons c x ih =>
    have a := ih fun y hy => hx y (List.mem_cons_of_mem _ hy)
    have b := (hexVal_spec (hx c (List.mem_cons_self ..))).2
    rw [List.map_cons, positional, List.length_map, List.length_cons, Nat.pow_succ]
    have : hexVal c * 16 ^ x.length ≤ 15 * 16 ^ x.length := Nat.mul_le_mul_right _ (by omega)
    omega

theorem group_at {t pre x post : List Int} (ht : t = pre ++ x ++ post) (hx : IsGroup x) (hp : ∀ c, post.head? = some c → ¬ HexChar c) : HexAt t.length (ascii16 t) pre.length (pre.length + x.length) := by
  obtain ⟨a, b, c⟩ := hx
  refine ⟨_, x.map hexVal, fun q => a (List.map_eq_nil_iff.1 q), written16 x ht c, rfl, ?_, fun d e _ q => absurd q (digit16_no ?_)⟩
  · have := positional16 x c
    have : 16 ^ x.length ≤ 16 ^ 4 := Nat.pow_le_pow_right (by omega) b
    omega
  · intro y hy
    have := at_end (t := t) (pre := pre ++ x) (post := post) ht
    rw [List.length_append] at this
    rw [this] at hy
    exact hp y hy

theorem hex_no {t pre post : List Int} (ht : t = pre ++ post) (hp : ∀ c, post.head? = some c → ¬ HexChar c) (x : Nat) : ¬ HexAt t.length (ascii16 t) pre.length x := by
  rintro ⟨y, w, n, a, _⟩
  cases a with
  | nil => exact n rfl
  | cons _ d _ => exact digit16_no (fun c hc => hp c (by rw [at_end ht] at hc; exact hc)) d

theorem group_head {x post : List Int} (hx : IsGroup x) : ∃ c, (x ++ post).head? = some c ∧ HexChar c := by
  cases x with
  | nil => exact absurd rfl hx.1
  | cons c x => exact ⟨c, rfl, hx.2.2 c (List.mem_cons_self ..)⟩

theorem colon_at {t pre post : List Int} (ht : t = pre ++ 58 :: post) : charSub t 58 pre.length = some (pre.length + 1) := by
  unfold charSub; rw [at_end ht]; rfl

theorem colon_no {t pre post : List Int} (ht : t = pre ++ post) (h : post.head? ≠ some 58) : charSub t 58 pre.length = none := by
  unfold charSub; rw [at_end ht, if_neg h]

theorem no_colon_group {x post : List Int} (hx : IsGroup x) : (x ++ post).head? ≠ some 58 := by
  obtain ⟨c, e, h⟩ := group_head (post := post) hx
  rw [e]; intro q; cases q; unfold HexChar at h; omega

theorem colon_not_hex {l : List Int} : ∀ c, ((58 : Int) :: l).head? = some c → ¬ HexChar c := fun c hc => by cases hc; unfold HexChar; omega

/-- What comes after groups is no hexadecimal digit -/
theorem tail_not_hex {r : List (List Int)} {post : List Int} (hp : ∀ c, post.head? = some c → ¬ HexChar c) : ∀ c, (colonGroups r ++ post).head? = some c → ¬ HexChar c := by
  cases r with
  | nil => exact hp
  | cons x r => exact colon_not_hex

theorem tail_at {t : List Int} : ∀ (r : List (List Int)) {pre post : List Int}, t = pre ++ colonGroups r ++ post → (∀ x ∈ r, IsGroup x) → (∀ c, post.head? = some c → ¬ HexChar c) →
    ∃ cs : List (Nat × Nat), Tail t.length (ascii16 t) (charSub t 58) pre.length cs (pre.length + (colonGroups r).length) ∧ cs.map (textAt t) = r := by
  intro r
  induction r with
  | nil => intro pre post _ _ _; exact ⟨[], .nil _, rfl⟩
  | cons x r ih =>
    intro pre post ht hx hp
    have ht' : t = pre ++ 58 :: (x ++ (colonGroups r ++ post)) := by rw [ht]; simp [colonGroups]
    have gx := hx x (List.mem_cons_self ..)
    have l1 : (pre ++ [58]).length = pre.length + 1 := by simp
    have tx : t = (pre ++ [58]) ++ x ++ (colonGroups r ++ post) := by rw [ht']; simp
    obtain ⟨cs, c1, c2⟩ := ih (pre := pre ++ [58] ++ x) (post := post) (by rw [tx]; simp only [List.append_assoc]) (fun y hy => hx y (List.mem_cons_of_mem _ hy)) hp
    have g := group_at tx gx (tail_not_hex hp)
    have n := colon_no (t := t) (pre := pre ++ [58]) (post := x ++ (colonGroups r ++ post)) (by rw [ht']; simp) (no_colon_group gx)
    have tt := textAt_mid tx
    rw [l1] at g n tt
    rw [List.length_append, l1] at c1
    refine ⟨(pre.length + 1, pre.length + 1 + x.length) :: cs, ?_, by rw [List.map_cons, tt, c2]⟩
    rw [show pre.length + (colonGroups (x :: r)).length = pre.length + 1 + x.length + (colonGroups r).length from by rw [colonGroups]; simp; omega]
    exact .cons (colon_at ht') n g c1

theorem groups_at {t : List Int} (r : List (List Int)) {pre post : List Int} (ht : t = pre ++ groupText r ++ post) (hx : ∀ x ∈ r, IsGroup x) (hp : ∀ c, post.head? = some c → ¬ HexChar c) :
    ∃ cs : List (Nat × Nat), GroupsAt t.length (ascii16 t) (charSub t 58) pre.length cs (pre.length + (groupText r).length) ∧ cs.map (textAt t) = r := by
  cases r with
  | nil => exact ⟨[], .nil _, rfl⟩
  | cons x r =>
    have tx : t = pre ++ x ++ (colonGroups r ++ post) := by rw [ht]; simp [groupText]
    obtain ⟨cs, c1, c2⟩ := tail_at r (t := t) (pre := pre ++ x) (post := post) (by rw [tx]; simp only [List.append_assoc]) (fun y hy => hx y (List.mem_cons_of_mem _ hy)) hp
    rw [List.length_append] at c1
    refine ⟨(pre.length, pre.length + x.length) :: cs, ?_, by rw [List.map_cons, textAt_mid tx, c2]⟩
    rw [groupText, List.length_append, ← Nat.add_assoc]
    exact .cons (group_at tx (hx x (List.mem_cons_self ..)) (tail_not_hex hp)) c1

theorem scope_here {t : List Int} {scope : Sub} {e j : Nat} {iv : Iv} (h : ScopeAt (some (charSub t 37)) (some scope) e iv j) : ScopeHere t scope e iv j := by
  have pc : ∀ p, charSub t 37 e = some p ↔ t[e]? = some 37 ∧ p = e + 1 := by
    intro p
    unfold charSub
    by_cases q : t[e]? = some 37
    · rw [if_pos q]; exact ⟨(fun u => by cases u; exact ⟨q, rfl⟩), fun ⟨_, u⟩ => by rw [u]⟩
    · rw [if_neg q]; exact ⟨(fun u => nomatch u), fun ⟨u, _⟩ => absurd u q⟩
  rcases h with ⟨a, b, p, q, h1, h2, h3, h4, h5, h6⟩ | ⟨h1, h2, h3⟩
  · cases h1; cases h2
    obtain ⟨x, rfl⟩ := (pc p).1 h3
    exact .inl ⟨q, x, h4, h5, h6⟩
  · refine .inr ⟨?_, h2, h3⟩
    rintro ⟨x, q, y⟩
    exact h1 _ _ _ q rfl rfl ((pc _).2 ⟨x, rfl⟩) y

theorem colon_takes (t : List Int) : ∀ i ≤ t.length, ∀ j, charSub t 58 i = some j → j ≤ t.length := fun i hi j q => (charSub_takes t 58 i hi j q).2

/-- **C165** (IPv6) Eight groups of one to four hexadecimal digits with colons between them, anywhere in a text where no digit follows, are found: the components are the groups, as they are
written, and the address takes just its text, with the scope id after it, if there is one. -/
theorem ipv6_written {v : Env} {t pre post : List Int} {g : List (List Int)} (h : v.Ok t) (ht : t = pre ++ groupText g ++ post) (hg : ∀ x ∈ g, IsGroup x) (h8 : g.length = 8)
    (hp : ∀ c, post.head? = some c → ¬ HexChar c) (scope : Sub) (old : V6) (ho : old.comps.length = 8) :
    ∃ o j, ipv6 v (ascii16 t) (charSub t 58) (some (charSub t 37)) (some scope) pre.length old = some (true, o) ∧ o.comps.map (textAt t) = g ∧
      ScopeHere t scope (pre.length + (groupText g).length) o.scope j ∧ o.interval = some (pre.length, j) := by
  obtain ⟨cs, c1, c2⟩ := groups_at g ht hg hp
  have n : charSub t 58 pre.length = none := by
    refine colon_no (post := groupText g ++ post) (by rw [ht, List.append_assoc]) ?_
    cases g with
    | nil => cases h8
    | cons x r => rw [groupText, List.append_assoc]; exact no_colon_group (hg x (List.mem_cons_self ..))
  obtain ⟨words, iv, j, s, e⟩ := (ipv6_spec h (ascii16_takes t) (colon_takes t) (some (charSub t 37)) (some scope) (i := pre.length) (by rw [ht]; simp) old ho).1 cs _
    ⟨n, c1, by rw [← h8, ← c2, List.length_map]⟩
  exact ⟨_, j, e, c2, scope_here s, rfl⟩

/-- **C165** (IPv6 with `::`) An address with fewer groups, and `::` in place of those that are zero, is found in the same way where neither a digit nor a colon follows; the components that are
not written are empty. -/
theorem ipv6_written_short {v : Env} {t pre post : List Int} {l r : List (List Int)} (h : v.Ok t) (ht : t = pre ++ (groupText l ++ 58 :: 58 :: groupText r) ++ post) (hl : ∀ x ∈ l, IsGroup x)
    (hr : ∀ x ∈ r, IsGroup x) (h8 : l.length + r.length < 8) (hp : AfterIp post) (scope : Sub) (old : V6) (ho : old.comps.length = 8) :
    ∃ o j, ipv6 v (ascii16 t) (charSub t 58) (some (charSub t 37)) (some scope) pre.length old = some (true, o) ∧
      o.comps.map (textAt t) = l ++ List.replicate (8 - l.length - r.length) [] ++ r ∧
      ScopeHere t scope (pre.length + (groupText l ++ 58 :: 58 :: groupText r).length) o.scope j ∧ o.interval = some (pre.length, j) := by
  have hp1 : ∀ c, post.head? = some c → ¬ HexChar c := fun c hc => (hp c hc).1
  have hp2 : post.head? ≠ some 58 := fun q => (hp 58 q).2 rfl
  obtain ⟨cl, l1, l2⟩ := groups_at l (t := t) (pre := pre) (post := 58 :: 58 :: groupText r ++ post) (by rw [ht]; simp) hl colon_not_hex
  obtain ⟨cr, r1, r2⟩ := groups_at r (t := t) (pre := pre ++ groupText l ++ [58, 58]) (post := post) (by rw [ht]; simp) hr hp1
  have len : (pre ++ groupText l ++ [58, 58]).length = pre.length + (groupText l).length + 1 + 1 := by simp; omega
  have L : pre.length + (groupText l ++ 58 :: 58 :: groupText r).length = pre.length + (groupText l).length + 1 + 1 + (groupText r).length := by simp; omega
  have s1 := colon_at (t := t) (pre := pre ++ groupText l) (post := 58 :: groupText r ++ post) (by rw [ht]; simp)
  have s2 := colon_at (t := t) (pre := pre ++ groupText l ++ [58]) (post := groupText r ++ post) (by rw [ht]; simp)
  have en := colon_no (t := t) (pre := pre ++ groupText l ++ [58, 58] ++ groupText r) (post := post) (by rw [ht]; simp) hp2
  have nh := fun x (e : r = []) => hex_no (t := t) (pre := pre ++ groupText l ++ [58, 58]) (post := post) (by rw [ht, e]; simp [groupText]) hp1 x
  rw [len] at r1 nh
  rw [List.length_append, len] at en
  rw [List.length_append] at s1
  rw [List.length_append, List.length_append, List.length_singleton] at s2
  have n1 : cl.length = l.length := by rw [← l2, List.length_map]
  have n2 : cr.length = r.length := by rw [← r2, List.length_map]
  have C : CompactAt t.length (ascii16 t) (charSub t 58) pre.length
      (cl ++ List.replicate (8 - cl.length - cr.length) (pre.length + (groupText l).length + 1, pre.length + (groupText l).length + 1) ++ cr)
      (pre.length + (groupText l ++ 58 :: 58 :: groupText r).length) (pre.length + (groupText l ++ 58 :: 58 :: groupText r).length) := by
    rw [L]
    refine ⟨cl, cr, _, _, _, fun ne => ?_, l1, s1, s2, r1, fun e x => ?_, by omega, by omega, fun _ _ s q => ?_, rfl, fun _ => rfl, fun _ _ q w => ?_⟩
    · refine colon_no (post := groupText l ++ (58 :: 58 :: groupText r ++ post)) (by rw [ht]; simp) ?_
      cases l with
      | nil => exact absurd (List.map_eq_nil_iff.1 l2) ne
      | cons x l' => rw [groupText, List.append_assoc]; exact no_colon_group (hl x (List.mem_cons_self ..))
    · exact nh x (by rw [← r2, e]; rfl)
    · rw [en] at q; cases q
    · rw [en] at w; cases w
  obtain ⟨words, iv, j, s, e⟩ := (ipv6_spec h (ascii16_takes t) (colon_takes t) (some (charSub t 37)) (some scope) (i := pre.length) (by rw [ht]; simp) old ho).2.1 _ _ _ C
  refine ⟨_, j, e, ?_, scope_here s, rfl⟩
  dsimp only
  rw [List.map_append, List.map_append, l2, r2, List.map_replicate, n1, n2]
  congr 3
  unfold textAt
  simp

/-! ### Examples -/

/-- `[fe80::1%eth0]` -/
example : asc "[fe80::1%eth0]" = asc "[" ++ (groupText [asc "fe80"] ++ 58 :: 58 :: groupText [asc "1"]) ++ asc "%eth0]" ∧ (∀ x ∈ [asc "fe80"], IsGroup x) ∧ AfterIp (asc "%eth0]") := by
  refine ⟨by decide +kernel, ?_, ?_⟩
  · intro x hx
    rw [List.mem_singleton.1 hx]
    refine ⟨by decide +kernel, by decide +kernel, ?_⟩
    unfold HexChar
    decide +kernel
  · intro c hc
    have : c = 37 := by simpa [asc] using hc.symm
    subst this
    unfold HexChar
    decide

/-- `at 10.0.0.1, port 80` -/
example : asc "at 10.0.0.1, port 80" = asc "at " ++ dotted 10 0 0 1 ++ asc ", port 80" := by decide +kernel

end Verif.Parser
