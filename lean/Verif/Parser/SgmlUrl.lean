import Verif.Parser.SgmlTree
/-
The characters of SGML addresses (include/stdex/parser.hpp 2480-2549, 2830-2869, 3010-3053, 3112-3155, 3218-3265), and numbers, names, paths, URLs and e-mail addresses in SGML text. As in Parser/Sgml,
wide characters are of 32 bits, and a wide string that `next_sgml_cp` returns is the list of its characters, without the terminator.
-/
namespace Verif.Parser
open Verif.Interval Verif.Str Verif.Sgml

/-! ### Characters -/

/-- `basic_ipv6_scope_id_char::do_match` 2495-2498 -/
def scopeChar (alnum : Int → Bool) (c : Int) : Bool := c == 45 || c == 95 || c == 58 || alnum c

/-- `(chr[0] == … || …) && chr[1] == 0` -/
def oneOf (l : List Int) (u : List Int) : Bool :=
  match u with
  | [c] => l.contains c
  | _ => false

/-- `… || scan_not(alnum, chr, chr_end) == chr_end`, of 2537-2540, 3027-3043, 3129-3146, 3235-3256 -/
def specialOrAlnum (v : Env) (alnum : Int → Bool) (special : List Int) : Leaf := onCp v fun u => flip false (some (oneOf special u || u.all alnum))

/-- `sgml_ipv6_scope_id_char::do_match` 2526-2548 -/
def sgmlScopeChar (v : Env) (alnum : Int → Bool) : Leaf := specialOrAlnum v alnum [45, 95, 58]

/-- `sgml_url_username_char::do_match` 3016-3052 -/
def sgmlUserChar (v : Env) (alnum : Int → Bool) : Leaf := specialOrAlnum v alnum [45, 46, 95, 126, 37, 33, 36, 38, 39, 42, 43, 44, 59, 61]

/-- `sgml_url_password_char::do_match` 3118-3154 -/
def sgmlPassChar (v : Env) (alnum : Int → Bool) : Leaf := specialOrAlnum v alnum [45, 46, 95, 126, 37, 33, 36, 38, 39, 40, 41, 42, 43, 44, 59, 61, 58]

/-- `sgml_url_path_char::do_match` 3224-3264 -/
def sgmlPathChar (v : Env) (alnum : Int → Bool) : Leaf := specialOrAlnum v alnum [47, 45, 46, 95, 126, 37, 33, 36, 38, 39, 40, 41, 42, 43, 44, 59, 61, 58, 64, 63, 35]

/-- `sgml_dns_domain_char::do_match` 2840-2868: the end of the match and `allow_on_edge` -/
def sgmlDnsChar (v : Env) (idn : Bool) (alnum : Int → Bool) (i : Nat) : Option (Option (Nat × Bool)) :=
  match Str.cond v.s v.fin i with
  | none => none
  | some none => some none
  | some (some _) =>
    match nextCp v i with
    | none => none
    | some (u, j) =>
      if (match u with | [c] => decide ((65 ≤ c ∧ c ≤ 90) ∨ (97 ≤ c ∧ c ≤ 122) ∨ (48 ≤ c ∧ c ≤ 57)) | _ => false) then some (some (j, true))
      else if (match u with | [c] => decide (c = 45) | _ => false) then some (some (j, false))
      else if idn && u.all alnum then some (some (j, true))
      else some none

/-- The end of the match of an element. -/
def ends (m : Leaf) : Sub := fun i => ((m i).join).map Prod.fst

/-! ### What they match -/

theorem special_spec {v : Env} {wd : Wide} {t : List Int} (h : v.Ok t) (hw : WOk v wd) (hl : t.length < 2 ^ 64) (alnum : Int → Bool) (l : List Int) :
    Piecewise v.space t (specialOrAlnum v alnum l) fun u => oneOf l u || u.all alnum := by
  have := piecewise_of h hw hl false (fun u => some (oneOf l u || u.all alnum)) (fun u => oneOf l u || u.all alnum) (fun _ _ => rfl)
  simp only [Bool.xor_false] at this
  exact this

/-- **C144** (characters) A piece is a character of a scope, of a user name, of a password or of a path, if it is one character that is one in a plain text, or if it is alphanumeric throughout (which
nothing is as well: `&#0;` passes). -/
theorem sgml_url_chars {v : Env} {wd : Wide} {t : List Int} (h : v.Ok t) (hw : WOk v wd) (hl : t.length < 2 ^ 64) (alnum : Int → Bool) :
    Piecewise v.space t (sgmlScopeChar v alnum) (fun u => match u with | [c] => scopeChar alnum c | _ => u.all alnum) ∧
    Piecewise v.space t (sgmlUserChar v alnum) (fun u => match u with | [c] => urlUserChar alnum c | _ => u.all alnum) ∧
    Piecewise v.space t (sgmlPassChar v alnum) (fun u => match u with | [c] => urlPassChar alnum c | _ => u.all alnum) ∧
    Piecewise v.space t (sgmlPathChar v alnum) (fun u => match u with | [c] => urlPathChar alnum c | _ => u.all alnum) := by
  have key : ∀ (l : List Int) (p : Int → Bool), (∀ c, p c = (l.contains c || alnum c)) → Piecewise v.space t (specialOrAlnum v alnum l) (fun u => match u with | [c] => p c | _ => u.all alnum) := by
    intro l p hp
    have e : (fun u : List Int => match u with | [c] => p c | _ => u.all alnum) = fun u => oneOf l u || u.all alnum := by
      funext u
      cases u with
      | nil => rfl
      | cons c u =>
        cases u with
        | nil => show p c = (l.contains c || (alnum c && true)); rw [hp, Bool.and_true]
        | cons d u => rfl
    rw [e]
    exact special_spec h hw hl alnum l
  refine ⟨key _ _ fun c => ?_, key _ _ fun c => ?_, key _ _ fun c => ?_, key _ _ fun c => ?_⟩
  · simp only [scopeChar, List.contains_cons, List.contains_nil, Bool.or_false, Bool.or_assoc]
  · simp only [urlUserChar, List.contains_cons, List.contains_nil, Bool.or_false, Bool.or_assoc]
  · simp only [urlPassChar, List.contains_cons, List.contains_nil, Bool.or_false, Bool.or_assoc]
  · simp only [urlPathChar, List.contains_cons, List.contains_nil, Bool.or_false, Bool.or_assoc]

/-- **C144** (DNS characters) -/
theorem sgmlDnsChar_spec {v : Env} {wd : Wide} {t : List Int} (h : v.Ok t) (hw : WOk v wd) (hl : t.length < 2 ^ 64) (idn : Bool) (alnum : Int → Bool) {i : Nat} (hi : i ≤ t.length) :
    sgmlDnsChar v idn alnum i = some (match pieceAt v.space t i with
      | none => none
      | some (u, j) => match u with
        | [c] => if edgeChar idn alnum c then some (j, true) else if c = 45 then some (j, false) else none
        | _ => if idn && u.all alnum then some (j, true) else none) := by
  unfold sgmlDnsChar
  have hi' := hi
  rw [h.text] at hi'
  rw [cond_eq h.valid hi', ← h.text]
  by_cases c : i < t.length
  rotate_left
  · have : pieceAt v.space t i = none := by unfold pieceAt; rw [List.getElem?_eq_none (by omega)]; rfl
    rw [List.getElem?_eq_none (by omega), this]
  rw [List.getElem?_eq_getElem c]
  dsimp only
  rw [nextCp_spec h hw hl c]
  cases hq : pieceAt v.space t i with
  | none => unfold pieceAt at hq; rw [List.getElem?_eq_getElem c] at hq; cases hq
  | some x =>
    obtain ⟨u, j⟩ := x
    dsimp only
    cases u with
    | nil => simp; split <;> rfl
    | cons a u =>
      cases u with
      | cons b u => simp only [Bool.false_eq_true, if_false]; split <;> rfl
      | nil =>
        dsimp only
        unfold edgeChar
        by_cases c1 : (65 ≤ a ∧ a ≤ 90) ∨ (97 ≤ a ∧ a ≤ 122) ∨ (48 ≤ a ∧ a ≤ 57)
        · simp only [c1, decide_true, if_true, Bool.true_or]
        · simp only [c1, decide_false, Bool.false_or, Bool.false_eq_true, if_false]
          by_cases c2 : a = 45
          · subst c2; simp
          · have : (a != 45) = true := by simpa using c2
            simp only [c2, decide_false, Bool.false_eq_true, if_false, List.all_cons, List.all_nil, Bool.and_true, this, Bool.true_and]
            split <;> rfl

/-! ### Numbers -/

theorem ends_mirrors {f : Nat → Nat} {n : Nat} {m' m : Leaf} (h : LeafMirrors f n m' m) : Mirrors f n (ends m') (ends m) := by
  intro k hk
  have ⟨a, b⟩ := h k hk
  unfold ends
  rw [a]
  cases q : m k with
  | none => exact ⟨rfl, fun j x => by cases x⟩
  | some r =>
    cases r with
    | none => exact ⟨rfl, fun j x => by cases x⟩
    | some p => exact ⟨rfl, fun j x => by cases x; exact (b p.1 p.2 q).2⟩

/-- Elements one by one. -/
inductive AllMirror (f : Nat → Nat) (n : Nat) : List Sub → List Sub → Prop
  | nil : AllMirror f n [] []
  | cons {a' a : Sub} {l' l : List Sub} : Mirrors f n a' a → AllMirror f n l' l → AllMirror f n (a' :: l') (a :: l)

theorem firstOf_mirrors {f : Nat → Nat} {n : Nat} {l' l : List Sub} (h : AllMirror f n l' l) : ∀ (x k : Nat), k ≤ n →
    firstOf l' x (f k) = (firstOf l x k).map (fun p => (p.1, f p.2)) ∧ ∀ p, firstOf l x k = some p → p.2 ≤ n := by
  induction h with
  | nil => intro x k _; exact ⟨rfl, fun p q => by cases q⟩
  | cons h _ ih =>
    intro x k hk
    have ⟨a, b⟩ := h k hk
    simp only [firstOf]
    rw [a]
    rename_i a0 _ _ _
    cases q : a0 k with
    | none => exact ih (x + 1) k hk
    | some j => exact ⟨rfl, fun p e => by cases e; exact b j q⟩

/-- The digits move on. -/
def Onward (n : Nat) (ds : List Sub) : Prop := ∀ d ∈ ds, Takes n d

theorem firstOf_onward {n : Nat} : ∀ {ds : List Sub}, Onward n ds → ∀ {x k : Nat} {p : Nat × Nat}, k ≤ n → firstOf ds x k = some p → k < p.2 ∧ p.2 ≤ n := by
  intro ds
  induction ds with
  | nil => intro _ x k p _ q; cases q
  | cons d ds ih =>
    intro h x k p hk q
    simp only [firstOf] at q
    split at q
    · rename_i e he; cases q; exact h d List.mem_cons_self k hk e he
    · exact ih (fun d hd => h d (List.mem_cons_of_mem _ hd)) hk q

theorem intLoop_mirrors {v u : Env} {t w : List Int} {f : Nat → Nat} (hf : Along v t u w f) (b : Nat) {ds' ds : List Sub} (h : AllMirror f w.length ds' ds) (ho : Onward w.length ds) :
    ∀ (d fuel' fuel k x : Nat), w.length - k = d → k ≤ w.length → t.length - f k < fuel' → w.length - k < fuel →
      ∃ e y, intLoop u b ds fuel k x = some (e, y) ∧ intLoop v b ds' fuel' (f k) x = some (f e, y) ∧ k ≤ e ∧ e ≤ w.length := by
  intro d
  induction d using Nat.strongRecOn with
  | _ d ih =>
    intro fuel' fuel k x hd hk hl' hl
    cases fuel' with
    | zero => omega
    | succ fuel' =>
    cases fuel with
    | zero => omega
    | succ fuel =>
      rcases along_cond hf hk with ⟨lt, ⟨c', e'⟩, ⟨c, e⟩⟩ | ⟨eq, e', e⟩
      · have ⟨a, _⟩ := firstOf_mirrors h 0 k hk
        simp only [intLoop, e, e', a]
        cases q : firstOf ds 0 k with
        | none => exact ⟨k, x, rfl, rfl, Nat.le_refl _, hk⟩
        | some p =>
          have l := firstOf_onward ho hk q
          have m := along_lt hf l.1 l.2
          have tl := along_le hf l.2
          obtain ⟨e2, y, r1, r2, r3, r4⟩ := ih (w.length - p.2) (by omega) fuel' fuel p.2 ((x * b + p.1) % 2 ^ 64) rfl l.2 (by omega) (by omega)
          exact ⟨e2, y, r1, r2, by omega, r4⟩
      · simp only [intLoop, e, e']
        exact ⟨k, x, rfl, rfl, Nat.le_refl _, hk⟩

theorem along_len {v u : Env} {t w : List Int} {f : Nat → Nat} (hf : Along v t u w f) : t.length ≤ v.s.length ∧ w.length ≤ u.s.length :=
  ⟨by rw [hf.src.text]; exact text_length_le _ _, by rw [hf.dst.text]; exact text_length_le _ _⟩

/-- **C144** (integers) `sgml_integer10` and `sgml_integer16` find the number of the decoded text. -/
theorem integer_mirrors {v u : Env} {t w : List Int} {f : Nat → Nat} (hf : Along v t u w f) (b : Nat) {ds' ds : List Sub} (h : AllMirror f w.length ds' ds) (ho : Onward w.length ds) {k : Nat} (hk : k ≤ w.length) :
    ∃ r, integer u b ds k = some r ∧ integer v b ds' (f k) = some (r.map fun p => (f p.1, p.2)) := by
  have ⟨l1, l2⟩ := along_len hf
  obtain ⟨e, y, a, a', l, l'⟩ := intLoop_mirrors hf b h ho _ (v.s.length + 2) (u.s.length + 2) k 0 rfl hk (by omega) (by omega)
  unfold integer
  rw [a, a']
  dsimp only
  by_cases q : k < e
  · rw [if_pos q, if_pos (along_lt hf q l')]; exact ⟨_, rfl, rfl⟩
  · have : k = e := by omega
    subst this
    rw [if_neg q, if_neg (by omega)]; exact ⟨_, rfl, rfl⟩

/-! ### Names -/

/-- The elements of a DNS name. -/
structure DnsMirrors (f : Nat → Nat) (n : Nat) (c' c : DnsParts) : Prop where
  absolute : c'.absolute = c.absolute
  chr : ∀ k ≤ n, c'.chr (f k) = (c.chr k).map (fun p => (f p.1, p.2)) ∧ ∀ p, c.chr k = some p → k < p.1 ∧ p.1 ≤ n
  sep : Mirrors f n c'.sep c.sep

theorem dnsLabel_mirrors {v u : Env} {t w : List Int} {f : Nat → Nat} (hf : Along v t u w f) {c' c : DnsParts} (h : DnsMirrors f w.length c' c) :
    ∀ (d fuel' fuel k e : Nat) (edge : Bool), w.length - k = d → k ≤ w.length → e ≤ w.length → t.length - f k < fuel' → w.length - k < fuel →
      ∃ x i y, dnsLabel u c fuel k e edge = some (x, i, y) ∧ dnsLabel v c' fuel' (f k) (f e) edge = some (x, f i, f y) ∧ i ≤ w.length ∧ y ≤ w.length := by
  intro d
  induction d using Nat.strongRecOn with
  | _ d ih =>
    intro fuel' fuel k e edge hd hk he hl' hl
    cases fuel' with
    | zero => omega
    | succ fuel' =>
    cases fuel with
    | zero => omega
    | succ fuel =>
      rcases along_cond hf hk with ⟨lt, ⟨_, e1⟩, ⟨_, e2⟩⟩ | ⟨eq, e1, e2⟩
      · simp only [dnsLabel, e1, e2, h.absolute]
        have ⟨s1, s2⟩ := h.sep k hk
        have ⟨p1, p2⟩ := h.chr k hk
        have go : ∃ x i y, (match c.chr k with
            | some (j, edge') => dnsLabel u c fuel j (if edge' = true then j else e) edge'
            | none => some (true, k, e)) = some (x, i, y) ∧ (match c'.chr (f k) with
            | some (j, edge') => dnsLabel v c' fuel' j (if edge' = true then j else f e) edge'
            | none => some (true, f k, f e)) = some (x, f i, f y) ∧ i ≤ w.length ∧ y ≤ w.length := by
          rw [p1]
          cases q : c.chr k with
          | none => exact ⟨true, k, e, rfl, rfl, hk, he⟩
          | some p =>
            obtain ⟨j, ed⟩ := p
            have l := p2 _ q
            have m := along_lt hf l.1 l.2
            have tl := along_le hf l.2
            have := ih (w.length - j) (by simp only at l; omega) fuel' fuel j (if ed = true then j else e) ed rfl l.2 (by split; exact l.2; exact he) (by simp only at m tl; omega) (by simp only at l; omega)
            cases ed <;> exact this
        cases edge with
        | false => exact go
        | true =>
          simp only [if_true]
          rw [s1]
          cases q : c.sep k with
          | none => exact go
          | some s =>
            have ls := s2 s q
            cases ab : c.absolute with
            | true => exact ⟨false, s, s, rfl, rfl, ls, ls⟩
            | false => exact ⟨false, s, k, rfl, rfl, ls, hk⟩
      · simp only [dnsLabel, e1, e2]
        exact ⟨false, k, e, rfl, rfl, hk, he⟩

/-- An interval. -/
def ivf (f : Nat → Nat) (iv : Iv) : Iv := iv.map fun p => (f p.1, f p.2)

theorem dnsLoop_mirrors {v u : Env} {t w : List Int} {f : Nat → Nat} (hf : Along v t u w f) {c' c : DnsParts} (h : DnsMirrors f w.length c' c) (start : Nat) :
    ∀ (left count k e : Nat), k ≤ w.length → e ≤ w.length → ∃ r, dnsLoop u c start left count k e = some r ∧ dnsLoop v c' (f start) left count (f k) (f e) = some (ivf f r) ∧
      ∀ p, r = some p → p.2 ≤ w.length := by
  have ⟨l1, l2⟩ := along_len hf
  have stop : ∀ count e, e ≤ w.length → ∃ r : Iv, some (if count = 0 then none else some (start, e)) = some r ∧
      some (if count = 0 then none else some (f start, f e)) = some (ivf f r) ∧ ∀ p, r = some p → p.2 ≤ w.length := by
    intro count e he
    by_cases q : count = 0
    · rw [if_pos q, if_pos q]; exact ⟨none, rfl, rfl, fun p x => by cases x⟩
    · rw [if_neg q, if_neg q]; exact ⟨some (start, e), rfl, rfl, fun p x => by cases x; exact he⟩
  intro left
  induction left with
  | zero =>
    intro count k e hk he
    rcases along_cond hf hk with ⟨lt, ⟨_, e1⟩, ⟨_, e2⟩⟩ | ⟨eq, e1, e2⟩ <;> simp only [dnsLoop, e1, e2] <;> exact stop count e he
  | succ left ih =>
    intro count k e hk he
    rcases along_cond hf hk with ⟨lt, ⟨_, e1⟩, ⟨_, e2⟩⟩ | ⟨eq, e1, e2⟩
    rotate_left
    · simp only [dnsLoop, e1, e2]; exact stop count e he
    simp only [dnsLoop, e1, e2]
    have ⟨p1, p2⟩ := h.chr k hk
    rw [p1]
    cases q : c.chr k with
    | none => exact stop count e he
    | some p =>
      obtain ⟨j, ed⟩ := p
      have l := p2 _ q
      cases ed with
      | false => exact stop count e he
      | true =>
        obtain ⟨x, i, y, a1, a2, a3, a4⟩ := dnsLabel_mirrors hf h _ (v.s.length + 2) (u.s.length + 2) j j true rfl l.2 l.2 (by omega) (by omega)
        simp only [Option.map_some, a1, a2]
        cases x with
        | true => exact ⟨_, rfl, rfl, fun p x => by cases x; exact a4⟩
        | false => exact ih (count + 1) i y a3 a4

/-- **C144** (names) `sgml_dns_name` finds the name of the decoded text. -/
theorem dnsName_mirrors {v u : Env} {t w : List Int} {f : Nat → Nat} (hf : Along v t u w f) {c' c : DnsParts} (h : DnsMirrors f w.length c' c) {k : Nat} (hk : k ≤ w.length) :
    ∃ r, dnsName u c k = some r ∧ dnsName v c' (f k) = some (ivf f r) ∧ ∀ p, r = some p → p.2 ≤ w.length :=
  dnsLoop_mirrors hf h k 127 0 k k hk hk

/-! ### Paths -/

structure PathMirrors (f : Nat → Nat) (n : Nat) (c' c : PathParts) : Prop where
  chr : Mirrors f n c'.chr c.chr
  on : Takes n c.chr
  query : Mirrors f n c'.query c.query
  mark : Mirrors f n c'.mark c.mark

/-- What has stopped a run. -/
def stopf (f : Nat → Nat) (r : Option (Bool × Nat)) : Option (Bool × Nat) := r.map fun p => (p.1, f p.2)

/-- The stops of two runs. -/
def StopMirrors (f : Nat → Nat) (n : Nat) (s' s : Nat → Option (Bool × Nat)) : Prop := ∀ k ≤ n, s' (f k) = stopf f (s k) ∧ ∀ p, s k = some p → p.2 ≤ n

theorem pathRun_mirrors {v u : Env} {t w : List Int} {f : Nat → Nat} (hf : Along v t u w f) {a' a : Sub} (h : Mirrors f w.length a' a) (ho : Takes w.length a) {s' s : Nat → Option (Bool × Nat)}
    (hs : StopMirrors f w.length s' s) : ∀ (d fuel' fuel k : Nat), w.length - k = d → k ≤ w.length → t.length - f k < fuel' → w.length - k < fuel →
      ∃ e r, pathRun u a s fuel k = some (e, r) ∧ pathRun v a' s' fuel' (f k) = some (f e, stopf f r) ∧ k ≤ e ∧ e ≤ w.length ∧ ∀ p, r = some p → p.2 ≤ w.length := by
  intro d
  induction d using Nat.strongRecOn with
  | _ d ih =>
    intro fuel' fuel k hd hk hl' hl
    cases fuel' with
    | zero => omega
    | succ fuel' =>
    cases fuel with
    | zero => omega
    | succ fuel =>
      rcases along_cond hf hk with ⟨lt, ⟨_, e1⟩, ⟨_, e2⟩⟩ | ⟨eq, e1, e2⟩
      · have ⟨s1, s2⟩ := hs k hk
        have ⟨p1, p2⟩ := h k hk
        simp only [pathRun, e1, e2, s1, p1]
        cases q : s k with
        | some p => exact ⟨k, some p, rfl, rfl, Nat.le_refl _, hk, fun p' x => by cases x; exact s2 p q⟩
        | none =>
          cases q2 : a k with
          | none => exact ⟨k, none, rfl, rfl, Nat.le_refl _, hk, fun p x => by cases x⟩
          | some j =>
            have l := ho k hk j q2
            have m := along_lt hf l.1 l.2
            have tl := along_le hf l.2
            obtain ⟨e, r, r1, r2, r3, r4⟩ := ih (w.length - j) (by omega) fuel' fuel j rfl l.2 (by omega) (by omega)
            exact ⟨e, r, r1, r2, by omega, r4⟩
      · simp only [pathRun, e1, e2]
        exact ⟨k, none, rfl, rfl, Nat.le_refl _, hk, fun p x => by cases x⟩

/-- The parts of a path, elsewhere. -/
def pathf (f : Nat → Nat) (p : Path) : Path := ⟨ivf f p.path, ivf f p.query, ivf f p.mark, ivf f p.interval⟩

/-- **C144** (paths) `sgml_url_path` finds the path of the decoded text and its parts. -/
theorem urlPath_mirrors {v u : Env} {t w : List Int} {f : Nat → Nat} (hf : Along v t u w f) {c' c : PathParts} (h : PathMirrors f w.length c' c) {k : Nat} (hk : k ≤ w.length) :
    ∃ b p, urlPath u c k = some (b, p) ∧ urlPath v c' (f k) = some (b, pathf f p) ∧ ∀ x, p.interval = some x → x.2 ≤ w.length := by
  have ⟨l1, l2⟩ := along_len hf
  have hm : StopMirrors f w.length (fun e => (c'.mark e).map fun b => (false, b)) (fun e => (c.mark e).map fun b => (false, b)) := by
    intro k hk
    have ⟨a, b⟩ := h.mark k hk
    dsimp only
    rw [a]
    cases q : c.mark k with
    | none => exact ⟨rfl, fun p x => by cases x⟩
    | some j => exact ⟨rfl, fun p x => by cases x; exact b j q⟩
  have hq : StopMirrors f w.length (queryOrMark c') (queryOrMark c) := by
    intro k hk
    have ⟨a, b⟩ := h.query k hk
    unfold queryOrMark
    rw [a]
    cases q : c.query k with
    | none => exact hm k hk
    | some j => exact ⟨rfl, fun p x => by cases x; exact b j q⟩
  have hn : StopMirrors f w.length (fun _ => none) (fun _ => none) := fun _ _ => ⟨rfl, fun p x => by cases x⟩
  have run : ∀ {s' s}, StopMirrors f w.length s' s → ∀ k ≤ w.length, _ := fun hs k hk => pathRun_mirrors hf h.chr h.on hs _ (v.s.length + 2) (u.s.length + 2) k rfl hk (by omega) (by omega)
  unfold urlPath
  obtain ⟨e, r, a, a', le, lw, lr⟩ := run hq k hk
  rw [a, a']
  cases r with
  | none =>
    show ∃ b p, some (if k < e then (true, (⟨some (k, e), none, none, some (k, e)⟩ : Path)) else (false, ⟨none, none, none, none⟩)) = some (b, p) ∧
      some (if f k < f e then (true, (⟨some (f k, f e), none, none, some (f k, f e)⟩ : Path)) else (false, ⟨none, none, none, none⟩)) = some (b, pathf f p) ∧ _
    by_cases q : k < e
    · rw [if_pos q, if_pos (along_lt hf q lw)]; exact ⟨_, _, rfl, rfl, fun x e => by cases e; exact lw⟩
    · have : k = e := by omega
      subst this
      rw [if_neg q, if_neg (by omega)]; exact ⟨_, _, rfl, rfl, fun x e => by cases e⟩
  | some p =>
    obtain ⟨x, i⟩ := p
    have li := lr _ rfl
    cases x with
    | true =>
      obtain ⟨e2, r2, b, b', le2, lw2, lr2⟩ := run hm i li
      dsimp only [stopf, Option.map_some]
      rw [b, b']
      cases r2 with
      | none => exact ⟨_, _, rfl, rfl, fun x e => by cases e; exact lw2⟩
      | some p2 =>
        obtain ⟨x2, i2⟩ := p2
        obtain ⟨e3, r3, d, d', le3, lw3, lr3⟩ := run hn i2 (lr2 _ rfl)
        dsimp only [stopf, Option.map_some]
        rw [d, d']
        exact ⟨_, _, rfl, rfl, fun x e => by cases e; exact lw3⟩
    | false =>
      obtain ⟨e3, r3, d, d', le3, lw3, lr3⟩ := run hn i li
      dsimp only [stopf, Option.map_some]
      rw [d, d']
      exact ⟨_, _, rfl, rfl, fun x e => by cases e; exact lw3⟩

/-! ### URLs and e-mail addresses -/

structure UrlMirrors (f : Nat → Nat) (n : Nat) (c' c : UrlParts) : Prop where
  http : Mirrors f n c'.http c.http
  ftp : Mirrors f n c'.ftp c.ftp
  mailto : Mirrors f n c'.mailto c.mailto
  file : Mirrors f n c'.file c.file
  colon : Mirrors f n c'.colon c.colon
  slash : Mirrors f n c'.slash c.slash
  username : Mirrors f n c'.username c.username
  password : Mirrors f n c'.password c.password
  at_ : Mirrors f n c'.at_ c.at_
  lbracket : Mirrors f n c'.lbracket c.lbracket
  rbracket : Mirrors f n c'.rbracket c.rbracket
  ipv4 : Mirrors f n c'.ipv4 c.ipv4
  ipv6 : Mirrors f n c'.ipv6 c.ipv6
  dns : Mirrors f n c'.dns c.dns
  port : Mirrors f n c'.port c.port
  path : Mirrors f n c'.path c.path

/-- The parts of a URL, elsewhere. -/
def urlf (f : Nat → Nat) (x : Url) : Url :=
  ⟨ivf f x.http, ivf f x.ftp, ivf f x.mailto, ivf f x.file, ivf f x.username, ivf f x.password, ivf f x.ipv4, ivf f x.ipv6, ivf f x.dns, ivf f x.port, ivf f x.path, ivf f x.interval⟩

/-- The parts of an e-mail address, elsewhere. -/
def emailf (f : Nat → Nat) (x : Email) : Email := ⟨ivf f x.username, ivf f x.ipv4, ivf f x.ipv6, ivf f x.dns, ivf f x.interval⟩

theorem slashes_mirrors {f : Nat → Nat} {n : Nat} {c' c : UrlParts} (h : UrlMirrors f n c' c) {s' s : Sub} (hs : Mirrors f n s' s) {k : Nat} (hk : k ≤ n) :
    slashes c' s' (f k) = (slashes c s k).map (fun p => (f p.1, f p.2)) ∧ ∀ p, slashes c s k = some p → p.1 ≤ n ∧ p.2 ≤ n := by
  have ⟨a1, b1⟩ := hs k hk
  unfold slashes
  rw [a1]
  cases q1 : s k with
  | none => exact ⟨rfl, fun p x => by cases x⟩
  | some a =>
    have la := b1 a q1
    have ⟨a2, b2⟩ := h.colon a la
    simp only [Option.map_some]
    rw [a2]
    cases q2 : c.colon a with
    | none => exact ⟨rfl, fun p x => by cases x⟩
    | some b =>
      have lb := b2 b q2
      have ⟨a3, b3⟩ := h.slash b lb
      simp only [Option.map_some]
      rw [a3]
      cases q3 : c.slash b with
      | none => exact ⟨rfl, fun p x => by cases x⟩
      | some d =>
        have ld := b3 d q3
        have ⟨a4, b4⟩ := h.slash d ld
        simp only [Option.map_some]
        rw [a4]
        cases q4 : c.slash d with
        | none => exact ⟨rfl, fun p x => by cases x⟩
        | some e => exact ⟨rfl, fun p x => by cases x; exact ⟨la, b4 e q4⟩⟩

theorem mailColon_mirrors {f : Nat → Nat} {n : Nat} {c' c : UrlParts} (h : UrlMirrors f n c' c) {k : Nat} (hk : k ≤ n) :
    mailColon c' (f k) = (mailColon c k).map (fun p => (f p.1, f p.2)) ∧ ∀ p, mailColon c k = some p → p.1 ≤ n ∧ p.2 ≤ n := by
  have ⟨a1, b1⟩ := h.mailto k hk
  unfold mailColon
  rw [a1]
  cases q1 : c.mailto k with
  | none => exact ⟨rfl, fun p x => by cases x⟩
  | some a =>
    have la := b1 a q1
    have ⟨a2, b2⟩ := h.colon a la
    simp only [Option.map_some]
    rw [a2]
    cases q2 : c.colon a with
    | none => exact ⟨rfl, fun p x => by cases x⟩
    | some b => exact ⟨rfl, fun p x => by cases x; exact ⟨la, b2 b q2⟩⟩

theorem passAt_mirrors {f : Nat → Nat} {n : Nat} {c' c : UrlParts} (h : UrlMirrors f n c' c) {k : Nat} (hk : k ≤ n) :
    passAt c' (f k) = (passAt c k).map (fun p => (f p.1, f p.2.1, f p.2.2)) ∧ ∀ p, passAt c k = some p → p.1 ≤ n ∧ p.2.1 ≤ n ∧ p.2.2 ≤ n := by
  have ⟨a1, b1⟩ := h.colon k hk
  unfold passAt
  rw [a1]
  cases q1 : c.colon k with
  | none => exact ⟨rfl, fun p x => by cases x⟩
  | some a =>
    have la := b1 a q1
    have ⟨a2, b2⟩ := h.password a la
    simp only [Option.map_some]
    rw [a2]
    cases q2 : c.password a with
    | none => exact ⟨rfl, fun p x => by cases x⟩
    | some b =>
      have lb := b2 b q2
      have ⟨a3, b3⟩ := h.at_ b lb
      simp only [Option.map_some]
      rw [a3]
      cases q3 : c.at_ b with
      | none => exact ⟨rfl, fun p x => by cases x⟩
      | some d => exact ⟨rfl, fun p x => by cases x; exact ⟨la, lb, b3 d q3⟩⟩

theorem userInfo_mirrors {f : Nat → Nat} {n : Nat} {c' c : UrlParts} (h : UrlMirrors f n c' c) (ftp : Bool) {k : Nat} (hk : k ≤ n) :
    ∃ a b e, userInfo c ftp k = (a, b, e) ∧ userInfo c' ftp (f k) = (ivf f a, ivf f b, f e) ∧ e ≤ n := by
  have ⟨a1, b1⟩ := h.username k hk
  unfold userInfo
  rw [a1]
  cases q1 : c.username k with
  | none => exact ⟨_, _, _, rfl, rfl, hk⟩
  | some u =>
    have lu := b1 u q1
    have ⟨a2, b2⟩ := passAt_mirrors h lu
    simp only [Option.map_some]
    rw [a2]
    cases q2 : passAt c u with
    | some p => exact ⟨_, _, _, rfl, rfl, (b2 p q2).2.2⟩
    | none =>
      simp only [Option.map_none]
      have key : ∀ y, y ≤ n → ∃ a b e, (match c.at_ y with | some e' => (some (k, u), none, e') | none => (none, none, k)) = ((a, b, e) : Iv × Iv × Nat) ∧
          (match c'.at_ (f y) with | some e' => (some (f k, f u), none, e') | none => (none, none, f k)) = ((ivf f a, ivf f b, f e) : Iv × Iv × Nat) ∧ e ≤ n := by
        intro y hy
        have ⟨a3, b3⟩ := h.at_ y hy
        rw [a3]
        cases q3 : c.at_ y with
        | none => exact ⟨_, _, _, rfl, rfl, hk⟩
        | some e => exact ⟨_, _, _, rfl, rfl, b3 e q3⟩
      cases ftp with
      | true => exact key k hk
      | false => exact key u lu

theorem bracketed_mirrors {f : Nat → Nat} {n : Nat} {c' c : UrlParts} (h : UrlMirrors f n c' c) {s' s : Sub} (hs : Mirrors f n s' s) {k : Nat} (hk : k ≤ n) :
    bracketed c' s' (f k) = (bracketed c s k).map (fun p => ((f p.1.1, f p.1.2), f p.2)) ∧ ∀ p, bracketed c s k = some p → p.2 ≤ n := by
  have ⟨a1, b1⟩ := h.lbracket k hk
  unfold bracketed
  rw [a1]
  cases q1 : c.lbracket k with
  | none => exact ⟨rfl, fun p x => by cases x⟩
  | some a =>
    have la := b1 a q1
    have ⟨a2, b2⟩ := hs a la
    simp only [Option.map_some]
    rw [a2]
    cases q2 : s a with
    | none => exact ⟨rfl, fun p x => by cases x⟩
    | some b =>
      have lb := b2 b q2
      have ⟨a3, b3⟩ := h.rbracket b lb
      simp only [Option.map_some]
      rw [a3]
      cases q3 : c.rbracket b with
      | none => exact ⟨rfl, fun p x => by cases x⟩
      | some d => exact ⟨rfl, fun p x => by cases x; exact b3 d q3⟩

/-- The host and where it ends, elsewhere. -/
def hostf (f : Nat → Nat) (x : Iv × Iv × Iv × Nat) : Iv × Iv × Iv × Nat := (ivf f x.1, ivf f x.2.1, ivf f x.2.2.1, f x.2.2.2)

theorem siteHost_mirrors {f : Nat → Nat} {n : Nat} {c' c : UrlParts} (h : UrlMirrors f n c' c) {k : Nat} (hk : k ≤ n) :
    siteHost c' (f k) = (siteHost c k).map (hostf f) ∧ ∀ p, siteHost c k = some p → p.2.2.2 ≤ n := by
  have ⟨a1, b1⟩ := h.ipv4 k hk
  unfold siteHost
  rw [a1]
  cases q1 : c.ipv4 k with
  | some j => exact ⟨rfl, fun p x => by cases x; exact b1 j q1⟩
  | none =>
    have ⟨a2, b2⟩ := bracketed_mirrors h h.ipv6 hk
    simp only [Option.map_none]
    rw [a2]
    cases q2 : bracketed c c.ipv6 k with
    | some p => exact ⟨rfl, fun p' x => by cases x; exact b2 p q2⟩
    | none =>
      have ⟨a3, b3⟩ := h.dns k hk
      simp only [Option.map_none]
      rw [a3]
      cases q3 : c.dns k with
      | none => exact ⟨rfl, fun p x => by cases x⟩
      | some j => exact ⟨rfl, fun p x => by cases x; exact b3 j q3⟩

theorem mailHost_mirrors {f : Nat → Nat} {n : Nat} {c' c : UrlParts} (h : UrlMirrors f n c' c) {k : Nat} (hk : k ≤ n) :
    mailHost c' (f k) = (mailHost c k).map (hostf f) ∧ ∀ p, mailHost c k = some p → p.2.2.2 ≤ n := by
  have ⟨a1, b1⟩ := bracketed_mirrors h h.ipv4 hk
  unfold mailHost
  rw [a1]
  cases q1 : bracketed c c.ipv4 k with
  | some j => exact ⟨rfl, fun p x => by cases x; exact b1 j q1⟩
  | none =>
    have ⟨a2, b2⟩ := bracketed_mirrors h h.ipv6 hk
    simp only [Option.map_none]
    rw [a2]
    cases q2 : bracketed c c.ipv6 k with
    | some p => exact ⟨rfl, fun p' x => by cases x; exact b2 p q2⟩
    | none =>
      have ⟨a3, b3⟩ := h.dns k hk
      simp only [Option.map_none]
      rw [a3]
      cases q3 : c.dns k with
      | none => exact ⟨rfl, fun p x => by cases x⟩
      | some j => exact ⟨rfl, fun p x => by cases x; exact b3 j q3⟩

theorem portAt_mirrors {f : Nat → Nat} {n : Nat} {c' c : UrlParts} (h : UrlMirrors f n c' c) {k : Nat} (hk : k ≤ n) :
    portAt c' (f k) = (ivf f (portAt c k).1, f (portAt c k).2) ∧ (portAt c k).2 ≤ n := by
  have ⟨a1, b1⟩ := h.colon k hk
  unfold portAt
  rw [a1]
  cases q1 : c.colon k with
  | none => exact ⟨rfl, hk⟩
  | some a =>
    have ⟨a2, b2⟩ := h.port a (b1 a q1)
    simp only [Option.map_some]
    rw [a2]
    cases q2 : c.port a with
    | none => exact ⟨rfl, hk⟩
    | some b => exact ⟨rfl, b2 b q2⟩

theorem pathAt_mirrors {f : Nat → Nat} {n : Nat} {c' c : UrlParts} (h : UrlMirrors f n c' c) {k : Nat} (hk : k ≤ n) :
    pathAt c' (f k) = (ivf f (pathAt c k).1, f (pathAt c k).2) ∧ (pathAt c k).2 ≤ n := by
  have ⟨a1, b1⟩ := h.path k hk
  unfold pathAt
  rw [a1]
  cases q1 : c.path k with
  | none => exact ⟨rfl, hk⟩
  | some a => exact ⟨rfl, b1 a q1⟩

theorem site_mirrors {f : Nat → Nat} {n : Nat} {c' c : UrlParts} (h : UrlMirrors f n c' c) (i : Nat) (http ftp user pass : Iv) {k : Nat} (hk : k ≤ n) :
    ∃ b x, site c i http ftp user pass k = (b, x) ∧ site c' (f i) (ivf f http) (ivf f ftp) (ivf f user) (ivf f pass) (f k) = (b, urlf f x) := by
  have ⟨a1, b1⟩ := siteHost_mirrors h hk
  unfold site
  rw [a1]
  cases q : siteHost c k with
  | none => exact ⟨_, _, rfl, rfl⟩
  | some p =>
    have l := b1 p q
    obtain ⟨v4, v6, dns, e1⟩ := p
    have ⟨a2, b2⟩ := portAt_mirrors h l
    have ⟨a3, b3⟩ := pathAt_mirrors h b2
    simp only [Option.map_some, hostf]
    simp only at a2 a3
    rw [a2]
    simp only
    rw [a3]
    exact ⟨_, _, rfl, rfl⟩

/-- **C144** (URLs) `sgml_url` finds the URL of the decoded text with all its parts, or fails as it does there. -/
theorem url_mirrors {f : Nat → Nat} {n : Nat} {c' c : UrlParts} (h : UrlMirrors f n c' c) {k : Nat} (hk : k ≤ n) : url c' (f k) = ((url c k).1, urlf f (url c k).2) := by
  have fin : ∀ {a : Bool × Url} {b : Bool × Url}, (∃ x y, a = (x, y) ∧ b = (x, urlf f y)) → b = (a.1, urlf f a.2) := by
    rintro a b ⟨x, y, rfl, rfl⟩; rfl
  have ⟨a1, b1⟩ := slashes_mirrors h h.http hk
  unfold url
  rw [a1]
  cases q1 : slashes c c.http k with
  | some p =>
    have l := b1 p q1
    obtain ⟨a, b, e, u1, u2, u3⟩ := userInfo_mirrors h false l.2
    simp only [Option.map_some]
    rw [u1, u2]
    exact fin (site_mirrors h k (some (k, p.1)) none a b u3)
  | none =>
    simp only [Option.map_none]
    have ⟨a2, b2⟩ := slashes_mirrors h h.ftp hk
    rw [a2]
    cases q2 : slashes c c.ftp k with
    | some p =>
      have l := b2 p q2
      obtain ⟨a, b, e, u1, u2, u3⟩ := userInfo_mirrors h true l.2
      simp only [Option.map_some]
      rw [u1, u2]
      exact fin (site_mirrors h k none (some (k, p.1)) a b u3)
    | none =>
      simp only [Option.map_none]
      have ⟨a3, b3⟩ := mailColon_mirrors h hk
      rw [a3]
      cases q3 : mailColon c k with
      | some p =>
        have l := (b3 p q3).2
        simp only [Option.map_some]
        have ⟨a4, b4⟩ := h.username p.2 l
        rw [a4]
        cases q4 : c.username p.2 with
        | none => rfl
        | some u =>
          have ⟨a5, b5⟩ := h.at_ u (b4 u q4)
          simp only [Option.map_some]
          rw [a5]
          cases q5 : c.at_ u with
          | none => rfl
          | some e =>
            have ⟨a6, b6⟩ := mailHost_mirrors h (b5 e q5)
            simp only [Option.map_some]
            rw [a6]
            cases q6 : mailHost c e with
            | none => rfl
            | some x => rfl
      | none =>
        simp only [Option.map_none]
        have ⟨a4, b4⟩ := slashes_mirrors h h.file hk
        rw [a4]
        cases q4 : slashes c c.file k with
        | some p =>
          simp only [Option.map_some]
          have ⟨a5, _⟩ := pathAt_mirrors h (b4 p q4).2
          rw [a5]
          rfl
        | none => exact fin (site_mirrors h k none none none none hk)

/-- **C144** (e-mail) `sgml_email_address` finds the address of the decoded text with all its parts, or fails as it does there. -/
theorem email_mirrors {f : Nat → Nat} {n : Nat} {c' c : UrlParts} (h : UrlMirrors f n c' c) {k : Nat} (hk : k ≤ n) : email c' (f k) = ((email c k).1, emailf f (email c k).2) := by
  have ⟨a1, b1⟩ := h.username k hk
  unfold email
  rw [a1]
  cases q1 : c.username k with
  | none => rfl
  | some u =>
    have ⟨a2, b2⟩ := h.at_ u (b1 u q1)
    simp only [Option.map_some]
    rw [a2]
    cases q2 : c.at_ u with
    | none => rfl
    | some e =>
      have ⟨a3, b3⟩ := mailHost_mirrors h (b2 e q2)
      simp only [Option.map_some]
      rw [a3]
      cases q3 : mailHost c e with
      | none => rfl
      | some x => rfl

end Verif.Parser
