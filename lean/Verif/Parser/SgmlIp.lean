import Verif.Parser.SgmlUrl
/-
IP addresses in SGML text (include/stdex/parser.hpp 2475, 2769), and all the elements of a URL together.
-/
namespace Verif.Parser
open Verif.Interval Verif.Str Verif.Sgml

theorem boundLoop_mirrors {v u : Env} {t w : List Int} {f : Nat → Nat} (hf : Along v t u w f) (b mx : Nat) {ds' ds : List Sub} (h : AllMirror f w.length ds' ds) (ho : Onward w.length ds) :
    ∀ (d fuel' fuel k x : Nat) (em : Bool), w.length - k = d → k ≤ w.length → t.length - f k < fuel' → w.length - k < fuel →
      ∃ e y z, boundLoop u b mx ds fuel k x em = some (e, y, z) ∧ boundLoop v b mx ds' fuel' (f k) x em = some (f e, y, z) ∧ k ≤ e ∧ e ≤ w.length := by
  intro d
  induction d using Nat.strongRecOn with
  | _ d ih =>
    intro fuel' fuel k x em hd hk hl' hl
    cases fuel' with
    | zero => omega
    | succ fuel' =>
    cases fuel with
    | zero => omega
    | succ fuel =>
      rcases along_cond hf hk with ⟨lt, ⟨c', e'⟩, ⟨c, e⟩⟩ | ⟨eq, e', e⟩
      · have ⟨a, _⟩ := firstOf_mirrors h 0 k hk
        simp only [boundLoop, e, e', a]
        cases q : firstOf ds 0 k with
        | none => exact ⟨k, x, em, rfl, rfl, Nat.le_refl _, hk⟩
        | some p =>
          have l := firstOf_onward ho hk q
          have m := along_lt hf l.1 l.2
          have tl := along_le hf l.2
          simp only [Option.map_some]
          by_cases g : x * b + p.1 ≤ mx
          · simp only [if_pos g]
            obtain ⟨e2, y, z, r1, r2, r3, r4⟩ := ih (w.length - p.2) (by omega) fuel' fuel p.2 (x * b + p.1) false rfl l.2 (by omega) (by omega)
            exact ⟨e2, y, z, r1, r2, by omega, r4⟩
          · simp only [if_neg g]
            exact ⟨k, x, em, rfl, rfl, Nat.le_refl _, hk⟩
      · simp only [boundLoop, e, e']
        exact ⟨k, x, em, rfl, rfl, Nat.le_refl _, hk⟩

/-- Components, elsewhere. -/
def compsf (f : Nat → Nat) (l : List (Nat × Nat)) : List (Nat × Nat) := l.map fun p => (f p.1, f p.2)

theorem v4Loop_mirrors {v u : Env} {t w : List Int} {f : Nat → Nat} (hf : Along v t u w f) {ds' ds : List Sub} (h : AllMirror f w.length ds' ds) (ho : Onward w.length ds) {sep' sep : Sub}
    (hs : Mirrors f w.length sep' sep) : ∀ (n : Nat) (first : Bool) (e : Nat) (comps : List (Nat × Nat)) (value : Nat), e ≤ w.length →
      ∃ r, v4Loop u ds sep n first e comps value = some r ∧ v4Loop v ds' sep' n first (f e) (compsf f comps) value = some (r.map fun p => (f p.1, compsf f p.2.1, p.2.2)) ∧
        ∀ p, r = some p → p.1 ≤ w.length := by
  have ⟨l1, l2⟩ := along_len hf
  intro n
  induction n with
  | zero => intro first e comps value he; exact ⟨_, rfl, rfl, fun p q => by cases q; exact he⟩
  | succ n ih =>
    intro first e comps value he
    have ⟨a, b⟩ := hs e he
    have go : ∀ e0, e0 ≤ w.length → ∃ r, (match boundLoop u 10 255 ds (u.s.length + 2) e0 0 true with
        | none => none
        | some (e1, x, empty) => if empty = true then some none else v4Loop u ds sep n false e1 (comps ++ [(e0, e1)]) ((value * 2 ^ 8) % 2 ^ 32 ||| x % 2 ^ 8)) = some r ∧
        (match boundLoop v 10 255 ds' (v.s.length + 2) (f e0) 0 true with
        | none => none
        | some (e1, x, empty) => if empty = true then some none else v4Loop v ds' sep' n false e1 (compsf f comps ++ [(f e0, e1)]) ((value * 2 ^ 8) % 2 ^ 32 ||| x % 2 ^ 8)) =
          some (r.map fun p => (f p.1, compsf f p.2.1, p.2.2)) ∧ ∀ p, r = some p → p.1 ≤ w.length := by
      intro e0 h0
      obtain ⟨e1, x, z, r1, r2, r3, r4⟩ := boundLoop_mirrors hf 10 255 h ho _ (v.s.length + 2) (u.s.length + 2) e0 0 true rfl h0 (by omega) (by omega)
      rw [r1, r2]
      cases z with
      | true => exact ⟨none, rfl, rfl, fun p q => by cases q⟩
      | false =>
        have := ih false e1 (comps ++ [(e0, e1)]) ((value * 2 ^ 8) % 2 ^ 32 ||| x % 2 ^ 8) r4
        simpa [compsf] using this
    cases first with
    | true => exact go e he
    | false =>
      simp only [v4Loop, Bool.false_eq_true, if_false]
      rw [a]
      cases q : sep e with
      | none => exact ⟨none, rfl, rfl, fun p q => by cases q⟩
      | some e0 => exact go e0 (b e0 q)

/-- What an IPv4 address parser leaves, elsewhere; after a failure the components are invalid. -/
def v4f (f : Nat → Nat) (b : Bool) (x : V4) : V4 := if b then ⟨compsf f x.comps, x.value, ivf f x.interval⟩ else v4Invalid

/-- **C144** (IPv4) `sgml_ipv4_address` finds the address of the decoded text: its components, its value. -/
theorem ipv4_mirrors {v u : Env} {t w : List Int} {f : Nat → Nat} (hf : Along v t u w f) {ds' ds : List Sub} (h : AllMirror f w.length ds' ds) (ho : Onward w.length ds) {sep' sep : Sub}
    (hs : Mirrors f w.length sep' sep) {k : Nat} (hk : k ≤ w.length) : ∃ b x, ipv4 u ds sep k = some (b, x) ∧ ipv4 v ds' sep' (f k) = some (b, v4f f b x) ∧
      (b = true → ∃ j, x.interval = some (k, j) ∧ j ≤ w.length) := by
  obtain ⟨r, a, a', l⟩ := v4Loop_mirrors hf h ho hs 4 true k [] 0 hk
  unfold ipv4
  rw [a, show ([] : List (Nat × Nat)) = compsf f [] from rfl, a']
  cases r with
  | none => exact ⟨false, _, rfl, rfl, fun q => nomatch q⟩
  | some p => exact ⟨true, _, rfl, rfl, fun _ => ⟨_, rfl, l _ rfl⟩⟩

/-- The state of the loop over groups, elsewhere. -/
def v6stf (f : Nat → Nat) (s : V6St) : V6St := ⟨s.i, f s.e, compsf f s.comps, s.compact.map fun p => (p.1, f p.2)⟩

/-- As many components as were counted, and the gap among them. -/
structure V6St.Ok (s : V6St) (n k : Nat) : Prop where
  e : s.e ≤ n
  i : s.comps.length = s.i
  k : s.i + k = 8
  gap : ∀ p, s.compact = some p → p.1 ≤ s.i

/-- When the loop has ended. -/
structure V6St.Done (s : V6St) (n : Nat) : Prop where
  e : s.e ≤ n
  i : s.comps.length = s.i
  k : s.i ≤ 8
  gap : ∀ p, s.compact = some p → p.1 ≤ s.i

theorem v6Loop_mirrors {v u : Env} {t w : List Int} {f : Nat → Nat} (hf : Along v t u w f) {ds' ds : List Sub} (h : AllMirror f w.length ds' ds) (ho : Onward w.length ds) {sep' sep : Sub}
    (hs : Mirrors f w.length sep' sep) : ∀ (n : Nat) (s : V6St), s.Ok w.length n → ∃ r, v6Loop u ds sep n s = some r ∧ v6Loop v ds' sep' n (v6stf f s) = some (r.map (v6stf f)) ∧
      ∀ p, r = some p → p.Done w.length := by
  have ⟨l1, l2⟩ := along_len hf
  intro n
  induction n with
  | zero => intro s hs; exact ⟨_, rfl, rfl, fun p q => by cases q; exact ⟨hs.e, hs.i, by have := hs.k; omega, hs.gap⟩⟩
  | succ n ih =>
    intro s ok
    have go : ∀ s : V6St, s.Ok w.length (n + 1) → ∃ r, v6GroupThen u ds (v6Loop u ds sep n) s = some r ∧ v6GroupThen v ds' (v6Loop v ds' sep' n) (v6stf f s) = some (r.map (v6stf f)) ∧
        ∀ p, r = some p → p.Done w.length := by
      intro s ok
      obtain ⟨e1, x, z, r1, r2, r3, r4⟩ := boundLoop_mirrors hf 16 0xffff h ho _ (v.s.length + 2) (u.s.length + 2) s.e 0 true rfl ok.e (by omega) (by omega)
      unfold v6GroupThen
      have r2 : boundLoop v 16 0xffff ds' (v.s.length + 2) (v6stf f s).e 0 true = some (f e1, x, z) := r2
      rw [r1, r2]
      cases z with
      | true =>
        dsimp only
        simp only [if_true]
        cases q : s.compact with
        | none => simp only [v6stf, q, Option.map_none, Option.isSome_none, Bool.false_eq_true, if_false]; exact ⟨none, rfl, rfl, fun p x => by cases x⟩
        | some c =>
          simp only [v6stf, q, Option.map_some, Option.isSome_some, if_true]
          exact ⟨_, rfl, rfl, fun p x => by cases x; exact ⟨r4, ok.i, by have := ok.k; show s.i ≤ 8; omega, fun p x => ok.gap p (by rw [q]; exact x)⟩⟩
      | false =>
        have := ih ⟨s.i + 1, e1, s.comps ++ [(s.e, e1)], s.compact⟩ ⟨r4, by simp [ok.i], by have := ok.k; show s.i + 1 + n = 8; omega, fun p x => by have := ok.gap p x; show p.1 ≤ s.i + 1; omega⟩
        simpa [v6stf, compsf] using this
    have ⟨a, b⟩ := hs s.e ok.e
    simp only [v6Loop]
    have a : sep' (v6stf f s).e = (sep s.e).map f := a
    rw [a]
    cases q : sep s.e with
    | none =>
      simp only [Option.map_none]
      by_cases z : s.i = 0
      · simp only [show (v6stf f s).i = s.i from rfl, if_neg (show ¬ s.i ≠ 0 from fun x => x z)]; exact go s ok
      · simp only [show (v6stf f s).i = s.i from rfl, if_pos z]
        exact ⟨_, rfl, rfl, fun p x => by cases x; exact ⟨ok.e, ok.i, by have := ok.k; omega, ok.gap⟩⟩
    | some e1 =>
      have h1 := b e1 q
      have ⟨a2, b2⟩ := hs e1 h1
      simp only [Option.map_some]
      rw [a2]
      cases q2 : sep e1 with
      | none =>
        simp only [Option.map_none]
        by_cases z : s.i = 0
        · simp only [show (v6stf f s).i = s.i from rfl, if_pos z]; exact ⟨none, rfl, rfl, fun p x => by cases x⟩
        · simp only [show (v6stf f s).i = s.i from rfl, if_neg z]
          exact go ⟨s.i, e1, s.comps, s.compact⟩ ⟨h1, ok.i, ok.k, ok.gap⟩
      | some e2 =>
        simp only [Option.map_some]
        cases q3 : s.compact with
        | none =>
          simp only [show (v6stf f s).compact = none from by simp only [v6stf, q3, Option.map_none]]
          exact go ⟨s.i, e2, s.comps, some (s.i, e1)⟩ ⟨b2 e2 q2, ok.i, ok.k, fun p x => by cases x; exact Nat.le_refl _⟩
        | some c =>
          simp only [show (v6stf f s).compact = some (c.1, f c.2) from by simp only [v6stf, q3, Option.map_some]]
          exact ⟨_, rfl, rfl, fun p x => by cases x; exact ⟨h1, ok.i, by have := ok.k; show s.i ≤ 8; omega, fun p x => ok.gap p (by rw [q3]; exact x)⟩⟩

/-- What an IPv6 address parser leaves, elsewhere. -/
def v6f (f : Nat → Nat) (b : Bool) (x : V6) : V6 := if b then ⟨compsf f x.comps, x.words, ivf f x.scope, ivf f x.interval⟩ else v6Invalid

theorem align_comps (comps old : List (Nat × Nat)) (i ci : Nat) (x : Nat × Nat) (h1 : comps.length = i) (h2 : i ≤ 8) (h3 : ci ≤ i) (ho : old.length = 8) :
    align (comps ++ old.drop comps.length) i ci x = comps.take ci ++ List.replicate (8 - i) x ++ comps.drop ci := by
  have e : comps ++ old.drop comps.length = comps.take ci ++ comps.drop ci ++ old.drop comps.length := by rw [List.take_append_drop]
  have l1 : (comps.take ci).length = ci := by rw [List.length_take]; omega
  have l2 : (comps.drop ci).length = i - ci := by rw [List.length_drop]; omega
  have := align_eq (comps.take ci) (comps.drop ci) (old.drop comps.length) x (by rw [List.length_append, List.length_append, l1, l2, List.length_drop]; omega)
  rw [l1, l2, show ci + (i - ci) = i from by omega, show 8 - ci - (i - ci) = 8 - i from by omega] at this
  rw [e, this]

/-- An element that may be missing. -/
inductive OptMirrors (f : Nat → Nat) (n : Nat) : Option Sub → Option Sub → Prop
  | absent : OptMirrors f n none none
  | given {a' a : Sub} : Mirrors f n a' a → OptMirrors f n (some a') (some a)

theorem opt_mirrors {f : Nat → Nat} {n : Nat} {a' a : Option Sub} (h : OptMirrors f n a' a) : Mirrors f n (fun e => a'.bind (· e)) (fun e => a.bind (· e)) := by
  cases h with
  | absent => exact fun k _ => ⟨rfl, fun j x => by cases x⟩
  | given h => exact h

theorem v6Scope_mirrors {f : Nat → Nat} {n : Nat} {a' a b' b : Option Sub} (ha : OptMirrors f n a' a) (hb : OptMirrors f n b' b) (i : Nat) {e : Nat} (he : e ≤ n) (comps : List (Nat × Nat)) (words : List Nat) :
    v6Scope a' b' (f i) (f e) (compsf f comps) words = v6f f true (v6Scope a b i e comps words) ∧ ∃ j, (v6Scope a b i e comps words).interval = some (i, j) ∧ j ≤ n := by
  have ⟨p1, p2⟩ := opt_mirrors ha e he
  unfold v6Scope
  dsimp only at p1 p2
  rw [p1]
  cases q : a.bind (· e) with
  | none => exact ⟨rfl, e, rfl, he⟩
  | some e1 =>
    have ⟨s1, s2⟩ := opt_mirrors hb e1 (p2 e1 q)
    dsimp only [Option.map_some] at s1 s2 ⊢
    rw [s1]
    cases q2 : b.bind (· e1) with
    | none => exact ⟨rfl, e, rfl, he⟩
    | some e2 => exact ⟨rfl, e2, rfl, s2 e2 q2⟩

/-- **C144** (IPv6) `sgml_ipv6_address` finds the address of the decoded text: its components and its scope. -/
theorem ipv6_mirrors {v u : Env} {t w : List Int} {f : Nat → Nat} (hf : Along v t u w f) {ds' ds : List Sub} (h : AllMirror f w.length ds' ds) (ho : Onward w.length ds) {sep' sep : Sub}
    (hs : Mirrors f w.length sep' sep) {a' a b' b : Option Sub} (ha : OptMirrors f w.length a' a) (hb : OptMirrors f w.length b' b) {old' old : V6} (l' : old'.comps.length = 8) (l : old.comps.length = 8)
    {k : Nat} (hk : k ≤ w.length) : ∃ r x, ipv6 u ds sep a b k old = some (r, x) ∧ ipv6 v ds' sep' a' b' (f k) old' = some (r, v6f f r x) ∧
      (r = true → ∃ j, x.interval = some (k, j) ∧ j ≤ w.length) := by
  obtain ⟨r, p, p', d⟩ := v6Loop_mirrors hf h ho hs 8 ⟨0, k, [], none⟩ ⟨hk, rfl, rfl, fun p x => by cases x⟩
  unfold ipv6
  have p' : v6Loop v ds' sep' 8 ⟨0, f k, [], none⟩ = some (r.map (v6stf f)) := p'
  rw [p, p']
  cases r with
  | none => exact ⟨false, _, rfl, rfl, fun q => nomatch q⟩
  | some s =>
    have dn := d s rfl
    dsimp only [Option.map_some]
    cases q : s.compact with
    | none =>
      simp only [show (v6stf f s).compact = none from by simp only [v6stf, q, Option.map_none], show (v6stf f s).i = s.i from rfl]
      by_cases z : s.i < 8
      · rw [if_pos z, if_pos z]; exact ⟨false, _, rfl, rfl, fun q => nomatch q⟩
      · rw [if_neg z, if_neg z]
        have e8 : s.comps.length = 8 := by have := dn.i; have := dn.k; omega
        have e8' : (v6stf f s).comps.length = 8 := by simp only [v6stf, compsf, List.length_map]; exact e8
        rw [List.drop_eq_nil_of_le (by omega), List.drop_eq_nil_of_le (by omega), List.append_nil, List.append_nil]
        have ⟨m1, m2⟩ := v6Scope_mirrors ha hb k dn.e s.comps (List.replicate 8 0)
        exact ⟨true, _, rfl, congrArg (fun x => some (true, x)) m1, fun _ => m2⟩
    | some c =>
      simp only [show (v6stf f s).compact = some (c.1, f c.2) from by simp only [v6stf, q, Option.map_some], show (v6stf f s).i = s.i from rfl]
      have g := dn.gap c q
      have len : (v6stf f s).comps.length = s.i := by simp only [v6stf, compsf, List.length_map]; exact dn.i
      rw [align_comps _ _ _ _ _ dn.i dn.k g l, align_comps _ _ _ _ _ len dn.k g l']
      have e : (v6stf f s).comps.take c.1 ++ List.replicate (8 - s.i) (f c.2, f c.2) ++ (v6stf f s).comps.drop c.1 = compsf f (s.comps.take c.1 ++ List.replicate (8 - s.i) (c.2, c.2) ++ s.comps.drop c.1) := by
        simp only [v6stf, compsf, List.map_append, List.map_take, List.map_drop, List.map_replicate]
      rw [e]
      have ⟨m1, m2⟩ := v6Scope_mirrors ha hb k dn.e (s.comps.take c.1 ++ List.replicate (8 - s.i) (c.2, c.2) ++ s.comps.drop c.1) (align (List.replicate 8 0) s.i c.1 0)
      exact ⟨true, _, rfl, congrArg (fun x => some (true, x)) m1, fun _ => m2⟩

/-! ### All together -/

/-- A parser of characters, as a leaf. -/
def asLeaf (m : Nat → Option (Option Nat)) : Leaf := fun i => (m i).map fun r => r.map fun j => (j, none)

/-- Where the match of an address ends. -/
def endOf (r : Option (Bool × Iv)) : Option Nat :=
  match r with
  | some (true, some p) => some p.2
  | _ => none

/-- Elements for SGML text: `sgml_string`, `sgml_cp`, `sgml_iterations` of `sgml_url_username_char` and of `sgml_url_password_char`, `sgml_ipv4_address`, `sgml_ipv6_address` with a scope of
`sgml_ipv6_scope_id_char`, `sgml_dns_name`, `sgml_integer10`, `sgml_url_path`. -/
def sgmlUrlOf (v : Env) (wd : Wide) (alnum : Int → Bool) (idn absolute : Bool) : UrlParts :=
  let cp := fun c : Int => ends (sgmlCp v wd [c] false)
  let many := fun m : Leaf => sem (.iter (.leaf m) 1 (2 ^ 64 - 1) true)
  let dig10 := (List.range 10).map fun k : Nat => cp (48 + (k : Int))
  let dig16 := dig10 ++ (List.range 6).map fun k : Nat => cp (97 + (k : Int))
  { http := ends (sgmlString v wd (asc "http"))
    ftp := ends (sgmlString v wd (asc "ftp"))
    mailto := ends (sgmlString v wd (asc "mailto"))
    file := ends (sgmlString v wd (asc "file"))
    colon := cp 58
    slash := cp 47
    username := many (sgmlUserChar v alnum)
    password := many (sgmlPassChar v alnum)
    at_ := cp 64
    lbracket := cp 91
    rbracket := cp 93
    ipv4 := fun i => endOf ((ipv4 v dig10 (cp 46) i).map fun r => (r.1, r.2.interval))
    ipv6 := fun i => endOf ((ipv6 v dig16 (cp 58) (some (cp 37)) (some (many (sgmlScopeChar v alnum))) i v6Invalid).map fun r => (r.1, r.2.interval))
    dns := fun i => endOf ((dnsName v ⟨absolute, fun i => (sgmlDnsChar v idn alnum i).join, cp 46⟩ i).map fun r => (r.isSome, r))
    port := fun i => ((integer v 10 dig10 i).join).map Prod.fst
    path := fun i => endOf ((urlPath v ⟨ends (sgmlPathChar v alnum), cp 63, cp 35⟩ i).map fun r => (r.1, r.2.interval)) }

/-- The same for wide text: `wstring`, `wcu`, `witerations`, and so on. -/
def wideUrlOf (u : Env) (alnum : Int → Bool) (idn absolute : Bool) : UrlParts :=
  let chr := fun c : Int => ends (cu u c false)
  let many := fun m : Leaf => sem (.iter (.leaf m) 1 (2 ^ 64 - 1) true)
  let dig10 := (List.range 10).map fun k : Nat => chr (48 + (k : Int))
  let dig16 := dig10 ++ (List.range 6).map fun k : Nat => chr (97 + (k : Int))
  { http := ends (string u (asc "http"))
    ftp := ends (string u (asc "ftp"))
    mailto := ends (string u (asc "mailto"))
    file := ends (string u (asc "file"))
    colon := chr 58
    slash := chr 47
    username := many (asLeaf (urlChar u (urlUserChar alnum)))
    password := many (asLeaf (urlChar u (urlPassChar alnum)))
    at_ := chr 64
    lbracket := chr 91
    rbracket := chr 93
    ipv4 := fun i => endOf ((ipv4 u dig10 (chr 46) i).map fun r => (r.1, r.2.interval))
    ipv6 := fun i => endOf ((ipv6 u dig16 (chr 58) (some (chr 37)) (some (many (asLeaf (urlChar u (scopeChar alnum))))) i v6Invalid).map fun r => (r.1, r.2.interval))
    dns := fun i => endOf ((dnsName u ⟨absolute, fun i => (dnsChar u idn alnum i).join, chr 46⟩ i).map fun r => (r.isSome, r))
    port := fun i => ((integer u 10 dig10 i).join).map Prod.fst
    path := fun i => endOf ((urlPath u ⟨ends (asLeaf (urlChar u (urlPathChar alnum))), chr 63, chr 35⟩ i).map fun r => (r.1, r.2.interval)) }

theorem asLeaf_one {u : Env} {w : List Int} (hu : u.Ok w) (p : Int → Bool) : One w (asLeaf (urlChar u p)) p := by
  intro i hi
  unfold asLeaf
  rw [urlChar_spec hu p hi]
  unfold testSub
  cases w[i]? with
  | none => rfl
  | some c => dsimp only [Option.map_some]; split <;> rfl

theorem many_mirrors {v u : Env} {t w : List Int} {f : Nat → Nat} (hf : Along v t u w f) {m' m : Leaf} (h : LeafMirrors f w.length m' m) :
    Mirrors f w.length (sem (.iter (.leaf m') 1 (2 ^ 64 - 1) true)) (sem (.iter (.leaf m) 1 (2 ^ 64 - 1) true)) :=
  sem_mirrors hf _ _ (by simp only [TreeMirrors]; exact ⟨trivial, trivial, trivial, h⟩)

theorem allMirror_map {f : Nat → Nat} {n : Nat} {α : Type} (a' a : α → Sub) : ∀ (l : List α), (∀ x ∈ l, Mirrors f n (a' x) (a x)) → AllMirror f n (l.map a') (l.map a)
  | [], _ => .nil
  | x :: l, h => .cons (h x List.mem_cons_self) (allMirror_map a' a l fun x hx => h x (List.mem_cons_of_mem _ hx))

theorem allMirror_append {f : Nat → Nat} {n : Nat} {a' a b' b : List Sub} (h : AllMirror f n a' a) (h2 : AllMirror f n b' b) : AllMirror f n (a' ++ b') (a ++ b) := by
  induction h with
  | nil => exact h2
  | cons h _ ih => exact .cons h ih

theorem cu_takes {u : Env} {w : List Int} (hu : u.Ok w) (c : Int) : Takes w.length (ends (cu u c false)) := by
  intro i hi j q
  unfold ends at q
  rw [cu_spec hu c false i hi] at q
  by_cases lt : i < w.length
  · rw [List.getElem?_eq_getElem lt] at q
    dsimp only [Option.join] at q
    by_cases e : (same u w[i] c ^^ false) = true
    · rw [if_pos e] at q; cases q; exact ⟨by show i < i + 1; omega, by show i + 1 ≤ _; omega⟩
    · rw [if_neg e] at q; cases q
  · rw [List.getElem?_eq_none (by omega)] at q; cases q

/-- **C144** (elements) The elements for SGML text mirror those for the decoded text. -/
theorem sgml_url_parts {v u : Env} {wd : Wide} {t w : List Int} (hv : v.Ok t) (hw : WOk v wd) (hl : t.length < 2 ^ 64) (hu : u.Ok w) (hd : Wider v wd u) (hs : Stands v.space t w)
    (alnum : Int → Bool) (idn absolute : Bool) : UrlMirrors (place v.space t) w.length (sgmlUrlOf v wd alnum idn absolute) (wideUrlOf u alnum idn absolute) := by
  have hf := stands_along hv hu hs
  have cp : ∀ c, c ≠ 0 → Mirrors (place v.space t) w.length (ends (sgmlCp v wd [c] false)) (ends (cu u c false)) := fun c hc => ends_mirrors ((sgml_leaves hv hw hl hu hd hs false).1 c hc)
  have str : ∀ s, (∀ c ∈ s, c ≠ 0) → Mirrors (place v.space t) w.length (ends (sgmlString v wd s)) (ends (string u s)) := fun s h => ends_mirrors (sgml_string_mirrors hv hw hl hu hd hs h)
  obtain ⟨c1, c2, c3, c4⟩ := sgml_url_chars hv hw hl alnum
  have m1 := piecewise_mirrors hv hu hs c1 (asLeaf_one hu (scopeChar alnum)) (fun _ => rfl)
  have m2 := piecewise_mirrors hv hu hs c2 (asLeaf_one hu (urlUserChar alnum)) (fun _ => rfl)
  have m3 := piecewise_mirrors hv hu hs c3 (asLeaf_one hu (urlPassChar alnum)) (fun _ => rfl)
  have m4 := piecewise_mirrors hv hu hs c4 (asLeaf_one hu (urlPathChar alnum)) (fun _ => rfl)
  have d10 : AllMirror (place v.space t) w.length ((List.range 10).map fun k : Nat => ends (sgmlCp v wd [48 + (k : Int)] false)) ((List.range 10).map fun k : Nat => ends (cu u (48 + (k : Int)) false)) :=
    allMirror_map _ _ _ fun k _ => cp _ (by omega)
  have d16 := allMirror_append d10 (allMirror_map (fun k : Nat => ends (sgmlCp v wd [97 + (k : Int)] false)) (fun k : Nat => ends (cu u (97 + (k : Int)) false)) (List.range 6) fun k _ => cp _ (by omega))
  have o10 : Onward w.length ((List.range 10).map fun k : Nat => ends (cu u (48 + (k : Int)) false)) := by
    intro d hd
    obtain ⟨k, _, rfl⟩ := List.mem_map.1 hd
    exact cu_takes hu _
  have o16 : Onward w.length (((List.range 10).map fun k : Nat => ends (cu u (48 + (k : Int)) false)) ++ (List.range 6).map fun k : Nat => ends (cu u (97 + (k : Int)) false)) := by
    intro d hd
    rcases List.mem_append.1 hd with hd | hd
    · exact o10 d hd
    · obtain ⟨k, _, rfl⟩ := List.mem_map.1 hd
      exact cu_takes hu _
  have path_on : Takes w.length (ends (asLeaf (urlChar u (urlPathChar alnum)))) := by
    intro i hi j q
    unfold ends at q
    rw [asLeaf_one hu _ i hi] at q
    by_cases lt : i < w.length
    · rw [List.getElem?_eq_getElem lt] at q
      dsimp only [Option.join] at q
      by_cases e : urlPathChar alnum w[i] = true
      · rw [if_pos e] at q; cases q; exact ⟨by show i < i + 1; omega, by show i + 1 ≤ _; omega⟩
      · rw [if_neg e] at q; cases q
    · rw [List.getElem?_eq_none (by omega)] at q; cases q
  refine
    { http := str _ (by decide), ftp := str _ (by decide), mailto := str _ (by decide), file := str _ (by decide), colon := cp _ (by decide), slash := cp _ (by decide)
      username := many_mirrors hf m2, password := many_mirrors hf m3, at_ := cp _ (by decide), lbracket := cp _ (by decide), rbracket := cp _ (by decide)
      ipv4 := ?_, ipv6 := ?_, dns := ?_, port := ?_, path := ?_ }
  · intro k hk
    obtain ⟨b, x, a1, a2, a3⟩ := ipv4_mirrors hf d10 o10 (cp 46 (by decide)) hk
    simp only [sgmlUrlOf, wideUrlOf]
    rw [a1, a2]
    cases b with
    | false => exact ⟨rfl, fun j q => by cases q⟩
    | true =>
      obtain ⟨j, q1, q2⟩ := a3 rfl
      simp only [Option.map_some, v4f, if_true, q1, ivf]
      exact ⟨rfl, fun j' q => by cases q; exact q2⟩
  · intro k hk
    obtain ⟨b, x, a1, a2, a3⟩ := ipv6_mirrors (old' := v6Invalid) (old := v6Invalid) hf d16 o16 (cp 58 (by decide)) (.given (cp 37 (by decide))) (.given (many_mirrors hf m1)) rfl rfl hk
    simp only [sgmlUrlOf, wideUrlOf]
    rw [a1, a2]
    cases b with
    | false => exact ⟨rfl, fun j q => by cases q⟩
    | true =>
      obtain ⟨j, q1, q2⟩ := a3 rfl
      simp only [Option.map_some, v6f, if_true, q1, ivf]
      exact ⟨rfl, fun j' q => by cases q; exact q2⟩
  · intro k hk
    have dm : DnsMirrors (place v.space t) w.length ⟨absolute, fun i => (sgmlDnsChar v idn alnum i).join, ends (sgmlCp v wd [46] false)⟩ ⟨absolute, fun i => (dnsChar u idn alnum i).join, ends (cu u 46 false)⟩ := by
      refine ⟨rfl, fun i hi => ?_, cp 46 (by decide)⟩
      dsimp only
      rw [sgmlDnsChar_spec hv hw hl idn alnum (along_le hf hi), dnsChar_ascii hu idn alnum absolute hi]
      unfold asciiDns
      by_cases lt : i < w.length
      · have hc : w[i]? = some w[i] := List.getElem?_eq_getElem lt
        dsimp only [Option.join]
        rw [hc, stands_at hs hc]
        dsimp only
        by_cases e1 : edgeChar idn alnum w[i] = true
        · rw [if_pos e1, if_pos e1]; exact ⟨rfl, fun p q => by cases q; exact ⟨by show i < i + 1; omega, by show i + 1 ≤ _; omega⟩⟩
        · rw [if_neg e1, if_neg e1]
          by_cases e2 : w[i] = 45
          · rw [if_pos e2, if_pos e2]; exact ⟨rfl, fun p q => by cases q; exact ⟨by show i < i + 1; omega, by show i + 1 ≤ _; omega⟩⟩
          · rw [if_neg e2, if_neg e2]; exact ⟨rfl, fun p q => by cases q⟩
      · have : i = w.length := by omega
        subst this
        dsimp only [Option.join]
        rw [List.getElem?_eq_none (Nat.le_refl _), stands_none hs]
        exact ⟨rfl, fun p q => by cases q⟩
    obtain ⟨r, a1, a2, a3⟩ := dnsName_mirrors hf dm hk
    simp only [sgmlUrlOf, wideUrlOf]
    rw [a1, a2]
    cases r with
    | none => exact ⟨rfl, fun j q => by cases q⟩
    | some p => exact ⟨rfl, fun j q => by cases q; exact a3 p rfl⟩
  · intro k hk
    obtain ⟨r, a1, a2⟩ := integer_mirrors hf 10 d10 o10 hk
    have ⟨e, y, b1, _, _, b4⟩ := intLoop_mirrors hf 10 d10 o10 _ (v.s.length + 2) (u.s.length + 2) k 0 rfl hk (by have := (along_len hf).1; omega) (by have := (along_len hf).2; omega)
    simp only [sgmlUrlOf, wideUrlOf]
    rw [a1, a2]
    cases r with
    | none => exact ⟨rfl, fun j q => by cases q⟩
    | some p =>
      refine ⟨rfl, fun j q => ?_⟩
      cases q
      unfold integer at a1
      rw [b1] at a1
      dsimp only at a1
      split at a1
      · cases a1; exact b4
      · cases a1
  · intro k hk
    obtain ⟨b, x, a1, a2, a3⟩ := urlPath_mirrors hf (c' := ⟨ends (sgmlPathChar v alnum), ends (sgmlCp v wd [63] false), ends (sgmlCp v wd [35] false)⟩)
      (c := ⟨ends (asLeaf (urlChar u (urlPathChar alnum))), ends (cu u 63 false), ends (cu u 35 false)⟩) ⟨ends_mirrors m4, path_on, cp 63 (by decide), cp 35 (by decide)⟩ hk
    simp only [sgmlUrlOf, wideUrlOf]
    rw [a1, a2]
    cases b with
    | false => exact ⟨rfl, fun j q => by cases q⟩
    | true =>
      simp only [Option.map_some, pathf]
      cases q : x.interval with
      | none => exact ⟨rfl, fun j q => by cases q⟩
      | some p => exact ⟨rfl, fun j' q' => by cases q'; exact a3 p q⟩

/-- **C144** A URL in SGML text, whichever of its characters are written as entities, is parsed as in the text that the SGML stands for: the result is the same and the intervals are those of the pieces. -/
theorem sgml_url_decoded {v u : Env} {wd : Wide} {t w : List Int} (hv : v.Ok t) (hw : WOk v wd) (hl : t.length < 2 ^ 64) (hu : u.Ok w) (hd : Wider v wd u) (hs : Stands v.space t w)
    (alnum : Int → Bool) (idn absolute : Bool) {k : Nat} (hk : k ≤ w.length) :
    url (sgmlUrlOf v wd alnum idn absolute) (place v.space t k) = ((url (wideUrlOf u alnum idn absolute) k).1, urlf (place v.space t) (url (wideUrlOf u alnum idn absolute) k).2) ∧
    email (sgmlUrlOf v wd alnum idn absolute) (place v.space t k) = ((email (wideUrlOf u alnum idn absolute) k).1, emailf (place v.space t) (email (wideUrlOf u alnum idn absolute) k).2) :=
  have h := sgml_url_parts hv hw hl hu hd hs alnum idn absolute
  ⟨url_mirrors h hk, email_mirrors h hk⟩

/-! ### Examples -/

/-- The pieces from `i` on, read one by one, are the characters of `w`. -/
def readsAs (sp : Int → Bool) (t : List Int) : Nat → List Int → Bool
  | i, [] => i == t.length
  | i, c :: w => match pieceAt sp t i with
    | some (u, j) => u == [c] && readsAs sp t j w
    | none => false

theorem readsAs_from {sp : Int → Bool} {t : List Int} : ∀ (w : List Int) (k : Nat), readsAs sp t (place sp t k) w = true →
    (∀ j c, w[j]? = some c → ∃ e, pieceAt sp t (place sp t (k + j)) = some ([c], e)) ∧ place sp t (k + w.length) = t.length := by
  intro w
  induction w with
  | nil => intro k h; exact ⟨(fun j c q => by simp at q), by simpa [readsAs] using h⟩
  | cons c w ih =>
    intro k h
    rw [readsAs] at h
    cases q : pieceAt sp t (place sp t k) with
    | none => rw [q] at h; cases h
    | some p =>
      obtain ⟨u, j⟩ := p
      rw [q] at h
      simp only [Bool.and_eq_true, beq_iff_eq] at h
      obtain ⟨rfl, h⟩ := h
      have e : place sp t (k + 1) = j := by rw [place, q]
      rw [← e] at h
      have ⟨a, b⟩ := ih (k + 1) h
      refine ⟨fun i x hx => ?_, by rw [← b]; congr 1; simp; omega⟩
      cases i with
      | zero => cases hx; exact ⟨j, q⟩
      | succ i => have := a i x hx; rw [show k + (i + 1) = k + 1 + i from by omega]; exact this

/-- A text whose pieces can be read in this way stands for them. -/
theorem stands_of {sp : Int → Bool} {t w : List Int} (h : readsAs sp t 0 w = true) : Stands sp t w := by
  have ⟨a, b⟩ := readsAs_from w 0 h
  refine ⟨fun k c q => by have := a k c q; rwa [Nat.zero_add] at this, by rw [Nat.zero_add] at b; exact b⟩

/-- A text without ampersands stands for itself. -/
theorem stands_plain {sp : Int → Bool} {t : List Int} (h : ∀ c ∈ t, c ≠ 38) : Stands sp t t ∧ ∀ k ≤ t.length, place sp t k = k := by
  have at_ : ∀ k c, t[k]? = some c → pieceAt sp t k = some ([c], k + 1) := by
    intro k c q
    unfold pieceAt
    rw [q, Option.map_some, if_neg (h c (List.mem_of_getElem? q))]
  have pl : ∀ k ≤ t.length, place sp t k = k := by
    intro k
    induction k with
    | zero => intro _; rfl
    | succ k ih =>
      intro hk
      rw [place, ih (by omega), at_ k _ (List.getElem?_eq_getElem (by omega))]
  refine ⟨⟨fun k c q => ?_, pl _ (Nat.le_refl _)⟩, pl⟩
  have lt := (List.getElem?_eq_some_iff.1 q).1
  rw [pl k (by omega)]
  exact ⟨_, at_ k c q⟩

/-- `http:&sol;/a&period;b` -/
def surl : List Int := asc "http:&sol;/a&period;b"
def surlEnv : Env := ⟨surl ++ [0], none, false, false, id, isspace, ispunct⟩
def surlWide : Wide := ⟨id, isspace, ispunct⟩
/-- `http://a.b` -/
def wurl : List Int := asc "http://a.b"
def wurlEnv : Env := ⟨wurl ++ [0], none, false, false, id, isspace, ispunct⟩

theorem surl_ok : surlEnv.Ok surl ∧ WOk surlEnv surlWide ∧ wurlEnv.Ok wurl ∧ Wider surlEnv surlWide wurlEnv ∧ Stands surlEnv.space surl wurl :=
  ⟨⟨.inl (by decide), by decide, (fun n q => nomatch q), fun _ => Iff.rfl⟩, ⟨fun _ h => h, fun _ => Iff.rfl⟩, ⟨.inl (by decide), by decide, (fun n q => nomatch q), fun _ => Iff.rfl⟩,
    ⟨rfl, rfl, rfl, rfl, rfl⟩, stands_of (by decide +kernel)⟩

/-- Its host is `a&period;b`. -/
example : url (sgmlUrlOf surlEnv surlWide asciiAlnum false false) 0 = (true, ⟨some (0, 4), none, none, none, none, none, none, none, some (11, 21), none, none, some (0, 21)⟩) ∧
    url (wideUrlOf wurlEnv asciiAlnum false false) 0 = (true, ⟨some (0, 4), none, none, none, none, none, none, none, some (7, 10), none, none, some (0, 10)⟩) := by decide +kernel

/-- What C144 lacks: `search` (148-166) starts at every code unit, and finds `lt` in `&lt;`, which stands for `<`; `&#0;` is a character of a user name. -/
theorem sgml_search_inside : ∃ v wd t, Env.Ok v t ∧ WOk v wd ∧ t = asc "&lt;" ∧ Stands v.space t [60] ∧ (search (fun i => some (decide (i < t.length))) (leaf (sgmlString v wd (asc "lt"))) 10 fresh 0).map (fun r => (r.1, r.2.iv.start, r.2.iv.fin)) = some (true, 1, 3) :=
  ⟨⟨asc "&lt;" ++ [0], none, false, false, id, isspace, ispunct⟩, ⟨id, isspace, ispunct⟩, asc "&lt;", ⟨.inl (by decide), by decide, (fun n q => nomatch q), fun _ => Iff.rfl⟩, ⟨fun _ h => h, fun _ => Iff.rfl⟩, rfl,
    stands_of (by decide +kernel), by decide +kernel⟩

end Verif.Parser
