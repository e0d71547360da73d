import Verif.Parser.HttpMedia
/-
The parsers of HTTP URLs: server, port, path, parameters (include/stdex/parser.hpp 6027-6378). The text is of `char`, which is signed.
-/
namespace Verif.Parser
open Verif.Str

/-- `(unsigned int)c < 0x20 || (unsigned int)c == 0x7f || isspace(c)`; negative characters become large numbers -/
def isBlank (c : Int) : Bool := decide (0 ≤ c ∧ c < 0x20) || c == 0x7f || isspace c

/-- The tests 6041-6045 -/
def isServer (c : Int) : Bool := !(isBlank c || c == 58 || c == 47)

/-- The tests 6129-6133 -/
def isSegment (c : Int) : Bool := !(isBlank c || c == 63 || c == 47)

/-- The tests 6233-6237 -/
def isParamName (c : Int) : Bool := !(isBlank c || c == 38 || c == 61)

/-- The tests 6257-6260 -/
def isParamValue (c : Int) : Bool := !(isBlank c || c == 38)

/-- `http_url_server::do_match` 6030-6058 -/
def urlServer (v : Env) (i : Nat) : Option (Option Nat) :=
  match scan v isServer (fuelOf v) i with
  | none => none
  | some e => some (if i < e then some e else none)

/-- The loop 6089-6107: `interval.end` and `value`, or nothing when the value is too large -/
def portLoop (v : Env) : Nat → Nat → Nat → Option (Option (Nat × Nat))
  | 0, _, _ => none
  | fuel + 1, i, n =>
    match peek v i with
    | none => none
    | some none => some (some (i, n))
    | some (some c) =>
      if 48 ≤ c ∧ c ≤ 57 then
        if n * 10 + (c - 48).toNat > 65535 then some none
        else portLoop v fuel (i + 1) (n * 10 + (c - 48).toNat)
      else some (some (i, n))

/-- `http_url_port::do_match` 6080-6114: the end and `value`, which is 0 if it does not match -/
def urlPort (v : Env) (i : Nat) : Option (Option Nat × Nat) :=
  match portLoop v (fuelOf v) i 0 with
  | none => none
  | some none => some (none, 0)
  | some (some (e, n)) => some (if i < e then some e else none, n)

/-- `http_url_path_segment::do_match` 6118-6145: it always matches. At `start > end` it is empty. -/
def urlSegment (v : Env) (i : Nat) : Option Nat := scan v isSegment (fuelOf v) i

/-- The loop 6184-6197: `segments`, in reverse, and the end -/
def segLoop (v : Env) : Nat → Nat → List (Nat × Nat) → Option (List (Nat × Nat) × Nat)
  | 0, _, _ => none
  | fuel + 1, e, acc =>
    match peek v e with
    | none => none
    | some none => some (acc, e)
    | some (some c) =>
      if c = 47 then
        match urlSegment v (e + 1) with
        | none => none
        | some e' => segLoop v fuel e' ((e + 1, e') :: acc)
      else some (acc, e)

/-- `http_url_path::do_match` 6164-6204: `segments` and the end. At the limit 6176 goes on with what follows. -/
def urlAbsPath (v : Env) (i : Nat) : Option (Option (List (Nat × Nat) × Nat)) :=
  match (if below v.fin i then (rd v.s i).map fun c => decide (c = 47) else some true) with
  | none => none
  | some false => some none
  | some true =>
    match urlSegment v (i + 1) with
    | none => none
    | some e =>
      match segLoop v (fuelOf v) e [(i + 1, e)] with
      | none => none
      | some (l, f) => some (some (l.reverse, f))

/-- `name`, `value` and `interval` of `http_url_parameter` -/
structure UrlParam where
  name : Nat × Nat
  value : Iv
  interval : Nat × Nat
deriving DecidableEq

/-- `http_url_parameter::do_match` 6222-6283. 6251 reads whatever is there. -/
def urlParam (v : Env) (i : Nat) : Option (Option UrlParam) :=
  match scan v isParamName (fuelOf v) i with
  | none => none
  | some e =>
    if i < e then
      match rd v.s e with
      | none => none
      | some c =>
        if c = 61 then
          match scan v isParamValue (fuelOf v) (e + 1) with
          | none => none
          | some f => some (some ⟨(i, e), some (e + 1, f), (i, f)⟩)
        else some (some ⟨(i, e), none, (i, e)⟩)
    else some none

/-- The loop 6347-6367: `params`, in reverse, and the end -/
def queryLoop (v : Env) : Nat → Nat → List UrlParam → Option (List UrlParam × Nat)
  | 0, _, _ => none
  | fuel + 1, e, acc =>
    match peek v e with
    | none => none
    | some none => some (acc, e)
    | some (some c) =>
      if isBlank c then some (acc, e)
      else if c = 38 then queryLoop v fuel (e + 1) acc
      else
        match urlParam v e with
        | none => none
        | some none => some (acc, e)
        | some (some p) => queryLoop v fuel p.interval.2 (p :: acc)

/-- `server`, `port` with its `value`, `path` with its segments, `params` and `interval` -/
structure HttpUrl where
  server : Iv
  port : Iv
  value : Nat
  path : Iv
  segments : List (Nat × Nat)
  params : List UrlParam
  interval : Iv
deriving DecidableEq

def noUrl : HttpUrl := ⟨none, none, 0, none, [], [], none⟩

/-- `strnicmp(text + i, n, "...", SIZE_MAX, locale) == 0` for a literal of `n` characters: 6317 -/
def wordAt (v : Env) : List Int → Nat → Option Bool
  | [], _ => some true
  | c :: w, i =>
    match rd v.s i with
    | none => none
    | some d => if v.lower d = v.lower c then wordAt v w (i + 1) else some false

/-- "http://" -/
def httpWord : List Int := [104, 116, 116, 112, 58, 47, 47]

/-- 6317: `end` is `SIZE_MAX` where there is no limit -/
def hasScheme (v : Env) (i : Nat) : Option Bool := if below v.fin (i + 6) then wordAt v httpWord i else some false

/-- 6317-6336: `server`, `port`, `port.value` and the end -/
def urlAuthority (v : Env) (i : Nat) : Option (Option (Iv × Iv × Nat × Nat)) :=
  match hasScheme v i with
  | none => none
  | some false => some (some (none, none, 80, i))
  | some true =>
    match urlServer v (i + 7) with
    | none => none
    | some none => some none
    | some (some a) =>
      match (if below v.fin a then (rd v.s a).map fun c => decide (c = 58) else some false) with
      | none => none
      | some false => some (some (some (i + 7, a), none, 80, a))
      | some true =>
        match urlPort v (a + 1) with
        | none => none
        | some (none, n) => some (some (some (i + 7, a), none, n, a + 1))
        | some (some e, n) => some (some (some (i + 7, a), some (a + 1, e), n, e))

/-- 6345-6368: `params` and the end -/
def urlQuery (v : Env) (e : Nat) : Option (List UrlParam × Nat) :=
  match (if below v.fin e then (rd v.s e).map fun c => decide (c = 63) else some false) with
  | none => none
  | some false => some ([], e)
  | some true => (queryLoop v (fuelOf v) (e + 1) []).map fun r => (r.1.reverse, r.2)

/-- `http_url::do_match` 6307-6377 -/
def httpUrl (v : Env) (i : Nat) : Option (Bool × HttpUrl) :=
  match urlAuthority v i with
  | none => none
  | some none => some (false, noUrl)
  | some (some (s, p, n, a)) =>
    match urlAbsPath v a with
    | none => none
    | some none => some (false, noUrl)
    | some (some (l, b)) =>
      match urlQuery v b with
      | none => none
      | some (ps, e) => some (true, ⟨s, p, n, some (a, b), l, ps, some (i, e)⟩)

/-! ### Specification -/

/-- The longest run at `i` of characters with `p` ends at `e`: it may be empty. -/
def RunAt (p : Int → Prop) (t : List Int) (i e : Nat) : Prop := i ≤ e ∧ (∀ j, i ≤ j → j < e → ∃ c, t[j]? = some c ∧ p c) ∧ ∀ c, t[e]? = some c → ¬ p c

/-- Controls (and DEL) and white space -/
def Blank (c : Int) : Prop := (0 ≤ c ∧ c ≤ 32) ∨ c = 127

/-- The characters of servers, of segments of paths, and of names and values of parameters -/
def ServerChar (c : Int) : Prop := ¬ Blank c ∧ c ≠ 58 ∧ c ≠ 47
def SegmentChar (c : Int) : Prop := ¬ Blank c ∧ c ≠ 63 ∧ c ≠ 47
def ParamNameChar (c : Int) : Prop := ¬ Blank c ∧ c ≠ 38 ∧ c ≠ 61
def ParamValueChar (c : Int) : Prop := ¬ Blank c ∧ c ≠ 38
def Decimal (c : Int) : Prop := 48 ≤ c ∧ c ≤ 57

/-- The number that decimal digits stand for -/
def decimal (w : List Int) : Nat := w.foldl (fun n c => n * 10 + (c - 48).toNat) 0

/-- "http://" in any case -/
def Scheme (lower : Int → Int) (t : List Int) (i : Nat) : Prop := ((t.drop i).take 7).map lower = httpWord.map lower

/-- The server and the port: both are missing where there is no "http://"; the port is `d` where its digits are missing. -/
inductive Authority (lower : Int → Int) (d : Nat) (t : List Int) (i : Nat) : Iv → Iv → Nat → Nat → Prop
  | none : ¬ Scheme lower t i → Authority lower d t i none none 80 i
  | server {a} : Scheme lower t i → RunAt ServerChar t (i + 7) a → i + 7 < a → t[a]? ≠ some 58 → Authority lower d t i (some (i + 7, a)) none 80 a
  | port {a e} : Scheme lower t i → RunAt ServerChar t (i + 7) a → i + 7 < a → t[a]? = some 58 → RunAt Decimal t (a + 1) e → a + 1 < e → decimal ((t.drop (a + 1)).take (e - (a + 1))) ≤ 65535 →
    Authority lower d t i (some (i + 7, a)) (some (a + 1, e)) (decimal ((t.drop (a + 1)).take (e - (a + 1)))) e
  | colon {a} : Scheme lower t i → RunAt ServerChar t (i + 7) a → i + 7 < a → t[a]? = some 58 → RunAt Decimal t (a + 1) (a + 1) → Authority lower d t i (some (i + 7, a)) none d (a + 1)

/-- Segments of a path, with slashes between them. -/
inductive SegsAt (t : List Int) : Nat → List (Nat × Nat) → Nat → Prop
  | last {a b} : RunAt SegmentChar t a b → t[b]? ≠ some 47 → SegsAt t a [(a, b)] b
  | more {a b l e} : RunAt SegmentChar t a b → t[b]? = some 47 → SegsAt t (b + 1) l e → SegsAt t a ((a, b) :: l) e

/-- `name` or `name=value` -/
inductive UrlParamAt (t : List Int) (i : Nat) : UrlParam → Prop
  | name {a} : RunAt ParamNameChar t i a → i < a → t[a]? ≠ some 61 → UrlParamAt t i ⟨(i, a), none, (i, a)⟩
  | value {a e} : RunAt ParamNameChar t i a → i < a → t[a]? = some 61 → RunAt ParamValueChar t (a + 1) e → UrlParamAt t i ⟨(i, a), some (a + 1, e), (i, e)⟩

/-- Parameters, with ampersands between, before and after them, up to where no parameter is. -/
inductive QueryAt (t : List Int) : Nat → List UrlParam → Nat → Prop
  | stop {e} : t[e]? ≠ some 38 → (∀ p, ¬ UrlParamAt t e p) → QueryAt t e [] e
  | amp {e l f} : t[e]? = some 38 → QueryAt t (e + 1) l f → QueryAt t e l f
  | param {e p l f} : UrlParamAt t e p → QueryAt t p.interval.2 l f → QueryAt t e (p :: l) f

/-- The parameters after a question mark -/
inductive Query (t : List Int) (e : Nat) : List UrlParam → Nat → Prop
  | none : t[e]? ≠ some 63 → Query t e [] e
  | some {l f} : t[e]? = some 63 → QueryAt t (e + 1) l f → Query t e l f

/-- A URL at `i`: `http://` server and port, or nothing, then a path, then parameters. The port is `d` where its digits are missing. -/
def HttpUrlAt (lower : Int → Int) (d : Nat) (t : List Int) (i : Nat) (u : HttpUrl) : Prop :=
  ∃ a b e, Authority lower d t i u.server u.port u.value a ∧ t[a]? = some 47 ∧ SegsAt t (a + 1) u.segments b ∧ u.path = some (a, b) ∧ Query t b u.params e ∧ u.interval = some (i, e)

/-! ### Proof -/

theorem isBlank_spec (c : Int) : isBlank c = true ↔ Blank c := by
  unfold isBlank Blank isspace
  simp
  omega

theorem isServer_spec (c : Int) : isServer c = true ↔ ServerChar c := by
  have := isBlank_spec c
  unfold isServer ServerChar
  cases h : isBlank c <;> simp [h] at this ⊢ <;> simp [this]

theorem isSegment_spec (c : Int) : isSegment c = true ↔ SegmentChar c := by
  have := isBlank_spec c
  unfold isSegment SegmentChar
  cases h : isBlank c <;> simp [h] at this ⊢ <;> simp [this]

theorem isParamName_spec (c : Int) : isParamName c = true ↔ ParamNameChar c := by
  have := isBlank_spec c
  unfold isParamName ParamNameChar
  cases h : isBlank c <;> simp [h] at this ⊢ <;> simp [this]

theorem isParamValue_spec (c : Int) : isParamValue c = true ↔ ParamValueChar c := by
  have := isBlank_spec c
  unfold isParamValue ParamValueChar
  cases h : isBlank c <;> simp [h] at this ⊢ <;> simp [this]

theorem runAt_one {p : Int → Prop} {t : List Int} {i e e' : Nat} (h : RunAt p t i e) (h' : RunAt p t i e') : e = e' := by
  have key : ∀ {a b}, RunAt p t i a → RunAt p t i b → ¬ a < b := by
    intro a b ha hb hlt
    obtain ⟨c, q, r⟩ := hb.2.1 a ha.1 hlt
    exact ha.2.2 c q r
  have := key h h'
  have := key h' h
  omega

theorem runAt_le {p : Int → Prop} {t : List Int} {i e : Nat} (h : RunAt p t i e) (hi : i ≤ t.length) : e ≤ t.length := by
  by_cases q : i < e
  · obtain ⟨c, r, -⟩ := h.2.1 (e - 1) (by omega) (by omega)
    have := get_lt r
    omega
  · omega

theorem runAt_cons {p : Int → Prop} {t : List Int} {i e : Nat} {c : Int} (hc : t[i]? = some c) (hp : p c) (h : RunAt p t (i + 1) e) : RunAt p t i e := by
  refine ⟨by have := h.1; omega, ?_, h.2.2⟩
  intro j h1 h2
  by_cases q : j = i
  · subst q; exact ⟨c, hc, hp⟩
  · exact h.2.1 j (by omega) h2

theorem runAt_nil {p : Int → Prop} {t : List Int} {i : Nat} (h : ∀ c, t[i]? = some c → ¬ p c) : RunAt p t i i := ⟨Nat.le_refl _, fun j h1 h2 => by omega, h⟩

theorem runAt_first {p : Int → Prop} {t : List Int} {i e : Nat} (h : RunAt p t i e) (hl : i < e) : ∃ c, t[i]? = some c ∧ p c := h.2.1 i (Nat.le_refl _) hl

theorem scan_run {v : Env} {t : List Int} (h : v.Ok t) {p : Int → Bool} {P : Int → Prop} (hp : ∀ c, p c = true ↔ P c) : ∀ (fuel : Nat) {i : Nat}, i ≤ t.length → t.length - i < fuel →
    ∃ e, scan v p fuel i = some e ∧ RunAt P t i e ∧ e ≤ t.length := by
  intro fuel
  induction fuel with
  | zero => intro i _ q; omega
  | succ fuel ih =>
    intro i hi hf
    unfold scan
    rw [peek_eq h hi]
    cases hc : t[i]? with
    | none => exact ⟨i, rfl, runAt_nil (fun c q => by rw [hc] at q; cases q), hi⟩
    | some c =>
      dsimp only
      by_cases q : p c = true
      · rw [if_pos q]
        have hl := get_lt hc
        obtain ⟨e, e1, e2, e3⟩ := ih hl (by omega)
        exact ⟨e, e1, runAt_cons hc ((hp c).1 q) e2, e3⟩
      · rw [if_neg q]
        exact ⟨i, rfl, runAt_nil (fun d r x => by rw [hc] at r; cases r; exact q ((hp c).2 x)), hi⟩

theorem scan_to {v : Env} {t : List Int} (h : v.Ok t) {p : Int → Bool} {P : Int → Prop} (hp : ∀ c, p c = true ↔ P c) {i : Nat} (hi : i ≤ t.length) :
    ∃ e, scan v p (fuelOf v) i = some e ∧ RunAt P t i e ∧ e ≤ t.length := by
  refine scan_run h hp _ hi ?_
  have := ok_len h
  unfold fuelOf
  omega

/-- `i < end && text[i] == c` where `c` is no terminator -/
theorem raw_is {v : Env} {t : List Int} (h : v.Ok t) {i : Nat} (hi : i ≤ t.length) {c : Int} (hc : c ≠ 0) :
    (if below v.fin i then (rd v.s i).map fun x => decide (x = c) else some false) = some (decide (t[i]? = some c)) := by
  rw [h.text] at hi ⊢
  by_cases b : below v.fin i = true
  · rw [if_pos b, rd_eq h.valid hi b]
    cases q : (Str.text v.s v.fin)[i]? with
    | none => simp [Ne.symm hc]
    | some x => simp
  · rw [if_neg b, not_below hi (by simpa using b)]
    simp

theorem decimal_mono (w : List Int) : ∀ n, n ≤ w.foldl (fun n c => n * 10 + (c - 48).toNat) n := by
  induction w with
  | nil => intro n; exact Nat.le_refl _
  | cons c w ih => intro n; exact Nat.le_trans (show n ≤ n * 10 + (c - 48).toNat by omega) (ih _)

theorem take_run {t : List Int} {i e : Nat} {c : Int} (hc : t[i]? = some c) (h : i + 1 ≤ e) : (t.drop i).take (e - i) = c :: (t.drop (i + 1)).take (e - (i + 1)) := by
  obtain ⟨hl, q⟩ := List.getElem?_eq_some_iff.1 hc
  rw [List.drop_eq_getElem_cons hl, q, show e - i = (e - (i + 1)) + 1 from by omega, List.take_succ_cons]

theorem portLoop_spec {v : Env} {t : List Int} (h : v.Ok t) : ∀ (fuel : Nat) {i n : Nat}, i ≤ t.length → t.length - i < fuel → n ≤ 65535 →
    ∃ e, RunAt Decimal t i e ∧ e ≤ t.length ∧ portLoop v fuel i n =
      some (if ((t.drop i).take (e - i)).foldl (fun n c => n * 10 + (c - 48).toNat) n ≤ 65535 then some (e, ((t.drop i).take (e - i)).foldl (fun n c => n * 10 + (c - 48).toNat) n) else none) := by
  intro fuel
  induction fuel with
  | zero => intro i n _ q; omega
  | succ fuel ih =>
    intro i n hi hf hn
    unfold portLoop
    rw [peek_eq h hi]
    cases hc : t[i]? with
    | none =>
      refine ⟨i, runAt_nil (fun c q => by rw [hc] at q; cases q), hi, ?_⟩
      simp [hn]
    | some c =>
      dsimp only
      by_cases q : 48 ≤ c ∧ c ≤ 57
      · rw [if_pos q]
        have hl := get_lt hc
        by_cases big : n * 10 + (c - 48).toNat > 65535
        · rw [if_pos big]
          obtain ⟨e, -, e2, e3⟩ := scan_to h (p := fun c => decide (48 ≤ c ∧ c ≤ 57)) (P := Decimal) (fun c => by simp [Decimal]) hl
          refine ⟨e, runAt_cons hc q e2, e3, ?_⟩
          rw [take_run hc e2.1, List.foldl_cons, if_neg]
          have := decimal_mono ((t.drop (i + 1)).take (e - (i + 1))) (n * 10 + (c - 48).toNat)
          omega
        · rw [if_neg big]
          obtain ⟨e, e2, e3, e4⟩ := ih hl (by omega) (by omega : n * 10 + (c - 48).toNat ≤ 65535)
          refine ⟨e, runAt_cons hc q e2, e3, ?_⟩
          rw [take_run hc e2.1, List.foldl_cons]
          exact e4
      · rw [if_neg q]
        refine ⟨i, runAt_nil (fun d r x => by rw [hc] at r; cases r; exact q x), hi, ?_⟩
        simp [hn]

/-- **C91** (ports): the longest run of digits, if there is one and its value fits in 16 bits. -/
theorem port_spec {v : Env} {t : List Int} (h : v.Ok t) {i : Nat} (hi : i ≤ t.length) : ∃ e, RunAt Decimal t i e ∧ e ≤ t.length ∧
    urlPort v i = some (if i < e ∧ decimal ((t.drop i).take (e - i)) ≤ 65535 then (some e, decimal ((t.drop i).take (e - i))) else (none, 0)) := by
  have hf : t.length - i < fuelOf v := by have := ok_len h; unfold fuelOf; omega
  obtain ⟨e, e1, e2, e3⟩ := portLoop_spec h (fuelOf v) hi hf (Nat.zero_le _)
  refine ⟨e, e1, e2, ?_⟩
  unfold urlPort
  have e3 : portLoop v (fuelOf v) i 0 = some (if decimal ((t.drop i).take (e - i)) ≤ 65535 then some (e, decimal ((t.drop i).take (e - i))) else none) := e3
  rw [e3]
  have hie := e1.1
  by_cases small : decimal ((t.drop i).take (e - i)) ≤ 65535
  · rw [if_pos small]
    dsimp only
    by_cases lt : i < e
    · rw [if_pos lt, if_pos ⟨lt, small⟩]
    · rw [if_neg lt, if_neg (fun x => lt x.1)]
      rw [show e - i = 0 from by omega]
      rfl
  · rw [if_neg small, if_neg (fun x => small x.2)]

theorem below_mono {f : Option Nat} {i j : Nat} (h : below f j = true) (hij : i ≤ j) : below f i = true := by
  cases f with
  | none => rfl
  | some n => simp only [below, decide_eq_true_eq] at h ⊢; omega

theorem wordAt_spec {v : Env} {t : List Int} (h : v.Ok t) : ∀ (w : List Int) {i : Nat}, (∀ c ∈ w, c ≠ 0) → i ≤ t.length → (∀ j, j < w.length → below v.fin (i + j) = true) →
    wordAt v w i = some (decide (((t.drop i).take w.length).map v.lower = w.map v.lower)) := by
  intro w
  induction w with
  | nil => intro i _ _ _; rfl
  | cons c w ih =>
    intro i hz hi hb
    unfold wordAt
    have hi' := hi
    rw [h.text] at hi'
    rw [rd_eq h.valid hi' (by simpa using hb 0 (by simp)), ← h.text]
    dsimp only
    have hc0 : v.lower c ≠ 0 := fun q => hz c (by simp) ((h.lower c).1 q)
    cases hc : t[i]? with
    | none =>
      have e1 : v.lower ((none : Option Int).getD 0) = 0 := (h.lower 0).2 rfl
      rw [e1, if_neg (Ne.symm hc0)]
      have : t.drop i = [] := by rw [List.drop_eq_nil_iff]; exact List.getElem?_eq_none_iff.1 hc
      rw [this]
      simp
    | some d =>
      have hl := get_lt hc
      obtain ⟨hl', q⟩ := List.getElem?_eq_some_iff.1 hc
      rw [List.drop_eq_getElem_cons hl', q, List.length_cons, List.take_succ_cons]
      simp only [Option.getD_some, List.map_cons, List.cons.injEq]
      by_cases e : v.lower d = v.lower c
      · rw [if_pos e, ih (fun x hx => hz x (by simp [hx])) hl (fun j hj => by have := hb (j + 1) (by simp; omega); rwa [show i + (j + 1) = i + 1 + j from by omega] at this)]
        simp [e]
      · rw [if_neg e]
        simp [e]

theorem scheme_spec {v : Env} {t : List Int} (h : v.Ok t) {i : Nat} (hi : i ≤ t.length) [d : Decidable (Scheme v.lower t i)] : hasScheme v i = some (decide (Scheme v.lower t i)) := by
  unfold hasScheme
  by_cases b : below v.fin (i + 6) = true
  · rw [if_pos b, wordAt_spec h httpWord (by decide) hi (fun j hj => below_mono b (by simp [httpWord] at hj; omega))]
    congr 1
    exact decide_eq_decide.2 Iff.rfl
  · rw [if_neg b]
    congr 1
    refine (decide_eq_false ?_).symm
    intro q
    have := congrArg List.length q
    simp [httpWord] at this
    cases hf : v.fin with
    | none => rw [hf] at b; exact b rfl
    | some n =>
      have l := text_len_fin h hf
      rw [hf] at b
      simp [below] at b
      omega

theorem server_cases {v : Env} {t : List Int} (h : v.Ok t) {i : Nat} (hi : i ≤ t.length) : ∃ e, RunAt ServerChar t i e ∧ e ≤ t.length ∧ urlServer v i = some (if i < e then some e else none) := by
  obtain ⟨e, e1, e2, e3⟩ := scan_to h isServer_spec hi
  exact ⟨e, e2, e3, by unfold urlServer; rw [e1]⟩

theorem authority_spec {v : Env} {t : List Int} (h : v.Ok t) {i : Nat} (hi : i ≤ t.length) :
    (∃ s p n a, Authority v.lower 0 t i s p n a ∧ a ≤ t.length ∧ urlAuthority v i = some (some (s, p, n, a))) ∨
    ((∃ j ≤ t.length, urlAuthority v i = some (some (some (i + 7, j - 1), none, 0, j)) ∧ ∃ c, t[j]? = some c ∧ Decimal c) ∧ ∀ s p n a, ¬ Authority v.lower 0 t i s p n a) ∨
    ((∀ s p n a, ¬ Authority v.lower 0 t i s p n a) ∧ urlAuthority v i = some none) := by
  classical
  unfold urlAuthority
  rw [scheme_spec h hi]
  by_cases q : Scheme v.lower t i
  · rw [decide_eq_true q]
    dsimp only
    have hl : i + 7 ≤ t.length := by
      have := congrArg List.length q
      simp [httpWord] at this
      omega
    obtain ⟨a, a1, a2, a3⟩ := server_cases h hl
    rw [a3]
    by_cases lt : i + 7 < a
    · rw [if_pos lt]
      dsimp only
      rw [raw_is h a2 (by decide)]
      by_cases c : t[a]? = some 58
      · rw [decide_eq_true c]
        dsimp only
        obtain ⟨e, e1, e2, e3⟩ := port_spec h (get_lt c)
        rw [e3]
        by_cases ok : a + 1 < e ∧ decimal ((t.drop (a + 1)).take (e - (a + 1))) ≤ 65535
        · rw [if_pos ok]
          exact .inl ⟨_, _, _, _, .port q a1 lt c e1 ok.1 ok.2, e2, rfl⟩
        · rw [if_neg ok]
          dsimp only
          by_cases lt2 : a + 1 < e
          · refine .inr (.inl ⟨⟨a + 1, get_lt c, rfl, runAt_first e1 lt2⟩, ?_⟩)
            intro s p n b hb
            cases hb with
            | none x => exact x q
            | server _ r _ x => cases runAt_one a1 r; exact x c
            | port _ r _ _ y z w => cases runAt_one a1 r; cases runAt_one e1 y; exact ok ⟨lt2, w⟩
            | colon _ r _ _ y => cases runAt_one a1 r; cases runAt_one e1 y; omega
          · have : e = a + 1 := by have := e1.1; omega
            subst this
            exact .inl ⟨_, _, _, _, .colon q a1 lt c e1, e2, rfl⟩
      · rw [decide_eq_false c]
        exact .inl ⟨_, _, _, _, .server q a1 lt c, a2, rfl⟩
    · rw [if_neg lt]
      refine .inr (.inr ⟨?_, rfl⟩)
      intro s p n b hb
      cases hb with
      | none x => exact x q
      | server _ r y => cases runAt_one a1 r; exact lt y
      | port _ r y => cases runAt_one a1 r; exact lt y
      | colon _ r y => cases runAt_one a1 r; exact lt y
  · rw [decide_eq_false q]
    exact .inl ⟨_, _, _, _, .none q, hi, rfl⟩

theorem authority_one {lower : Int → Int} {d : Nat} {t : List Int} {i : Nat} {s s' p p' : Iv} {n n' a a' : Nat} (h : Authority lower d t i s p n a) (h' : Authority lower d t i s' p' n' a') : s = s' ∧ p = p' ∧ n = n' ∧ a = a' := by
  cases h with
  | none x =>
    cases h' with
    | none => exact ⟨rfl, rfl, rfl, rfl⟩
    | server q => exact absurd q x
    | port q => exact absurd q x
    | colon q => exact absurd q x
  | server q r lt c =>
    cases h' with
    | none x => exact absurd q x
    | server _ r' => cases runAt_one r r'; exact ⟨rfl, rfl, rfl, rfl⟩
    | port _ r' _ c' => cases runAt_one r r'; exact absurd c' c
    | colon _ r' _ c' => cases runAt_one r r'; exact absurd c' c
  | port q r lt c e l2 w =>
    cases h' with
    | none x => exact absurd q x
    | server _ r' _ c' => cases runAt_one r r'; exact absurd c c'
    | port _ r' _ _ e' => cases runAt_one r r'; cases runAt_one e e'; exact ⟨rfl, rfl, rfl, rfl⟩
    | colon _ r' _ _ e' => cases runAt_one r r'; cases runAt_one e e'; omega
  | colon q r lt c e =>
    cases h' with
    | none x => exact absurd q x
    | server _ r' _ c' => cases runAt_one r r'; exact absurd c c'
    | port _ r' _ _ e' => cases runAt_one r r'; cases runAt_one e e'; omega
    | colon _ r' => cases runAt_one r r'; exact ⟨rfl, rfl, rfl, rfl⟩

theorem segs_one {t : List Int} {a : Nat} {l l' : List (Nat × Nat)} {e e' : Nat} (h : SegsAt t a l e) (h' : SegsAt t a l' e') : l = l' ∧ e = e' := by
  induction h generalizing l' e' with
  | last r n =>
    cases h' with
    | last r' => cases runAt_one r r'; exact ⟨rfl, rfl⟩
    | more r' q => cases runAt_one r r'; exact absurd q n
  | more r q _ ih =>
    cases h' with
    | last r' n => cases runAt_one r r'; exact absurd q n
    | more r' _ s => cases runAt_one r r'; obtain ⟨rfl, rfl⟩ := ih s; exact ⟨rfl, rfl⟩

theorem segLoop_spec {v : Env} {t : List Int} (h : v.Ok t) : ∀ (fuel : Nat) {a e : Nat} {acc : List (Nat × Nat)}, RunAt SegmentChar t a e → e ≤ t.length → t.length - e < fuel →
    ∃ l f, SegsAt t a l f ∧ f ≤ t.length ∧ segLoop v fuel e ((a, e) :: acc) = some (l.reverse ++ acc, f) := by
  intro fuel
  induction fuel with
  | zero => intro a e acc _ _ q; omega
  | succ fuel ih =>
    intro a e acc hr he hf
    unfold segLoop
    rw [peek_eq h he]
    cases hc : t[e]? with
    | none => exact ⟨[(a, e)], e, .last hr (by rw [hc]; exact fun q => nomatch q), he, rfl⟩
    | some c =>
      dsimp only
      by_cases q : c = 47
      · rw [if_pos q]
        subst q
        have hl := get_lt hc
        obtain ⟨e', e1, e2, e3⟩ := scan_to h isSegment_spec hl
        unfold urlSegment
        rw [e1]
        dsimp only
        have := e2.1
        obtain ⟨l, f, f1, f2, f3⟩ := ih (acc := (a, e) :: acc) e2 e3 (by omega)
        exact ⟨(a, e) :: l, f, .more hr hc f1, f2, by rw [f3]; simp⟩
      · rw [if_neg q]
        exact ⟨[(a, e)], e, .last hr (by rw [hc]; intro x; cases x; exact q rfl), he, rfl⟩

/-- **C91** (paths): a path is matched where there is a slash, with all its segments; at the very end of the limit see `url_limit`. -/
theorem path_spec {v : Env} {t : List Int} (h : v.Ok t) {i : Nat} (hi : i ≤ t.length) (hb : i < t.length ∨ below v.fin i = true) :
    (t[i]? = some 47 ∧ ∃ l e, SegsAt t (i + 1) l e ∧ e ≤ t.length ∧ urlAbsPath v i = some (some (l, e))) ∨ (t[i]? ≠ some 47 ∧ urlAbsPath v i = some none) := by
  have hb' : below v.fin i = true := by
    rcases hb with q | q
    · cases hf : v.fin with
      | none => rfl
      | some n => have := text_len_fin h hf; simp [below]; omega
    · exact q
  have raw := raw_is h hi (c := 47) (by decide)
  rw [if_pos hb'] at raw
  unfold urlAbsPath
  rw [if_pos hb', raw]
  by_cases q : t[i]? = some 47
  · rw [decide_eq_true q]
    dsimp only
    obtain ⟨e, e1, e2, e3⟩ := scan_to h isSegment_spec (get_lt q)
    unfold urlSegment
    rw [e1]
    dsimp only
    obtain ⟨l, f, f1, f2, f3⟩ := segLoop_spec h (fuelOf v) (acc := []) e2 e3 (by have := ok_len h; unfold fuelOf; omega)
    rw [f3]
    exact .inl ⟨q, l, f, f1, f2, by simp⟩
  · rw [decide_eq_false q]
    exact .inr ⟨q, rfl⟩

/-- The segments with slashes between them are the text. -/
theorem segs_join {t : List Int} {a : Nat} {l : List (Nat × Nat)} {e : Nat} (h : SegsAt t a l e) : List.intercalate [47] (l.map fun q => (t.drop q.1).take (q.2 - q.1)) = (t.drop a).take (e - a) ∧ l ≠ [] ∧ a ≤ e := by
  induction h with
  | last r n => exact ⟨by simp [List.intercalate], by simp, r.1⟩
  | @more a b l e r q _ ih =>
    obtain ⟨ih, hl, hle⟩ := ih
    refine ⟨?_, by simp, by have := r.1; omega⟩
    have hab := r.1
    have e1 : (t.drop a).take (e - a) = (t.drop a).take (b - a) ++ 47 :: (t.drop (b + 1)).take (e - (b + 1)) := by
      rw [show e - a = (b - a) + (e - b) from by omega, List.take_add, List.drop_drop, show a + (b - a) = b from by omega, take_run q hle]
    rw [e1, ← ih]
    cases l with
    | nil => exact absurd rfl hl
    | cons x l => simp [List.intercalate, List.intersperse]

/-- 6251: what follows the text can be read and is no equals sign. -/
def Beyond (v : Env) (t : List Int) : Prop := ∃ c, rd v.s t.length = some c ∧ c ≠ 61

theorem urlParamAt_one {t : List Int} {i : Nat} {p p' : UrlParam} (h : UrlParamAt t i p) (h' : UrlParamAt t i p') : p = p' := by
  cases h with
  | name r _ n =>
    cases h' with
    | name r' => cases runAt_one r r'; rfl
    | value r' _ q => cases runAt_one r r'; exact absurd q n
  | value r _ q e =>
    cases h' with
    | name r' _ n => cases runAt_one r r'; exact absurd q n
    | value r' _ _ e' => cases runAt_one r r'; cases runAt_one e e'; rfl

theorem urlParam_cases {v : Env} {t : List Int} (h : v.Ok t) (hr : Beyond v t) {i : Nat} (hi : i ≤ t.length) :
    (∃ p, UrlParamAt t i p ∧ i < p.interval.2 ∧ p.interval.2 ≤ t.length ∧ urlParam v i = some (some p)) ∨ ((∀ p, ¬ UrlParamAt t i p) ∧ urlParam v i = some none) := by
  obtain ⟨a, a1, a2, a3⟩ := scan_to h isParamName_spec hi
  unfold urlParam
  rw [a1]
  dsimp only
  by_cases lt : i < a
  · rw [if_pos lt]
    have hx : ∃ x, rd v.s a = some x ∧ (x = 61 ↔ t[a]? = some 61) := by
      by_cases q : a < t.length
      · have q' := q
        rw [h.text] at q'
        refine ⟨_, text_rd q', ?_⟩
        have : t[a]? = some (Str.text v.s v.fin)[a] := by rw [h.text]; exact List.getElem?_eq_getElem q'
        rw [this]
        simp
      · have : a = t.length := by omega
        subst this
        obtain ⟨c, c1, c2⟩ := hr
        refine ⟨c, c1, ?_⟩
        simp [c2]
    obtain ⟨x, x1, x2⟩ := hx
    rw [x1]
    dsimp only
    by_cases q : x = 61
    · rw [if_pos q]
      have ht := x2.1 q
      obtain ⟨e, e1, e2, e3⟩ := scan_to h isParamValue_spec (get_lt ht)
      rw [e1]
      have := e2.1
      exact .inl ⟨_, .value a2 lt ht e2, by dsimp only; omega, e3, rfl⟩
    · rw [if_neg q]
      exact .inl ⟨_, .name a2 lt (fun y => q (x2.2 y)), lt, a3, rfl⟩
  · rw [if_neg lt]
    refine .inr ⟨?_, rfl⟩
    intro p hp
    cases hp with
    | name r l => cases runAt_one a2 r; exact lt l
    | value r l => cases runAt_one a2 r; exact lt l

theorem urlParamAt_first {t : List Int} {i : Nat} {p : UrlParam} (h : UrlParamAt t i p) : ∃ c, t[i]? = some c ∧ ParamNameChar c := by
  cases h with
  | name r l => exact runAt_first r l
  | value r l => exact runAt_first r l

theorem queryLoop_spec {v : Env} {t : List Int} (h : v.Ok t) (hr : Beyond v t) : ∀ (fuel : Nat) {e : Nat} {acc : List UrlParam}, e ≤ t.length → t.length - e < fuel →
    ∃ l f, QueryAt t e l f ∧ queryLoop v fuel e acc = some (l.reverse ++ acc, f) := by
  intro fuel
  induction fuel with
  | zero => intro e acc _ q; omega
  | succ fuel ih =>
    intro e acc he hf
    unfold queryLoop
    rw [peek_eq h he]
    cases hc : t[e]? with
    | none =>
      refine ⟨[], e, .stop (by rw [hc]; exact fun q => nomatch q) ?_, rfl⟩
      intro p hp
      obtain ⟨c, q, -⟩ := urlParamAt_first hp
      rw [hc] at q; cases q
    | some c =>
      dsimp only
      by_cases b : isBlank c = true
      · rw [if_pos b]
        refine ⟨[], e, .stop ?_ ?_, rfl⟩
        · rw [hc]; intro q; cases q; exact absurd b (by decide)
        · intro p hp
          obtain ⟨d, q, r⟩ := urlParamAt_first hp
          rw [hc] at q; cases q
          exact r.1 ((isBlank_spec c).1 b)
      · rw [if_neg b]
        by_cases amp : c = 38
        · rw [if_pos amp]
          subst amp
          have hl := get_lt hc
          obtain ⟨l, f, f1, f2⟩ := ih (acc := acc) hl (by omega)
          exact ⟨l, f, .amp hc f1, f2⟩
        · rw [if_neg amp]
          rcases urlParam_cases h hr he with ⟨p, p1, p2, p3, p4⟩ | ⟨n, p4⟩
          · rw [p4]
            dsimp only
            obtain ⟨l, f, f1, f2⟩ := ih (acc := p :: acc) p3 (by omega)
            exact ⟨p :: l, f, .param p1 f1, by rw [f2]; simp⟩
          · rw [p4]
            exact ⟨[], e, .stop (by rw [hc]; intro x; cases x; exact amp rfl) n, rfl⟩

theorem queryAt_one {t : List Int} {e : Nat} {l l' : List UrlParam} {f f' : Nat} (h : QueryAt t e l f) (h' : QueryAt t e l' f') : l = l' ∧ f = f' := by
  have no : ∀ {e p}, t[e]? = some 38 → ¬ UrlParamAt t e p := by
    intro e p q hp
    obtain ⟨c, r, s⟩ := urlParamAt_first hp
    rw [q] at r; cases r
    exact s.2.1 rfl
  induction h generalizing l' f' with
  | stop n1 n2 =>
    cases h' with
    | stop => exact ⟨rfl, rfl⟩
    | amp q => exact absurd q n1
    | param q => exact absurd q (n2 _)
  | amp q _ ih =>
    cases h' with
    | stop n1 => exact absurd q n1
    | amp _ r => exact ih r
    | param r => exact absurd r (no q)
  | param q _ ih =>
    cases h' with
    | stop _ n2 => exact absurd q (n2 _)
    | amp r => exact absurd q (no r)
    | param q' r => cases urlParamAt_one q q'; obtain ⟨rfl, rfl⟩ := ih r; exact ⟨rfl, rfl⟩

theorem query_one {t : List Int} {e : Nat} {l l' : List UrlParam} {f f' : Nat} (h : Query t e l f) (h' : Query t e l' f') : l = l' ∧ f = f' := by
  cases h with
  | none n =>
    cases h' with
    | none => exact ⟨rfl, rfl⟩
    | some q => exact absurd q n
  | some q a =>
    cases h' with
    | none n => exact absurd q n
    | some _ b => exact queryAt_one a b

theorem query_spec {v : Env} {t : List Int} (h : v.Ok t) (hr : Beyond v t) {e : Nat} (he : e ≤ t.length) : ∃ l f, Query t e l f ∧ urlQuery v e = some (l, f) := by
  unfold urlQuery
  rw [raw_is h he (by decide)]
  by_cases q : t[e]? = some 63
  · rw [decide_eq_true q]
    dsimp only
    have hl := get_lt q
    obtain ⟨l, f, f1, f2⟩ := queryLoop_spec h hr (fuelOf v) (acc := []) hl (by have := ok_len h; unfold fuelOf; omega)
    rw [f2]
    exact ⟨l, f, .some q f1, by simp⟩
  · rw [decide_eq_false q]
    exact ⟨[], e, .none q, rfl⟩

/-- There is just one URL at a place. -/
theorem httpUrlAt_one {lower : Int → Int} {d : Nat} {t : List Int} {i : Nat} {u u' : HttpUrl} (h : HttpUrlAt lower d t i u) (h' : HttpUrlAt lower d t i u') : u = u' := by
  obtain ⟨a, b, e, h1, -, h3, h4, h5, h6⟩ := h
  obtain ⟨a', b', e', h1', -, h3', h4', h5', h6'⟩ := h'
  obtain ⟨x1, x2, x3, rfl⟩ := authority_one h1 h1'
  obtain ⟨x4, rfl⟩ := segs_one h3 h3'
  obtain ⟨x5, rfl⟩ := query_one h5 h5'
  cases u; cases u'
  simp_all

/-- The text does not end, by its limit, where a path should begin. -/
def PathRoom (v : Env) (t : List Int) (i : Nat) : Prop := ∀ s p n, Authority v.lower 0 t i s p n t.length → below v.fin t.length = true

theorem url_reads {v : Env} {t : List Int} (h : v.Ok t) (hr : Beyond v t) {i : Nat} (hi : i ≤ t.length) (hp : PathRoom v t i) :
    (∃ u, HttpUrlAt v.lower 0 t i u ∧ httpUrl v i = some (true, u)) ∨ ((∀ u, ¬ HttpUrlAt v.lower 0 t i u) ∧ httpUrl v i = some (false, noUrl)) := by
  unfold httpUrl
  rcases authority_spec h hi with ⟨s, p, n, a, a1, a2, a3⟩ | ⟨⟨j, j1, j2, c, j3, j4⟩, no⟩ | ⟨no, a3⟩
  · rw [a3]
    dsimp only
    have hb : a < t.length ∨ below v.fin a = true := by
      by_cases q : a < t.length
      · exact .inl q
      · have : a = t.length := by omega
        subst this
        exact .inr (hp _ _ _ a1)
    rcases path_spec h a2 hb with ⟨q, l, b, l1, l2, l3⟩ | ⟨q, l3⟩
    · rw [l3]
      dsimp only
      obtain ⟨ps, e, e1, e2⟩ := query_spec h hr l2
      rw [e2]
      exact .inl ⟨_, ⟨a, b, e, a1, q, l1, rfl, e1, rfl⟩, rfl⟩
    · rw [l3]
      refine .inr ⟨?_, rfl⟩
      rintro u ⟨a', _, _, h1, h2, -⟩
      obtain ⟨-, -, -, rfl⟩ := authority_one a1 h1
      exact q h2
  · rw [j2]
    dsimp only
    have hl := get_lt j3
    rcases path_spec h j1 (.inl hl) with ⟨q, -⟩ | ⟨-, l3⟩
    · rw [j3] at q
      cases q
      exact absurd j4 (by unfold Decimal; decide)
    · rw [l3]
      refine .inr ⟨?_, rfl⟩
      rintro u ⟨a', _, _, h1, -⟩
      exact no _ _ _ _ h1
  · rw [a3]
    refine .inr ⟨?_, rfl⟩
    rintro u ⟨a', _, _, h1, -⟩
    exact no _ _ _ _ h1

/-- A colon after the server, and no digit after that -/
def EmptyPort (lower : Int → Int) (t : List Int) (i : Nat) : Prop := Scheme lower t i ∧ ∃ a, RunAt ServerChar t (i + 7) a ∧ t[a]? = some 58 ∧ RunAt Decimal t (a + 1) (a + 1)

theorem authority_port {lower : Int → Int} {d d' : Nat} {t : List Int} {i : Nat} {s p : Iv} {n a : Nat} (hn : ¬ EmptyPort lower t i) (h : Authority lower d t i s p n a) : Authority lower d' t i s p n a := by
  cases h with
  | none x => exact .none x
  | server a b c d => exact .server a b c d
  | port a b c d e f g => exact .port a b c d e f g
  | colon a b c d e => exact absurd ⟨a, _, b, d, e⟩ hn

/-- **C91** If what follows the text is no equals sign, the text does not end, by its limit, before the path, and the port is not just a colon, the parser matches exactly the URL that is there, with all its parts, and nothing where there is none. -/
theorem http_url_partial {v : Env} {t : List Int} (h : v.Ok t) (hr : Beyond v t) {i : Nat} (hi : i ≤ t.length) (hp : PathRoom v t i) (hn : ¬ EmptyPort v.lower t i) :
    (∀ u, HttpUrlAt v.lower 80 t i u ↔ httpUrl v i = some (true, u)) ∧ ((∀ u, ¬ HttpUrlAt v.lower 80 t i u) → httpUrl v i = some (false, noUrl)) := by
  have conv : ∀ u d d', HttpUrlAt v.lower d t i u → HttpUrlAt v.lower d' t i u := by
    rintro u d d' ⟨a, b, e, h1, h2⟩
    exact ⟨a, b, e, authority_port hn h1, h2⟩
  rcases url_reads h hr hi hp with ⟨u, h1, h2⟩ | ⟨no, h2⟩
  · refine ⟨?_, fun q => absurd (conv u 0 80 h1) (q u)⟩
    intro u'
    constructor
    · intro q
      cases httpUrlAt_one (conv u' 80 0 q) h1
      exact h2
    · intro q
      rw [h2] at q; cases q
      exact conv u 0 80 h1
  · refine ⟨?_, fun _ => h2⟩
    intro u
    constructor
    · intro q; exact absurd (conv u 80 0 q) (no u)
    · intro q; rw [h2] at q; cases q

/-- **C91** So it does if the text ends in a terminator. -/
theorem http_url_terminated_partial {v : Env} {t : List Int} (h : v.Ok t) (hz : below v.fin t.length = true) {i : Nat} (hi : i ≤ t.length) (hn : ¬ EmptyPort v.lower t i) :
    (∀ u, HttpUrlAt v.lower 80 t i u ↔ httpUrl v i = some (true, u)) ∧ ((∀ u, ¬ HttpUrlAt v.lower 80 t i u) → httpUrl v i = some (false, noUrl)) := by
  have hr : Beyond v t := by
    have := rd_eq h.valid (i := t.length) (by rw [h.text]; exact Nat.le_refl _) hz
    rw [← h.text, List.getElem?_eq_none (Nat.le_refl _)] at this
    exact ⟨0, this, by decide⟩
  exact http_url_partial h hr hi (fun _ _ _ _ => hz) hn

/-- What C91 lacks: the port of `http://h:/` should be 80, but it is 0. -/
theorem url_port : (∀ d, HttpUrlAt id d [104, 116, 116, 112, 58, 47, 47, 104, 58, 47] 0 ⟨some (7, 8), none, d, some (9, 10), [(10, 10)], [], some (0, 10)⟩) ∧
    httpUrl (ipEnv [104, 116, 116, 112, 58, 47, 47, 104, 58, 47]) 0 = some (true, ⟨some (7, 8), none, 0, some (9, 10), [(10, 10)], [], some (0, 10)⟩) := by
  refine ⟨fun d => ?_, by decide +kernel⟩
  refine ⟨9, 10, 10, .colon rfl (a := 8) ⟨by decide, ?_, ?_⟩ (by decide) rfl (runAt_nil ?_), rfl, .last (runAt_nil ?_) (by decide), rfl, .none (by decide), rfl⟩
  · intro j h1 h2
    have : j = 7 := by omega
    subst this
    exact ⟨104, rfl, by unfold ServerChar Blank; omega⟩
  · intro c q; cases q; unfold ServerChar; omega
  · intro c q; cases q; unfold Decimal; omega
  · intro c q; cases q

/-- What C91 lacks: where the limit ends the text before the path, the parser matches a path outside the text. -/
theorem url_limit : (∀ d u, ¬ HttpUrlAt id d [] 0 u) ∧ httpUrl ⟨[120], some 0, false, false, id, isspace, ispunct⟩ 0 = some (true, ⟨none, none, 80, some (0, 1), [(1, 1)], [], some (0, 1)⟩) := by
  refine ⟨?_, by decide +kernel⟩
  rintro d u ⟨a, b, e, -, h, -⟩
  cases h

/-- What C91 lacks: a parameter that ends at the limit looks at the character after it: this is undefined if there is none, and if it is an equals sign a value outside the text is matched. -/
theorem url_outside : httpUrl ⟨[47, 63, 97], some 3, false, false, id, isspace, ispunct⟩ 0 = none ∧
    httpUrl ⟨[47, 63, 97, 61, 98], some 3, false, false, id, isspace, ispunct⟩ 0 = some (true, ⟨none, none, 80, some (0, 1), [(1, 1)], [⟨(2, 3), some (4, 4), (2, 4)⟩], some (0, 4)⟩) := by decide +kernel

-- `HTTP://h:8/a/b?c&d=e ` in lower case
example : httpUrl (ipEnv [104, 116, 116, 112, 58, 47, 47, 104, 58, 56, 47, 97, 47, 98, 63, 99, 38, 100, 61, 101, 32]) 0 =
    some (true, ⟨some (7, 8), some (9, 10), 8, some (10, 14), [(11, 12), (13, 14)], [⟨(15, 16), none, (15, 16)⟩, ⟨(17, 18), some (19, 20), (17, 20)⟩], some (0, 20)⟩) := by decide +kernel
example : (ipEnv [47]).Ok [47] ∧ below (ipEnv [47]).fin 1 = true ∧ ¬ EmptyPort id [47] 0 :=
  ⟨⟨.inl (by decide), by decide, (fun n q => nomatch q), fun c => Iff.rfl⟩, rfl, fun q => absurd q.1 (by unfold Scheme; decide)⟩

end Verif.Parser
