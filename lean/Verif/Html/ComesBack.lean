import Verif.Html.CssEscape
import Verif.Parser.Html
/-
Escaping, and the parsers that read what was escaped (include/stdex/html.hpp 290-660, parser.hpp 6180-6380 and 7450-8300): what a program escapes and writes into a URL, a style or a tag is what another program gets that parses
the document and undoes the escape where the text is.
-/
namespace Verif.Html
open Verif.Str Verif.Sgml Verif.Parser

/-! ### The writing program -/

/-- Appends the path: a slash and the escaped segment, for each (`url_escape`, html.hpp 319-385). -/
def addSegs : List (List Int) → List Int → Option (List Int)
  | [], d => some d
  | s :: r, d => (urlEscape s s.length (d ++ asc "/")).bind (addSegs r)

/-- Appends `name` or `name=value`, escaped. -/
def addParam (p : List Int × Option (List Int)) (d : List Int) : Option (List Int) :=
  (urlEscape p.1 p.1.length d).bind fun d => match p.2 with
    | none => some d
    | some x => urlEscape x x.length (d ++ asc "=")

/-- Appends the parameters, behind a question mark or an ampersand. -/
def addParams : List Int → List (List Int × Option (List Int)) → List Int → Option (List Int)
  | _, [], d => some d
  | mark, p :: r, d => (addParam p (d ++ mark)).bind (addParams (asc "&") r)

/-- Where the URL begins: with the path, a server, or a server and a port. -/
inductive Origin where
  | path
  | server (host : List Int)
  | port (host digits : List Int)

def Origin.text : Origin → List Int
  | .path => []
  | .server h => asc "http://" ++ h
  | .port h d => asc "http://" ++ h ++ asc ":" ++ d

/-- The server has characters that servers have, the port is a number of 16 bits. -/
def Origin.Ok : Origin → Prop
  | .path => True
  | .server h => h ≠ [] ∧ ∀ c ∈ h, ServerChar c
  | .port h d => (h ≠ [] ∧ ∀ c ∈ h, ServerChar c) ∧ d ≠ [] ∧ (∀ c ∈ d, Decimal c) ∧ decimal d ≤ 65535

def Origin.host : Origin → Option (List Int)
  | .path => none
  | .server h => some h
  | .port h _ => some h

def Origin.number : Origin → Nat
  | .path => 80
  | .server _ => 80
  | .port _ d => decimal d

/-- A URL of parts. -/
def writeUrl (o : Origin) (segs : List (List Int)) (params : List (List Int × Option (List Int))) : Option (List Int) := (addSegs segs o.text).bind (addParams (asc "?") params)

/-! ### The reading program -/

/-- `url_unescape` (html.hpp 270-310) of a part of the memory `s`, in place. -/
def unescapeAt (T : CT) (s : List Int) (p : Nat × Nat) : Option (List Int) := urlUnescape T (s.drop p.1) (p.2 - p.1) 0 []

/-! ### Proof -/

/-- Octets that are no terminators. -/
def Plain8 (T : CT) (s : List Int) : Prop := ∀ c ∈ s, T.has c ∧ c ≠ 0

/-- What is written. -/
def enc (s : List Int) : List Int := s.flatMap urlEscapeChar

/-- The characters of what is written. -/
def marks : List Int := unescaped ++ asc "%"

theorem enc_all : ∀ (sg : Bool) (n : Fin 256), (urlEscapeChar (octet ⟨8, sg⟩ n.val)).all (fun x => decide (x ∈ marks)) = true ∧ urlEscapeChar (octet ⟨8, sg⟩ n.val) ≠ [] := by decide +kernel

theorem enc_char {T : CT} (hT : T.bits = 8) {c : Int} (hc : T.has c) : (∀ x ∈ urlEscapeChar c, x ∈ marks) ∧ urlEscapeChar c ≠ [] := by
  obtain ⟨n, rfl⟩ := octet_of hT hc
  have := enc_all T.signed n
  rw [← hT] at this
  rw [show (⟨T.bits, T.signed⟩ : CT) = T from rfl] at this
  exact ⟨fun x hx => by simpa using List.all_eq_true.1 this.1 x hx, this.2⟩

theorem enc_marks {T : CT} (hT : T.bits = 8) {s : List Int} (h : Plain8 T s) : ∀ x ∈ enc s, x ∈ marks := by
  intro x hx
  obtain ⟨c, hc, hx⟩ := List.mem_flatMap.1 hx
  exact (enc_char hT (h c hc).1).1 x hx

theorem enc_nil {T : CT} (hT : T.bits = 8) {s : List Int} (h : Plain8 T s) (hs : s ≠ []) : enc s ≠ [] := by
  cases s with
  | nil => exact absurd rfl hs
  | cons c s =>
    unfold enc
    rw [List.flatMap_cons]
    intro e
    exact (enc_char hT (h c List.mem_cons_self).1).2 (List.append_eq_nil_iff.1 e).1

theorem marks_ok : ∀ x ∈ marks, 32 < x ∧ x < 127 ∧ x ≠ 38 ∧ x ≠ 61 ∧ x ≠ 63 ∧ x ≠ 47 := by
  have : marks.all (fun x => decide (32 < x ∧ x < 127 ∧ x ≠ 38 ∧ x ≠ 61 ∧ x ≠ 63 ∧ x ≠ 47)) = true := by decide +kernel
  intro x hx
  simpa using List.all_eq_true.1 this x hx

theorem enc_seg {T : CT} (hT : T.bits = 8) {s : List Int} (h : Plain8 T s) : (∀ x ∈ enc s, SegmentChar x) ∧ (∀ x ∈ enc s, ParamNameChar x) ∧ ∀ x ∈ enc s, ParamValueChar x := by
  refine ⟨fun x hx => ?_, fun x hx => ?_, fun x hx => ?_⟩ <;> have := marks_ok x (enc_marks hT h x hx)
  · refine ⟨?_, by omega, by omega⟩; unfold Blank; omega
  · refine ⟨?_, by omega, by omega⟩; unfold Blank; omega
  · refine ⟨?_, by omega⟩; unfold Blank; omega

theorem escape_appends {T : CT} {s : List Int} (h : Plain8 T s) (d : List Int) : urlEscape s s.length d = some (d ++ enc s) := by
  unfold urlEscape
  rw [eachChar_eq _ (Or.inr ⟨_, rfl, Nat.le_refl _⟩), text_self fun c hc => (h c hc).2]
  rfl

/-- Wherever it is, what was escaped can be had. -/
theorem unescape_part {T : CT} (hT : T.bits = 8) {s : List Int} (h : Plain8 T s) {m pre post : List Int} (hm : m = pre ++ enc s ++ post) :
    unescapeAt T m (pre.length, pre.length + (enc s).length) = some s := by
  obtain ⟨o, e, r⟩ := url_round_trip (s := s) (count := s.length) hT (Or.inr ⟨_, rfl, Nat.le_refl _⟩) (fun c hc => by rw [text_self fun c hc => (h c hc).2] at hc; exact (h c hc).1) []
  rw [escape_appends h] at e
  have e := Option.some.inj e
  simp only [List.nil_append] at e
  subst e
  unfold unescapeAt
  rw [hm, List.append_assoc, List.drop_left, show pre.length + (enc s).length - pre.length = (enc s).length from by omega, r post [], text_self fun c hc => (h c hc).2]
  rfl

theorem run_of {p : Int → Prop} {t pre w post : List Int} (ht : t = pre ++ w ++ post) (hw : ∀ c ∈ w, p c) (hp : ∀ c, post.head? = some c → ¬ p c) : RunAt p t pre.length (pre.length + w.length) := by
  subst ht
  refine ⟨by omega, ?_, ?_⟩
  · intro j h1 h2
    have : j - pre.length < w.length := by omega
    refine ⟨w[j - pre.length], ?_, hw _ (List.getElem_mem _)⟩
    rw [List.append_assoc, List.getElem?_append_right h1, List.getElem?_append_left this, List.getElem?_eq_getElem this]
  · intro c hc
    rw [List.append_assoc, List.getElem?_append_right (by omega), List.getElem?_append_right (by omega), show pre.length + w.length - pre.length - w.length = 0 from by omega, ← List.head?_eq_getElem?] at hc
    exact hp c hc

theorem at_end {t pre post : List Int} (ht : t = pre ++ post) : t[pre.length]? = post.head? := by
  subst ht
  rw [List.getElem?_append_right (Nat.le_refl _), Nat.sub_self, ← List.head?_eq_getElem?]

/-! ### Paths -/

def segsText (ws : List (List Int)) : List Int := ws.flatMap fun w => asc "/" ++ enc w

theorem addSegs_eq {T : CT} : ∀ (ws : List (List Int)) (d : List Int), (∀ w ∈ ws, Plain8 T w) → addSegs ws d = some (d ++ segsText ws)
  | [], d, _ => by rw [addSegs, segsText, List.flatMap_nil, List.append_nil]
  | w :: r, d, h => by
    rw [addSegs, escape_appends (h w List.mem_cons_self), Option.bind_some, addSegs_eq r _ fun x hx => h x (List.mem_cons_of_mem _ hx)]
    simp only [segsText, List.flatMap_cons, List.append_assoc]

theorem slash_asc : asc "/" = [47] := by decide +kernel

theorem segs_at {T : CT} (hT : T.bits = 8) {t m post : List Int} (hm : t <+: m) : ∀ (ws : List (List Int)) (pre : List Int), ws ≠ [] → (∀ w ∈ ws, Plain8 T w) → t = pre ++ segsText ws ++ post →
    (∀ c, post.head? = some c → ¬ SegmentChar c ∧ c ≠ 47) →
    ∃ l, SegsAt t (pre.length + 1) l (pre.length + (segsText ws).length) ∧ l.map (unescapeAt T m) = ws.map some
  | [], _, h, _, _, _ => absurd rfl h
  | w :: r, pre, _, hw, ht, hp => by
    obtain ⟨more, rfl⟩ := hm
    have e : segsText (w :: r) = asc "/" ++ enc w ++ segsText r := by simp only [segsText, List.flatMap_cons]
    have ht' : t = (pre ++ [47]) ++ enc w ++ (segsText r ++ post) := by rw [ht, e, slash_asc]; simp only [List.append_assoc]
    have len : (pre ++ [47]).length = pre.length + 1 := by rw [List.length_append]; rfl
    have un := unescape_part hT (hw w List.mem_cons_self) (m := t ++ more) (pre := pre ++ [47]) (post := segsText r ++ post ++ more) (by rw [ht']; simp only [List.append_assoc])
    have seg := (enc_seg hT (hw w List.mem_cons_self)).1
    rw [len] at un
    cases r with
    | nil =>
      have run := run_of (p := SegmentChar) ht' seg (fun c hc => (hp c hc).1)
      have fin := at_end (t := t) (pre := pre ++ [47] ++ enc w) (post := post) ht'
      rw [List.length_append] at fin
      rw [len] at run fin
      refine ⟨[(pre.length + 1, pre.length + 1 + (enc w).length)], ?_, ?_⟩
      · have : pre.length + (segsText [w]).length = pre.length + 1 + (enc w).length := by
          rw [e, slash_asc]; simp only [segsText, List.flatMap_nil, List.append_nil, List.length_append, List.length_cons, List.length_nil]; omega
        rw [this]
        exact .last run (by rw [fin]; exact fun q => (hp _ q).2 rfl)
      · rw [List.map_cons, un]; rfl
    | cons w2 r2 =>
      have hd : (segsText (w2 :: r2) ++ post).head? = some 47 := by simp only [segsText, List.flatMap_cons, slash_asc]; rfl
      have run := run_of (p := SegmentChar) ht' seg (fun c hc => by rw [hd] at hc; cases hc; exact fun q => q.2.2 rfl)
      have ht2 : t = (pre ++ [47] ++ enc w) ++ segsText (w2 :: r2) ++ post := by rw [ht']; simp only [List.append_assoc]
      have fin := at_end (t := t) (pre := pre ++ [47] ++ enc w) (post := segsText (w2 :: r2) ++ post) (by rw [ht2]; simp only [List.append_assoc])
      obtain ⟨l, h1, h2⟩ := segs_at hT (List.prefix_append t more) (w2 :: r2) (pre ++ [47] ++ enc w) (by simp) (fun x hx => hw x (List.mem_cons_of_mem _ hx)) ht2 hp
      rw [hd, List.length_append] at fin
      rw [List.length_append] at h1
      rw [len] at run fin h1
      refine ⟨(pre.length + 1, pre.length + 1 + (enc w).length) :: l, ?_, ?_⟩
      · have : pre.length + (segsText (w :: w2 :: r2)).length = pre.length + 1 + (enc w).length + (segsText (w2 :: r2)).length := by
          rw [e, slash_asc]; simp only [List.length_append, List.length_cons, List.length_nil]; omega
        rw [this]
        exact .more run fin h1
      · rw [List.map_cons, un, h2]; rfl

/-! ### Parameters -/

abbrev Pair := List Int × Option (List Int)

def encP (p : Pair) : List Int := enc p.1 ++ match p.2 with
  | none => []
  | some x => [61] ++ enc x

def paramsText : Int → List Pair → List Int
  | _, [] => []
  | mark, p :: r => [mark] ++ encP p ++ paramsText 38 r

/-- Names and values without terminators, and no empty names. -/
def PairOk (T : CT) (p : Pair) : Prop := p.1 ≠ [] ∧ Plain8 T p.1 ∧ ∀ x, p.2 = some x → Plain8 T x

theorem addParam_eq {T : CT} {p : Pair} (h : PairOk T p) (d : List Int) : addParam p d = some (d ++ encP p) := by
  obtain ⟨n, o⟩ := p
  unfold addParam encP
  rw [escape_appends h.2.1, Option.bind_some]
  cases o with
  | none => simp only [List.append_nil]
  | some x =>
    dsimp only
    rw [escape_appends (h.2.2 x rfl)]
    simp only [List.append_assoc]
    rfl

theorem addParams_eq {T : CT} : ∀ (ps : List Pair) (mark : Int) (w d : List Int), w = [mark] → (∀ p ∈ ps, PairOk T p) → addParams w ps d = some (d ++ paramsText mark ps)
  | [], _, _, d, _, _ => by rw [addParams, paramsText, List.append_nil]
  | p :: r, mark, w, d, hw, h => by
    subst hw
    rw [addParams, addParam_eq (h p List.mem_cons_self), Option.bind_some, addParams_eq r 38 (asc "&") _ (by decide +kernel) fun x hx => h x (List.mem_cons_of_mem _ hx)]
    simp only [paramsText, List.append_assoc]

/-- The parameter as the reading program has it. -/
def gotParam (T : CT) (m : List Int) (q : UrlParam) : Option (List Int) × Option (Option (List Int)) := (unescapeAt T m q.name, q.value.map (unescapeAt T m))

theorem param_at {T : CT} (hT : T.bits = 8) {t m pre post : List Int} (hm : t <+: m) {p : Pair} (h : PairOk T p) (ht : t = pre ++ encP p ++ post) (hp : ∀ c, post.head? = some c → c = 38 ∨ Blank c) :
    ∃ q, UrlParamAt t pre.length q ∧ q.interval.2 = pre.length + (encP p).length ∧ gotParam T m q = (some p.1, p.2.map some) := by
  obtain ⟨more, rfl⟩ := hm
  obtain ⟨n, o⟩ := p
  obtain ⟨hn, h1, h2⟩ := h
  have pos : 0 < (enc n).length := List.length_pos_iff.2 (enc_nil hT h1 hn)
  have notName : ∀ c, c = 38 ∨ Blank c → ¬ ParamNameChar c := by
    rintro c (rfl | hb) q
    · exact q.2.1 rfl
    · exact q.1 hb
  have notValue : ∀ c, c = 38 ∨ Blank c → ¬ ParamValueChar c := by
    rintro c (rfl | hb) q
    · exact q.2 rfl
    · exact q.1 hb
  cases o with
  | none =>
    simp only [encP, List.append_nil] at ht ⊢
    have un := unescape_part hT h1 (m := t ++ more) (pre := pre) (post := post ++ more) (by rw [ht]; simp only [List.append_assoc])
    have run := run_of (p := ParamNameChar) ht (enc_seg hT h1).2.1 fun c hc => notName c (hp c hc)
    have fin := at_end (t := t) (pre := pre ++ enc n) (post := post) ht
    rw [List.length_append] at fin
    refine ⟨_, .name run (by omega) ?_, rfl, ?_⟩
    · rw [fin]; intro q
      rcases hp _ q with q | q
      · exact absurd q (by decide)
      · unfold Blank at q; omega
    · simp only [gotParam, un, Option.map_none]
  | some x =>
    simp only [encP] at ht ⊢
    have hx := h2 x rfl
    have ht1 : t = pre ++ enc n ++ ([61] ++ enc x ++ post) := by rw [ht]; simp only [List.append_assoc]
    have ht2 : t = (pre ++ enc n ++ [61]) ++ enc x ++ post := by rw [ht]; simp only [List.append_assoc]
    have len : (pre ++ enc n ++ [61]).length = pre.length + (enc n).length + 1 := by simp only [List.length_append]; rfl
    have un := unescape_part hT h1 (m := t ++ more) (pre := pre) (post := [61] ++ enc x ++ post ++ more) (by rw [ht]; simp only [List.append_assoc])
    have un2 := unescape_part hT hx (m := t ++ more) (pre := pre ++ enc n ++ [61]) (post := post ++ more) (by rw [ht]; simp only [List.append_assoc])
    have run := run_of (p := ParamNameChar) ht1 (enc_seg hT h1).2.1 fun c hc => by
      have : c = 61 := by simpa using hc.symm
      subst this
      exact fun q => q.2.2 rfl
    have run2 := run_of (p := ParamValueChar) ht2 (enc_seg hT hx).2.2 fun c hc => notValue c (hp c hc)
    have fin := at_end (t := t) (pre := pre ++ enc n) (post := [61] ++ enc x ++ post) ht1
    rw [List.length_append] at fin
    rw [len] at un2 run2
    refine ⟨_, .value run (by omega) (by rw [fin]; rfl) run2, ?_, ?_⟩
    · simp only [List.length_append, List.length_cons, List.length_nil]; omega
    · simp only [gotParam, un, un2, Option.map_some]

theorem query_at {T : CT} (hT : T.bits = 8) {t m post : List Int} (hm : t <+: m) (hp : ∀ c, post.head? = some c → Blank c) : ∀ (ps : List Pair) (pre : List Int) (p : Pair), (∀ q ∈ p :: ps, PairOk T q) →
    t = pre ++ (encP p ++ paramsText 38 ps) ++ post →
    ∃ l, QueryAt t pre.length l (pre.length + (encP p ++ paramsText 38 ps).length) ∧ l.map (gotParam T m) = (p :: ps).map fun q => (some q.1, q.2.map some)
  | [], pre, p, h, ht => by
    simp only [paramsText, List.append_nil] at ht ⊢
    obtain ⟨q, h1, h2, h3⟩ := param_at hT hm (h p List.mem_cons_self) ht fun c hc => .inr (hp c hc)
    have fin := at_end (t := t) (pre := pre ++ encP p) (post := post) ht
    rw [List.length_append] at fin
    refine ⟨[q], .param h1 ?_, by simp only [List.map_cons, List.map_nil, h3]⟩
    rw [h2]
    refine .stop ?_ ?_
    · rw [fin]; intro q; have := hp _ q; unfold Blank at this; omega
    · intro p hh
      obtain ⟨c, k1, k2⟩ := urlParamAt_first hh
      rw [fin] at k1
      exact k2.1 (hp c k1)
  | p2 :: r, pre, p, h, ht => by
    have e : paramsText 38 (p2 :: r) = [38] ++ (encP p2 ++ paramsText 38 r) := by simp only [paramsText, List.append_assoc]
    rw [e] at ht ⊢
    have ht1 : t = pre ++ encP p ++ ([38] ++ (encP p2 ++ paramsText 38 r) ++ post) := by rw [ht]; simp only [List.append_assoc]
    have ht2 : t = (pre ++ encP p ++ [38]) ++ (encP p2 ++ paramsText 38 r) ++ post := by rw [ht]; simp only [List.append_assoc]
    obtain ⟨q, h1, h2, h3⟩ := param_at hT hm (h p List.mem_cons_self) ht1 fun c hc => .inl (by simpa using hc.symm)
    obtain ⟨l, k1, k2⟩ := query_at hT hm hp r (pre ++ encP p ++ [38]) p2 (fun x hx => h x (List.mem_cons_of_mem _ hx)) ht2
    have fin := at_end (t := t) (pre := pre ++ encP p) (post := [38] ++ (encP p2 ++ paramsText 38 r) ++ post) ht1
    have len : (pre ++ encP p ++ [38]).length = pre.length + (encP p).length + 1 := by simp only [List.length_append]; rfl
    rw [List.length_append] at fin
    rw [len] at k1
    refine ⟨q :: l, .param h1 ?_, by rw [List.map_cons, h3, k2]; rfl⟩
    rw [h2]
    refine .amp (by rw [fin]; rfl) ?_
    have : pre.length + (encP p ++ ([38] ++ (encP p2 ++ paramsText 38 r))).length = pre.length + (encP p).length + 1 + (encP p2 ++ paramsText 38 r).length := by
      simp only [List.length_append, List.length_cons, List.length_nil]; omega
    rw [this]
    exact k1

theorem query_of {T : CT} (hT : T.bits = 8) {t m pre post : List Int} (hm : t <+: m) (hp : ∀ c, post.head? = some c → Blank c) {ps : List Pair} (h : ∀ q ∈ ps, PairOk T q) (ht : t = pre ++ paramsText 63 ps ++ post) :
    ∃ l, Query t pre.length l (pre.length + (paramsText 63 ps).length) ∧ l.map (gotParam T m) = ps.map fun q => (some q.1, q.2.map some) := by
  cases ps with
  | nil =>
    simp only [paramsText, List.append_nil] at ht
    refine ⟨[], .none ?_, rfl⟩
    rw [at_end ht]; intro q; have := hp _ q; unfold Blank at this; omega
  | cons p r =>
    have e : paramsText 63 (p :: r) = [63] ++ (encP p ++ paramsText 38 r) := by simp only [paramsText, List.append_assoc]
    rw [e] at ht ⊢
    have len : (pre ++ [63]).length = pre.length + 1 := by simp only [List.length_append]; rfl
    obtain ⟨l, k1, k2⟩ := query_at hT hm hp r (pre ++ [63]) p h (by rw [ht]; simp only [List.append_assoc])
    have fin := at_end (t := t) (pre := pre) (post := [63] ++ (encP p ++ paramsText 38 r) ++ post) (by rw [ht]; simp only [List.append_assoc])
    rw [len] at k1
    refine ⟨l, .some (by rw [fin]; rfl) ?_, k2⟩
    have : pre.length + ([63] ++ (encP p ++ paramsText 38 r)).length = pre.length + 1 + (encP p ++ paramsText 38 r).length := by
      simp only [List.length_append, List.length_cons, List.length_nil]; omega
    rw [this]
    exact k1

/-! ### URLs -/

theorem http_asc : asc "http://" = httpWord := by decide +kernel

theorem colon_asc : asc ":" = [58] := by decide +kernel

theorem scheme_of {lower : Int → Int} {t pre r : List Int} (ht : t = pre ++ httpWord ++ r) : Scheme lower t pre.length := by
  unfold Scheme
  rw [ht, List.append_assoc, List.drop_left, List.take_left' (by rfl)]

theorem no_scheme {lower : Int → Int} (hl : lower 47 ≠ lower 104) {t : List Int} {i : Nat} (h : t[i]? = some 47) : ¬ Scheme lower t i := by
  intro q
  unfold Scheme at q
  have : ((List.take 7 (List.drop i t)).map lower)[0]? = some (lower 47) := by
    rw [List.getElem?_map, List.getElem?_take, if_pos (by decide), List.getElem?_drop, Nat.add_zero, h]; rfl
  rw [q] at this
  exact hl (Option.some.inj this).symm

/-- What a part of the memory has. -/
def textAt (m : List Int) (p : Nat × Nat) : List Int := (m.drop p.1).take (p.2 - p.1)

theorem textAt_mid {m pre w post : List Int} (hm : m = pre ++ w ++ post) : textAt m (pre.length, pre.length + w.length) = w := by
  unfold textAt
  rw [hm, List.append_assoc, List.drop_left, show pre.length + w.length - pre.length = w.length from by omega, List.take_left]

theorem authority_at {lower : Int → Int} (hl : lower 47 ≠ lower 104) {t m pre post : List Int} (hm : t <+: m) {o : Origin} (ho : o.Ok) (ht : t = pre ++ o.text ++ post) (hp : post.head? = some 47) :
    ∃ s p, Authority lower 80 t pre.length s p o.number (pre.length + o.text.length) ∧ s.map (textAt m) = o.host ∧ ¬ EmptyPort lower t pre.length := by
  obtain ⟨more, rfl⟩ := hm
  cases o with
  | path =>
    simp only [Origin.text, List.append_nil] at ht
    have no : ¬ Scheme lower t pre.length := no_scheme hl (by rw [at_end ht, hp])
    exact ⟨none, none, .none no, rfl, fun q => no q.1⟩
  | server h =>
    obtain ⟨h1, h2⟩ := ho
    have h1 := List.length_pos_iff.2 h1
    simp only [Origin.text, http_asc] at ht ⊢
    have sch : Scheme lower t pre.length := scheme_of (r := h ++ post) (by rw [ht]; simp only [List.append_assoc])
    have len : (pre ++ httpWord).length = pre.length + 7 := by rw [List.length_append]; rfl
    have ht1 : t = (pre ++ httpWord) ++ h ++ post := by rw [ht]; simp only [List.append_assoc]
    have run := run_of (p := ServerChar) ht1 h2 fun c hc => by rw [hp] at hc; cases hc; exact fun q => q.2.2 rfl
    have fin := at_end (t := t) (pre := pre ++ httpWord ++ h) (post := post) ht1
    have got := textAt_mid (m := t ++ more) (pre := pre ++ httpWord) (w := h) (post := post ++ more) (by rw [ht1]; simp only [List.append_assoc])
    have len2 : (pre ++ httpWord ++ h).length = pre.length + 7 + h.length := by rw [List.length_append, len]
    have len3 : pre.length + (httpWord ++ h).length = pre.length + 7 + h.length := by rw [List.length_append, show httpWord.length = 7 from rfl]; omega
    rw [len2, hp] at fin
    rw [len] at run got
    rw [len3]
    refine ⟨_, _, .server sch run (by omega) (by rw [fin]; decide), by rw [Option.map_some, got]; rfl, ?_⟩
    rintro ⟨-, a, k1, k2, -⟩
    have := runAt_one k1 run
    subst this
    rw [fin] at k2
    exact absurd k2 (by decide)
  | port h d =>
    obtain ⟨⟨h1, h2⟩, d1, d2, d3⟩ := ho
    have h1 := List.length_pos_iff.2 h1
    have d1 := List.length_pos_iff.2 d1
    simp only [Origin.text, http_asc, colon_asc] at ht ⊢
    have sch : Scheme lower t pre.length := scheme_of (r := h ++ [58] ++ d ++ post) (by rw [ht]; simp only [List.append_assoc])
    have len : (pre ++ httpWord).length = pre.length + 7 := by rw [List.length_append]; rfl
    have ht1 : t = (pre ++ httpWord) ++ h ++ ([58] ++ d ++ post) := by rw [ht]; simp only [List.append_assoc]
    have ht2 : t = (pre ++ httpWord ++ h ++ [58]) ++ d ++ post := by rw [ht]; simp only [List.append_assoc]
    have run := run_of (p := ServerChar) ht1 h2 fun c hc => by
      have : c = 58 := by simpa using hc.symm
      subst this
      exact fun q => q.2.1 rfl
    have run2 := run_of (p := Decimal) ht2 d2 fun c hc => by rw [hp] at hc; cases hc; unfold Decimal; omega
    have fin := at_end (t := t) (pre := pre ++ httpWord ++ h) (post := [58] ++ d ++ post) ht1
    have got := textAt_mid (m := t ++ more) (pre := pre ++ httpWord) (w := h) (post := [58] ++ d ++ post ++ more) (by rw [ht1]; simp only [List.append_assoc])
    have got2 := textAt_mid (m := t) (pre := pre ++ httpWord ++ h ++ [58]) (w := d) (post := post) ht2
    have len2 : (pre ++ httpWord ++ h).length = pre.length + 7 + h.length := by rw [List.length_append, len]
    have len4 : (pre ++ httpWord ++ h ++ [58]).length = pre.length + 7 + h.length + 1 := by rw [List.length_append, len2]; rfl
    have len3 : pre.length + (httpWord ++ h ++ [58] ++ d).length = pre.length + 7 + h.length + 1 + d.length := by simp only [List.length_append, List.length_cons, List.length_nil, show httpWord.length = 7 from rfl]; omega
    rw [len2] at fin
    rw [len] at run got
    rw [len4] at run2 got2
    rw [len3]
    unfold textAt at got2
    dsimp only at got2
    have port := Authority.port (lower := lower) (d := 80) sch run (by omega) (by rw [fin]; rfl) run2 (by omega) (by rw [got2]; exact d3)
    rw [got2] at port
    refine ⟨_, _, port, by rw [Option.map_some, got]; rfl, ?_⟩
    rintro ⟨-, a, k1, k2, k3⟩
    have := runAt_one k1 run
    subst this
    have := runAt_one k3 run2
    omega

/-- **C160** A URL written of an origin, segments and parameters, whatever octets these have, is there: wherever it stands in a document, before white space or at its end, the URL parser matches exactly it, and the parts it gives, unescaped where they are, are the origin, the segments and the parameters it was written of. -/
theorem url_comes_back {T : CT} (hT : T.bits = 8) {o : Origin} (ho : o.Ok) {segs : List (List Int)} (hs : segs ≠ []) (h : ∀ w ∈ segs, ∀ c ∈ w, T.has c ∧ c ≠ 0) {params : List (List Int × Option (List Int))}
    (hq : ∀ p ∈ params, p.1 ≠ [] ∧ (∀ c ∈ p.1, T.has c ∧ c ≠ 0) ∧ ∀ x, p.2 = some x → ∀ c ∈ x, T.has c ∧ c ≠ 0) :
    ∃ url, writeUrl o segs params = some url ∧ ∀ (v : Env) (before rest : List Int), v.Ok (before ++ url ++ rest) → below v.fin (before ++ url ++ rest).length = true → v.lower 47 ≠ v.lower 104 →
      (∀ c, rest.head? = some c → Blank c) →
      ∃ u, httpUrl v before.length = some (true, u) ∧ u.interval = some (before.length, before.length + url.length) ∧
        u.server.map (fun p => (v.s.drop p.1).take (p.2 - p.1)) = o.host ∧ u.value = o.number ∧
        u.segments.map (unescapeAt T v.s) = segs.map some ∧
        u.params.map (fun q => (unescapeAt T v.s q.name, q.value.map (unescapeAt T v.s))) = params.map fun p => (some p.1, p.2.map some) := by
  refine ⟨o.text ++ segsText segs ++ paramsText 63 params, ?_, ?_⟩
  · unfold writeUrl
    rw [addSegs_eq (T := T) segs _ h, Option.bind_some, addParams_eq (T := T) params 63 _ _ (by decide +kernel) hq]
  intro v before rest hv hz hl hr
  generalize ht : before ++ (o.text ++ segsText segs ++ paramsText 63 params) ++ rest = t at hv hz
  have hm : t <+: v.s := by rw [hv.text]; exact text_prefix _ _
  have hd : ∀ x, (segsText segs ++ x).head? = some 47 := by
    intro x
    cases segs with
    | nil => exact absurd rfl hs
    | cons w r => simp only [segsText, List.flatMap_cons, slash_asc]; rfl
  obtain ⟨s, p, a1, a2, a3⟩ := authority_at hl hm (pre := before) (post := segsText segs ++ (paramsText 63 params ++ rest)) ho (by rw [← ht]; simp only [List.append_assoc]) (hd _)
  obtain ⟨l, b1, b2⟩ := segs_at hT hm segs (before ++ o.text) (post := paramsText 63 params ++ rest) hs h (by rw [← ht]; simp only [List.append_assoc]) (by
    intro c hc
    cases params with
    | nil =>
      have := hr c hc
      exact ⟨fun q => q.1 this, by unfold Blank at this; omega⟩
    | cons p r =>
      have : c = 63 := by simpa [paramsText] using hc.symm
      subst this
      exact ⟨fun q => q.2.1 rfl, by decide⟩)
  obtain ⟨q, c1, c2⟩ := query_of hT hm (pre := before ++ o.text ++ segsText segs) hr hq (by rw [← ht]; simp only [List.append_assoc])
  have slash := at_end (t := t) (pre := before ++ o.text) (post := segsText segs ++ (paramsText 63 params ++ rest)) (by rw [← ht]; simp only [List.append_assoc])
  rw [hd] at slash
  rw [List.length_append] at slash b1
  rw [List.length_append, List.length_append] at c1
  refine ⟨⟨s, p, o.number, some (_, _), l, q, some (before.length, _)⟩, ((http_url_terminated_partial hv hz (by rw [← ht]; simp only [List.length_append]; omega) a3).1 _).1 ⟨_, _, _, a1, slash, b1, rfl, c1, rfl⟩, ?_, a2, rfl, b2, c2⟩
  simp only [List.length_append]
  congr 2
  omega

/-! ### Strings of styles -/

/-- What `css_escape` makes of it. -/
def cssEnc (s : List Int) : List Int := s.flatMap cssEscapeChar

theorem css_end {q : Int} (hq : q = 34 ∨ q = 39) {t post : List Int} : ∀ (s pre : List Int), s.getLast? ≠ some 92 → t = pre ++ cssEnc s ++ ([q] ++ post) → EndQuote t q pre.length (pre.length + (cssEnc s).length)
  | [], pre, _, ht => by
    have ht : t = pre ++ ([q] ++ post) := by rw [ht]; simp only [cssEnc, List.flatMap_nil, List.append_nil]
    refine ⟨Nat.le_refl _, by rw [show pre.length + (cssEnc []).length = pre.length from rfl, at_end ht]; rfl, fun x => absurd x.1 (Nat.lt_irrefl _), fun j h1 h2 => ?_⟩
    exact absurd h2 (Nat.not_lt.2 h1)
  | c :: r, pre, hs, ht => by
    have e : cssEnc (c :: r) = cssEscapeChar c ++ cssEnc r := by simp only [cssEnc, List.flatMap_cons]
    have hs' : r.getLast? ≠ some 92 := by
      cases r with
      | nil => intro q; cases q
      | cons d r => rwa [List.getLast?_cons_cons] at hs
    have ht1 : t = (pre ++ cssEscapeChar c) ++ cssEnc r ++ ([q] ++ post) := by rw [ht, e]; simp only [List.append_assoc]
    have ih := css_end hq r (pre ++ cssEscapeChar c) hs' ht1
    have at0 : t[pre.length]? = (cssEscapeChar c ++ (cssEnc r ++ ([q] ++ post))).head? := at_end (by rw [ht1]; simp only [List.append_assoc])
    -- What the next character is
    have nx : r ≠ [] → (cssEnc r ++ ([q] ++ post)).head? ≠ some q := by
      intro hr
      cases r with
      | nil => exact absurd rfl hr
      | cons d r =>
        simp only [cssEnc, List.flatMap_cons]
        unfold cssEscapeChar
        split
        · intro x; have : (92 : Int) = q := Option.some.inj x; omega
        split
        · intro x; have : (92 : Int) = q := Option.some.inj x; omega
        split
        · intro x; have : (92 : Int) = q := Option.some.inj x; omega
        split
        · intro x; have : (92 : Int) = q := Option.some.inj x; omega
        split
        · intro x; have : (92 : Int) = q := Option.some.inj x; omega
        split
        · intro x; have : (92 : Int) = q := Option.some.inj x; omega
        · intro x; have : d = q := Option.some.inj x; omega
    have two : ∀ x, cssEscapeChar c = [92, x] → (x = 34 ∨ x = 39 ∨ (x ≠ q ∧ (x = 92 → c = 92))) → EndQuote t q pre.length (pre.length + (cssEnc (c :: r)).length) := by
      intro x hx h
      rw [hx] at at0 ih ht1 e
      have at1 : t[pre.length + 1]? = some x := by
        have := at_end (t := t) (pre := pre ++ [92]) (post := [x] ++ (cssEnc r ++ ([q] ++ post))) (by rw [ht1]; simp only [List.append_assoc, List.cons_append, List.nil_append])
        rw [List.length_append] at this
        exact this
      have at2 : t[pre.length + 2]? = (cssEnc r ++ ([q] ++ post)).head? := by
        have := at_end (t := t) (pre := pre ++ [92, x]) (post := cssEnc r ++ ([q] ++ post)) (by rw [ht1]; simp only [List.append_assoc])
        rw [List.length_append] at this
        exact this
      have len : (pre ++ [92, x]).length = pre.length + 2 := by rw [List.length_append]; rfl
      have len2 : pre.length + (cssEnc (c :: r)).length = pre.length + 2 + (cssEnc r).length := by rw [e, List.length_append, show ([92, x] : List Int).length = 2 from rfl]; omega
      rw [len] at ih
      rw [len2]
      have quote : ∀ d : Int, d = 34 ∨ d = 39 → x = d → EndQuote t q pre.length (pre.length + 2 + (cssEnc r).length) := fun d hd hxd => (endQuote_escape hq at0 (d := d) hd (by rw [at1, hxd])).2 ih
      rcases h with h | h | ⟨h, h'⟩
      · exact quote 34 (.inl rfl) h
      · exact quote 39 (.inr rfl) h
      · refine (endQuote_step (by rw [at0]; intro y; have : (92 : Int) = q := Option.some.inj y; omega) (fun _ => by rw [at1]; exact fun y => h (Option.some.inj y))).2 ?_
        refine (endQuote_step (by rw [at1]; exact fun y => h (Option.some.inj y)) (fun y => ?_)).2 ih
        rw [at1] at y
        have hc := h' (Option.some.inj y)
        rw [show pre.length + 1 + 1 = pre.length + 2 from rfl, at2]
        refine nx ?_
        rintro rfl
        exact hs (by rw [hc]; rfl)
    by_cases h1 : c = 92
    · exact two 92 (by rw [h1]; rfl) (.inr (.inr ⟨by omega, fun _ => h1⟩))
    by_cases h2 : c = 10
    · exact two 110 (by rw [h2]; rfl) (.inr (.inr ⟨by omega, fun h => by omega⟩))
    by_cases h3 : c = 13
    · exact two 114 (by rw [h3]; rfl) (.inr (.inr ⟨by omega, fun h => by omega⟩))
    by_cases h4 : c = 9
    · exact two 116 (by rw [h4]; rfl) (.inr (.inr ⟨by omega, fun h => by omega⟩))
    by_cases h5 : c = 34
    · exact two 34 (by rw [h5]; rfl) (.inl rfl)
    by_cases h6 : c = 39
    · exact two 39 (by rw [h6]; rfl) (.inr (.inl rfl))
    have one : cssEscapeChar c = [c] := by unfold cssEscapeChar; rw [if_neg h1, if_neg h2, if_neg h3, if_neg h4, if_neg h5, if_neg h6]
    rw [one] at at0 ih e
    rw [List.length_append] at ih
    rw [e, List.length_append]
    have : pre.length + ([c].length + (cssEnc r).length) = pre.length + [c].length + (cssEnc r).length := by omega
    rw [this]
    refine (endQuote_step (by rw [at0]; intro y; have : c = q := Option.some.inj y; omega) (fun y => ?_)).2 ih
    rw [at0] at y
    exact absurd (Option.some.inj y) h1

theorem css_appends {s : List Int} (h : ∀ c ∈ s, c ≠ 0) : cssEscape s s.length [] = some (cssEnc s) := by
  unfold cssEscape
  rw [eachChar_eq _ (Or.inr ⟨_, rfl, Nat.le_refl _⟩), text_self h]
  rfl

theorem css_part {s : List Int} (h : ∀ c ∈ s, c ≠ 0) (W T : CT) {m pre post : List Int} (hm : m = pre ++ cssEnc s ++ post) : ∃ n, ∀ fuel, n ≤ fuel → cssUnescape W T (m.drop pre.length) (cssEnc s).length fuel 0 [] = .done s := by
  obtain ⟨o, e, -, -, r⟩ := css_round_trip W T (s := s) (count := s.length) (Or.inr ⟨_, rfl, Nat.le_refl _⟩) []
  rw [css_appends h, List.nil_append] at e
  have e := Option.some.inj e
  subst e
  obtain ⟨n, hn⟩ := r post []
  refine ⟨n, fun fuel hf => ?_⟩
  rw [hm, List.append_assoc, List.drop_left, hn fuel hf, text_self h]
  rfl

/-- **C160** A text that does not end in a backslash, escaped, in quotes, is one string for the CSS parser, wherever it stands in a style, and the content of the string, unescaped, is the text.
Missing: a text that ends in a backslash, see `css_comes_back_not`. -/
theorem css_comes_back_partial (W T : CT) {s : List Int} (h : ∀ c ∈ s, c ≠ 0) (hs : s.getLast? ≠ some 92) : ∃ o, cssEscape s s.length [] = some o ∧
    ∀ (v : Env) (q : Int) (before rest : List Int), q = 34 ∨ q = 39 → v.Ok (before ++ [q] ++ o ++ [q] ++ rest) →
      ∃ a e, cssString v before.length = some (some ((a, e), (before.length, before.length + ([q] ++ o ++ [q]).length))) ∧ ∃ n, ∀ fuel, n ≤ fuel → cssUnescape W T (v.s.drop a) (e - a) fuel 0 [] = .done s := by
  refine ⟨cssEnc s, css_appends h, fun v q before rest hq hv => ?_⟩
  generalize ht : before ++ [q] ++ cssEnc s ++ [q] ++ rest = t at hv
  obtain ⟨more, hm⟩ : t <+: v.s := by rw [hv.text]; exact text_prefix _ _
  have len : (before ++ [q]).length = before.length + 1 := by rw [List.length_append]; rfl
  have ht1 : t = (before ++ [q]) ++ cssEnc s ++ ([q] ++ rest) := by rw [← ht]; simp only [List.append_assoc]
  have fin := css_end hq s (before ++ [q]) hs ht1
  have un := css_part h W T (m := v.s) (pre := before ++ [q]) (post := [q] ++ rest ++ more) (by rw [← hm, ht1]; simp only [List.append_assoc])
  have at0 := at_end (t := t) (pre := before) (post := [q] ++ (cssEnc s ++ ([q] ++ rest))) (by rw [← ht]; simp only [List.append_assoc])
  rw [len] at fin un
  refine ⟨before.length + 1, before.length + 1 + (cssEnc s).length, ?_, ?_⟩
  · obtain ⟨r, h1, h2⟩ := cssString_spec hv (i := before.length) (by rw [← ht]; simp only [List.length_append]; omega)
    rw [h1, (h2 ((before.length + 1, before.length + 1 + (cssEnc s).length), (before.length, before.length + 1 + (cssEnc s).length + 1))).2 ⟨_, ⟨q, hq, at0, fin⟩, rfl⟩]
    simp only [List.length_append, List.length_cons, List.length_nil]
    congr 4
    omega
  · rw [show before.length + 1 + (cssEnc s).length - (before.length + 1) = (cssEnc s).length from by omega]
    exact un

/-- **C160** What it lacks: where the text ends in a backslash, the parser never takes the quote behind it for the end of the string. -/
theorem css_comes_back_not {s : List Int} (h : ∀ c ∈ s, c ≠ 0) (hs : s.getLast? = some 92) : ∃ o, cssEscape s s.length [] = some o ∧
    ∀ (v : Env) (q : Int) (before rest : List Int), v.Ok (before ++ [q] ++ o ++ [q] ++ rest) → ∀ p, cssString v before.length = some (some p) → p.2.2 ≠ before.length + ([q] ++ o ++ [q]).length := by
  refine ⟨cssEnc s, css_appends h, fun v q before rest hv p hp he => ?_⟩
  generalize ht : before ++ [q] ++ cssEnc s ++ [q] ++ rest = t at hv
  obtain ⟨r, h1, h2⟩ := cssString_spec hv (i := before.length) (by rw [← ht]; simp only [List.length_append]; omega)
  rw [hp] at h1
  obtain ⟨e, ⟨q', -, -, k1, k2, k3, -⟩, rfl⟩ := (h2 p).1 (Option.some.inj h1).symm
  obtain ⟨w, rfl⟩ : ∃ w, s = w ++ [92] := List.getLast?_eq_some_iff.1 hs
  have e1 : cssEnc (w ++ [92]) = cssEnc w ++ [92] ++ [92] := by simp only [cssEnc, List.flatMap_append, List.append_assoc]; rfl
  rw [e1] at ht he
  have he : e + 1 = before.length + ([q] ++ (cssEnc w ++ [92] ++ [92]) ++ [q]).length := he
  simp only [List.length_append, List.length_cons, List.length_nil] at he
  have len : (before ++ [q] ++ cssEnc w ++ [92]).length = e - 1 := by simp only [List.length_append, List.length_cons, List.length_nil]; omega
  have fin := at_end (t := t) (pre := before ++ [q] ++ cssEnc w ++ [92]) (post := [92] ++ ([q] ++ rest)) (by rw [← ht]; simp only [List.append_assoc])
  rw [len] at fin
  exact k3 ⟨by omega, by rw [fin]; rfl⟩

theorem css_inside (W T : CT) {s : List Int} (h : ∀ c ∈ s, c ≠ 0) (hs : s.getLast? ≠ some 92) {v : Env} {q : Int} (hq : q = 34 ∨ q = 39) {t pre post : List Int} (hv : v.Ok t) (ht : t = pre ++ [q] ++ cssEnc s ++ [q] ++ post) :
    QuotedAt t pre.length (pre.length + 1 + (cssEnc s).length) ∧ ∃ n, ∀ fuel, n ≤ fuel → cssUnescape W T (v.s.drop (pre.length + 1)) (pre.length + 1 + (cssEnc s).length - (pre.length + 1)) fuel 0 [] = .done s := by
  obtain ⟨more, hm⟩ : t <+: v.s := by rw [hv.text]; exact text_prefix _ _
  have len : (pre ++ [q]).length = pre.length + 1 := by rw [List.length_append]; rfl
  have ht1 : t = (pre ++ [q]) ++ cssEnc s ++ ([q] ++ post) := by rw [ht]; simp only [List.append_assoc]
  have fin := css_end hq s (pre ++ [q]) hs ht1
  have un := css_part h W T (m := v.s) (pre := pre ++ [q]) (post := [q] ++ post ++ more) (by rw [← hm, ht1]; simp only [List.append_assoc])
  have at0 := at_end (t := t) (pre := pre) (post := [q] ++ (cssEnc s ++ ([q] ++ post))) (by rw [ht]; simp only [List.append_assoc])
  rw [len] at fin un
  refine ⟨⟨q, hq, at0, fin⟩, ?_⟩
  rw [show pre.length + 1 + (cssEnc s).length - (pre.length + 1) = (cssEnc s).length from by omega]
  exact un

theorem says_of {w : List Char} {x : List Int} (hw : x.map asciiLower = w.map fun c => (c.toNat : Int)) {t pre r : List Int} (ht : t = pre ++ x ++ r) : SaysAt w t pre.length := by
  unfold SaysAt
  have := congrArg List.length hw
  rw [List.length_map, List.length_map] at this
  rw [ht, List.append_assoc, List.drop_left, List.take_left' this, hw]

theorem url_open : (asc "url(").map asciiLower = ['u', 'r', 'l', '('].map fun c => (c.toNat : Int) := by decide +kernel
theorem import_word : (asc "@import").map asciiLower = ['@', 'i', 'm', 'p', 'o', 'r', 't'].map fun c => (c.toNat : Int) := by decide +kernel
theorem close_asc : asc ")" = [41] := by decide +kernel

/-- **C160** So it is in `url("…")`, with or without white space inside the parentheses. -/
theorem css_url_comes_back_partial (W T : CT) {s : List Int} (h : ∀ c ∈ s, c ≠ 0) (hs : s.getLast? ≠ some 92) : ∃ o, cssEscape s s.length [] = some o ∧
    ∀ (v : Env) (q : Int) (before gap gap' rest : List Int), q = 34 ∨ q = 39 → v.space q = false → v.space 41 = false → (∀ c ∈ gap ++ gap', v.space c = true) →
      v.Ok (before ++ (asc "url(" ++ gap ++ [q] ++ o ++ [q] ++ gap' ++ asc ")") ++ rest) →
      ∃ a e, cssUri v before.length = some (some ((a, e), (before.length, before.length + (asc "url(" ++ gap ++ [q] ++ o ++ [q] ++ gap' ++ asc ")").length))) ∧
        ∃ n, ∀ fuel, n ≤ fuel → cssUnescape W T (v.s.drop a) (e - a) fuel 0 [] = .done s := by
  refine ⟨cssEnc s, css_appends h, fun v q before gap gap' rest hq sq s41 hg hv => ?_⟩
  rw [close_asc] at hv ⊢
  generalize ht : before ++ (asc "url(" ++ gap ++ [q] ++ cssEnc s ++ [q] ++ gap' ++ [41]) ++ rest = t at hv
  obtain ⟨h1, h2⟩ := css_inside W T h hs hq hv (pre := before ++ asc "url(" ++ gap) (post := gap' ++ [41] ++ rest) (by rw [← ht]; simp only [List.append_assoc])
  have says : SaysAt ['u', 'r', 'l', '('] t before.length := says_of url_open (r := gap ++ [q] ++ cssEnc s ++ [q] ++ gap' ++ [41] ++ rest) (by rw [← ht]; simp only [List.append_assoc])
  have run := run_of (p := fun c => v.space c = true) (t := t) (pre := before ++ asc "url(") (w := gap) (post := [q] ++ (cssEnc s ++ [q] ++ gap' ++ [41] ++ rest)) (by rw [← ht]; simp only [List.append_assoc])
    (fun c hc => hg c (List.mem_append_left _ hc)) fun c hc => by
      have : c = q := by simpa using hc.symm
      rw [this, sq]; exact Bool.false_ne_true
  have run2 := run_of (p := fun c => v.space c = true) (t := t) (pre := before ++ asc "url(" ++ gap ++ [q] ++ cssEnc s ++ [q]) (w := gap') (post := [41] ++ rest) (by rw [← ht]; simp only [List.append_assoc])
    (fun c hc => hg c (List.mem_append_right _ hc)) fun c hc => by
      have : c = 41 := by simpa using hc.symm
      rw [this, s41]; exact Bool.false_ne_true
  have fin := at_end (t := t) (pre := before ++ asc "url(" ++ gap ++ [q] ++ cssEnc s ++ [q] ++ gap') (post := [41] ++ rest) (by rw [← ht]; simp only [List.append_assoc])
  have l4 : (asc "url(").length = 4 := by decide +kernel
  simp only [List.length_append, List.length_cons, List.length_nil, l4] at run run2 fin h1 h2 ⊢
  refine ⟨_, _, ?_, h2⟩
  obtain ⟨r, k1, k2⟩ := cssUri_spec hv (i := before.length) (by rw [← ht]; simp only [List.length_append]; omega)
  have c := CssUri.quoted says run h1 (d := before.length + 4 + gap.length + 1 + (cssEnc s).length + 1 + gap'.length) (by
    refine Eq.mp ?_ run2
    congr 1) (by refine Eq.trans ?_ fin; congr 1)
  rw [k1, (k2 _).2 c]
  congr 4
  omega

/-- **C160** And behind `@import`. -/
theorem css_import_comes_back_partial (W T : CT) {s : List Int} (h : ∀ c ∈ s, c ≠ 0) (hs : s.getLast? ≠ some 92) : ∃ o, cssEscape s s.length [] = some o ∧
    ∀ (v : Env) (q : Int) (before gap rest : List Int), q = 34 ∨ q = 39 → v.space q = false → (∀ c ∈ gap, v.space c = true) → v.Ok (before ++ (asc "@import" ++ gap ++ [q] ++ o ++ [q]) ++ rest) →
      ∃ a e, cssImport v before.length = some (some ((a, e), (before.length, before.length + (asc "@import" ++ gap ++ [q] ++ o ++ [q]).length))) ∧
        ∃ n, ∀ fuel, n ≤ fuel → cssUnescape W T (v.s.drop a) (e - a) fuel 0 [] = .done s := by
  refine ⟨cssEnc s, css_appends h, fun v q before gap rest hq sq hg hv => ?_⟩
  generalize ht : before ++ (asc "@import" ++ gap ++ [q] ++ cssEnc s ++ [q]) ++ rest = t at hv
  obtain ⟨h1, h2⟩ := css_inside W T h hs hq hv (pre := before ++ asc "@import" ++ gap) (post := rest) (by rw [← ht]; simp only [List.append_assoc])
  have says : SaysAt ['@', 'i', 'm', 'p', 'o', 'r', 't'] t before.length := says_of import_word (r := gap ++ [q] ++ cssEnc s ++ [q] ++ rest) (by rw [← ht]; simp only [List.append_assoc])
  have run := run_of (p := fun c => v.space c = true) (t := t) (pre := before ++ asc "@import") (w := gap) (post := [q] ++ (cssEnc s ++ [q] ++ rest)) (by rw [← ht]; simp only [List.append_assoc])
    hg fun c hc => by
      have : c = q := by simpa using hc.symm
      rw [this, sq]; exact Bool.false_ne_true
  have l7 : (asc "@import").length = 7 := by decide +kernel
  simp only [List.length_append, List.length_cons, List.length_nil, l7] at run h1 h2 ⊢
  refine ⟨_, _, ?_, h2⟩
  obtain ⟨r, k1, k2⟩ := cssImport_spec hv (i := before.length) (by rw [← ht]; simp only [List.length_append]; omega)
  rw [k1, (k2 _).2 ⟨_, _, says, run, h1, rfl⟩]
  congr 4
  omega

/-! ### Tags -/

/-- Appends attributes: ` key` or ` key="value"` with the value escaped (`escape`, html.hpp 44-116). -/
def addAttrs : List (List Int × Option (List Int)) → List Int → Option (List Int)
  | [], d => some d
  | p :: r, d => (match p.2 with
    | none => some (d ++ asc " " ++ p.1)
    | some x => (escape x x.length (d ++ asc " " ++ p.1 ++ asc "=\"")).map (· ++ asc "\"")).bind (addAttrs r)

/-- A tag of a name and attributes, `<…>` or `<…/>`. -/
def writeTag (closed : Bool) (name : List Int) (attrs : List (List Int × Option (List Int))) : Option (List Int) :=
  (addAttrs attrs (asc "<" ++ name)).map (· ++ if closed then asc "/>" else asc ">")

/-- Names: not empty, and with no `=`, `>`, slash or white space. -/
def Word (space : Int → Bool) (w : List Int) : Prop := w ≠ [] ∧ ∀ c ∈ w, c ≠ 61 ∧ c ≠ 62 ∧ c ≠ 47 ∧ space c = false

/-- White space for the tags: a space is, quotes, `=`, slashes and `>` are not. -/
def Sane (space : Int → Bool) : Prop := space 32 = true ∧ space 34 = false ∧ space 47 = false ∧ space 61 = false ∧ space 62 = false

/-- `sgml2str` (sgml.hpp) of a part of the memory `s`. -/
def decodeAt (s : List Int) (p : Nat × Nat) : Option (List Int) := (sgml2strcat (s.drop p.1) (p.2 - p.1) 0 []).map Prod.fst

def htmlEnc (s : List Int) : List Int := s.flatMap escapeChar

def attrText (p : Pair) : List Int := [32] ++ p.1 ++ match p.2 with
  | none => []
  | some x => [61, 34] ++ htmlEnc x ++ [34]

def attrsText : List Pair → List Int
  | [] => []
  | p :: r => attrText p ++ attrsText r

def closing (closed : Bool) : List Int := if closed then [47, 62] else [62]

theorem addAttrs_eq : ∀ (l : List Pair) (d : List Int), (∀ p ∈ l, ∀ x, p.2 = some x → ∀ c ∈ x, c ≠ 0) → addAttrs l d = some (d ++ attrsText l)
  | [], d, _ => by rw [addAttrs, attrsText, List.append_nil]
  | (k, none) :: r, d, h => by
    rw [addAttrs]
    dsimp only
    rw [Option.bind_some, addAttrs_eq r _ fun x hx => h x (List.mem_cons_of_mem _ hx)]
    simp only [attrsText, attrText, List.append_nil, List.append_assoc]
    rfl
  | (k, some x) :: r, d, h => by
    have hx := h _ List.mem_cons_self x rfl
    rw [addAttrs]
    dsimp only
    unfold escape
    rw [eachChar_eq _ (Or.inr ⟨_, rfl, Nat.le_refl _⟩), text_self hx, Option.map_some, Option.bind_some, addAttrs_eq r _ fun x hx => h x (List.mem_cons_of_mem _ hx)]
    rw [show asc "=\"" = [61, 34] from by decide +kernel, show asc "\"" = [34] from by decide +kernel, show asc " " = [32] from by decide +kernel]
    simp only [attrsText, attrText, htmlEnc, List.append_assoc]

theorem html_part {s : List Int} (h : ∀ c ∈ s, c ≠ 0) {m pre post : List Int} (hm : m = pre ++ htmlEnc s ++ post) (hl : (htmlEnc s).length < 2 ^ 64) : decodeAt m (pre.length, pre.length + (htmlEnc s).length) = some s := by
  have hz : ∀ x ∈ htmlEnc s, x ≠ 0 := by
    intro x hx
    obtain ⟨c, hc, hx⟩ := List.mem_flatMap.1 hx
    exact escapeChar_nonzero c (h c hc) x hx
  have et : text (htmlEnc s ++ post) (some (htmlEnc s).length) = htmlEnc s := text_eq_of hz (List.prefix_append _ _) (Or.inr rfl) (by intro n e; cases e; exact Nat.le_refl _)
  unfold decodeAt
  dsimp only
  rw [hm, List.append_assoc, List.drop_left, show pre.length + (htmlEnc s).length - pre.length = (htmlEnc s).length from by omega,
    sgml2str_decodes (Or.inr ⟨_, rfl, by rw [List.length_append]; omega⟩) hl, et]
  have := decode_flatMap decode_escapeChar s
  unfold decodeSpec at this
  unfold htmlEnc
  rw [this]
  rfl

theorem html_no_quote {s : List Int} : ∀ x ∈ htmlEnc s, x ≠ 34 := by
  intro x hx
  obtain ⟨c, -, hx⟩ := List.mem_flatMap.1 hx
  exact (escapeChar_safe c x hx).2.2.1

theorem says_slash {t : List Int} {i : Nat} (h : SaysAt ['/', '>'] t i) : t[i]? = some 47 := by
  unfold SaysAt at h
  have e : ((List.take 2 (List.drop i t)).map asciiLower)[0]? = some 47 := by
    show ((List.take ['/', '>'].length (List.drop i t)).map asciiLower)[0]? = some 47
    rw [h]; rfl
  rw [List.getElem?_map, List.getElem?_take, if_pos (by decide), List.getElem?_drop, Nat.add_zero] at e
  cases q : t[i]? with
  | none => rw [q] at e; cases e
  | some c =>
    rw [q] at e
    have e := Option.some.inj e
    unfold asciiLower at e
    split at e
    · omega
    · rw [e]

theorem ident_of {space : Int → Bool} {t pre w post : List Int} (ht : t = pre ++ w ++ post) (hw : Word space w) (hp : IdentStop space t (pre.length + w.length)) : IdentAt space t pre.length (pre.length + w.length) := by
  have pos := List.length_pos_iff.2 hw.1
  refine ⟨⟨by omega, fun j h1 h2 => ?_, .inl hp, by rw [ht]; simp only [List.length_append]; omega⟩, .inl (by omega)⟩
  have lt : j - pre.length < w.length := by omega
  have e : t[j]? = some w[j - pre.length] := by
    rw [ht, List.append_assoc, List.getElem?_append_right h1, List.getElem?_append_left lt, List.getElem?_eq_getElem lt]
  obtain ⟨k1, k2, k3, k4⟩ := hw.2 _ (List.getElem_mem lt)
  rintro (q | q | q | ⟨c, q, q'⟩)
  · rw [e] at q; exact k1 (Option.some.inj q)
  · rw [e] at q; exact k2 (Option.some.inj q)
  · have q := says_slash q
    rw [e] at q; exact k3 (Option.some.inj q)
  · rw [e] at q
    have q := Option.some.inj q
    rw [q, q'] at k4
    cases k4

theorem closing_head (closed : Bool) (post : List Int) : (closing closed ++ post).head? = some (if closed then 47 else 62) := by cases closed <;> rfl

/-- After a name comes the next attribute or the end of the tag. -/
theorem behind_stop {space : Int → Bool} (hs : Sane space) {t pre post : List Int} {l : List Pair} {closed : Bool} (ht : t = pre ++ (attrsText l ++ closing closed) ++ post) : IdentStop space t pre.length := by
  have a := at_end (t := t) (pre := pre) (post := attrsText l ++ closing closed ++ post) (by rw [ht]; simp only [List.append_assoc])
  cases l with
  | nil =>
    cases closed with
    | false => exact .inr (.inl a)
    | true => exact .inr (.inr (.inl (says_of (x := [47, 62]) (by decide +kernel) (r := post) ht)))
  | cons p r => exact .inr (.inr (.inr ⟨32, a, hs.1⟩))

def gotAttr (m : List Int) (a : Attr) : List Int × Option (Option (List Int)) := (textAt m a.name, a.value.map (decodeAt m))

theorem attrs_at {space : Int → Bool} (hs : Sane space) {t m post : List Int} (hm : t <+: m) (small : t.length < 2 ^ 64) (closed : Bool) : ∀ (l : List Pair) (pre : List Int), (∀ p ∈ l, Word space p.1 ∧ ∀ x, p.2 = some x → ∀ c ∈ x, c ≠ 0) →
    t = pre ++ (attrsText l ++ closing closed) ++ post →
    ∃ b l', SpaceTo space t pre.length b ∧ t[b]? ≠ some 61 ∧ AttrsAt space t .element_start b l' (if closed then .element else .element_start) (pre.length + (attrsText l ++ closing closed).length) ∧
      l'.map (gotAttr m) = l.map fun p => (p.1, p.2.map some)
  | [], pre, _, ht => by
    have ht : t = pre ++ (closing closed ++ post) := by rw [ht]; simp only [attrsText, List.nil_append, List.append_assoc]
    have a := at_end ht
    rw [closing_head] at a
    refine ⟨pre.length, [], ⟨Nat.le_refl _, fun j h1 h2 => absurd h2 (Nat.not_lt.2 h1), fun c hc => ?_⟩, ?_, ?_, rfl⟩
    · rw [a] at hc
      have hc := Option.some.inj hc
      rw [← hc]
      cases closed with
      | false => exact fun q => Bool.false_ne_true (hs.2.2.2.2.symm.trans q)
      | true => exact fun q => Bool.false_ne_true (hs.2.2.1.symm.trans q)
    · rw [a]; cases closed <;> decide
    · cases closed with
      | false => exact .close a
      | true => exact .element rfl (says_of (x := [47, 62]) (by decide +kernel) (r := post) (by rw [ht]; simp only [closing, List.append_assoc]; rfl))
  | (k, o) :: r, pre, h, ht => by
    obtain ⟨more, rfl⟩ := hm
    obtain ⟨hk, hx⟩ := h _ List.mem_cons_self
    dsimp only at hk hx
    have pos := List.length_pos_iff.2 hk.1
    obtain ⟨c0, k', rfl⟩ : ∃ c0 k', k = c0 :: k' := by cases k with
      | nil => exact absurd rfl hk.1
      | cons c k => exact ⟨c, k, rfl⟩
    obtain ⟨n61, n62, n47, nsp⟩ := hk.2 c0 List.mem_cons_self
    have ht0 : t = (pre ++ [32]) ++ (c0 :: k') ++ ((match o with
      | none => []
      | some x => [61, 34] ++ htmlEnc x ++ [34]) ++ attrsText r ++ closing closed ++ post) := by rw [ht]; simp only [attrsText, attrText, List.append_assoc]
    obtain ⟨suf, hts⟩ : ∃ suf, t = (pre ++ [32]) ++ (c0 :: k') ++ suf := ⟨_, ht0⟩
    have first := at_end (t := t) (pre := pre ++ [32]) (post := (c0 :: k') ++ suf) (by rw [hts]; simp only [List.append_assoc])
    have len : (pre ++ [32]).length = pre.length + 1 := by rw [List.length_append]; rfl
    rw [len] at first
    have first : t[pre.length + 1]? = some c0 := first
    have sp := run_of (p := fun c => space c = true) (t := t) (pre := pre) (w := [32]) (post := (c0 :: k') ++ suf) (by rw [hts]; simp only [List.append_assoc]) (fun c hc => by rw [List.mem_singleton.1 hc]; exact hs.1)
      (fun c hc => by have : c = c0 := (Option.some.inj hc).symm; rw [this, nsp]; exact Bool.false_ne_true)
    have name := textAt_mid (m := t ++ more) (pre := pre ++ [32]) (w := c0 :: k') (post := suf ++ more) (by rw [hts]; simp only [List.append_assoc])
    have len1 : (pre ++ [32] ++ (c0 :: k')).length = pre.length + 1 + (c0 :: k').length := by rw [List.length_append, len]
    rw [len] at name
    cases o with
    | none =>
      have ht1 : t = (pre ++ [32] ++ (c0 :: k')) ++ (attrsText r ++ closing closed) ++ post := by rw [ht0]; simp only [List.append_assoc, List.nil_append]
      obtain ⟨b, l', a1, a2, a3, a4⟩ := attrs_at hs (List.prefix_append t more) small closed r _ (fun p hp => h p (List.mem_cons_of_mem _ hp)) ht1
      have id := ident_of ht0 hk (by rw [len, ← len1]; exact behind_stop hs ht1)
      rw [len] at id
      rw [len1] at a1 a3
      refine ⟨pre.length + 1, ⟨(pre.length + 1, pre.length + 1 + (c0 :: k').length), none⟩ :: l', sp, by rw [first]; exact fun q => n61 (Option.some.inj q), .attr (by rw [first]; exact fun q => n62 (Option.some.inj q)) (fun q => ?_) (fun q => by cases q.1) id (.none a1 a2) ?_, ?_⟩
      · have q := says_slash q.2; rw [first] at q; exact n47 (Option.some.inj q)
      · refine Eq.mp ?_ a3
        congr 1
        simp only [attrsText, attrText, List.length_append, List.length_cons, List.length_nil]
        omega
      · rw [List.map_cons, a4]
        simp only [gotAttr, name, List.map_cons, Option.map_none]
    | some x =>
      have hx := hx x rfl
      have ht1 : t = (pre ++ [32] ++ (c0 :: k') ++ ([61, 34] ++ htmlEnc x ++ [34])) ++ (attrsText r ++ closing closed) ++ post := by rw [ht0]; simp only [List.append_assoc]
      obtain ⟨b, l', a1, a2, a3, a4⟩ := attrs_at hs (List.prefix_append t more) small closed r _ (fun p hp => h p (List.mem_cons_of_mem _ hp)) ht1
      have eq := at_end (t := t) (pre := pre ++ [32] ++ (c0 :: k')) (post := [61] ++ ([34] ++ htmlEnc x ++ [34] ++ (attrsText r ++ closing closed) ++ post)) (by rw [ht1]; simp only [List.append_assoc, List.cons_append, List.nil_append])
      have qt := at_end (t := t) (pre := pre ++ [32] ++ (c0 :: k') ++ [61]) (post := [34] ++ (htmlEnc x ++ [34] ++ (attrsText r ++ closing closed) ++ post)) (by rw [ht1]; simp only [List.append_assoc, List.cons_append, List.nil_append])
      have ht2 : t = (pre ++ [32] ++ (c0 :: k') ++ [61, 34]) ++ htmlEnc x ++ ([34] ++ (attrsText r ++ closing closed) ++ post) := by rw [ht1]; simp only [List.append_assoc]
      have run := run_of (p := (· ≠ 34)) ht2 html_no_quote fun c hc => by
        have : c = 34 := by simpa using hc.symm
        rw [this]; exact fun q => q rfl
      have q2 := at_end (t := t) (pre := pre ++ [32] ++ (c0 :: k') ++ [61, 34] ++ htmlEnc x) (post := [34] ++ (attrsText r ++ closing closed) ++ post) ht2
      have dec := html_part hx (m := t ++ more) (pre := pre ++ [32] ++ (c0 :: k') ++ [61, 34]) (post := [34] ++ (attrsText r ++ closing closed) ++ post ++ more) (by rw [ht2]; simp only [List.append_assoc]) (by
        rw [ht2] at small
        simp only [List.length_append] at small
        omega)
      have id := ident_of ht0 hk (.inl (by rw [len, ← len1, eq]; rfl))
      rw [len] at id
      have l2 : (pre ++ [32] ++ (c0 :: k') ++ [61]).length = pre.length + 1 + (c0 :: k').length + 1 := by rw [List.length_append, len1]; rfl
      have l3 : (pre ++ [32] ++ (c0 :: k') ++ [61, 34]).length = pre.length + 1 + (c0 :: k').length + 1 + 1 := by rw [List.length_append, len1]; rfl
      have l4 : (pre ++ [32] ++ (c0 :: k') ++ [61, 34] ++ htmlEnc x).length = pre.length + 1 + (c0 :: k').length + 1 + 1 + (htmlEnc x).length := by rw [List.length_append, l3]
      have l5 : (pre ++ [32] ++ (c0 :: k') ++ ([61, 34] ++ htmlEnc x ++ [34])).length = pre.length + 1 + (c0 :: k').length + 1 + 1 + (htmlEnc x).length + 1 := by
        rw [List.length_append, len1]; simp only [List.length_append, List.length_cons, List.length_nil]; omega
      rw [len1] at eq
      rw [l2] at qt
      rw [l3] at run dec
      rw [l4] at q2
      rw [l5] at a1 a3
      have eq : t[pre.length + 1 + (c0 :: k').length]? = some 61 := eq
      have qt : t[pre.length + 1 + (c0 :: k').length + 1]? = some 34 := qt
      have q2 : t[pre.length + 1 + (c0 :: k').length + 1 + 1 + (htmlEnc x).length]? = some 34 := q2
      have no1 : SpaceTo space t (pre.length + 1 + (c0 :: k').length) (pre.length + 1 + (c0 :: k').length) :=
        ⟨Nat.le_refl _, fun j h1 h2 => absurd h2 (Nat.not_lt.2 h1), fun c hc => by rw [eq] at hc; have e := Option.some.inj hc; show ¬ space c = true; rw [← e, hs.2.2.2.1]; exact Bool.false_ne_true⟩
      have no2 : SpaceTo space t (pre.length + 1 + (c0 :: k').length + 1) (pre.length + 1 + (c0 :: k').length + 1) :=
        ⟨Nat.le_refl _, fun j h1 h2 => absurd h2 (Nat.not_lt.2 h1), fun c hc => by rw [qt] at hc; have e := Option.some.inj hc; show ¬ space c = true; rw [← e, hs.2.1]; exact Bool.false_ne_true⟩
      refine ⟨pre.length + 1, ⟨(pre.length + 1, pre.length + 1 + (c0 :: k').length), some (pre.length + 1 + (c0 :: k').length + 1 + 1, pre.length + 1 + (c0 :: k').length + 1 + 1 + (htmlEnc x).length)⟩ :: l', sp,
        by rw [first]; exact fun q => n61 (Option.some.inj q), .attr (by rw [first]; exact fun q => n62 (Option.some.inj q)) (fun q => ?_) (fun q => by cases q.1) id (.value no1 eq no2 (.quoted (.inl rfl) qt run q2) a1) ?_, ?_⟩
      · have q := says_slash q.2; rw [first] at q; exact n47 (Option.some.inj q)
      · refine Eq.mp ?_ a3
        congr 1
        simp only [attrsText, attrText, List.length_append, List.length_cons, List.length_nil]
        omega
      · rw [List.map_cons, a4]
        simp only [gotAttr, name, dec, List.map_cons, Option.map_some]

theorem not_stuck {space : Int → Bool} {t : List Int} {e : Nat} : ¬ StuckAt space t .element_start e := by
  intro h
  generalize hty : Sequence.element_start = ty at h
  induction h with
  | here h1 _ => exact h1 hty.symm
  | comment h1 _ _ _ _ => rw [h1] at hty; cases hty
  | attr _ _ _ _ _ _ ih => exact ih

/-- **C160** A tag written of a name and of attributes, whatever their values, is there: wherever it stands in a document the tag parser matches exactly it, and its name, the names of its attributes and their values, decoded where they are, are what it was written of. -/
theorem tag_comes_back {closed : Bool} {name : List Int} {attrs : List (List Int × Option (List Int))} {space : Int → Bool} (hs : Sane space) (hn : Word space name) (h0 : name.head? ≠ some 33) (h1 : name.head? ≠ some 63)
    (ha : ∀ p ∈ attrs, Word space p.1 ∧ ∀ x, p.2 = some x → ∀ c ∈ x, c ≠ 0) : ∃ o, writeTag closed name attrs = some o ∧
    ∀ (v : Env) (before rest : List Int), v.space = space → v.Ok (before ++ o ++ rest) → (before ++ o ++ rest).length < 2 ^ 64 →
      ∃ g, htmlTag v before.length = some (some g) ∧ g.type = (if closed then .element else .element_start) ∧ g.interval = (before.length, before.length + o.length) ∧
        (v.s.drop g.name.1).take (g.name.2 - g.name.1) = name ∧
        g.attrs.map (fun a => ((v.s.drop a.name.1).take (a.name.2 - a.name.1), a.value.map (decodeAt v.s))) = attrs.map fun p => (p.1, p.2.map some) := by
  refine ⟨[60] ++ name ++ (attrsText attrs ++ closing closed), ?_, ?_⟩
  · unfold writeTag
    rw [addAttrs_eq attrs _ fun p hp => (ha p hp).2, show asc "<" = [60] from by decide +kernel]
    rw [Option.map_some]
    simp only [List.append_assoc]
    cases closed with
    | false => rw [if_neg (by decide), show asc ">" = [62] from by decide +kernel]; rfl
    | true => rw [if_pos rfl, show asc "/>" = [47, 62] from by decide +kernel]; rfl
  intro v before rest hsp hv small
  generalize ht : before ++ ([60] ++ name ++ (attrsText attrs ++ closing closed)) ++ rest = t at hv small
  obtain ⟨more, hm⟩ : t <+: v.s := by rw [hv.text]; exact text_prefix _ _
  have len : (before ++ [60]).length = before.length + 1 := by rw [List.length_append]; rfl
  have len1 : (before ++ [60] ++ name).length = before.length + 1 + name.length := by rw [List.length_append, len]
  have ht1 : t = (before ++ [60] ++ name) ++ (attrsText attrs ++ closing closed) ++ rest := by rw [← ht]; simp only [List.append_assoc]
  have ht0 : t = (before ++ [60]) ++ name ++ (attrsText attrs ++ closing closed ++ rest) := by rw [← ht]; simp only [List.append_assoc]
  obtain ⟨b, l, a1, -, a3, a4⟩ := attrs_at hs ⟨more, hm⟩ small closed attrs _ ha ht1
  have id := ident_of ht0 hn (by rw [len, ← len1]; exact behind_stop hs ht1)
  have got := textAt_mid (m := v.s) (pre := before ++ [60]) (w := name) (post := attrsText attrs ++ closing closed ++ rest ++ more) (by rw [← hm, ht0]; simp only [List.append_assoc])
  rw [len] at id got
  rw [len1] at a1 a3
  have at0 := at_end (t := t) (pre := before) (post := [60] ++ (name ++ (attrsText attrs ++ closing closed) ++ rest)) (by rw [← ht]; simp only [List.append_assoc])
  have at1 : t[before.length + 1]? = name.head? := by
    have := at_end (t := t) (pre := before ++ [60]) (post := name ++ (attrsText attrs ++ closing closed ++ rest)) (by rw [ht0]; simp only [List.append_assoc])
    rw [len] at this
    rw [this]
    cases name with
    | nil => exact absurd rfl hn.1
    | cons c r => rfl
  have n47 : t[before.length + 1]? ≠ some 47 := by
    rw [at1]
    cases name with
    | nil => exact absurd rfl hn.1
    | cons c r => exact fun q => (hn.2 c List.mem_cons_self).2.2.1 (Option.some.inj q)
  have head : HeadAt space t before.length .element_start (before.length + 1, before.length + 1 + name.length) (before.length + 1 + name.length) :=
    .start (by rw [at1]; exact h0) (by rw [at1]; exact h1) (fun q => n47 q.1) (by rw [← ht]; simp only [List.length_append, List.length_cons, List.length_nil]; have := List.length_pos_iff.2 hn.1; omega) id
  have stuck : ¬ StuckTag v.space t before.length := by
    rintro ⟨ty, nm, a, b, -, k1, -, k2⟩
    rw [hsp] at k1 k2
    obtain ⟨rfl, -, -⟩ := headAt_one k1 head
    exact not_stuck k2
  obtain ⟨r, k1, k2⟩ := htmlTag_spec_partial hv (i := before.length) (by rw [← ht]; simp only [List.length_append]; omega) stuck
  rw [hsp] at k2
  refine ⟨⟨if closed then .element else .element_start, (before.length + 1, before.length + 1 + name.length), l, (before.length, _)⟩, by rw [k1, (k2 _).2 (.tag at0 head a1 a3)], rfl, ?_, got, a4⟩
  simp only [List.length_append, List.length_cons, List.length_nil]
  congr 1
  omega

/-! ### Links -/

theorem origin_nonzero {o : Origin} (ho : o.Ok) : ∀ c ∈ o.text, c ≠ 0 := by
  have host : ∀ {h : List Int}, (∀ c ∈ h, ServerChar c) → ∀ c ∈ h, c ≠ 0 := by
    intro h hh c hc e
    subst e
    exact (hh _ hc).1 (.inl ⟨by decide, by decide⟩)
  have lit : ∀ c ∈ asc "http://", c ≠ 0 := by decide +kernel
  have col : ∀ c ∈ asc ":", c ≠ 0 := by decide +kernel
  cases o with
  | path => intro c hc; cases hc
  | server h =>
    intro c hc
    rcases List.mem_append.1 hc with q | q
    · exact lit c q
    · exact host ho.2 c q
  | port h d =>
    intro c hc
    rcases List.mem_append.1 hc with q | q
    · rcases List.mem_append.1 q with q | q
      · rcases List.mem_append.1 q with q | q
        · exact lit c q
        · exact host ho.1.2 c q
      · exact col c q
    · intro e; subst e
      have := ho.2.2.1 0 q
      unfold Decimal at this
      omega

theorem writeUrl_nonzero {T : CT} (hT : T.bits = 8) {o : Origin} (ho : o.Ok) {segs : List (List Int)} (h : ∀ w ∈ segs, Plain8 T w) {params : List Pair} (hq : ∀ p ∈ params, PairOk T p) {url : List Int}
    (hu : writeUrl o segs params = some url) : ∀ c ∈ url, c ≠ 0 := by
  unfold writeUrl at hu
  rw [addSegs_eq (T := T) segs _ h, Option.bind_some, addParams_eq (T := T) params 63 _ _ (by decide +kernel) hq] at hu
  have hu := (Option.some.inj hu).symm
  subst hu
  have en : ∀ {s : List Int}, Plain8 T s → ∀ c ∈ enc s, c ≠ 0 := fun hs c hc => by have := marks_ok c (enc_marks hT hs c hc); omega
  have ps : ∀ (l : List Pair) (mark : Int), mark ≠ 0 → (∀ p ∈ l, PairOk T p) → ∀ c ∈ paramsText mark l, c ≠ 0 := by
    intro l
    induction l with
    | nil => intro _ _ _ c hc; cases hc
    | cons p r ih =>
      intro mark hm hp c hc
      obtain ⟨n, ov⟩ := p
      have ok := hp _ List.mem_cons_self
      simp only [paramsText, encP] at hc
      rcases List.mem_append.1 hc with q | q
      · rcases List.mem_append.1 q with q | q
        · rw [List.mem_singleton.1 q]; exact hm
        · rcases List.mem_append.1 q with q | q
          · exact en ok.2.1 c q
          · cases ov with
            | none => cases q
            | some x =>
              rcases List.mem_append.1 q with q | q
              · rw [List.mem_singleton.1 q]; decide
              · exact en (ok.2.2 x rfl) c q
      · exact ih 38 (by decide) (fun p hp' => hp p (List.mem_cons_of_mem _ hp')) c q
  intro c hc
  rcases List.mem_append.1 hc with q | q
  · rcases List.mem_append.1 q with q | q
    · exact origin_nonzero ho c q
    · obtain ⟨w, hw, q⟩ := List.mem_flatMap.1 q
      rcases List.mem_append.1 q with q | q
      · rw [slash_asc] at q; rw [List.mem_singleton.1 q]; decide
      · exact en (h w hw) c q
  · exact ps params 63 (by decide) hq c q

/-- **C160** Both: a link. The URL, escaped, is the value of an attribute of a tag; another program parses the tag, decodes the value, parses that as a URL, and unescapes its parts: they are the ones that the first program had. -/
theorem link_comes_back {T : CT} (hT : T.bits = 8) {o : Origin} (ho : o.Ok) {segs : List (List Int)} (hs : segs ≠ []) (h : ∀ w ∈ segs, ∀ c ∈ w, T.has c ∧ c ≠ 0) {params : List (List Int × Option (List Int))}
    (hq : ∀ p ∈ params, p.1 ≠ [] ∧ (∀ c ∈ p.1, T.has c ∧ c ≠ 0) ∧ ∀ x, p.2 = some x → ∀ c ∈ x, T.has c ∧ c ≠ 0)
    {closed : Bool} {name key : List Int} {space : Int → Bool} (hsp : Sane space) (hn : Word space name) (h0 : name.head? ≠ some 33) (h1 : name.head? ≠ some 63) (hk : Word space key) :
    ∃ url tag, writeUrl o segs params = some url ∧ writeTag closed name [(key, some url)] = some tag ∧
      ∀ (v : Env) (before rest : List Int), v.space = space → v.Ok (before ++ tag ++ rest) → (before ++ tag ++ rest).length < 2 ^ 64 →
        ∃ g a p x, htmlTag v before.length = some (some g) ∧ g.attrs = [a] ∧ (v.s.drop a.name.1).take (a.name.2 - a.name.1) = key ∧ a.value = some p ∧ decodeAt v.s p = some x ∧
          ∀ (w : Env), w.Ok x → below w.fin x.length = true → w.lower 47 ≠ w.lower 104 →
            ∃ u, httpUrl w 0 = some (true, u) ∧ u.server.map (fun p => (w.s.drop p.1).take (p.2 - p.1)) = o.host ∧ u.value = o.number ∧ u.segments.map (unescapeAt T w.s) = segs.map some ∧
              u.params.map (fun q => (unescapeAt T w.s q.name, q.value.map (unescapeAt T w.s))) = params.map fun p => (some p.1, p.2.map some) := by
  obtain ⟨url, e1, r1⟩ := url_comes_back hT ho hs h hq
  obtain ⟨tag, e2, r2⟩ := tag_comes_back (closed := closed) (attrs := [(key, some url)]) hsp hn h0 h1 (fun p hp => by
    rw [List.mem_singleton.1 hp]
    exact ⟨hk, fun x hx => by rw [← Option.some.inj hx]; exact writeUrl_nonzero hT ho h hq e1⟩)
  refine ⟨url, tag, e1, e2, fun v before rest hv1 hv2 hv3 => ?_⟩
  obtain ⟨g, g1, -, -, -, g5⟩ := r2 v before rest hv1 hv2 hv3
  obtain ⟨ty, gn, ga, gi⟩ := g
  dsimp only at g5
  obtain ⟨a, rfl⟩ : ∃ a, ga = [a] := List.length_eq_one_iff.1 (by have := congrArg List.length g5; rwa [List.length_map, List.length_map] at this)
  simp only [List.map_cons, List.map_nil] at g5
  have g5 := List.cons.inj g5
  obtain ⟨k1, k2⟩ := Prod.mk.inj g5.1
  obtain ⟨an, av⟩ := a
  cases av with
  | none => cases k2
  | some p =>
    have k2 : decodeAt v.s p = some url := Option.some.inj k2
    refine ⟨_, ⟨an, some p⟩, p, url, g1, rfl, k1, rfl, k2, fun w w1 w2 w3 => ?_⟩
    obtain ⟨u, u1, -, u3⟩ := r1 w [] [] (by rw [List.nil_append, List.append_nil]; exact w1) (by rw [List.nil_append, List.append_nil]; exact w2) w3 (fun c hc => by cases hc)
    exact ⟨u, u1, u3⟩

/-! ### Cases -/

/-- What C160 asks of names: a parameter without a name is not seen. -/
theorem url_no_name : writeUrl .path [[]] [([], some (asc "v"))] = some (asc "/?=v") ∧ httpUrl (ipEnv (asc "/?=v")) 0 = some (true, ⟨none, none, 80, some (0, 1), [(1, 1)], [], some (0, 2)⟩) := by
  refine ⟨?_, by decide +kernel⟩
  have n : Plain8 ⟨8, true⟩ [] := fun c hc => by cases hc
  have x : Plain8 ⟨8, true⟩ (asc "v") := by unfold Plain8 CT.has; decide +kernel
  unfold writeUrl
  rw [addSegs, escape_appends n, Option.bind_some, addSegs, Option.bind_some, addParams, addParam, escape_appends n, Option.bind_some]
  dsimp only
  rw [escape_appends x, Option.bind_some, addParams]
  decide +kernel

-- `é` in UTF-8, spaces, and what URLs, tags and styles are made of
example : writeUrl (.port (asc "h.si") (asc "8080")) [asc "a b/" ++ [-61, -87], []] [(asc "k&", some (asc "=\"%")), (asc "q", none)] = some (asc "http://h.si:8080/a%20b%2F%C3%A9/?k%26=%3D\"%25&q") := by
  have a : ∀ w ∈ [asc "a b/" ++ [-61, -87], []], Plain8 ⟨8, true⟩ w := by unfold Plain8 CT.has; decide +kernel
  have b : Plain8 ⟨8, true⟩ (asc "k&") ∧ Plain8 ⟨8, true⟩ (asc "=\"%") ∧ Plain8 ⟨8, true⟩ (asc "q") := by unfold Plain8 CT.has; decide +kernel
  unfold writeUrl
  rw [addSegs_eq _ _ a, Option.bind_some, addParams, addParam, escape_appends b.1, Option.bind_some]
  dsimp only
  rw [escape_appends b.2.1, Option.bind_some, addParams, addParam, escape_appends b.2.2, Option.bind_some]
  dsimp only
  rw [Option.bind_some, addParams]
  decide +kernel
example : (Origin.port (asc "h.si") (asc "8080")).Ok := ⟨⟨by decide +kernel, fun c hc => by
    have : ∀ c ∈ asc "h.si", 32 < c ∧ c < 127 ∧ c ≠ 58 ∧ c ≠ 47 := by decide +kernel
    have := this c hc
    unfold ServerChar Blank; omega⟩, by decide +kernel, fun c hc => by
    have : ∀ c ∈ asc "8080", 48 ≤ c ∧ c ≤ 57 := by decide +kernel
    exact this c hc, by decide +kernel⟩
example : ∀ c ∈ asc "a b/" ++ [-61, -87], (⟨8, true⟩ : CT).has c ∧ c ≠ 0 := by unfold CT.has; decide +kernel
example : writeTag true (asc "a") [(asc "href", some (asc "/?a=<\">&b=c")), (asc "x", none)] = some (asc "<a href=\"/?a=&lt;&quot;&gt;&amp;b=c\" x/>") := by
  have a : ∀ c ∈ asc "/?a=<\">&b=c", c ≠ 0 := by decide +kernel
  unfold writeTag
  rw [addAttrs_eq _ _ (fun p hp x hx => by
    rcases List.mem_cons.1 hp with rfl | hp
    · rw [← Option.some.inj hx]; exact a
    · rw [List.mem_singleton.1 hp] at hx; cases hx)]
  decide +kernel
example : Sane isspace ∧ Word isspace (asc "href") := by
  refine ⟨by unfold Sane; decide +kernel, by decide +kernel, ?_⟩
  have : ∀ c ∈ asc "href", c ≠ 61 ∧ c ≠ 62 ∧ c ≠ 47 ∧ isspace c = false := by decide +kernel
  exact this
example : (cssEscape (asc "a\\\"b'\n") (asc "a\\\"b'\n").length []) = some (asc "a\\\\\\\"b\\'\\n") ∧ (asc "a\\\"b'\n").getLast? ≠ some 92 := by decide +kernel
-- A text that ends in a backslash, and what comes after it
example : (cssEscape (asc "a\\") 2 []) = some (asc "a\\\\") ∧ cssString (ipEnv (asc "\"a\\\\\" \"b\"")) 0 = some (some ((1, 6), (0, 7))) := by decide +kernel

end Verif.Html
