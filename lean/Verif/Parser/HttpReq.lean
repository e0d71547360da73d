import Verif.Parser.HttpLang
import Verif.Str.ToInt
/-
The parsers of HTTP agents, protocols, requests and headers (include/stdex/parser.hpp 6741-7150).
-/
namespace Verif.Parser
open Verif.Str

/-- `type`, `version` and `interval` of `http_agent` -/
structure Agent where
  type : Iv
  version : Iv
  interval : Iv
deriving DecidableEq

def noAgent : Agent := ⟨none, none, none⟩

/-- `http_agent::do_match` 6761-6813; `old` is what `version` was before -/
def agent (v : Env) (old : Iv) (i : Nat) : Option (Bool × Agent) :=
  match scan v (fun c => !(c == 47 || isspace c)) (fuelOf v) i with
  | none => none
  | some a =>
    match hasChar v 47 a with
    | none => none
    | some true =>
      match scan v (fun c => !isspace c) (fuelOf v) (a + 1) with
      | none => none
      | some e => some (true, ⟨some (i, a), some (a + 1, e), some (i, e)⟩)
    | some false => some (if i < a then (true, ⟨some (i, a), old, some (i, a)⟩) else (false, noAgent))

/-- `type`, `version_maj`, `version_min`, `version` and `interval` of `http_protocol` -/
structure Protocol where
  type : Iv
  maj : Iv
  min : Iv
  version : Nat
  interval : Iv
deriving DecidableEq

def noProtocol : Protocol := ⟨none, none, none, 9, none⟩

/-- `(uint16_t)strtoui(text + a, b - a, nullptr, 10)` 6888-6889, 6905 -/
def versionPart (v : Env) (a b : Nat) : Option Nat := (strtouint (v.s.drop a) (some (b - a)) 64 10).map fun r => r.1 % 2 ^ 16

/-- `http_protocol::do_match` 6848-6919 -/
def protocol (v : Env) (i : Nat) : Option (Bool × Protocol) :=
  match scan v (fun c => !(c == 47 || isspace c)) (fuelOf v) i with
  | none => none
  | some a =>
    match hasChar v 47 a with
    | none => none
    | some false => some (false, noProtocol)
    | some true =>
      match scan v (fun c => !(c == 46 || isspace c)) (fuelOf v) (a + 1) with
      | none => none
      | some b =>
        match peek v b with
        | none => none
        | some none => some (false, noProtocol)
        | some (some c) =>
          if c = 46 then
            match scan v (fun c => !isspace c) (fuelOf v) (b + 1) with
            | none => none
            | some e =>
              match peek v e with
              | none => none
              | some none => some (false, noProtocol)
              | some (some _) =>
                match versionPart v (a + 1) b, versionPart v (b + 1) e with
                | some x, some y => some (true, ⟨some (i, a), some (a + 1, b), some (b + 1, e), (x * 0x100 + y) % 2 ^ 16, some (i, e)⟩)
                | _, _ => none
          else
            match versionPart v (a + 1) b with
            | some x => some (true, ⟨some (i, a), some (a + 1, b), none, x * 0x100 % 2 ^ 16, some (i, b)⟩)
            | none => none

/-- The loops 6951-7045, 7076-7100: up to a line break, the end of the text, or a character without `p`; the end of the line break -/
def lineScan (v : Env) (p : Int → Bool) : Nat → Nat → Option (Nat × Option Nat)
  | 0, _ => none
  | fuel + 1, i =>
    match httpBreak v i with
    | none => none
    | some (some e) => some (i, some e)
    | some none =>
      match peek v i with
      | none => none
      | some none => some (i, none)
      | some (some c) => if p c then lineScan v p fuel (i + 1) else some (i, none)

/-- Up to a character without `p`: nothing if a line break or the end of the text comes first -/
def lineTo (v : Env) (p : Int → Bool) (i : Nat) : Option (Option Nat) :=
  match lineScan v p (fuelOf v) i with
  | none => none
  | some (_, some _) => some none
  | some (e, none) =>
    match peek v e with
    | none => none
    | some none => some none
    | some (some _) => some (some e)

/-- `verb`, `url`, `protocol` and `interval` of `http_request` -/
structure Request where
  verb : Iv
  url : HttpUrl
  protocol : Protocol
  interval : Iv
deriving DecidableEq

def noRequest : Request := ⟨none, noUrl, noProtocol, none⟩

/-- 7001-7045: `protocol` and `interval.end`, after the URL -/
def requestEnd (v : Env) (b : Nat) : Option (Protocol × Nat) :=
  match lineScan v isspace (fuelOf v) b with
  | none => none
  | some (_, some f) => some (noProtocol, f)
  | some (c, none) =>
    match peek v c with
    | none => none
    | some none => some (noProtocol, c)
    | some (some _) =>
      match protocol v c with
      | none => none
      | some (false, _) => some (noProtocol, c)
      | some (true, p) =>
        match lineScan v (fun _ => true) (fuelOf v) ((p.interval.map Prod.snd).getD 0) with
        | none => none
        | some (_, some f) => some (p, f)
        | some (d, none) => some (p, d)

/-- `http_request::do_match` 6942-7046 with `url` 6997 -/
def request (v : Env) (url : Nat → Option (Bool × HttpUrl)) (i : Nat) : Option (Bool × Request) :=
  match lineTo v isspace i with
  | none => none
  | some none => some (false, noRequest)
  | some (some a) =>
    match lineTo v (fun c => !isspace c) a with
    | none => none
    | some none => some (false, noRequest)
    | some (some b) =>
      match lineTo v isspace (b + 1) with
      | none => none
      | some none => some (false, noRequest)
      | some (some c) =>
        match url c with
        | none => none
        | some (false, _) => some (false, noRequest)
        | some (true, u) =>
          match requestEnd v ((u.interval.map Prod.snd).getD 0) with
          | none => none
          | some (p, e) => some (true, ⟨some (a, b), u, p, some (i, e)⟩)

/-- `name`, `value` and `interval` of `http_header`; a `value` of `SIZE_MAX` and 0 is empty and is `none` -/
structure Header where
  name : Iv
  value : Iv
  interval : Iv
deriving DecidableEq

def noHeader : Header := ⟨none, none, none⟩

/-- 7124-7125: the value up to and with the character at `e` -/
def widen (value : Iv) (e : Nat) : Iv :=
  match value with
  | none => some (e, e + 1)
  | some (x, _) => some (x, e + 1)

/-- The loop 7110-7130: `value` and `interval.end` -/
def valueLoop (v : Env) : Nat → Nat → Iv → Option (Iv × Nat)
  | 0, _, _ => none
  | fuel + 1, e, value =>
    match httpBreak v e with
    | none => none
    | some (some f) =>
      match httpBreak v f with
      | none => none
      | some (some _) => some (value, f)
      | some none =>
        match peek v f with
        | none => none
        | some none => some (value, f)
        | some (some c) => if isspace c then valueLoop v fuel (f + 1) value else some (value, f)
    | some none =>
      match peek v e with
      | none => none
      | some none => some (value, e)
      | some (some c) => if isspace c then valueLoop v fuel (e + 1) value else valueLoop v fuel (e + 1) (widen value e)

/-- 7073-7106: `name.end` and what follows the colon -/
def headerName (v : Env) (i : Nat) : Option (Option (Nat × Nat)) :=
  match lineTo v (fun c => !(isspace c || c == 58)) i with
  | none => none
  | some none => some none
  | some (some a) =>
    match peek v a with
    | none => none
    | some q =>
      if q = some 58 then some (some (a, a + 1))
      else
        match lineTo v isspace (a + 1) with
        | none => none
        | some none => some none
        | some (some b) =>
          match hasChar v 58 b with
          | none => none
          | some true => some (some (a, b + 1))
          | some false => some none

/-- 7070-7071: a line break or white space at the beginning -/
def headerStart (v : Env) (i : Nat) : Option Bool :=
  match httpBreak v i with
  | none => none
  | some (some _) => some false
  | some none =>
    match peek v i with
    | none => none
    | some none => some true
    | some (some c) => some (!isspace c)

/-- `http_header::do_match` 7061-7137 -/
def header (v : Env) (i : Nat) : Option (Bool × Header) :=
  match headerStart v i with
  | none => none
  | some false => some (false, noHeader)
  | some true =>
    match headerName v i with
    | none => none
    | some none => some (false, noHeader)
    | some (some (a, b)) =>
      match valueLoop v (fuelOf v) b none with
      | none => none
      | some (value, e) => some (true, ⟨some (i, a), value, some (i, e)⟩)

/-! ### Specification -/

/-- A line break begins at `i` -/
def BreakAt (t : List Int) (i : Nat) : Prop := t[i]? = some 10 ∨ (t[i]? = some 13 ∧ t[i + 1]? = some 10)

/-- The line break at `i` ends at `e`. -/
def BreakTo (t : List Int) (i e : Nat) : Prop := (t[i]? = some 10 ∧ e = i + 1) ∨ (t[i]? = some 13 ∧ t[i + 1]? = some 10 ∧ e = i + 2)

/-- The longest run of characters with `p` from `i` on the line ends at `e`. -/
def LineRun (p : Int → Prop) (t : List Int) (i e : Nat) : Prop := i ≤ e ∧ (∀ j, i ≤ j → j < e → ¬ BreakAt t j ∧ ∃ c, t[j]? = some c ∧ p c) ∧ (BreakAt t e ∨ ∀ c, t[e]? = some c → ¬ p c)

/-- The same, and the line goes on with a character without `p`. -/
def LineTo (p : Int → Prop) (t : List Int) (i e : Nat) : Prop := LineRun p t i e ∧ ¬ BreakAt t e ∧ e < t.length

/-- The line from `b` ends at `e`, with its line break. -/
def LineEnd (t : List Int) (b e : Nat) : Prop := ∃ d, LineRun (fun _ => True) t b d ∧ (BreakTo t d e ∨ (d = t.length ∧ e = d))

/-- `type` or `type/version`, up to white space -/
inductive AgentAt (t : List Int) (i : Nat) : Agent → Prop
  | type {a} : RunAt (fun c => c ≠ 47 ∧ ¬ White c) t i a → i < a → t[a]? ≠ some 47 → AgentAt t i ⟨some (i, a), none, some (i, a)⟩
  | version {a e} : RunAt (fun c => c ≠ 47 ∧ ¬ White c) t i a → t[a]? = some 47 → RunAt (fun c => ¬ White c) t (a + 1) e → AgentAt t i ⟨some (i, a), some (a + 1, e), some (i, e)⟩

/-- The number at the beginning of a part of a version. -/
def partValue (t : List Int) (a b : Nat) : Nat := decimal ((t.drop a).take (b - a))

/-- `type/major` or `type/major.minor`, up to white space, or to the end of the text if `stop`; `major` and `minor` are numbers. -/
inductive ProtocolAt (stop : Bool) (t : List Int) (i : Nat) : Protocol → Prop
  | major {a b} : RunAt (fun c => c ≠ 47 ∧ ¬ White c) t i a → t[a]? = some 47 → RunAt (fun c => c ≠ 46 ∧ ¬ White c) t (a + 1) b → t[b]? ≠ some 46 → (stop = true ∨ b < t.length) →
    ProtocolAt stop t i ⟨some (i, a), some (a + 1, b), none, partValue t (a + 1) b * 0x100, some (i, b)⟩
  | minor {a b e} : RunAt (fun c => c ≠ 47 ∧ ¬ White c) t i a → t[a]? = some 47 → RunAt (fun c => c ≠ 46 ∧ ¬ White c) t (a + 1) b → t[b]? = some 46 → RunAt (fun c => ¬ White c) t (b + 1) e → (stop = true ∨ e < t.length) →
    ProtocolAt stop t i ⟨some (i, a), some (a + 1, b), some (b + 1, e), partValue t (a + 1) b * 0x100 + partValue t (b + 1) e, some (i, e)⟩

/-- The parts of versions are decimal numbers below 256. -/
def GoodVersion (t : List Int) (i : Nat) : Prop := ∀ a b, RunAt (fun c => c ≠ 47 ∧ ¬ White c) t i a → t[a]? = some 47 → RunAt (fun c => c ≠ 46 ∧ ¬ White c) t (a + 1) b →
  (∀ c ∈ (t.drop (a + 1)).take (b - (a + 1)), Decimal c) ∧ partValue t (a + 1) b < 256 ∧
  ∀ e, t[b]? = some 46 → RunAt (fun c => ¬ White c) t (b + 1) e → (∀ c ∈ (t.drop (b + 1)).take (e - (b + 1)), Decimal c) ∧ partValue t (b + 1) e < 256

/-- What follows the URL that ends at `b`: nothing but white space, which is HTTP 0.9, or a protocol and anything; and the end of the line -/
inductive RequestEnd (stop : Bool) (t : List Int) (b : Nat) : Protocol → Nat → Prop
  | old {c e} : LineRun White t b c → BreakTo t c e → RequestEnd stop t b noProtocol e
  | last {c} : LineRun White t b c → c = t.length → RequestEnd stop t b noProtocol c
  | protocol {c p q e} : LineTo White t b c → ProtocolAt stop t c p → p.interval = some q → LineEnd t q.2 e → RequestEnd stop t b p e

/-- A request: white space, the verb, white space, the URL, and what follows it -/
def RequestAt (stop : Bool) (Url : Nat → HttpUrl → Prop) (t : List Int) (i : Nat) (r : Request) : Prop :=
  ∃ a b c q e, LineTo White t i a ∧ LineTo (fun c => ¬ White c) t a b ∧ LineTo White t (b + 1) c ∧ Url c r.url ∧ r.url.interval = some q ∧ RequestEnd stop t q.2 r.protocol e ∧ r.verb = some (a, b) ∧ r.interval = some (i, e)

/-- At `i` a line break ends the header: no white space follows it on the next line. -/
def EndsHeader (t : List Int) (i e : Nat) : Prop := BreakTo t i e ∧ (BreakAt t e ∨ ∀ c, t[e]? = some c → ¬ White c)

/-- The text of the header from `b` is up to `d`, and with the line break up to `e`. -/
def HeaderEnd (t : List Int) (b d e : Nat) : Prop := b ≤ d ∧ (∀ j f, b ≤ j → j < d → ¬ EndsHeader t j f) ∧ ((d = t.length ∧ e = d) ∨ EndsHeader t d e)

/-- The text from `b` to `d` without white space on both sides -/
inductive Trimmed (t : List Int) (b d : Nat) : Iv → Prop
  | empty : (∀ j, b ≤ j → j < d → ∃ c, t[j]? = some c ∧ White c) → Trimmed t b d none
  | some {x y} : b ≤ x → x < y → y ≤ d → (∀ j, b ≤ j → j < x → ∃ c, t[j]? = some c ∧ White c) → (∀ j, y ≤ j → j < d → ∃ c, t[j]? = some c ∧ White c) →
    (∃ c, t[x]? = some c ∧ ¬ White c) → (∃ c, t[y - 1]? = some c ∧ ¬ White c) → Trimmed t b d (some (x, y))

/-- The name, which begins at `i` without white space, up to `a`, and after white space a colon, after which is `b` -/
inductive HeaderName (t : List Int) (i a : Nat) : Nat → Prop
  | colon : LineTo (fun c => ¬ White c ∧ c ≠ 58) t i a → t[a]? = some 58 → HeaderName t i a (a + 1)
  | space {b} : i < a → LineTo (fun c => ¬ White c ∧ c ≠ 58) t i a → t[a]? ≠ some 58 → LineTo White t (a + 1) b → t[b]? = some 58 → HeaderName t i a (b + 1)

/-- A header: name, colon, value, line break; lines that begin with white space go on with the line before. -/
def HeaderAt (t : List Int) (i : Nat) (h : Header) : Prop :=
  ∃ a b d e, HeaderName t i a b ∧ HeaderEnd t b d e ∧ Trimmed t b d h.value ∧ h.name = some (i, a) ∧ h.interval = some (i, e)

/-! ### Proof -/

theorem notSlash_spec (c : Int) : (!(c == 47 || isspace c)) = true ↔ c ≠ 47 ∧ ¬ White c := by
  have := isspace_white c
  cases h : isspace c <;> simp [h] at this ⊢ <;> simp [this]

theorem notDot_spec (c : Int) : (!(c == 46 || isspace c)) = true ↔ c ≠ 46 ∧ ¬ White c := by
  have := isspace_white c
  cases h : isspace c <;> simp [h] at this ⊢ <;> simp [this]

theorem notSpace_spec (c : Int) : (!isspace c) = true ↔ ¬ White c := by
  have := isspace_white c
  cases h : isspace c <;> simp [h] at this ⊢ <;> simp [this]

theorem notColon_spec (c : Int) : (!(isspace c || c == 58)) = true ↔ ¬ White c ∧ c ≠ 58 := by
  have := isspace_white c
  cases h : isspace c <;> simp [h] at this ⊢ <;> simp [this]

theorem agentAt_one {t : List Int} {i : Nat} {a a' : Agent} (h : AgentAt t i a) (h' : AgentAt t i a') : a = a' := by
  cases h with
  | type r _ n =>
    cases h' with
    | type r' => cases runAt_one r r'; rfl
    | version r' q => cases runAt_one r r'; exact absurd q n
  | version r q s =>
    cases h' with
    | type r' _ n => cases runAt_one r r'; exact absurd q n
    | version r' _ s' => cases runAt_one r r'; cases runAt_one s s'; rfl

/-- **C94** (agents) A new parser matches the type and the version after a slash; it does not match iff there is nothing. -/
theorem agent_spec_partial {v : Env} {t : List Int} (h : v.Ok t) {i : Nat} (hi : i ≤ t.length) :
    (∃ a, AgentAt t i a ∧ agent v none i = some (true, a)) ∨ ((∀ a, ¬ AgentAt t i a) ∧ agent v none i = some (false, noAgent)) := by
  unfold agent
  obtain ⟨a, a1, a2, a3⟩ := scan_to h notSlash_spec hi
  rw [a1]
  dsimp only
  rw [hasChar_eq h a3]
  by_cases q : t[a]? = some 47
  · rw [decide_eq_true q]
    dsimp only
    obtain ⟨e, e1, e2, e3⟩ := scan_to h notSpace_spec (get_lt q)
    rw [e1]
    exact .inl ⟨_, .version a2 q e2, rfl⟩
  · rw [decide_eq_false q]
    dsimp only
    by_cases lt : i < a
    · rw [if_pos lt]
      exact .inl ⟨_, .type a2 lt q, rfl⟩
    · rw [if_neg lt]
      refine .inr ⟨?_, rfl⟩
      intro x hx
      cases hx with
      | type r l => cases runAt_one a2 r; exact lt l
      | version r l => cases runAt_one a2 r; exact q l

/-- What C94 lacks: a used parser keeps the version of an earlier agent. -/
theorem agent_stale : AgentAt [97] 0 ⟨some (0, 1), none, some (0, 1)⟩ ∧ agent (ipEnv [97]) (some (2, 5)) 0 = some (true, ⟨some (0, 1), some (2, 5), some (0, 1)⟩) := by
  refine ⟨.type ⟨by omega, ?_, ?_⟩ (by omega) (by decide), by decide +kernel⟩
  · intro j h1 h2
    have : j = 0 := by omega
    subst this
    exact ⟨97, rfl, by decide, by unfold White; omega⟩
  · intro c q; cases q

theorem number_decimal (w : List Int) (hw : ∀ c ∈ w, Decimal c) : ∀ n, w.foldl (fun n c => n * 10 + (digitIn 10 c).getD 0) n = w.foldl (fun n c => n * 10 + (c - 48).toNat) n := by
  induction w with
  | nil => intro n; rfl
  | cons c w ih =>
    intro n
    have hc := hw c (by simp)
    have : digitIn 10 c = some (c - 48).toNat := by
      rw [digitIn_eq]
      unfold Decimal at hc
      unfold digitOf
      rw [if_pos hc, Option.bind_some, if_neg (by omega)]
    rw [List.foldl_cons, List.foldl_cons, this]
    exact ih (fun x hx => hw x (by simp [hx])) _

theorem readSpec_decimal (w : List Int) (hw : ∀ c ∈ w, Decimal c) : (readSpec 10 w).neg = false ∧ (readSpec 10 w).value = decimal w := by
  have hd : ∀ c ∈ w, (digitIn 10 c).isSome = true := by
    intro c hc
    have hc := hw c hc
    unfold Decimal at hc
    rw [digitIn_eq]
    unfold digitOf
    rw [if_pos hc, Option.bind_some, if_neg (by omega)]
    rfl
  have h1 : w.dropWhile isspace = w := by
    cases w with
    | nil => rfl
    | cons c w =>
      have hc := hw c (by simp)
      unfold Decimal at hc
      have : isspace c = false := by
        cases q : isspace c with
        | false => rfl
        | true => have := (isspace_white c).1 q; unfold White at this; omega
      rw [List.dropWhile_cons_of_neg (by simp [this])]
  have h2 : signSpec w = (false, w) := by
    cases w with
    | nil => rfl
    | cons c w =>
      have hc := hw c (by simp)
      unfold Decimal at hc
      show (if c = 45 then (true, w) else if c = 43 then (false, w) else (false, c :: w)) = _
      rw [if_neg (by omega), if_neg (by omega)]
  have h3 : prefixSpec 10 w = (10, w) := by
    unfold prefixSpec
    split
    · rw [if_neg (by simp), if_neg (by decide)]
    · rw [if_neg (by decide)]
    · rfl
  have h4 : w.takeWhile (fun x => (digitIn 10 x).isSome) = w := by
    have := (takeWhile_stop (f := fun x => (digitIn 10 x).isSome) (l := w) (r := []) hd (fun c q => nomatch q)).1
    rwa [List.append_nil] at this
  unfold readSpec
  dsimp only
  rw [h1, h2]
  dsimp only
  rw [h3]
  dsimp only
  rw [h4]
  exact ⟨rfl, number_decimal w hw 0⟩

/-- A part of a text, as seen with a count -/
theorem text_part {v : Env} {t : List Int} (h : v.Ok t) {a b : Nat} (hab : a ≤ b) (hb : b ≤ t.length) : Str.text (v.s.drop a) (some (b - a)) = (t.drop a).take (b - a) ∧ Valid (v.s.drop a) (some (b - a)) := by
  have := text_from h (i := a) (by omega) (b - a)
  have hr : room v.fin a (b - a) = b - a := by
    rw [room_eq h (by omega)]
    cases hf : v.fin with
    | none => rfl
    | some n => have := text_len_fin h hf; dsimp only; omega
  rwa [hr] at this

theorem versionPart_total {v : Env} {t : List Int} (h : v.Ok t) {a b : Nat} (hab : a ≤ b) (hb : b ≤ t.length) : ∃ x, versionPart v a b = some x := by
  obtain ⟨e1, e2⟩ := text_part h hab hb
  obtain ⟨p, h1, -⟩ := parse_spec (w := 64) (radix := 10) e2 (.inr (by decide))
  unfold versionPart strtouint
  rw [h1]
  exact ⟨_, rfl⟩

theorem versionPart_spec {v : Env} {t : List Int} (h : v.Ok t) {a b : Nat} (hab : a ≤ b) (hb : b ≤ t.length) (hd : ∀ c ∈ (t.drop a).take (b - a), Decimal c) (hs : partValue t a b < 256) : versionPart v a b = some (partValue t a b) := by
  obtain ⟨e1, e2⟩ := text_part h hab hb
  have ⟨r1, r2⟩ := readSpec_decimal _ hd
  have := strtouint_partial (w := 64) (radix := 10) e2 (.inr (by decide)) (by rw [e1]; exact r1)
  unfold versionPart
  rw [this, e1, r2]
  unfold partValue at hs ⊢
  rw [Option.map_some]
  congr 1
  dsimp only
  rw [Nat.min_eq_left (by omega)]
  omega

theorem protocolAt_one {stop : Bool} {t : List Int} {i : Nat} {p p' : Protocol} (h : ProtocolAt stop t i p) (h' : ProtocolAt stop t i p') : p = p' := by
  cases h with
  | major r _ s n =>
    cases h' with
    | major r' _ s' => cases runAt_one r r'; cases runAt_one s s'; rfl
    | minor r' _ s' q => cases runAt_one r r'; cases runAt_one s s'; exact absurd q n
  | minor r _ s q x =>
    cases h' with
    | major r' _ s' n => cases runAt_one r r'; cases runAt_one s s'; exact absurd q n
    | minor r' _ s' _ x' => cases runAt_one r r'; cases runAt_one s s'; cases runAt_one x x'; rfl

theorem runAt_end {p : Int → Prop} {t : List Int} {i e : Nat} (hi : i ≤ t.length) (h : RunAt p t i e) (hn : t[e]? = none) : e = t.length := by
  have := runAt_le h hi
  have := List.getElem?_eq_none_iff.1 hn
  omega

/-- The protocol as it is read: white space has to follow it. -/
theorem protocol_reads {v : Env} {t : List Int} (h : v.Ok t) {i : Nat} (hi : i ≤ t.length) (hg : GoodVersion t i) :
    (∃ p q, ProtocolAt false t i p ∧ p.interval = some q ∧ q.1 = i ∧ i ≤ q.2 ∧ q.2 ≤ t.length ∧ protocol v i = some (true, p)) ∨ ((∀ p, ¬ ProtocolAt false t i p) ∧ protocol v i = some (false, noProtocol)) := by
  unfold protocol
  obtain ⟨a, a1, a2, a3⟩ := scan_to h notSlash_spec hi
  rw [a1]
  dsimp only
  rw [hasChar_eq h a3]
  by_cases q : t[a]? = some 47
  case neg =>
    rw [decide_eq_false q]
    refine .inr ⟨?_, rfl⟩
    intro p hp
    cases hp with
    | major r x => cases runAt_one a2 r; exact q x
    | minor r x => cases runAt_one a2 r; exact q x
  rw [decide_eq_true q]
  dsimp only
  obtain ⟨b, b1, b2, b3⟩ := scan_to h notDot_spec (get_lt q)
  rw [b1]
  dsimp only
  rw [peek_eq h b3]
  obtain ⟨g1, g2, g3⟩ := hg a b a2 q b2
  have o1 := a2.1; have o2 := b2.1
  cases hc : t[b]? with
  | none =>
    refine .inr ⟨?_, rfl⟩
    intro p hp
    cases hp with
    | major r _ s _ l =>
      cases runAt_one a2 r; cases runAt_one b2 s
      rcases l with l | l
      · cases l
      · have := List.getElem?_eq_none_iff.1 hc; omega
    | minor r _ s x => cases runAt_one a2 r; cases runAt_one b2 s; rw [hc] at x; cases x
  | some c =>
    dsimp only
    by_cases dot : c = 46
    · rw [if_pos dot]
      subst dot
      obtain ⟨e, e1, e2, e3⟩ := scan_to h notSpace_spec (get_lt hc)
      rw [e1]
      dsimp only
      rw [peek_eq h e3]
      have o3 := e2.1
      cases hd : t[e]? with
      | none =>
        refine .inr ⟨?_, rfl⟩
        intro p hp
        cases hp with
        | major r _ s n => cases runAt_one a2 r; cases runAt_one b2 s; exact n hc
        | minor r _ s _ x l =>
          cases runAt_one a2 r; cases runAt_one b2 s; cases runAt_one e2 x
          rcases l with l | l
          · cases l
          · have := List.getElem?_eq_none_iff.1 hd; omega
      | some d =>
        dsimp only
        obtain ⟨k1, k2⟩ := g3 e hc e2
        rw [versionPart_spec h o2 b3 g1 g2, versionPart_spec h o3 e3 k1 k2]
        dsimp only
        refine .inl ⟨_, (i, e), .minor a2 q b2 hc e2 (.inr (get_lt hd)), rfl, rfl, by dsimp only; omega, e3, ?_⟩
        rw [Nat.mod_eq_of_lt (by omega)]
    · rw [if_neg dot, versionPart_spec h o2 b3 g1 g2]
      dsimp only
      refine .inl ⟨_, (i, b), .major a2 q b2 (by rw [hc]; intro x; cases x; exact dot rfl) (.inr (get_lt hc)), rfl, rfl, by dsimp only; omega, b3, ?_⟩
      rw [Nat.mod_eq_of_lt (by omega)]

/-- A version that goes to the end of the text -/
def OpenVersion (t : List Int) (i : Nat) : Prop := ∃ p, ProtocolAt true t i p ∧ p.interval = some (i, t.length)

theorem protocol_stop {t : List Int} {i : Nat} (hi : i ≤ t.length) (h : ¬ OpenVersion t i) (p : Protocol) : ProtocolAt true t i p ↔ ProtocolAt false t i p := by
  constructor
  · intro hp
    cases hp with
    | @major a b x1 x2 x3 x4 x5 =>
      refine .major x1 x2 x3 x4 (.inr ?_)
      have := runAt_le x3 (get_lt x2)
      by_cases q : b < t.length
      · exact q
      · have : b = t.length := by omega
        subst this
        exact absurd ⟨_, .major x1 x2 x3 x4 (.inl rfl), rfl⟩ h
    | @minor a b e x1 x2 x3 x4 x5 x6 =>
      refine .minor x1 x2 x3 x4 x5 (.inr ?_)
      have := runAt_le x5 (get_lt x4)
      by_cases q : e < t.length
      · exact q
      · have : e = t.length := by omega
        subst this
        exact absurd ⟨_, .minor x1 x2 x3 x4 x5 (.inl rfl), rfl⟩ h
  · intro hp
    cases hp with
    | major x1 x2 x3 x4 x5 => exact .major x1 x2 x3 x4 (.inl rfl)
    | minor x1 x2 x3 x4 x5 x6 => exact .minor x1 x2 x3 x4 x5 (.inl rfl)

/-- **C94** (protocols) of numbers below 256, that do not go to the end of the text: type and version are matched, and the version is `0x100 * major + minor`. -/
theorem protocol_spec_partial {v : Env} {t : List Int} (h : v.Ok t) {i : Nat} (hi : i ≤ t.length) (hg : GoodVersion t i) (ho : ¬ OpenVersion t i) :
    (∃ p, ProtocolAt true t i p ∧ protocol v i = some (true, p)) ∨ ((∀ p, ¬ ProtocolAt true t i p) ∧ protocol v i = some (false, noProtocol)) := by
  rcases protocol_reads h hi hg with ⟨p, q, p1, -, -, -, -, p2⟩ | ⟨n, p2⟩
  · exact .inl ⟨p, (protocol_stop hi ho p).2 p1, p2⟩
  · exact .inr ⟨(fun p q => n p ((protocol_stop hi ho p).1 q)), p2⟩

/-- What C94 lacks: a protocol at the end of the text is not matched. -/
theorem protocol_open : protocol (ipEnv [72, 47, 49, 46, 49]) 0 = some (false, noProtocol) ∧ ∃ p, ProtocolAt true [72, 47, 49, 46, 49] 0 p ∧ p.version = 0x101 := by
  refine ⟨by decide +kernel, _, .minor (a := 1) (b := 3) (e := 5) ⟨by omega, ?_, ?_⟩ rfl ⟨by omega, ?_, ?_⟩ rfl ⟨by omega, ?_, ?_⟩ (.inl rfl), by decide⟩
  · intro j h1 h2
    have : j = 0 := by omega
    subst this
    exact ⟨72, rfl, by decide, by unfold White; omega⟩
  · intro c q; cases q; exact fun x => x.1 rfl
  · intro j h1 h2
    have : j = 2 := by omega
    subst this
    exact ⟨49, rfl, by decide, by unfold White; omega⟩
  · intro c q; cases q; exact fun x => x.1 rfl
  · intro j h1 h2
    have : j = 4 := by omega
    subst this
    exact ⟨49, rfl, by unfold White; omega⟩
  · intro c q; cases q

theorem drop_get? {t : List Int} {i : Nat} : (t.drop i)[0]? = t[i]? ∧ (t.drop i)[1]? = t[i + 1]? := by
  rw [List.getElem?_drop, List.getElem?_drop]; exact ⟨rfl, rfl⟩

theorem break_cases {v : Env} {t : List Int} (h : v.Ok t) {i : Nat} (hi : i ≤ t.length) :
    (∃ e, BreakTo t i e ∧ i < e ∧ e ≤ t.length ∧ httpBreak v i = some (some e)) ∨ (¬ BreakAt t i ∧ httpBreak v i = some none) := by
  rw [break_spec h hi]
  have ⟨d0, d1⟩ := drop_get? (t := t) (i := i)
  cases hd : t.drop i with
  | nil =>
    rw [hd] at d0
    refine .inr ⟨?_, rfl⟩
    rintro (q | ⟨q, -⟩) <;> rw [← d0] at q <;> cases q
  | cons c r =>
    rw [hd] at d0 d1
    replace d0 : t[i]? = some c := d0.symm
    by_cases c10 : c = 10
    · subst c10
      exact .inl ⟨i + 1, .inl ⟨d0, rfl⟩, by omega, get_lt d0, rfl⟩
    · by_cases c13 : c = 13 ∧ r.head? = some 10
      · obtain ⟨rfl, q⟩ := c13
        cases r with
        | nil => cases q
        | cons d r =>
          cases q
          replace d1 : t[i + 1]? = some 10 := d1.symm
          exact .inl ⟨i + 2, .inr ⟨d0, d1, rfl⟩, by omega, get_lt d1, rfl⟩
      · have hl : lineBreak (c :: r) = none := by
          unfold lineBreak
          split
          · rename_i q; cases q; exact absurd ⟨rfl, rfl⟩ c13
          · rename_i q; cases q; exact absurd rfl c10
          · rfl
        refine .inr ⟨?_, by rw [hl]; rfl⟩
        rintro (q | ⟨q, q'⟩)
        · rw [d0] at q; cases q; exact c10 rfl
        · rw [d0] at q; cases q
          rw [← d1] at q'
          cases r with
          | nil => cases q'
          | cons d r => cases q'; exact c13 ⟨rfl, rfl⟩

theorem breakTo_at {t : List Int} {i e : Nat} (h : BreakTo t i e) : BreakAt t i := by
  rcases h with ⟨h, -⟩ | ⟨h, h', -⟩
  · exact .inl h
  · exact .inr ⟨h, h'⟩

theorem breakTo_one {t : List Int} {i e e' : Nat} (h : BreakTo t i e) (h' : BreakTo t i e') : e = e' := by
  rcases h with ⟨h, rfl⟩ | ⟨h, -, rfl⟩ <;> rcases h' with ⟨h', rfl⟩ | ⟨h', -, rfl⟩
  · rfl
  · rw [h] at h'; cases h'
  · rw [h] at h'; cases h'
  · rfl

theorem lineRun_one {p : Int → Prop} {t : List Int} {i e e' : Nat} (h : LineRun p t i e) (h' : LineRun p t i e') : e = e' := by
  have key : ∀ {a b}, LineRun p t i a → LineRun p t i b → ¬ a < b := by
    intro a b ha hb hlt
    obtain ⟨n, c, q, r⟩ := hb.2.1 a ha.1 hlt
    rcases ha.2.2 with x | x
    · exact n x
    · exact x c q r
  have := key h h'
  have := key h' h
  omega

theorem lineScan_spec {v : Env} {t : List Int} (h : v.Ok t) {p : Int → Bool} {P : Int → Prop} (hp : ∀ c, p c = true ↔ P c) : ∀ (fuel : Nat) {i : Nat}, i ≤ t.length → t.length - i < fuel →
    ∃ e, LineRun P t i e ∧ e ≤ t.length ∧ ((∃ f, BreakTo t e f ∧ f ≤ t.length ∧ lineScan v p fuel i = some (e, some f)) ∨ (¬ BreakAt t e ∧ lineScan v p fuel i = some (e, none))) := by
  intro fuel
  induction fuel with
  | zero => intro i _ q; omega
  | succ fuel ih =>
    intro i hi hf
    unfold lineScan
    rcases break_cases h hi with ⟨e, b1, b2, b3, b4⟩ | ⟨n, b4⟩
    · rw [b4]
      exact ⟨i, ⟨Nat.le_refl _, (fun j h1 h2 => by omega), .inl (breakTo_at b1)⟩, hi, .inl ⟨e, b1, b3, rfl⟩⟩
    · rw [b4]
      dsimp only
      rw [peek_eq h hi]
      cases hc : t[i]? with
      | none => exact ⟨i, ⟨Nat.le_refl _, (fun j h1 h2 => by omega), .inr (fun c q => by rw [hc] at q; cases q)⟩, hi, .inr ⟨n, rfl⟩⟩
      | some c =>
        dsimp only
        by_cases q : p c = true
        · rw [if_pos q]
          have hl := get_lt hc
          obtain ⟨e, e1, e2, e3⟩ := ih hl (by omega)
          refine ⟨e, ⟨by have := e1.1; omega, ?_, e1.2.2⟩, e2, e3⟩
          intro j h1 h2
          by_cases ej : j = i
          · subst ej; exact ⟨n, c, hc, (hp c).1 q⟩
          · exact e1.2.1 j (by omega) h2
        · rw [if_neg q]
          exact ⟨i, ⟨Nat.le_refl _, (fun j h1 h2 => by omega), .inr (fun d x y => by rw [hc] at x; cases x; exact q ((hp c).2 y))⟩, hi, .inr ⟨n, rfl⟩⟩

theorem lineTo_cases {v : Env} {t : List Int} (h : v.Ok t) {p : Int → Bool} {P : Int → Prop} (hp : ∀ c, p c = true ↔ P c) {i : Nat} (hi : i ≤ t.length) :
    (∃ e c, LineTo P t i e ∧ t[e]? = some c ∧ ¬ P c ∧ i ≤ e ∧ e < t.length ∧ lineTo v p i = some (some e)) ∨ ((∀ e, ¬ LineTo P t i e) ∧ lineTo v p i = some none) := by
  unfold lineTo
  obtain ⟨e, e1, e2, e3⟩ := lineScan_spec h hp (fuelOf v) hi (fuel_all h i)
  rcases e3 with ⟨f, b, -, e3⟩ | ⟨n, e3⟩
  · rw [e3]
    refine .inr ⟨?_, rfl⟩
    intro e' q
    cases lineRun_one e1 q.1
    exact q.2.1 (breakTo_at b)
  · rw [e3]
    dsimp only
    rw [peek_eq h e2]
    cases hc : t[e]? with
    | none =>
      refine .inr ⟨?_, rfl⟩
      intro e' q
      cases lineRun_one e1 q.1
      have := q.2.2
      have := List.getElem?_eq_none_iff.1 hc
      omega
    | some c =>
      have hl := get_lt hc
      refine .inl ⟨e, c, ⟨e1, n, hl⟩, hc, ?_, e1.1, hl, rfl⟩
      rcases e1.2.2 with x | x
      · exact absurd x n
      · exact x c hc

theorem lineTo_one {p : Int → Prop} {t : List Int} {i e e' : Nat} (h : LineTo p t i e) (h' : LineTo p t i e') : e = e' := lineRun_one h.1 h'.1

theorem lineEnd_spec {v : Env} {t : List Int} (h : v.Ok t) {b : Nat} (hb : b ≤ t.length) : ∃ d e, LineEnd t b e ∧
    (lineScan v (fun _ => true) (fuelOf v) b = some (d, some e) ∨ (d = e ∧ lineScan v (fun _ => true) (fuelOf v) b = some (d, none))) := by
  obtain ⟨d, d1, d2, d3⟩ := lineScan_spec h (p := fun _ => true) (P := fun _ => True) (fun c => by simp) (fuelOf v) hb (fuel_all h b)
  rcases d3 with ⟨f, x, -, y⟩ | ⟨n, y⟩
  · exact ⟨d, f, ⟨d, d1, .inl x⟩, .inl y⟩
  · have : d = t.length := by
      by_cases q : d < t.length
      · rcases d1.2.2 with x | x
        · exact absurd x n
        · exact absurd trivial (x _ (List.getElem?_eq_getElem q))
      · omega
    exact ⟨d, d, ⟨d, d1, .inr ⟨this, rfl⟩⟩, .inr ⟨rfl, y⟩⟩

theorem lineEnd_one {t : List Int} {b e e' : Nat} (h : LineEnd t b e) (h' : LineEnd t b e') : e = e' := by
  obtain ⟨d, d1, d2⟩ := h
  obtain ⟨d', d1', d2'⟩ := h'
  cases lineRun_one d1 d1'
  have last : ∀ {d : Nat}, d = t.length → ∀ e, ¬ BreakTo t d e := by
    intro d hd e x
    rcases breakTo_at x with y | ⟨y, -⟩
    · have := get_lt y; omega
    · have := get_lt y; omega
  rcases d2 with x | ⟨x, rfl⟩ <;> rcases d2' with x' | ⟨x', rfl⟩
  · exact breakTo_one x x'
  · exact absurd x (last x' _)
  · exact absurd x' (last x _)
  · rfl

/-- After the URL and white space there is the end of the line, or a protocol. -/
def CleanEnd (t : List Int) (b : Nat) : Prop := ∀ c, LineTo White t b c → GoodVersion t c ∧ ¬ OpenVersion t c ∧ ∃ p, ProtocolAt true t c p

theorem requestEnd_spec {v : Env} {t : List Int} (h : v.Ok t) {b : Nat} (hb : b ≤ t.length) (hc : CleanEnd t b) : ∃ p e, RequestEnd true t b p e ∧ requestEnd v b = some (p, e) := by
  unfold requestEnd
  obtain ⟨c, c1, c2, c3⟩ := lineScan_spec h isspace_white (fuelOf v) hb (fuel_all h b)
  rcases c3 with ⟨f, x, -, y⟩ | ⟨n, y⟩
  · rw [y]
    exact ⟨_, f, .old c1 x, rfl⟩
  · rw [y]
    dsimp only
    rw [peek_eq h c2]
    cases hd : t[c]? with
    | none =>
      have := List.getElem?_eq_none_iff.1 hd
      exact ⟨_, c, .last c1 (by omega), rfl⟩
    | some d =>
      dsimp only
      have hl : LineTo White t b c := ⟨c1, n, get_lt hd⟩
      obtain ⟨g1, g2, p', g3⟩ := hc c hl
      rcases protocol_reads h c2 g1 with ⟨p, q, p1, p2, p3, p4, p5, p6⟩ | ⟨n, p6⟩
      · rw [p6]
        dsimp only
        rw [p2]
        dsimp only [Option.map_some, Option.getD_some]
        obtain ⟨d, e, d1, d2⟩ := lineEnd_spec h p5
        have fin : RequestEnd true t b p e := .protocol hl ((protocol_stop c2 g2 p).2 p1) p2 d1
        rcases d2 with d2 | ⟨rfl, d2⟩
        · rw [d2]; exact ⟨p, e, fin, rfl⟩
        · rw [d2]; exact ⟨p, d, fin, rfl⟩
      · exact absurd ((protocol_stop c2 g2 p').1 g3) (n p')

theorem lineRun_end {p : Int → Prop} {t : List Int} {b : Nat} {c : Nat} (h : LineTo p t b c) : c ≠ t.length ∧ ∀ e, ¬ BreakTo t c e := ⟨by have := h.2.2; omega, fun e x => h.2.1 (breakTo_at x)⟩

theorem requestEnd_one {stop : Bool} {t : List Int} {b e e' : Nat} {p p' : Protocol} (h : RequestEnd stop t b p e) (h' : RequestEnd stop t b p' e') : p = p' ∧ e = e' := by
  have last : ∀ {d : Nat}, d = t.length → ∀ e, ¬ BreakTo t d e := by
    intro d hd e x
    rcases breakTo_at x with y | ⟨y, -⟩
    · have := get_lt y; omega
    · have := get_lt y; omega
  cases h with
  | old r x =>
    cases h' with
    | old r' x' => cases lineRun_one r r'; exact ⟨rfl, breakTo_one x x'⟩
    | last r' y => cases lineRun_one r r'; exact absurd x (last y _)
    | protocol r' => cases lineRun_one r r'.1; exact absurd x ((lineRun_end r').2 _)
  | last r y =>
    cases h' with
    | old r' x => cases lineRun_one r r'; exact absurd x (last y _)
    | last r' => cases lineRun_one r r'; exact ⟨rfl, rfl⟩
    | protocol r' => cases lineRun_one r r'.1; exact absurd y (lineRun_end r').1
  | protocol r x y z =>
    cases h' with
    | old r' x' => cases lineRun_one r.1 r'; exact absurd x' ((lineRun_end r).2 _)
    | last r' y' => cases lineRun_one r.1 r'; exact absurd y' (lineRun_end r).1
    | protocol r' x' y' z' =>
      cases lineRun_one r.1 r'.1
      cases protocolAt_one x x'
      rw [y] at y'; cases y'
      exact ⟨rfl, lineEnd_one z z'⟩

/-- A parser of URLs: it matches iff there is one, and only that one, within the text. -/
structure ReadsUrl (n : Nat) (url : Nat → Option (Bool × HttpUrl)) (Url : Nat → HttpUrl → Prop) : Prop where
  cases : ∀ i ≤ n, (∃ u, Url i u ∧ url i = some (true, u)) ∨ ((∀ u, ¬ Url i u) ∧ ∃ u, url i = some (false, u))
  one : ∀ i u u', Url i u → Url i u' → u = u'
  fin : ∀ i ≤ n, ∀ u, Url i u → ∃ q, u.interval = some q ∧ q.2 ≤ n

/-- **C94** (requests) If a URL is followed by the end of the line or a well-formed protocol which is not at the end of the text: the verb, the URL and the protocol are matched, and the whole line; it does not match iff no request is there. -/
theorem request_spec_partial {v : Env} {t : List Int} (h : v.Ok t) {url : Nat → Option (Bool × HttpUrl)} {Url : Nat → HttpUrl → Prop} (hu : ReadsUrl t.length url Url) {i : Nat} (hi : i ≤ t.length)
    (hc : ∀ c u q, Url c u → u.interval = some q → CleanEnd t q.2) :
    (∃ r, RequestAt true Url t i r ∧ request v url i = some (true, r)) ∨ ((∀ r, ¬ RequestAt true Url t i r) ∧ request v url i = some (false, noRequest)) := by
  unfold request
  rcases lineTo_cases h isspace_white hi with ⟨a, _, a1, -, -, -, a3, a4⟩ | ⟨n, a4⟩
  case inr =>
    rw [a4]
    refine .inr ⟨?_, rfl⟩
    rintro r ⟨a, _, _, _, _, x, -⟩
    exact n _ x
  rw [a4]
  dsimp only
  rcases lineTo_cases h notSpace_spec (i := a) (by omega) with ⟨b, _, b1, -, -, -, b3, b4⟩ | ⟨n, b4⟩
  case inr =>
    rw [b4]
    refine .inr ⟨?_, rfl⟩
    rintro r ⟨a', _, _, _, _, x, y, -⟩
    cases lineTo_one a1 x
    exact n _ y
  rw [b4]
  dsimp only
  rcases lineTo_cases h isspace_white (i := b + 1) (by omega) with ⟨c, _, c1, -, -, -, c3, c4⟩ | ⟨n, c4⟩
  case inr =>
    rw [c4]
    refine .inr ⟨?_, rfl⟩
    rintro r ⟨a', b', _, _, _, x, y, z, -⟩
    cases lineTo_one a1 x; cases lineTo_one b1 y
    exact n _ z
  rw [c4]
  dsimp only
  rcases hu.cases c (by omega) with ⟨u, u1, u2⟩ | ⟨n, u, u2⟩
  case inr =>
    rw [u2]
    refine .inr ⟨?_, rfl⟩
    rintro r ⟨a', b', c', _, _, x, y, z, w, -⟩
    cases lineTo_one a1 x; cases lineTo_one b1 y; cases lineTo_one c1 z
    exact n _ w
  rw [u2]
  dsimp only
  obtain ⟨q, q1, q2⟩ := hu.fin c (by omega) u u1
  rw [q1]
  dsimp only [Option.map_some, Option.getD_some]
  obtain ⟨p, e, e1, e2⟩ := requestEnd_spec h q2 (hc c u q u1 q1)
  rw [e2]
  exact .inl ⟨_, ⟨a, b, c, q, e, a1, b1, c1, u1, q1, e1, rfl, rfl⟩, rfl⟩

/-- **C94** There is just one request. -/
theorem requestAt_one {stop : Bool} {Url : Nat → HttpUrl → Prop} (one : ∀ i u u', Url i u → Url i u' → u = u') {t : List Int} {i : Nat} {r r' : Request} (h : RequestAt stop Url t i r) (h' : RequestAt stop Url t i r') : r = r' := by
  obtain ⟨a, b, c, q, e, h1, h2, h3, h4, h5, h6, h7, h8⟩ := h
  obtain ⟨a', b', c', q', e', h1', h2', h3', h4', h5', h6', h7', h8'⟩ := h'
  cases lineTo_one h1 h1'; cases lineTo_one h2 h2'; cases lineTo_one h3 h3'
  have eu := one _ _ _ h4 h4'
  rw [← eu] at h5'
  rw [h5] at h5'; cases h5'
  obtain ⟨ep, rfl⟩ := requestEnd_one h6 h6'
  cases r; cases r'
  simp_all

/-- **C94** The parser of URLs, for texts that end in a terminator and have no empty ports. -/
theorem url_readsUrl {v : Env} {t : List Int} (h : v.Ok t) (hz : below v.fin t.length = true) (hn : ∀ i, ¬ EmptyPort v.lower t i) : ReadsUrl t.length (httpUrl v) (HttpUrlAt v.lower 80 t) := by
  refine ⟨?_, fun i u u' => httpUrlAt_one, ?_⟩
  · intro i hi
    obtain ⟨h1, h2⟩ := http_url_terminated_partial h hz hi (hn i)
    by_cases q : ∃ u, HttpUrlAt v.lower 80 t i u
    · obtain ⟨u, q⟩ := q
      exact .inl ⟨u, q, (h1 u).1 q⟩
    · exact .inr ⟨(fun u x => q ⟨u, x⟩), _, h2 (fun u x => q ⟨u, x⟩)⟩
  · rintro i hi u ⟨a, b, e, -, h2, h3, -, h5, h6⟩
    refine ⟨(i, e), h6, ?_⟩
    have segs : ∀ {a l e}, SegsAt t a l e → a ≤ t.length → e ≤ t.length := by
      intro a l e h
      induction h with
      | last r => intro q; exact runAt_le r q
      | more r x _ ih => intro q; exact ih (get_lt x)
    have query : ∀ {a l e}, QueryAt t a l e → a ≤ t.length → e ≤ t.length := by
      intro a l e h
      induction h with
      | stop => intro q; exact q
      | amp x _ ih => intro q; exact ih (get_lt x)
      | param x _ ih =>
        intro q
        refine ih ?_
        cases x with
        | name r => exact runAt_le r q
        | value r _ c s => exact runAt_le s (get_lt c)
    have hb := segs h3 (get_lt h2)
    revert h5
    generalize u.params = ps
    intro h5
    cases h5 with
    | none => exact hb
    | some x y => exact query y (get_lt x)

/-! ### Headers -/

theorem breakWhite {t : List Int} {i e : Nat} (h : BreakTo t i e) : ∀ j, i ≤ j → j < e → ∃ c, t[j]? = some c ∧ White c := by
  intro j h1 h2
  rcases h with ⟨h, rfl⟩ | ⟨h, h', rfl⟩
  · have : j = i := by omega
    subst this
    exact ⟨10, h, by unfold White; omega⟩
  · by_cases q : j = i
    · subst q; exact ⟨13, h, by unfold White; omega⟩
    · have : j = i + 1 := by omega
      subst this
      exact ⟨10, h', by unfold White; omega⟩

/-- `x` followed by `y` -/
def joinIv : Iv → Iv → Iv
  | none, y => y
  | some x, none => some x
  | some x, some y => some (x.1, y.2)

theorem trimmed_white {t : List Int} {b c d : Nat} {v : Iv} (hbc : b ≤ c) (hw : ∀ j, b ≤ j → j < c → ∃ x, t[j]? = some x ∧ White x) (h : Trimmed t c d v) : Trimmed t b d v := by
  have ext : ∀ {n : Nat}, (∀ j, c ≤ j → j < n → ∃ x, t[j]? = some x ∧ White x) → ∀ j, b ≤ j → j < n → ∃ x, t[j]? = some x ∧ White x := by
    intro n k j h1 h2
    by_cases q : j < c
    · exact hw j h1 q
    · exact k j (by omega) h2
  cases h with
  | empty n => exact .empty (ext n)
  | some h1 h2 h3 h4 h5 h6 h7 => exact .some (by omega) h2 h3 (ext h4) h5 h6 h7

theorem trimmed_char {t : List Int} {b d : Nat} {v : Iv} {c : Int} (hc : t[b]? = some c) (hw : ¬ White c) (hbd : b < d) (h : Trimmed t (b + 1) d v) : Trimmed t b d (joinIv (some (b, b + 1)) v) := by
  cases h with
  | empty n => exact .some (Nat.le_refl _) (by omega) hbd (fun j h1 h2 => by omega) n ⟨c, hc, hw⟩ ⟨c, by simpa using hc, hw⟩
  | some h1 h2 h3 h4 h5 h6 h7 => exact .some (Nat.le_refl _) (by omega) h3 (fun j h1 h2 => by omega) h5 ⟨c, hc, hw⟩ h7

theorem joinIv_widen (v w : Iv) (e : Nat) : joinIv (widen v e) w = joinIv v (joinIv (some (e, e + 1)) w) := by
  cases v <;> cases w <;> rfl

theorem joinIv_none (v : Iv) : joinIv v none = v := by cases v <;> rfl

theorem valueLoop_spec {v : Env} {t : List Int} (h : v.Ok t) : ∀ (fuel : Nat) {b : Nat} (value : Iv), b ≤ t.length → t.length - b < fuel →
    ∃ d e w, HeaderEnd t b d e ∧ d ≤ t.length ∧ Trimmed t b d w ∧ valueLoop v fuel b value = some (joinIv value w, e) := by
  intro fuel
  induction fuel with
  | zero => intro b value _ q; omega
  | succ fuel ih =>
    intro b value hb hf
    unfold valueLoop
    rcases break_cases h hb with ⟨f, b1, b2, b3, b4⟩ | ⟨n, b4⟩
    · rw [b4]
      dsimp only
      have stop : (BreakAt t f ∨ ∀ c, t[f]? = some c → ¬ White c) → ∃ d e w, HeaderEnd t b d e ∧ d ≤ t.length ∧ Trimmed t b d w ∧ some (value, f) = some (joinIv value w, e) := by
        intro q
        refine ⟨b, f, none, ⟨Nat.le_refl _, (fun j _ h1 h2 => by omega), .inr ⟨b1, q⟩⟩, hb, .empty (fun j h1 h2 => by omega), ?_⟩
        rw [joinIv_none]
      rcases break_cases h b3 with ⟨g, c1, -, -, c4⟩ | ⟨n, c4⟩
      · rw [c4]
        exact stop (.inl (breakTo_at c1))
      · rw [c4]
        dsimp only
        rw [peek_eq h b3]
        cases hc : t[f]? with
        | none => exact stop (.inr (fun c q => by rw [hc] at q; cases q))
        | some c =>
          dsimp only
          by_cases q : isspace c = true
          · rw [if_pos q]
            have hl := get_lt hc
            have hw := (isspace_white c).1 q
            obtain ⟨d, e, w, h1, h2, h3, h4⟩ := ih value hl (by omega)
            have whites : ∀ j, b ≤ j → j < f + 1 → ∃ x, t[j]? = some x ∧ White x := by
              intro j k1 k2
              by_cases y : j < f
              · exact breakWhite b1 j k1 y
              · have : j = f := by omega
                subst this
                exact ⟨c, hc, hw⟩
            refine ⟨d, e, w, ⟨by have := h1.1; omega, ?_, h1.2.2⟩, h2, trimmed_white (by omega) whites h3, h4⟩
            intro j g k1 k2 x
            by_cases y : f + 1 ≤ j
            · exact h1.2.1 j g y k2 x
            · by_cases z : j = f
              · subst z; exact n (breakTo_at x.1)
              · -- within the line break: it goes up to `f` as well
                have : g = f := by
                  rcases b1 with ⟨b1, rfl⟩ | ⟨b1, b1', rfl⟩
                  · have : j = b := by omega
                    subst this
                    exact breakTo_one x.1 (.inl ⟨b1, rfl⟩)
                  · by_cases y : j = b
                    · subst y; exact breakTo_one x.1 (.inr ⟨b1, b1', rfl⟩)
                    · have : j = b + 1 := by omega
                      subst this
                      exact breakTo_one x.1 (.inl ⟨b1', rfl⟩)
                subst this
                rcases x.2 with y | y
                · exact n y
                · exact y c hc hw
          · rw [if_neg q]
            exact stop (.inr (fun d x y => by rw [hc] at x; cases x; exact q ((isspace_white c).2 y)))
    · rw [b4]
      dsimp only
      rw [peek_eq h hb]
      cases hc : t[b]? with
      | none =>
        have := List.getElem?_eq_none_iff.1 hc
        refine ⟨b, b, none, ⟨Nat.le_refl _, (fun j _ h1 h2 => by omega), .inl ⟨by omega, rfl⟩⟩, hb, .empty (fun j h1 h2 => by omega), ?_⟩
        rw [joinIv_none]
      | some c =>
        dsimp only
        have hl := get_lt hc
        have go : ∀ {d e}, HeaderEnd t (b + 1) d e → HeaderEnd t b d e := by
          intro d e x
          refine ⟨by have := x.1; omega, ?_, x.2.2⟩
          intro j g k1 k2 y
          by_cases z : j = b
          · subst z; exact n (breakTo_at y.1)
          · exact x.2.1 j g (by omega) k2 y
        by_cases q : isspace c = true
        · rw [if_pos q]
          obtain ⟨d, e, w, h1, h2, h3, h4⟩ := ih value hl (by omega)
          refine ⟨d, e, w, go h1, h2, trimmed_white (Nat.le_succ b) ?_ h3, h4⟩
          intro j k1 k2
          have : j = b := by omega
          subst this
          exact ⟨c, hc, (isspace_white c).1 q⟩
        · rw [if_neg q]
          obtain ⟨d, e, w, h1, h2, h3, h4⟩ := ih (widen value b) hl (by omega)
          refine ⟨d, e, joinIv (some (b, b + 1)) w, go h1, h2, trimmed_char hc (fun x => q ((isspace_white c).2 x)) (by have := h1.1; omega) h3, ?_⟩
          rw [h4, joinIv_widen]

theorem headerName_spec {v : Env} {t : List Int} (h : v.Ok t) {i : Nat} (hi : i ≤ t.length) (hs : ∀ c, t[i]? = some c → ¬ White c) :
    (∃ a b, HeaderName t i a b ∧ b ≤ t.length ∧ headerName v i = some (some (a, b))) ∨ ((∀ a b, ¬ HeaderName t i a b) ∧ headerName v i = some none) := by
  unfold headerName
  rcases lineTo_cases h notColon_spec hi with ⟨a, c, a1, a2, a3, a5, a6, a4⟩ | ⟨n, a4⟩
  case inr =>
    rw [a4]
    refine .inr ⟨?_, rfl⟩
    intro a b x
    cases x with
    | colon y => exact n _ y
    | space _ y => exact n _ y
  rw [a4]
  dsimp only
  rw [peek_eq h (by omega)]
  dsimp only
  by_cases q : t[a]? = some 58
  · rw [if_pos q]
    exact .inl ⟨a, a + 1, .colon a1 q, a6, rfl⟩
  · rw [if_neg q]
    have hia : i < a := by
      by_cases y : i < a
      · exact y
      · have : a = i := by omega
        subst this
        have hw := hs c a2
        exact absurd ⟨hw, fun z => q (by rw [a2, z])⟩ a3
    rcases lineTo_cases h isspace_white (i := a + 1) (by omega) with ⟨b, _, b1, -, -, b5, b6, b4⟩ | ⟨n, b4⟩
    · rw [b4]
      dsimp only
      rw [hasChar_eq h (by omega)]
      by_cases r : t[b]? = some 58
      · rw [decide_eq_true r]
        exact .inl ⟨a, b + 1, .space hia a1 q b1 r, b6, rfl⟩
      · rw [decide_eq_false r]
        refine .inr ⟨?_, rfl⟩
        intro a' b' x
        cases x with
        | colon y z => cases lineTo_one a1 y; exact q z
        | space _ y _ z w => cases lineTo_one a1 y; cases lineTo_one b1 z; exact r w
    · rw [b4]
      refine .inr ⟨?_, rfl⟩
      intro a' b' x
      cases x with
      | colon y z => cases lineTo_one a1 y; exact q z
      | space _ y _ z => cases lineTo_one a1 y; exact n _ z

/-- **C95** A header is matched with its name and its value without white space on both sides, up to the line break that no white space follows; it does not match iff no header is there. -/
theorem header_spec {v : Env} {t : List Int} (h : v.Ok t) {i : Nat} (hi : i ≤ t.length) :
    (∃ r, HeaderAt t i r ∧ header v i = some (true, r)) ∨ ((∀ r, ¬ HeaderAt t i r) ∧ header v i = some (false, noHeader)) := by
  have white : ∀ c, t[i]? = some c → White c → ∀ r, ¬ HeaderAt t i r := by
    rintro c hc hw r ⟨a, b, _, _, x, -⟩
    have : ∀ {a}, LineTo (fun c => ¬ White c ∧ c ≠ 58) t i a → a = i := by
      intro a y
      by_cases z : i < a
      · obtain ⟨-, d, d1, d2⟩ := y.1.2.1 i (Nat.le_refl _) z
        rw [hc] at d1; cases d1
        exact absurd hw d2.1
      · have := y.1.1; omega
    cases x with
    | colon y z =>
      cases this y
      rw [hc] at z; cases z
      exact absurd hw (by unfold White; omega)
    | space y z => have := this z; omega
  have start : (headerStart v i = some true ∧ ∀ c, t[i]? = some c → ¬ White c) ∨ (headerStart v i = some false ∧ ∃ c, t[i]? = some c ∧ White c) := by
    unfold headerStart
    rcases break_cases h hi with ⟨e, b1, b2, -, b4⟩ | ⟨n, b4⟩
    · rw [b4]
      exact .inr ⟨rfl, breakWhite b1 i (Nat.le_refl _) b2⟩
    · rw [b4]
      dsimp only
      rw [peek_eq h hi]
      cases hc : t[i]? with
      | none => exact .inl ⟨rfl, fun c q => nomatch q⟩
      | some c =>
        dsimp only
        cases q : isspace c with
        | true => exact .inr ⟨rfl, c, rfl, (isspace_white c).1 q⟩
        | false => exact .inl ⟨rfl, fun d x y => by cases x; have := (isspace_white c).2 y; rw [q] at this; cases this⟩
  unfold header
  rcases start with ⟨s1, s2⟩ | ⟨s1, c, s2, s3⟩
  · rw [s1]
    dsimp only
    rcases headerName_spec h hi s2 with ⟨a, b, a1, a2, a3⟩ | ⟨n, a3⟩
    · rw [a3]
      dsimp only
      obtain ⟨d, e, w, h1, h2, h3, h4⟩ := valueLoop_spec h (fuelOf v) none a2 (fuel_all h b)
      rw [h4]
      exact .inl ⟨_, ⟨a, b, d, e, a1, h1, h3, rfl, rfl⟩, rfl⟩
    · rw [a3]
      refine .inr ⟨?_, rfl⟩
      rintro r ⟨a, b, _, _, x, -⟩
      exact n _ _ x
  · rw [s1]
    exact .inr ⟨white c s2 s3, rfl⟩

theorem headerName_one {t : List Int} {i a b a' b' : Nat} (h : HeaderName t i a b) (h' : HeaderName t i a' b') : a = a' ∧ b = b' := by
  cases h with
  | colon x y =>
    cases h' with
    | colon x' => cases lineTo_one x x'; exact ⟨rfl, rfl⟩
    | space _ x' n => cases lineTo_one x x'; exact absurd y n
  | space _ x n y =>
    cases h' with
    | colon x' y' => cases lineTo_one x x'; exact absurd y' n
    | space _ x' _ y' => cases lineTo_one x x'; cases lineTo_one y y'; exact ⟨rfl, rfl⟩

theorem headerEnd_one {t : List Int} {b d e d' e' : Nat} (h : HeaderEnd t b d e) (h' : HeaderEnd t b d' e') : d = d' ∧ e = e' := by
  have get : ∀ {d e}, EndsHeader t d e → d < t.length := by
    intro d e x
    rcases breakTo_at x.1 with y | ⟨y, -⟩ <;> exact get_lt y
  have key : ∀ {d e d' e'}, HeaderEnd t b d e → HeaderEnd t b d' e' → ¬ d < d' := by
    intro d e d' e' x y z
    rcases x.2.2 with ⟨w, -⟩ | w
    · rcases y.2.2 with ⟨u, -⟩ | u
      · omega
      · have := get u; omega
    · exact y.2.1 d e x.1 z w
  have k1 := key h h'
  have k2 := key h' h
  have : d = d' := by omega
  subst this
  refine ⟨rfl, ?_⟩
  rcases h.2.2 with ⟨x, rfl⟩ | x <;> rcases h'.2.2 with ⟨x', rfl⟩ | x'
  · rfl
  · have := get x'; omega
  · have := get x; omega
  · exact breakTo_one x.1 x'.1

theorem trimmed_one {t : List Int} {b d : Nat} {v w : Iv} (h : Trimmed t b d v) (h' : Trimmed t b d w) : v = w := by
  have no : ∀ {j : Nat}, (∃ c, t[j]? = some c ∧ White c) → ¬ ∃ c, t[j]? = some c ∧ ¬ White c := by
    rintro j ⟨c, q, r⟩ ⟨c', q', r'⟩
    rw [q] at q'; cases q'
    exact r' r
  cases h with
  | empty n =>
    cases h' with
    | empty => rfl
    | some h1 h2 h3 _ _ h6 => exact absurd h6 (no (n _ h1 (by omega)))
  | @some x y h1 h2 h3 h4 h5 h6 h7 =>
    cases h' with
    | empty n => exact absurd h6 (no (n _ h1 (by omega)))
    | @some x' y' g1 g2 g3 g4 g5 g6 g7 =>
      have e1 : ¬ x < x' := fun q => no (g4 x h1 q) h6
      have e2 : ¬ x' < x := fun q => no (h4 x' g1 q) g6
      have e3 : ¬ y < y' := fun q => no (h5 (y' - 1) (by omega) (by omega)) g7
      have e4 : ¬ y' < y := fun q => no (g5 (y - 1) (by omega) (by omega)) h7
      have : x = x' := by omega
      have : y = y' := by omega
      subst_vars
      rfl

/-- **C95** There is just one header. -/
theorem headerAt_one {t : List Int} {i : Nat} {r r' : Header} (h : HeaderAt t i r) (h' : HeaderAt t i r') : r = r' := by
  obtain ⟨a, b, d, e, h1, h2, h3, h4, h5⟩ := h
  obtain ⟨a', b', d', e', h1', h2', h3', h4', h5'⟩ := h'
  obtain ⟨rfl, rfl⟩ := headerName_one h1 h1'
  obtain ⟨rfl, rfl⟩ := headerEnd_one h2 h2'
  have := trimmed_one h3 h3'
  cases r; cases r'
  simp_all

/-- What C94 lacks: after something else than a protocol the line is left unread. `G / x` -/
theorem request_rest : request (ipEnv [71, 32, 47, 32, 120, 10]) (httpUrl (ipEnv [71, 32, 47, 32, 120, 10])) 0 = some (true, ⟨some (0, 1), ⟨none, none, 80, some (2, 3), [(3, 3)], [], some (2, 3)⟩, noProtocol, some (0, 4)⟩) := by decide +kernel

/-- What C94 lacks: a protocol at the end of the text is left unread. `G / H/1.1` -/
theorem request_open : request (ipEnv [71, 32, 47, 32, 72, 47, 49, 46, 49]) (httpUrl (ipEnv [71, 32, 47, 32, 72, 47, 49, 46, 49])) 0 = some (true, ⟨some (0, 1), ⟨none, none, 80, some (2, 3), [(3, 3)], [], some (2, 3)⟩, noProtocol, some (0, 4)⟩) := by decide +kernel

-- `G / H/1.0`, LF
example : request (ipEnv [71, 32, 47, 32, 72, 47, 49, 46, 48, 10]) (httpUrl (ipEnv [71, 32, 47, 32, 72, 47, 49, 46, 48, 10])) 0 =
    some (true, ⟨some (0, 1), ⟨none, none, 80, some (2, 3), [(3, 3)], [], some (2, 3)⟩, ⟨some (4, 5), some (6, 7), some (8, 9), 0x100, some (4, 9)⟩, some (0, 10)⟩) := by decide +kernel
-- `a : b`, CRLF, ` c `, CRLF, `d`
example : header (ipEnv [97, 32, 58, 32, 98, 13, 10, 32, 99, 32, 13, 10, 100]) 0 = some (true, ⟨some (0, 1), some (4, 9), some (0, 12)⟩) := by decide +kernel
example : header (ipEnv [97, 58, 13, 10]) 0 = some (true, ⟨some (0, 1), none, some (0, 4)⟩) ∧ header (ipEnv [97, 13, 10]) 0 = some (false, noHeader) := by decide +kernel

end Verif.Parser
