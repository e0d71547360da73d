import Verif.Parser.Dns
/-
Parsers of paths, URLs and e-mail addresses (include/stdex/parser.hpp 2957-3205, 3271-3396, 3411-3752, 3767-3855). Elements are the functions they compute, as in
Parser/Number. An element whose match fails has an invalid interval, as all parsers have (C61).
-/
namespace Verif.Parser
open Verif.Str

/-! ### Characters -/

/-- `basic_url_username_char::do_match` 2972-2988 -/
def urlUserChar (alnum : Int → Bool) (c : Int) : Bool :=
  c == 45 || c == 46 || c == 95 || c == 126 || c == 37 || c == 33 || c == 36 || c == 38 || c == 39 || c == 42 || c == 43 || c == 44 || c == 59 || c == 61 || alnum c

/-- `basic_url_password_char::do_match` 3073-3090 -/
def urlPassChar (alnum : Int → Bool) (c : Int) : Bool :=
  c == 45 || c == 46 || c == 95 || c == 126 || c == 37 || c == 33 || c == 36 || c == 38 || c == 39 || c == 40 || c == 41 || c == 42 || c == 43 || c == 44 || c == 59 || c == 61 || c == 58 || alnum c

/-- `basic_url_path_char::do_match` 3175-3196 -/
def urlPathChar (alnum : Int → Bool) (c : Int) : Bool :=
  c == 47 || c == 45 || c == 46 || c == 95 || c == 126 || c == 37 || c == 33 || c == 36 || c == 38 || c == 39 || c == 40 || c == 41 || c == 42 || c == 43 || c == 44 || c == 59 || c == 61 || c == 58 ||
    c == 64 || c == 63 || c == 35 || alnum c

/-- The three of them: `start < end && text[start]`, and the test. -/
def urlChar (v : Env) (test : Int → Bool) (i : Nat) : Option (Option Nat) :=
  match Str.cond v.s v.fin i with
  | none => none
  | some none => some none
  | some (some c) => if test c then some (some (i + 1)) else some none

/-! ### Paths -/

/-- `m_path_char`, `m_query_start`, `m_bookmark_start` -/
structure PathParts where
  chr : Sub
  query : Sub
  mark : Sub

/-- The loops 3316-3377 (`stop` tries the query, then the bookmark), 3322-3351 (the bookmark), and 3330-3341, 3358-3369 (nothing): `interval.end`, and what has stopped it. -/
def pathRun (v : Env) (chr : Sub) (stop : Nat → Option (Bool × Nat)) : Nat → Nat → Option (Nat × Option (Bool × Nat))
  | 0, _ => none
  | fuel + 1, e =>
    match Str.cond v.s v.fin e with
    | none => none
    | some none => some (e, none)
    | some (some _) =>
      match stop e with
      | some r => some (e, some r)
      | none =>
        match chr e with
        | some j => pathRun v chr stop fuel j
        | none => some (e, none)

/-- `path`, `query`, `bookmark`, `interval` -/
structure Path where
  path : Iv
  query : Iv
  mark : Iv
  interval : Iv
deriving DecidableEq

/-- 3319, 3355: the query first -/
def queryOrMark (c : PathParts) (e : Nat) : Option (Bool × Nat) :=
  match c.query e with
  | some q => some (true, q)
  | none => (c.mark e).map fun b => (false, b)

/-- `basic_url_path::do_match` 3301-3391 -/
def urlPath (v : Env) (c : PathParts) (i : Nat) : Option (Bool × Path) :=
  match pathRun v c.chr (queryOrMark c) (v.s.length + 2) i with
  | none => none
  | some (e, none) => some (if i < e then (true, ⟨some (i, e), none, none, some (i, e)⟩) else (false, ⟨none, none, none, none⟩))
  | some (e, some (true, q)) =>
    match pathRun v c.chr (fun e => (c.mark e).map fun b => (false, b)) (v.s.length + 2) q with
    | none => none
    | some (e2, none) => some (true, ⟨some (i, e), some (q, e2), none, some (i, e2)⟩)
    | some (e2, some (_, b)) =>
      match pathRun v c.chr (fun _ => none) (v.s.length + 2) b with
      | none => none
      | some (e3, _) => some (true, ⟨some (i, e), some (q, e2), some (b, e3), some (i, e3)⟩)
  | some (e, some (false, b)) =>
    match pathRun v c.chr (fun _ => none) (v.s.length + 2) b with
    | none => none
    | some (e3, _) => some (true, ⟨some (i, e), none, some (b, e3), some (i, e3)⟩)

/-! ### URLs -/

/-- The constructor's arguments 3414-3431 -/
structure UrlParts where
  http : Sub
  ftp : Sub
  mailto : Sub
  file : Sub
  colon : Sub
  slash : Sub
  username : Sub
  password : Sub
  at_ : Sub
  lbracket : Sub
  rbracket : Sub
  ipv4 : Sub
  ipv6 : Sub
  dns : Sub
  port : Sub
  path : Sub

/-- The intervals 3467-3477, and `interval` -/
structure Url where
  http : Iv
  ftp : Iv
  mailto : Iv
  file : Iv
  username : Iv
  password : Iv
  ipv4 : Iv
  ipv6 : Iv
  dns : Iv
  port : Iv
  path : Iv
  interval : Iv
deriving DecidableEq

/-- `invalidate` 3451-3465 -/
def urlInvalid : Url := ⟨none, none, none, none, none, none, none, none, none, none, none, none⟩

/-- 3490-3493, 3501-3504, 3521-3524: a scheme with `://`; the end of the scheme and of the slashes -/
def slashes (c : UrlParts) (scheme : Sub) (i : Nat) : Option (Nat × Nat) :=
  match scheme i with
  | none => none
  | some a =>
    match c.colon a with
    | none => none
    | some b =>
      match c.slash b with
      | none => none
      | some d =>
        match c.slash d with
        | none => none
        | some e => some (a, e)

/-- 3512-3513: `mailto:` -/
def mailColon (c : UrlParts) (i : Nat) : Option (Nat × Nat) :=
  match c.mailto i with
  | none => none
  | some a => (c.colon a).map fun e => (a, e)

/-- 3542-3544, 3680-3682: `:password@` after the user name; the password, and the end -/
def passAt (c : UrlParts) (u : Nat) : Option (Nat × Nat × Nat) :=
  match c.colon u with
  | none => none
  | some b =>
    match c.password b with
    | none => none
    | some p => (c.at_ p).map fun e => (b, p, e)

/-- 3541-3562 and (with `ftp = false`) 3678-3700: `username`, `password`, `interval.end`. The test at 3549 is made where the user name starts. -/
def userInfo (c : UrlParts) (ftp : Bool) (e : Nat) : Iv × Iv × Nat :=
  match c.username e with
  | none => (none, none, e)
  | some u =>
    match passAt c u with
    | some (b, p, e') => (some (e, u), some (b, p), e')
    | none =>
      match c.at_ (if ftp then e else u) with
      | some e' => (some (e, u), none, e')
      | none => (none, none, e)

/-- 3570-3573, 3621-3639: an address in brackets; its interval, and the end -/
def bracketed (c : UrlParts) (ip : Sub) (e : Nat) : Option ((Nat × Nat) × Nat) :=
  match c.lbracket e with
  | none => none
  | some a =>
    match ip a with
    | none => none
    | some b => (c.rbracket b).map fun e' => ((a, b), e')

/-- 3564-3589, 3702-3727: `ipv4_host`, `ipv6_host`, `dns_host`, `interval.end` -/
def siteHost (c : UrlParts) (e : Nat) : Option (Iv × Iv × Iv × Nat) :=
  match c.ipv4 e with
  | some j => some (some (e, j), none, none, j)
  | none =>
    match bracketed c c.ipv6 e with
    | some (iv, j) => some (none, some iv, none, j)
    | none =>
      match c.dns e with
      | some j => some (none, none, some (e, j), j)
      | none => none

/-- 3621-3649, 3816-3842: the same for e-mail addresses -/
def mailHost (c : UrlParts) (e : Nat) : Option (Iv × Iv × Iv × Nat) :=
  match bracketed c c.ipv4 e with
  | some (iv, j) => some (some iv, none, none, j)
  | none =>
    match bracketed c c.ipv6 e with
    | some (iv, j) => some (none, some iv, none, j)
    | none =>
      match c.dns e with
      | some j => some (none, none, some (e, j), j)
      | none => none

/-- 3591-3598, 3729-3736: `port`, `interval.end` -/
def portAt (c : UrlParts) (e : Nat) : Iv × Nat :=
  match c.colon e with
  | none => (none, e)
  | some a =>
    match c.port a with
    | none => (none, e)
    | some b => (some (a, b), b)

/-- 3600-3603, 3659-3662, 3738-3741: `path`, `interval.end` -/
def pathAt (c : UrlParts) (e : Nat) : Iv × Nat :=
  match c.path e with
  | none => (none, e)
  | some j => (some (e, j), j)

/-- 3564-3606, 3702-3744, after the user -/
def site (c : UrlParts) (i : Nat) (http ftp user pass : Iv) (e : Nat) : Bool × Url :=
  match siteHost c e with
  | none => (false, urlInvalid)
  | some (v4, v6, dns, e1) =>
    let (port, e2) := portAt c e1
    let (path, e3) := pathAt c e2
    (true, ⟨http, ftp, none, none, user, pass, v4, v6, dns, port, path, some (i, e3)⟩)

/-- `basic_url::do_match` 3480-3745; the elements that are left as they were are those of an unsuccessful match -/
def url (c : UrlParts) (i : Nat) : Bool × Url :=
  match slashes c c.http i with
  | some (a, e) =>
    let (user, pass, e1) := userInfo c false e
    site c i (some (i, a)) none user pass e1
  | none =>
    match slashes c c.ftp i with
    | some (a, e) =>
      let (user, pass, e1) := userInfo c true e
      site c i none (some (i, a)) user pass e1
    | none =>
      match mailColon c i with
      | some (a, e) =>
        match c.username e with
        | none => (false, urlInvalid)
        | some u =>
          match c.at_ u with
          | none => (false, urlInvalid)
          | some e1 =>
            match mailHost c e1 with
            | none => (false, urlInvalid)
            | some (v4, v6, dns, e2) => (true, ⟨none, none, some (i, a), none, some (e, u), none, v4, v6, dns, none, none, some (i, e2)⟩)
      | none =>
        match slashes c c.file i with
        | some (a, e) =>
          let (path, e1) := pathAt c e
          (true, ⟨none, none, none, some (i, a), none, none, none, none, none, none, path, some (i, e1)⟩)
        | none => site c i none none none none i

/-- `username`, `ipv4_host`, `ipv6_host`, `dns_host` 3798-3801, `interval` -/
structure Email where
  username : Iv
  ipv4 : Iv
  ipv6 : Iv
  dns : Iv
  interval : Iv
deriving DecidableEq

/-- `basic_email_address::do_match` 3804-3850 -/
def email (c : UrlParts) (i : Nat) : Bool × Email :=
  match c.username i with
  | none => (false, ⟨none, none, none, none, none⟩)
  | some u =>
    match c.at_ u with
    | none => (false, ⟨none, none, none, none, none⟩)
    | some e =>
      match mailHost c e with
      | none => (false, ⟨none, none, none, none, none⟩)
      | some (v4, v6, dns, e1) => (true, ⟨some (i, u), v4, v6, dns, some (i, e1)⟩)

/-! ### Specification -/

/-- RFC 3986, section 2.3, with the letters and digits of a locale -/
def Unreserved (alnum : Int → Bool) (c : Int) : Prop := alnum c = true ∨ c ∈ [45, 46, 95, 126]

/-- RFC 3986, section 2.2: `! $ & ' ( ) * + , ; =` -/
def SubDelim (c : Int) : Prop := c ∈ [33, 36, 38, 39, 40, 41, 42, 43, 44, 59, 61]

/-- The elements of a path in a text `t`, with characters `ok` in it. -/
def asciiPath (t : List Int) (ok : Int → Bool) : PathParts := ⟨testSub t ok, charSub t 63, charSub t 35⟩

/-- A part after its mark, or nothing. -/
def marked (c : Int) : Option (List Int) → List Int
  | none => []
  | some w => c :: w

/-- A path, a query after `?` and a bookmark after `#`, as text. -/
def pathText (p : List Int) (q b : Option (List Int)) : List Int := p ++ marked 63 q ++ marked 35 b

/-- The path has no `?` and no `#`, the query no `#`; what follows does not continue the last part. -/
structure PathSplit (ok : Int → Bool) (p : List Int) (q b : Option (List Int)) (rest : List Int) : Prop where
  path : ∀ c ∈ p, ok c = true ∧ c ≠ 63 ∧ c ≠ 35
  query : ∀ q', q = some q' → ∀ c ∈ q', ok c = true ∧ c ≠ 35
  mark : ∀ b', b = some b' → ∀ c ∈ b', ok c = true
  rest : ∀ c, rest.head? = some c → (b ≠ none → ok c = false) ∧ (b = none → c ≠ 35 ∧ (ok c = false ∨ (q = none ∧ c = 63))) ∧ (q = none → b = none → c ≠ 63)

/-- A scheme with a colon and two slashes. -/
def SchemeAt (c : UrlParts) (scheme : Sub) (i a e : Nat) : Prop := scheme i = some a ∧ ∃ b d, c.colon a = some b ∧ c.slash b = some d ∧ c.slash d = some e

/-- `mailto:` -/
def MailtoAt (c : UrlParts) (i a e : Nat) : Prop := c.mailto i = some a ∧ c.colon a = some e

/-- `user:password@` -/
def UserPass (c : UrlParts) (e u b p j : Nat) : Prop := c.username e = some u ∧ c.colon u = some b ∧ c.password b = some p ∧ c.at_ p = some j

/-- `user@` -/
def UserOnly (c : UrlParts) (e u j : Nat) : Prop := c.username e = some u ∧ c.at_ u = some j

/-- The user before a host. -/
inductive User (c : UrlParts) (e : Nat) : Iv → Iv → Nat → Prop
  | both {u b p j : Nat} : UserPass c e u b p j → User c e (some (e, u)) (some (b, p)) j
  | only {u j : Nat} : (∀ u b p j, ¬ UserPass c e u b p j) → UserOnly c e u j → User c e (some (e, u)) none j
  | absent : (∀ u b p j, ¬ UserPass c e u b p j) → (∀ u j, ¬ UserOnly c e u j) → User c e none none e

/-- An address in brackets. -/
def BracketAt (c : UrlParts) (ip : Sub) (e a b j : Nat) : Prop := c.lbracket e = some a ∧ ip a = some b ∧ c.rbracket b = some j

/-- The host: an IPv4 address (in an e-mail address: in brackets), or an IPv6 address in brackets, or a name. -/
inductive Host (c : UrlParts) (mail : Bool) (e : Nat) : Iv → Iv → Iv → Nat → Prop
  | v4 {j : Nat} : mail = false → c.ipv4 e = some j → Host c mail e (some (e, j)) none none j
  | v4b {a b j : Nat} : mail = true → BracketAt c c.ipv4 e a b j → Host c mail e (some (a, b)) none none j
  | v6 {a b j : Nat} : (mail = false → c.ipv4 e = none) → (mail = true → ∀ a b j, ¬ BracketAt c c.ipv4 e a b j) → BracketAt c c.ipv6 e a b j → Host c mail e none (some (a, b)) none j
  | dns {j : Nat} : (mail = false → c.ipv4 e = none) → (mail = true → ∀ a b j, ¬ BracketAt c c.ipv4 e a b j) → (∀ a b j, ¬ BracketAt c c.ipv6 e a b j) → c.dns e = some j →
      Host c mail e none none (some (e, j)) j

/-- The port after a colon, if it is there. -/
inductive Port (c : UrlParts) (e : Nat) : Iv → Nat → Prop
  | yes {a j : Nat} : c.colon e = some a → c.port a = some j → Port c e (some (a, j)) j
  | no : (∀ a j, c.colon e = some a → c.port a ≠ some j) → Port c e none e

/-- The path, if it is there. -/
inductive PathAt (c : UrlParts) (e : Nat) : Iv → Nat → Prop
  | yes {j : Nat} : c.path e = some j → PathAt c e (some (e, j)) j
  | no : c.path e = none → PathAt c e none e

/-- A URL at `i` and its parts; the schemes are tried in this order, and without one it is a host with a port and a path. -/
inductive UrlAt (c : UrlParts) (i : Nat) : Url → Prop
  | http {a e user pass e1 v4 v6 dns e2 port e3 path e4} : SchemeAt c c.http i a e → User c e user pass e1 → Host c false e1 v4 v6 dns e2 → Port c e2 port e3 → PathAt c e3 path e4 →
      UrlAt c i ⟨some (i, a), none, none, none, user, pass, v4, v6, dns, port, path, some (i, e4)⟩
  | ftp {a e user pass e1 v4 v6 dns e2 port e3 path e4} : (∀ a e, ¬ SchemeAt c c.http i a e) → SchemeAt c c.ftp i a e → User c e user pass e1 → Host c false e1 v4 v6 dns e2 → Port c e2 port e3 →
      PathAt c e3 path e4 → UrlAt c i ⟨none, some (i, a), none, none, user, pass, v4, v6, dns, port, path, some (i, e4)⟩
  | mailto {a e u e1 v4 v6 dns e2} : (∀ a e, ¬ SchemeAt c c.http i a e) → (∀ a e, ¬ SchemeAt c c.ftp i a e) → MailtoAt c i a e → UserOnly c e u e1 → Host c true e1 v4 v6 dns e2 →
      UrlAt c i ⟨none, none, some (i, a), none, some (e, u), none, v4, v6, dns, none, none, some (i, e2)⟩
  | file {a e path e1} : (∀ a e, ¬ SchemeAt c c.http i a e) → (∀ a e, ¬ SchemeAt c c.ftp i a e) → (∀ a e, ¬ MailtoAt c i a e) → SchemeAt c c.file i a e → PathAt c e path e1 →
      UrlAt c i ⟨none, none, none, some (i, a), none, none, none, none, none, none, path, some (i, e1)⟩
  | bare {v4 v6 dns e2 port e3 path e4} : (∀ a e, ¬ SchemeAt c c.http i a e) → (∀ a e, ¬ SchemeAt c c.ftp i a e) → (∀ a e, ¬ MailtoAt c i a e) → (∀ a e, ¬ SchemeAt c c.file i a e) →
      Host c false i v4 v6 dns e2 → Port c e2 port e3 → PathAt c e3 path e4 → UrlAt c i ⟨none, none, none, none, none, none, v4, v6, dns, port, path, some (i, e4)⟩

/-- An e-mail address at `i`. -/
inductive EmailAt (c : UrlParts) (i : Nat) : Email → Prop
  | mk {u e v4 v6 dns e1} : UserOnly c i u e → Host c true e v4 v6 dns e1 → EmailAt c i ⟨some (i, u), v4, v6, dns, some (i, e1)⟩

/-! ### Characters and paths -/

/-- **C83** (characters) User names have unreserved characters, `%` and the delimiters without parentheses, passwords have all of them and the colon, and paths also `/ @ ? #`. -/
theorem urlChars_rfc (alnum : Int → Bool) (c : Int) :
    (urlUserChar alnum c = true ↔ Unreserved alnum c ∨ c = 37 ∨ (SubDelim c ∧ c ≠ 40 ∧ c ≠ 41)) ∧
    (urlPassChar alnum c = true ↔ Unreserved alnum c ∨ c = 37 ∨ SubDelim c ∨ c = 58) ∧
    (urlPathChar alnum c = true ↔ Unreserved alnum c ∨ c = 37 ∨ SubDelim c ∨ c ∈ [58, 64, 47, 63, 35]) := by
  unfold urlUserChar urlPassChar urlPathChar Unreserved SubDelim
  simp only [Bool.or_eq_true, beq_iff_eq, List.mem_cons, List.not_mem_nil, or_false]
  by_cases a : alnum c = true
  · simp only [a, or_true, true_or]; simp
  · simp only [a]
    refine ⟨?_, ?_, ?_⟩ <;> constructor <;> intro h <;> simp at h ⊢ <;> omega

theorem urlChar_spec {v : Env} {t : List Int} (h : v.Ok t) (test : Int → Bool) {i : Nat} (hi : i ≤ t.length) : urlChar v test i = some (testSub t test i) := by
  unfold urlChar testSub
  rw [cond_eq h.valid (by rw [← h.text]; exact hi), ← h.text]
  cases q : t[i]? with
  | none => rfl
  | some c => dsimp only; split <;> rfl

/-- What stops a run before the end of the text. -/
def unlessEnd {α : Type} (r : List Int) (x : Option α) : Option α := match r with | [] => none | _ :: _ => x

theorem pathRun_text {v : Env} {t : List Int} (h : v.Ok t) {ok halt : Int → Bool} {stop : Nat → Option (Bool × Nat)} (hs : ∀ i c r, t.drop i = c :: r → (halt c = true ↔ stop i ≠ none)) :
    ∀ (r : List Int) (fuel e : Nat), t.drop e = r → e ≤ t.length → r.length < fuel →
      pathRun v (testSub t ok) stop fuel e = some (e + (r.takeWhile fun c => ok c && !halt c).length,
        unlessEnd (r.dropWhile fun c => ok c && !halt c) (stop (e + (r.takeWhile fun c => ok c && !halt c).length))) := by
  intro r
  induction r with
  | nil =>
    intro fuel e hd he hf
    cases fuel with
    | zero => omega
    | succ fuel =>
      rw [pathRun, cond_eq h.valid (by rw [← h.text]; exact he), ← h.text, List.getElem?_eq_none (List.drop_eq_nil_iff.1 hd)]
      rfl
  | cons c r ih =>
    intro fuel e hd he hf
    cases fuel with
    | zero => omega
    | succ fuel =>
      have get : t[e]? = some c := by
        have := congrArg (fun l : List Int => l[0]?) hd
        simpa using this
      rw [pathRun, cond_eq h.valid (by rw [← h.text]; exact he), ← h.text, get]
      dsimp only
      have hh := hs e c r hd
      cases q : stop e with
      | some x =>
        rw [q] at hh
        have : halt c = true := hh.2 (by simp)
        rw [List.takeWhile_cons, List.dropWhile_cons, this]
        simp [q, unlessEnd]
      | none =>
        rw [q] at hh
        have hc : halt c = false := by
          cases w : halt c with
          | false => rfl
          | true => exact absurd rfl (hh.1 w)
        dsimp only
        rw [test_at hd]
        by_cases w : ok c = true
        · rw [if_pos w]
          dsimp only
          rw [List.length_cons] at hf
          rw [ih fuel (e + 1) (drop_succ hd) (drop_le hd) (by omega)]
          have tw : (ok c && !halt c) = true := by rw [w, hc]; rfl
          rw [List.takeWhile_cons, List.dropWhile_cons, if_pos tw, if_pos tw, List.length_cons]
          have e1 : e + 1 + (r.takeWhile fun c => ok c && !halt c).length = e + ((r.takeWhile fun c => ok c && !halt c).length + 1) := by omega
          rw [e1]
        · rw [if_neg w]
          have tw : ¬ (ok c && !halt c) = true := by simp [w]
          rw [List.takeWhile_cons, List.dropWhile_cons, if_neg tw, if_neg tw]
          simp [q, unlessEnd]

theorem takeWhile_stop {f : Int → Bool} {l r : List Int} (h : ∀ c ∈ l, f c = true) (h2 : ∀ c, r.head? = some c → f c = false) : (l ++ r).takeWhile f = l ∧ (l ++ r).dropWhile f = r := by
  rw [List.takeWhile_append_of_pos h]
  have : (l ++ r).dropWhile f = r.dropWhile f := by
    induction l with
    | nil => rfl
    | cons a l ih => rw [List.cons_append, List.dropWhile_cons, if_pos (h a List.mem_cons_self)]; exact ih fun c q => h c (List.mem_cons_of_mem _ q)
  rw [this]
  cases r with
  | nil => simp
  | cons a r => simp [h2 a rfl]

/-- A run over a part of the text. -/
theorem pathRun_part {v : Env} {t : List Int} (h : v.Ok t) {ok halt : Int → Bool} {stop : Nat → Option (Bool × Nat)} (hs : ∀ i c r, t.drop i = c :: r → (halt c = true ↔ stop i ≠ none))
    {l r : List Int} {e : Nat} (hd : t.drop e = l ++ r) (he : e ≤ t.length) (hl : ∀ c ∈ l, ok c = true ∧ halt c = false) (hr : ∀ c, r.head? = some c → ok c = false ∨ halt c = true) :
    pathRun v (testSub t ok) stop (v.s.length + 2) e = some (e + l.length, unlessEnd r (stop (e + l.length))) := by
  have hlen : t.length ≤ v.s.length := by rw [h.text]; exact text_length_le _ _
  have := pathRun_text h (ok := ok) (halt := halt) hs (l ++ r) (v.s.length + 2) e hd he (by have := congrArg List.length hd; simp at this; simp; omega)
  have ⟨a, b⟩ := takeWhile_stop (f := fun c => ok c && !halt c) (l := l) (r := r) (fun c q => by have := hl c q; simp [this.1, this.2])
    (fun c q => by rcases hr c q with w | w <;> simp [w])
  rw [this, a, b]

theorem mark_stop {t : List Int} (i : Nat) (c : Int) (r : List Int) (hd : t.drop i = c :: r) : (c == 35) = true ↔ ((charSub t 35 i).map fun b => (false, b)) ≠ none := by
  rw [char_at hd]
  by_cases q : c = 35 <;> simp [q]

theorem both_stop {t : List Int} (ok : Int → Bool) (i : Nat) (c : Int) (r : List Int) (hd : t.drop i = c :: r) : (c == 63 || c == 35) = true ↔ queryOrMark (asciiPath t ok) i ≠ none := by
  show _ ↔ (match charSub t 63 i with | some q => some (true, q) | none => (charSub t 35 i).map fun b => (false, b)) ≠ none
  rw [char_at hd, char_at hd]
  by_cases q : c = 63
  · simp [q]
  · by_cases q2 : c = 35 <;> simp [q, q2]

theorem last_run {v : Env} {t : List Int} (h : v.Ok t) {ok : Int → Bool} {b rest : List Int} {e : Nat} (hd : t.drop e = b ++ rest) (he : e ≤ t.length) (hb : ∀ c ∈ b, ok c = true)
    (hr : ∀ c, rest.head? = some c → ok c = false) : pathRun v (testSub t ok) (fun _ => none) (v.s.length + 2) e = some (e + b.length, none) := by
  rw [pathRun_part h (halt := fun _ => false) (fun i c r _ => by simp) hd he (fun c q => ⟨hb c q, rfl⟩) (fun c q => .inl (hr c q))]
  cases rest <;> rfl

/-- **C83** (path) The path ends before the first `?` or `#`, the query before the first `#`, the bookmark with the last character of a path; parts that are not there are invalid. -/
theorem urlPath_parts {v : Env} {t : List Int} (h : v.Ok t) {ok : Int → Bool} {p : List Int} {q b : Option (List Int)} {rest : List Int} (hp : PathSplit ok p q b rest) (hne : pathText p q b ≠ [])
    {i : Nat} (hd : t.drop i = pathText p q b ++ rest) :
    urlPath v (asciiPath t ok) i = some (true, ⟨some (i, i + p.length), q.map fun q => (i + p.length + 1, i + p.length + 1 + q.length),
      b.map fun b => (i + (pathText p q none).length + 1, i + (pathText p q none).length + 1 + b.length), some (i, i + (pathText p q b).length)⟩) := by
  have hi : i ≤ t.length := by
    have := congrArg List.length hd
    rw [List.length_drop, List.length_append] at this
    have : 0 < (pathText p q b).length := List.length_pos_iff.2 hne
    omega
  have run1 : ∀ {r : List Int}, t.drop i = p ++ r → (∀ c, r.head? = some c → ok c = false ∨ (c == 63 || c == 35) = true) →
      pathRun v (testSub t ok) (queryOrMark (asciiPath t ok)) (v.s.length + 2) i = some (i + p.length, unlessEnd r (queryOrMark (asciiPath t ok) (i + p.length))) := by
    intro r d w
    exact pathRun_part h (halt := fun c => c == 63 || c == 35) (both_stop ok) d hi (fun c m => by have := hp.path c m; simp [this]) w
  have stop1 : ∀ {r : List Int} {e : Nat}, t.drop e = r → (∀ c, r.head? = some c → c ≠ 63 ∧ c ≠ 35) → queryOrMark (asciiPath t ok) e = none := by
    intro r e d w
    cases r with
    | nil => show (match charSub t 63 e with | some q => some (true, q) | none => (charSub t 35 e).map fun b => (false, b)) = none; rw [char_end d, char_end d]; rfl
    | cons c r =>
      have := w c rfl
      show (match charSub t 63 e with | some q => some (true, q) | none => (charSub t 35 e).map fun b => (false, b)) = none
      rw [char_at d, char_at d, if_neg this.1, if_neg this.2]; rfl
  have len : ∀ {r : List Int} {e : Nat}, t.drop e = r → r ≠ [] → e ≤ t.length := by
    intro r e d w
    have := congrArg List.length d
    rw [List.length_drop] at this
    have := List.length_pos_iff.2 w
    omega
  unfold urlPath
  show (match pathRun v (testSub t ok) (queryOrMark (asciiPath t ok)) (v.s.length + 2) i with | none => none | some (e, none) => _ | some (e, some (true, q)) => _ | some (e, some (false, b)) => _) = _
  cases q with
  | none =>
    cases b with
    | none =>
      -- only a path
      have e0 : pathText p none none = p := by simp [pathText, marked]
      rw [e0] at hd hne ⊢
      rw [run1 hd (fun c w => by have := (hp.rest c w).2.1 rfl; have := (hp.rest c w).2.2 rfl rfl; left; rcases ‹c ≠ 35 ∧ _› with ⟨_, q | ⟨_, q⟩⟩; exact q; exact absurd q ‹c ≠ 63›)]
      have st : unlessEnd rest (queryOrMark (asciiPath t ok) (i + p.length)) = none := by
        cases rest with
        | nil => rfl
        | cons c rest => exact stop1 (drop_add hd) fun c w => ⟨(hp.rest c w).2.2 rfl rfl, ((hp.rest c w).2.1 rfl).1⟩
      rw [st]
      dsimp only
      have := List.length_pos_iff.2 hne
      rw [if_pos (by omega)]
      rfl
    | some b =>
      have e0 : pathText p none (some b) = p ++ 35 :: b := by simp [pathText, marked]
      have e1 : pathText p none none = p := by simp [pathText, marked]
      rw [e0, List.append_assoc] at hd
      rw [e0, e1]
      rw [run1 hd (fun c w => by cases w; right; rfl)]
      have d1 : t.drop (i + p.length) = 35 :: (b ++ rest) := drop_add hd
      have qm : queryOrMark (asciiPath t ok) (i + p.length) = some (false, i + p.length + 1) := by
        show (match charSub t 63 (i + p.length) with | some q => some (true, q) | none => (charSub t 35 (i + p.length)).map fun b => (false, b)) = _
        rw [char_at d1, char_at d1, if_neg (by decide), if_pos rfl]; rfl
      dsimp only [List.cons_append, unlessEnd, marked]
      rw [qm]
      dsimp only
      have := last_run h (ok := ok) (drop_succ d1) (drop_le d1) (hp.mark b rfl) (fun c w => (hp.rest c w).1 (by simp))
      show (match pathRun v (testSub t ok) (fun _ => none) (v.s.length + 2) (i + p.length + 1) with | none => none | some (e3, _) => _) = _
      rw [this]
      simp
      omega
  | some q =>
    have d1 : t.drop (i + p.length) = 63 :: (q ++ (marked 35 b ++ rest)) := drop_add (by rw [hd]; simp [pathText, marked])
    rw [run1 (r := 63 :: (q ++ (marked 35 b ++ rest))) (by rw [hd]; simp [pathText, marked]) (fun c w => by cases w; right; rfl)]
    have qm : queryOrMark (asciiPath t ok) (i + p.length) = some (true, i + p.length + 1) := by
      show (match charSub t 63 (i + p.length) with | some q => some (true, q) | none => (charSub t 35 (i + p.length)).map fun b => (false, b)) = _
      rw [char_at d1, if_pos rfl]
    dsimp only [unlessEnd]
    rw [qm]
    dsimp only
    have d2 := drop_succ d1
    have run2 := pathRun_part h (ok := ok) (halt := fun c => c == 35) mark_stop d2 (drop_le d1) (fun c m => by have := hp.query q rfl c m; simp [this])
      (fun c w => by
        cases b with
        | none =>
          left
          rcases ((hp.rest c w).2.1 rfl).2 with w | ⟨w, _⟩
          · exact w
          · cases w
        | some b => cases w; right; rfl)
    show (match pathRun v (testSub t ok) (fun e => (charSub t 35 e).map fun b => (false, b)) (v.s.length + 2) (i + p.length + 1) with | none => none | some (e2, none) => _ | some (e2, some (_, b)) => _) = _
    rw [run2]
    have d3 := drop_add d2
    cases b with
    | none =>
      have st : unlessEnd (marked 35 none ++ rest) ((charSub t 35 (i + p.length + 1 + q.length)).map fun b => (false, b)) = none := by
        cases rest with
        | nil => rfl
        | cons c rest =>
          show ((charSub t 35 (i + p.length + 1 + q.length)).map fun b => (false, b)) = none
          rw [char_at (c := c) (rest := rest) d3, if_neg ((hp.rest c rfl).2.1 rfl).1]; rfl
      rw [st]
      simp [pathText, marked]
      omega
    | some b =>
      have d3 : t.drop (i + p.length + 1 + q.length) = 35 :: (b ++ rest) := d3
      have cs : charSub t 35 (i + p.length + 1 + q.length) = some (i + p.length + 1 + q.length + 1) := by rw [char_at d3, if_pos rfl]
      dsimp only [List.cons_append, unlessEnd, marked]
      rw [cs]
      dsimp only [Option.map_some]
      have := last_run h (ok := ok) (drop_succ d3) (drop_le d3) (hp.mark b rfl) (fun c w => (hp.rest c w).1 (by simp))
      show (match pathRun v (testSub t ok) (fun _ => none) (v.s.length + 2) (i + p.length + 1 + q.length + 1) with | none => none | some (e3, _) => _) = _
      rw [this]
      simp [pathText, marked]
      omega

/-- Every text is split in this way, and where nothing is split off, nothing matches. -/
theorem urlPath_total {v : Env} {t : List Int} (h : v.Ok t) (ok : Int → Bool) {i : Nat} (hi : i ≤ t.length) :
    ∃ p q b rest, PathSplit ok p q b rest ∧ t.drop i = pathText p q b ++ rest ∧ (pathText p q b = [] → urlPath v (asciiPath t ok) i = some (false, ⟨none, none, none, none⟩)) := by
  have span : ∀ (f : Int → Bool) (r : List Int), ∃ l r', r = l ++ r' ∧ (∀ c ∈ l, f c = true) ∧ ∀ c, r'.head? = some c → f c = false := by
    intro f r
    induction r with
    | nil => exact ⟨[], [], rfl, (fun c q => nomatch q), fun c q => nomatch q⟩
    | cons a r ih =>
      by_cases fa : f a = true
      · obtain ⟨l, r', e, h1, h2⟩ := ih
        refine ⟨a :: l, r', by rw [e]; rfl, fun c q => ?_, h2⟩
        rcases List.mem_cons.1 q with rfl | q
        · exact fa
        · exact h1 c q
      · exact ⟨[], a :: r, rfl, (fun c q => nomatch q), fun c q => by cases q; simpa using fa⟩
  obtain ⟨p, r, e, hp, hr⟩ := span (fun c => ok c && !(c == 63 || c == 35)) (t.drop i)
  have hp' : ∀ c ∈ p, ok c = true ∧ c ≠ 63 ∧ c ≠ 35 := fun c q => by have := hp c q; simp at this; exact this
  by_cases c1 : ∃ r1, r = 63 :: r1
  · obtain ⟨r1, rfl⟩ := c1
    obtain ⟨q, r2, rfl, hq, hr2⟩ := span (fun c => ok c && !(c == 35)) r1
    have hq' : ∀ c ∈ q, ok c = true ∧ c ≠ 35 := fun c w => by have := hq c w; simp at this; exact this
    by_cases c2 : ∃ r3, r2 = 35 :: r3
    · obtain ⟨r3, rfl⟩ := c2
      obtain ⟨b, rest, rfl, hb, hrest⟩ := span ok r3
      exact ⟨p, some q, some b, rest, ⟨hp', (fun q' w => by cases w; exact hq'), (fun q' w => by cases w; exact hb), fun c w => ⟨fun _ => hrest c w, (fun w => nomatch w), fun w => nomatch w⟩⟩,
        by rw [e]; simp [pathText, marked], fun w => by simp [pathText, marked] at w⟩
    · refine ⟨p, some q, none, r2, ⟨hp', (fun q' w => by cases w; exact hq'), (fun q' w => nomatch w), fun c w => ⟨fun w => absurd rfl w, fun _ => ?_, fun w => nomatch w⟩⟩,
        by rw [e]; simp [pathText, marked], fun w => by simp [pathText, marked] at w⟩
      have ne : c ≠ 35 := by
        rintro rfl
        cases r2 with
        | nil => cases w
        | cons a r2 => cases w; exact c2 ⟨r2, rfl⟩
      have := hr2 c w
      simp [ne] at this
      exact ⟨ne, .inl this⟩
  · by_cases c2 : ∃ r3, r = 35 :: r3
    · obtain ⟨r3, rfl⟩ := c2
      obtain ⟨b, rest, rfl, hb, hrest⟩ := span ok r3
      exact ⟨p, none, some b, rest, ⟨hp', (fun q' w => nomatch w), (fun q' w => by cases w; exact hb), fun c w => ⟨fun _ => hrest c w, (fun w => nomatch w), fun _ w => nomatch w⟩⟩,
        by rw [e]; simp [pathText, marked], fun w => by simp [pathText, marked] at w⟩
    · have ne : ∀ c, r.head? = some c → c ≠ 63 ∧ c ≠ 35 := by
        intro c w
        cases r with
        | nil => cases w
        | cons a r =>
          cases w
          exact ⟨by rintro rfl; exact c1 ⟨r, rfl⟩, by rintro rfl; exact c2 ⟨r, rfl⟩⟩
      have no : ∀ c, r.head? = some c → ok c = false := by
        intro c w
        have := hr c w
        simp [(ne c w).1, (ne c w).2] at this
        exact this
      refine ⟨p, none, none, r, ⟨hp', (fun q' w => nomatch w), (fun q' w => nomatch w), fun c w => ⟨fun w => absurd rfl w, fun _ => ⟨(ne c w).2, .inl (no c w)⟩, fun _ _ => (ne c w).1⟩⟩,
        by rw [e]; simp [pathText, marked], fun w => ?_⟩
      have : p = [] := by simpa [pathText, marked] using w
      subst this
      unfold urlPath
      show (match pathRun v (testSub t ok) (queryOrMark (asciiPath t ok)) (v.s.length + 2) i with | none => none | some (e, none) => _ | some (e, some (true, q)) => _ | some (e, some (false, b)) => _) = _
      rw [pathRun_part h (l := []) (halt := fun c => c == 63 || c == 35) (both_stop ok) e hi (fun c q => nomatch q) (fun c w => .inl (no c w))]
      have st : unlessEnd r (queryOrMark (asciiPath t ok) (i + ([] : List Int).length)) = none := by
        cases r with
        | nil => rfl
        | cons c r =>
          have d : t.drop i = c :: r := e
          show (match charSub t 63 i with | some q => some (true, q) | none => (charSub t 35 i).map fun b => (false, b)) = none
          rw [char_at d, char_at d, if_neg (ne c rfl).1, if_neg (ne c rfl).2]; rfl
      rw [st]
      simp

/-! ### URLs -/

theorem slashes_iff {c : UrlParts} {scheme : Sub} {i a e : Nat} : SchemeAt c scheme i a e ↔ slashes c scheme i = some (a, e) := by
  unfold SchemeAt slashes
  constructor
  · rintro ⟨h1, b, d, h2, h3, h4⟩; rw [h1]; dsimp only; rw [h2]; dsimp only; rw [h3]; dsimp only; rw [h4]
  · intro h
    split at h
    · cases h
    · rename_i h1
      split at h
      · cases h
      · rename_i h2
        split at h
        · cases h
        · rename_i h3
          split at h
          · cases h
          · rename_i h4; cases h; exact ⟨h1, _, _, h2, h3, h4⟩

theorem slashes_none {c : UrlParts} {scheme : Sub} {i : Nat} : (∀ a e, ¬ SchemeAt c scheme i a e) ↔ slashes c scheme i = none := by
  constructor
  · intro h
    cases q : slashes c scheme i with
    | none => rfl
    | some r => exact absurd (slashes_iff.2 q) (h r.1 r.2)
  · intro h a e q; rw [slashes_iff.1 q] at h; cases h

theorem mailColon_iff {c : UrlParts} {i a e : Nat} : MailtoAt c i a e ↔ mailColon c i = some (a, e) := by
  unfold MailtoAt mailColon
  constructor
  · rintro ⟨h1, h2⟩; rw [h1]; dsimp only; rw [h2]; rfl
  · intro h
    split at h
    · cases h
    · rename_i x h1
      cases q : c.colon x with
      | none => rw [q] at h; cases h
      | some y => rw [q] at h; cases h; exact ⟨h1, q⟩

theorem mailColon_none {c : UrlParts} {i : Nat} : (∀ a e, ¬ MailtoAt c i a e) ↔ mailColon c i = none := by
  constructor
  · intro h
    cases q : mailColon c i with
    | none => rfl
    | some r => exact absurd (mailColon_iff.2 q) (h r.1 r.2)
  · intro h a e q; rw [mailColon_iff.1 q] at h; cases h

theorem passAt_iff {c : UrlParts} {e u b p j : Nat} (hu : c.username e = some u) : UserPass c e u b p j ↔ passAt c u = some (b, p, j) := by
  unfold UserPass passAt
  constructor
  · rintro ⟨_, h2, h3, h4⟩; rw [h2]; dsimp only; rw [h3]; dsimp only; rw [h4]; rfl
  · intro h
    split at h
    · cases h
    · rename_i h1
      split at h
      · cases h
      · rename_i x h2
        cases q : c.at_ x with
        | none => rw [q] at h; cases h
        | some y => rw [q] at h; cases h; exact ⟨hu, h1, h2, q⟩

theorem user_iff {c : UrlParts} {e : Nat} {a b : Iv} {j : Nat} : User c e a b j ↔ userInfo c false e = (a, b, j) := by
  unfold userInfo
  cases hu : c.username e with
  | none =>
    constructor
    · intro h
      cases h with
      | both q => rw [q.1] at hu; cases hu
      | only _ q => rw [q.1] at hu; cases hu
      | absent _ _ => rfl
    · intro h; cases h; exact .absent (fun u b p j q => by rw [q.1] at hu; cases hu) (fun u j q => by rw [q.1] at hu; cases hu)
  | some u =>
    have same : ∀ {u' b p j}, UserPass c e u' b p j → u' = u := fun q => by have := q.1; rw [hu] at this; cases this; rfl
    have same' : ∀ {u' j}, UserOnly c e u' j → u' = u := fun q => by have := q.1; rw [hu] at this; cases this; rfl
    dsimp only
    cases hp : passAt c u with
    | some r =>
      obtain ⟨b', p', j'⟩ := r
      have up := (passAt_iff hu).2 hp
      constructor
      · intro h
        cases h with
        | both q => cases same q; rw [passAt_iff hu] at q; rw [hp] at q; cases q; rfl
        | only q _ => exact absurd up (q _ _ _ _)
        | absent q _ => exact absurd up (q _ _ _ _)
      · intro h; cases h; exact .both up
    | none =>
      have np : ∀ u b p j, ¬ UserPass c e u b p j := fun u' b p j q => by cases same q; rw [passAt_iff hu] at q; rw [hp] at q; cases q
      dsimp only
      rw [if_neg (by decide)]
      cases ha : c.at_ u with
      | some j' =>
        constructor
        · intro h
          cases h with
          | both q => exact absurd q (np _ _ _ _)
          | only _ q => cases same' q; have := q.2; rw [ha] at this; cases this; rfl
          | absent _ q => exact absurd ⟨hu, ha⟩ (q _ _)
        · intro h; cases h; exact .only np ⟨hu, ha⟩
      | none =>
        constructor
        · intro h
          cases h with
          | both q => exact absurd q (np _ _ _ _)
          | only _ q => cases same' q; have := q.2; rw [ha] at this; cases this
          | absent _ q => rfl
        · intro h; cases h; exact .absent np (fun u' j q => by cases same' q; have := q.2; rw [ha] at this; cases this)

theorem bracket_iff {c : UrlParts} {ip : Sub} {e a b j : Nat} : BracketAt c ip e a b j ↔ bracketed c ip e = some ((a, b), j) := by
  unfold BracketAt bracketed
  constructor
  · rintro ⟨h1, h2, h3⟩; rw [h1]; dsimp only; rw [h2]; dsimp only; rw [h3]; rfl
  · intro h
    split at h
    · cases h
    · rename_i h1
      split at h
      · cases h
      · rename_i x h2
        cases q : c.rbracket x with
        | none => rw [q] at h; cases h
        | some y => rw [q] at h; cases h; exact ⟨h1, h2, q⟩

theorem bracket_none {c : UrlParts} {ip : Sub} {e : Nat} : (∀ a b j, ¬ BracketAt c ip e a b j) ↔ bracketed c ip e = none := by
  constructor
  · intro h
    cases q : bracketed c ip e with
    | none => rfl
    | some r => exact absurd (bracket_iff.2 q) (h r.1.1 r.1.2 r.2)
  · intro h a b j q; rw [bracket_iff.1 q] at h; cases h

theorem siteHost_iff {c : UrlParts} {e : Nat} {v4 v6 dns : Iv} {j : Nat} : Host c false e v4 v6 dns j ↔ siteHost c e = some (v4, v6, dns, j) := by
  unfold siteHost
  constructor
  · intro h
    cases h with
    | v4 _ q => rw [q]
    | v4b w _ => cases w
    | v6 q _ r => rw [q rfl]; dsimp only; rw [bracket_iff.1 r]
    | dns q _ r w => rw [q rfl]; dsimp only; rw [bracket_none.1 r]; dsimp only; rw [w]
  · intro h
    cases q : c.ipv4 e with
    | some x => rw [q] at h; cases h; exact .v4 rfl q
    | none =>
      rw [q] at h
      dsimp only at h
      cases r : bracketed c c.ipv6 e with
      | some x => rw [r] at h; cases h; exact .v6 (fun _ => q) (fun w => nomatch w) (bracket_iff.2 r)
      | none =>
        rw [r] at h
        dsimp only at h
        cases w : c.dns e with
        | none => rw [w] at h; cases h
        | some x => rw [w] at h; cases h; exact .dns (fun _ => q) (fun w => nomatch w) (bracket_none.2 r) w

theorem mailHost_iff {c : UrlParts} {e : Nat} {v4 v6 dns : Iv} {j : Nat} : Host c true e v4 v6 dns j ↔ mailHost c e = some (v4, v6, dns, j) := by
  unfold mailHost
  constructor
  · intro h
    cases h with
    | v4 w _ => cases w
    | v4b _ q => rw [bracket_iff.1 q]
    | v6 _ q r => rw [bracket_none.1 (q rfl)]; dsimp only; rw [bracket_iff.1 r]
    | dns _ q r w => rw [bracket_none.1 (q rfl)]; dsimp only; rw [bracket_none.1 r]; dsimp only; rw [w]
  · intro h
    cases q : bracketed c c.ipv4 e with
    | some x => rw [q] at h; cases h; exact .v4b rfl (bracket_iff.2 q)
    | none =>
      rw [q] at h
      dsimp only at h
      cases r : bracketed c c.ipv6 e with
      | some x => rw [r] at h; cases h; exact .v6 (fun w => nomatch w) (fun _ => bracket_none.2 q) (bracket_iff.2 r)
      | none =>
        rw [r] at h
        dsimp only at h
        cases w : c.dns e with
        | none => rw [w] at h; cases h
        | some x => rw [w] at h; cases h; exact .dns (fun w => nomatch w) (fun _ => bracket_none.2 q) (bracket_none.2 r) w

theorem port_iff {c : UrlParts} {e : Nat} {p : Iv} {j : Nat} : Port c e p j ↔ portAt c e = (p, j) := by
  unfold portAt
  constructor
  · intro h
    cases h with
    | yes h1 h2 => rw [h1]; dsimp only; rw [h2]
    | no h =>
      cases q : c.colon e with
      | none => rfl
      | some a =>
        dsimp only
        cases r : c.port a with
        | none => rfl
        | some b => exact absurd r (h a b q)
  · intro h
    cases q : c.colon e with
    | none => rw [q] at h; cases h; exact .no fun a j w => by rw [q] at w; cases w
    | some a =>
      rw [q] at h
      dsimp only at h
      cases r : c.port a with
      | none => rw [r] at h; cases h; exact .no fun a' j w => by rw [q] at w; cases w; rw [r]; intro w; cases w
      | some b => rw [r] at h; cases h; exact .yes q r

theorem pathAt_iff {c : UrlParts} {e : Nat} {p : Iv} {j : Nat} : PathAt c e p j ↔ pathAt c e = (p, j) := by
  unfold pathAt
  constructor
  · intro h
    cases h with
    | yes h => rw [h]
    | no h => rw [h]
  · intro h
    cases q : c.path e with
    | none => rw [q] at h; cases h; exact .no q
    | some a => rw [q] at h; cases h; exact .yes q

theorem site_iff {c : UrlParts} {i : Nat} {http ftp user pass : Iv} {e : Nat} {u : Url} : site c i http ftp user pass e = (true, u) ↔
    ∃ v4 v6 dns e1 port e2 path e3, Host c false e v4 v6 dns e1 ∧ Port c e1 port e2 ∧ PathAt c e2 path e3 ∧ u = ⟨http, ftp, none, none, user, pass, v4, v6, dns, port, path, some (i, e3)⟩ := by
  unfold site
  constructor
  · intro h
    cases q : siteHost c e with
    | none => rw [q] at h; cases h
    | some r =>
      obtain ⟨v4, v6, dns, e1⟩ := r
      rw [q] at h
      dsimp only at h
      cases h
      exact ⟨v4, v6, dns, e1, _, _, _, _, siteHost_iff.2 q, port_iff.2 rfl, pathAt_iff.2 rfl, rfl⟩
  · rintro ⟨v4, v6, dns, e1, port, e2, path, e3, h1, h2, h3, rfl⟩
    rw [siteHost_iff.1 h1]
    dsimp only
    rw [port_iff.1 h2]
    dsimp only
    rw [pathAt_iff.1 h3]

theorem site_false {c : UrlParts} {i : Nat} {http ftp user pass : Iv} {e : Nat} {u : Url} (h : site c i http ftp user pass e = (false, u)) : u = urlInvalid := by
  unfold site at h
  cases q : siteHost c e with
  | none => rw [q] at h; cases h; rfl
  | some r =>
    obtain ⟨v4, v6, dns, e1⟩ := r
    rw [q] at h
    dsimp only at h
    cases h

/-- A user without a password after `ftp://`, which 3549 misses. -/
def FtpUser (c : UrlParts) (i : Nat) : Prop :=
  (∀ a e, ¬ SchemeAt c c.http i a e) ∧ ∃ a e, SchemeAt c c.ftp i a e ∧ ((∃ u j, UserOnly c e u j) ∨ ∃ u j, c.username e = some u ∧ c.at_ e = some j) ∧ ∀ u b p j, ¬ UserPass c e u b p j

theorem ftp_user {c : UrlParts} {i a e : Nat} (h : ¬ FtpUser c i) (h1 : ∀ a e, ¬ SchemeAt c c.http i a e) (h2 : SchemeAt c c.ftp i a e) : userInfo c true e = userInfo c false e := by
  unfold userInfo
  cases hu : c.username e with
  | none => rfl
  | some u =>
    dsimp only
    cases hp : passAt c u with
    | some r => rfl
    | none =>
      have np : ∀ u b p j, ¬ UserPass c e u b p j := fun u' b p j q => by
        have e1 := q.1
        rw [hu] at e1; cases e1
        rw [passAt_iff hu] at q; rw [hp] at q; cases q
      have n1 : c.at_ u = none := by
        cases w : c.at_ u with
        | none => rfl
        | some j => exact absurd ⟨h1, a, e, h2, .inl ⟨u, j, hu, w⟩, np⟩ h
      have n2 : c.at_ e = none := by
        cases w : c.at_ e with
        | none => rfl
        | some j => exact absurd ⟨h1, a, e, h2, .inr ⟨u, j, hu, w⟩, np⟩ h
      dsimp only
      rw [if_pos rfl, if_neg (by decide), n1, n2]

/-- **C84** (what is missing: `FtpUser`, see `url_ftp_user`) A URL at `i` is matched with its parts, and everything that is not part of it is invalid; otherwise nothing matches and all parts are
invalid. -/
theorem url_spec_partial {c : UrlParts} {i : Nat} (h : ¬ FtpUser c i) : (∀ u, UrlAt c i u ↔ url c i = (true, u)) ∧ (∀ u, url c i = (false, u) → u = ⟨none, none, none, none, none, none, none, none, none, none, none, none⟩) := by
  unfold url
  cases q1 : slashes c c.http i with
  | some r =>
    obtain ⟨a, e⟩ := r
    dsimp only
    refine ⟨fun u => ?_, fun u w => site_false w⟩
    have n1 : ¬ ∀ a e, ¬ SchemeAt c c.http i a e := fun w => by rw [slashes_none.1 w] at q1; cases q1
    rw [site_iff]
    constructor
    · intro w
      cases w with
      | http s us ho po pa => rw [slashes_iff, q1] at s; cases s; rw [user_iff.1 us]; exact ⟨_, _, _, _, _, _, _, _, ho, po, pa, rfl⟩
      | ftp w _ _ _ _ _ => exact absurd w n1
      | mailto w _ _ _ _ => exact absurd w n1
      | file w _ _ _ _ => exact absurd w n1
      | bare w _ _ _ _ _ _ => exact absurd w n1
    · rintro ⟨v4, v6, dns, e1, port, e2, path, e3, ho, po, pa, rfl⟩
      exact .http (slashes_iff.2 q1) (user_iff.2 rfl) ho po pa
  | none =>
    have n1 := slashes_none.2 q1
    dsimp only
    cases q2 : slashes c c.ftp i with
    | some r =>
      obtain ⟨a, e⟩ := r
      dsimp only
      refine ⟨fun u => ?_, fun u w => site_false w⟩
      have n2 : ¬ ∀ a e, ¬ SchemeAt c c.ftp i a e := fun w => by rw [slashes_none.1 w] at q2; cases q2
      rw [site_iff, ftp_user h n1 (slashes_iff.2 q2)]
      constructor
      · intro w
        cases w with
        | http s => exact absurd s (n1 _ _)
        | ftp _ s us ho po pa => rw [slashes_iff, q2] at s; cases s; rw [user_iff.1 us]; exact ⟨_, _, _, _, _, _, _, _, ho, po, pa, rfl⟩
        | mailto _ w _ _ _ => exact absurd w n2
        | file _ w _ _ _ => exact absurd w n2
        | bare _ w _ _ _ _ _ => exact absurd w n2
      · rintro ⟨v4, v6, dns, e1, port, e2, path, e3, ho, po, pa, rfl⟩
        exact .ftp n1 (slashes_iff.2 q2) (user_iff.2 rfl) ho po pa
    | none =>
      have n2 := slashes_none.2 q2
      dsimp only
      cases q3 : mailColon c i with
      | some r =>
        obtain ⟨a, e⟩ := r
        have n3 : ¬ ∀ a e, ¬ MailtoAt c i a e := fun w => by rw [mailColon_none.1 w] at q3; cases q3
        dsimp only
        have only : ∀ {u}, UrlAt c i u → ∃ us e1 v4 v6 dns e2, UserOnly c e us e1 ∧ Host c true e1 v4 v6 dns e2 ∧ u = ⟨none, none, some (i, a), none, some (e, us), none, v4, v6, dns, none, none, some (i, e2)⟩ := by
          intro u w
          cases w with
          | http s => exact absurd s (n1 _ _)
          | ftp _ s => exact absurd s (n2 _ _)
          | mailto _ _ m us ho => rw [mailColon_iff, q3] at m; cases m; exact ⟨_, _, _, _, _, _, us, ho, rfl⟩
          | file _ _ w _ _ => exact absurd w n3
          | bare _ _ w _ _ _ _ => exact absurd w n3
        cases q4 : c.username e with
        | none => exact ⟨fun u => ⟨(fun w => by obtain ⟨_, _, _, _, _, _, us, _⟩ := only w; rw [us.1] at q4; cases q4), (fun w => by cases w)⟩, fun u w => by cases w; rfl⟩
        | some us =>
          dsimp only
          cases q5 : c.at_ us with
          | none =>
            refine ⟨fun u => ⟨fun w => ?_, fun w => by cases w⟩, fun u w => by cases w; rfl⟩
            obtain ⟨_, _, _, _, _, _, us', _⟩ := only w
            have := us'.1
            rw [q4] at this; cases this
            have := us'.2
            rw [q5] at this; cases this
          | some e1 =>
            dsimp only
            cases q6 : mailHost c e1 with
            | none =>
              refine ⟨fun u => ⟨fun w => ?_, fun w => by cases w⟩, fun u w => by cases w; rfl⟩
              obtain ⟨_, _, _, _, _, _, us', ho, _⟩ := only w
              have := us'.1
              rw [q4] at this; cases this
              have := us'.2
              rw [q5] at this; cases this
              rw [mailHost_iff, q6] at ho; cases ho
            | some r =>
              obtain ⟨v4, v6, dns, e2⟩ := r
              dsimp only
              refine ⟨fun u => ⟨fun w => ?_, fun w => ?_⟩, fun u w => by cases w⟩
              · obtain ⟨_, _, _, _, _, _, us', ho, rfl⟩ := only w
                have := us'.1
                rw [q4] at this; cases this
                have := us'.2
                rw [q5] at this; cases this
                rw [mailHost_iff, q6] at ho; cases ho
                rfl
              · cases w; exact .mailto n1 n2 (mailColon_iff.2 q3) ⟨q4, q5⟩ (mailHost_iff.2 q6)
      | none =>
        have n3 := mailColon_none.2 q3
        dsimp only
        cases q4 : slashes c c.file i with
        | some r =>
          obtain ⟨a, e⟩ := r
          have n4 : ¬ ∀ a e, ¬ SchemeAt c c.file i a e := fun w => by rw [slashes_none.1 w] at q4; cases q4
          dsimp only
          refine ⟨fun u => ⟨fun w => ?_, fun w => ?_⟩, fun u w => by cases w⟩
          · cases w with
            | http s => exact absurd s (n1 _ _)
            | ftp _ s => exact absurd s (n2 _ _)
            | mailto _ _ m => exact absurd m (n3 _ _)
            | file _ _ _ s pa => rw [slashes_iff, q4] at s; cases s; rw [pathAt_iff.1 pa]
            | bare _ _ _ w _ _ _ => exact absurd w n4
          · cases w; exact .file n1 n2 n3 (slashes_iff.2 q4) (pathAt_iff.2 rfl)
        | none =>
          have n4 := slashes_none.2 q4
          dsimp only
          refine ⟨fun u => ?_, fun u w => site_false w⟩
          rw [site_iff]
          constructor
          · intro w
            cases w with
            | http s => exact absurd s (n1 _ _)
            | ftp _ s => exact absurd s (n2 _ _)
            | mailto _ _ m => exact absurd m (n3 _ _)
            | file _ _ _ s => exact absurd s (n4 _ _)
            | bare _ _ _ _ ho po pa => exact ⟨_, _, _, _, _, _, _, _, ho, po, pa, rfl⟩
          · rintro ⟨v4, v6, dns, e1, port, e2, path, e3, ho, po, pa, rfl⟩
            exact .bare n1 n2 n3 n4 ho po pa

/-- **C84** (e-mail) An e-mail address is a user name, `@` and a host, where IP addresses are in brackets; it is matched with its parts, and otherwise everything is invalid. -/
theorem email_spec (c : UrlParts) (i : Nat) : (∀ m, EmailAt c i m ↔ email c i = (true, m)) ∧ (∀ m, email c i = (false, m) → m = ⟨none, none, none, none, none⟩) := by
  unfold email
  have only : ∀ {m}, EmailAt c i m → ∃ u e v4 v6 dns e1, c.username i = some u ∧ c.at_ u = some e ∧ mailHost c e = some (v4, v6, dns, e1) ∧ m = ⟨some (i, u), v4, v6, dns, some (i, e1)⟩ := by
    intro m w
    cases w with
    | mk us ho => exact ⟨_, _, _, _, _, _, us.1, us.2, mailHost_iff.1 ho, rfl⟩
  cases q4 : c.username i with
  | none => exact ⟨fun u => ⟨(fun w => by obtain ⟨_, _, _, _, _, _, us, _⟩ := only w; rw [us] at q4; cases q4), (fun w => by cases w)⟩, fun u w => by cases w; rfl⟩
  | some us =>
    dsimp only
    cases q5 : c.at_ us with
    | none =>
      refine ⟨fun u => ⟨fun w => ?_, fun w => by cases w⟩, fun u w => by cases w; rfl⟩
      obtain ⟨_, _, _, _, _, _, h1, h2, _⟩ := only w
      rw [q4] at h1; cases h1
      rw [q5] at h2; cases h2
    | some e1 =>
      dsimp only
      cases q6 : mailHost c e1 with
      | none =>
        refine ⟨fun u => ⟨fun w => ?_, fun w => by cases w⟩, fun u w => by cases w; rfl⟩
        obtain ⟨_, _, _, _, _, _, h1, h2, h3, _⟩ := only w
        rw [q4] at h1; cases h1
        rw [q5] at h2; cases h2
        rw [q6] at h3; cases h3
      | some r =>
        obtain ⟨v4, v6, dns, e2⟩ := r
        dsimp only
        refine ⟨fun u => ⟨fun w => ?_, fun w => ?_⟩, fun u w => by cases w⟩
        · obtain ⟨_, _, _, _, _, _, h1, h2, h3, rfl⟩ := only w
          rw [q4] at h1; cases h1
          rw [q5] at h2; cases h2
          rw [q6] at h3; cases h3
          rfl
        · cases w; exact .mk ⟨q4, q5⟩ (mailHost_iff.2 q6)

/-! ### The parts of a URL are in order -/

/-- Intervals one after another, none of them empty, from `i` to `e`. -/
def InOrder : Nat → List (Nat × Nat) → Nat → Prop
  | i, [], e => i ≤ e
  | i, (a, b) :: l, e => i ≤ a ∧ a < b ∧ InOrder b l e

theorem inOrder_append {l l' : List (Nat × Nat)} : ∀ {i m e : Nat}, InOrder i l m → InOrder m l' e → InOrder i (l ++ l') e := by
  induction l with
  | nil =>
    intro i m e h h'
    have h : i ≤ m := h
    cases l' with
    | nil => have h' : m ≤ e := h'; exact Nat.le_trans h h'
    | cons p l' => obtain ⟨a, b⟩ := p; exact ⟨Nat.le_trans h h'.1, h'.2⟩
  | cons p l ih => intro i m e h h'; obtain ⟨a, b⟩ := p; exact ⟨h.1, h.2.1, ih h.2.2 h'⟩

/-- All elements match within a text of `n` code units and take some of them; `@` does not start a user name. -/
structure UrlParts.Ok (c : UrlParts) (n : Nat) : Prop where
  http : Takes n c.http
  ftp : Takes n c.ftp
  mailto : Takes n c.mailto
  file : Takes n c.file
  colon : Takes n c.colon
  slash : Takes n c.slash
  username : Takes n c.username
  password : Takes n c.password
  at_ : Takes n c.at_
  lbracket : Takes n c.lbracket
  rbracket : Takes n c.rbracket
  ipv4 : Takes n c.ipv4
  ipv6 : Takes n c.ipv6
  dns : Takes n c.dns
  port : Takes n c.port
  path : Takes n c.path
  apart : ∀ e u, c.username e = some u → c.at_ e = none

/-- The host of a URL. -/
def Url.host (u : Url) : List (Nat × Nat) := u.ipv4.toList ++ u.ipv6.toList ++ u.dns.toList

/-- The scheme of a URL. -/
def Url.scheme (u : Url) : List (Nat × Nat) := u.http.toList ++ u.ftp.toList ++ u.mailto.toList ++ u.file.toList

theorem slashes_order {c : UrlParts} {n : Nat} (hc : c.Ok n) {scheme : Sub} (hs : Takes n scheme) {i a e : Nat} (hi : i ≤ n) (h : slashes c scheme i = some (a, e)) : i < a ∧ a ≤ e ∧ e ≤ n := by
  obtain ⟨h1, b, d, h2, h3, h4⟩ := slashes_iff.2 h
  have l1 := hs i hi a h1
  have l2 := hc.colon a l1.2 b h2
  have l3 := hc.slash b l2.2 d h3
  have l4 := hc.slash d l3.2 e h4
  omega

theorem userInfo_order {c : UrlParts} {n : Nat} (hc : c.Ok n) {ftp : Bool} {e : Nat} (he : e ≤ n) {user pass : Iv} {j : Nat} (h : userInfo c ftp e = (user, pass, j)) :
    InOrder e (user.toList ++ pass.toList) j ∧ j ≤ n ∧ (pass ≠ none → user ≠ none) := by
  unfold userInfo at h
  cases hu : c.username e with
  | none => rw [hu] at h; cases h; exact ⟨Nat.le_refl _, he, fun q => absurd rfl q⟩
  | some u =>
    rw [hu] at h
    dsimp only at h
    have l1 := hc.username e he u hu
    cases hp : passAt c u with
    | some r =>
      obtain ⟨b, p, j'⟩ := r
      rw [hp] at h
      cases h
      obtain ⟨_, h2, h3, h4⟩ := (passAt_iff hu).2 hp
      have l2 := hc.colon u l1.2 b h2
      have l3 := hc.password b l2.2 p h3
      have l4 := hc.at_ p l3.2 _ h4
      exact ⟨⟨Nat.le_refl _, l1.1, by omega, l3.1, by show p ≤ _; omega⟩, l4.2, fun _ q => by cases q⟩
    | none =>
      rw [hp] at h
      dsimp only at h
      cases ftp with
      | true =>
        rw [if_pos rfl, hc.apart e u hu] at h
        cases h
        exact ⟨Nat.le_refl _, he, fun q => absurd rfl q⟩
      | false =>
        rw [if_neg (by decide)] at h
        cases ha : c.at_ u with
        | none => rw [ha] at h; cases h; exact ⟨Nat.le_refl _, he, fun q => absurd rfl q⟩
        | some j' =>
          rw [ha] at h; cases h
          have l4 := hc.at_ u l1.2 _ ha
          exact ⟨⟨Nat.le_refl _, l1.1, by show u ≤ _; omega⟩, l4.2, fun q => absurd rfl q⟩

theorem host_order {c : UrlParts} {n : Nat} (hc : c.Ok n) {mail : Bool} {e : Nat} (he : e ≤ n) {v4 v6 dns : Iv} {j : Nat} (h : Host c mail e v4 v6 dns j) :
    InOrder e (v4.toList ++ v6.toList ++ dns.toList) j ∧ j ≤ n ∧ (v4.toList ++ v6.toList ++ dns.toList).length = 1 := by
  have br : ∀ {ip : Sub} {a b j}, Takes n ip → BracketAt c ip e a b j → e ≤ a ∧ a < b ∧ b ≤ j ∧ j ≤ n := by
    rintro ip a b j t ⟨h1, h2, h3⟩
    have l1 := hc.lbracket e he a h1
    have l2 := t a l1.2 b h2
    have l3 := hc.rbracket b l2.2 j h3
    omega
  cases h with
  | v4 _ q => have := hc.ipv4 e he _ q; exact ⟨⟨Nat.le_refl _, this.1, Nat.le_refl _⟩, this.2, rfl⟩
  | v4b _ q => have := br hc.ipv4 q; exact ⟨⟨this.1, this.2.1, this.2.2.1⟩, this.2.2.2, rfl⟩
  | v6 _ _ q => have := br hc.ipv6 q; exact ⟨⟨this.1, this.2.1, this.2.2.1⟩, this.2.2.2, rfl⟩
  | dns _ _ _ q => have := hc.dns e he _ q; exact ⟨⟨Nat.le_refl _, this.1, Nat.le_refl _⟩, this.2, rfl⟩

theorem pathAt_order {c : UrlParts} {n : Nat} (hc : c.Ok n) {e : Nat} (he : e ≤ n) {path : Iv} {j : Nat} (h : PathAt c e path j) : InOrder e path.toList j ∧ j ≤ n := by
  cases h with
  | yes q => have := hc.path e he _ q; exact ⟨⟨Nat.le_refl _, this.1, Nat.le_refl _⟩, this.2⟩
  | no _ => exact ⟨Nat.le_refl _, he⟩

theorem port_order {c : UrlParts} {n : Nat} (hc : c.Ok n) {e : Nat} (he : e ≤ n) {port : Iv} {j : Nat} (h : Port c e port j) : InOrder e port.toList j ∧ j ≤ n := by
  cases h with
  | yes q r => have l1 := hc.colon e he _ q; have l2 := hc.port _ l1.2 _ r; exact ⟨⟨Nat.le_of_lt l1.1, l2.1, Nat.le_refl _⟩, l2.2⟩
  | no _ => exact ⟨Nat.le_refl _, he⟩

theorem site_order {c : UrlParts} {n : Nat} (hc : c.Ok n) {i : Nat} {http ftp user pass : Iv} {e : Nat} (he : e ≤ n) {u : Url} (h : site c i http ftp user pass e = (true, u)) :
    ∃ j, InOrder e (u.host ++ u.port.toList ++ u.path.toList) j ∧ j ≤ n ∧ u.host.length = 1 ∧ u.interval = some (i, j) ∧
      u.http = http ∧ u.ftp = ftp ∧ u.mailto = none ∧ u.file = none ∧ u.username = user ∧ u.password = pass := by
  obtain ⟨v4, v6, dns, e1, port, e2, path, e3, ho, po, pa, rfl⟩ := site_iff.1 h
  have a := host_order hc he ho
  have b := port_order hc a.2.1 po
  have d := pathAt_order hc b.2 pa
  exact ⟨e3, inOrder_append (inOrder_append a.1 b.1) d.1, d.2, a.2.2, rfl, rfl, rfl, rfl, rfl, rfl, rfl⟩

/-- **C84** (order) Whatever is matched: scheme, user name, password, host, port and path follow one another, are not empty, and are inside the match, which is inside the text. There is at most one scheme,
exactly one host unless it is a file, and no password without a user name. -/
theorem url_order {c : UrlParts} {n : Nat} (hc : c.Ok n) {i : Nat} (hi : i ≤ n) {u : Url} (h : url c i = (true, u)) :
    ∃ e, u.interval = some (i, e) ∧ e ≤ n ∧ InOrder i (u.scheme ++ (u.username.toList ++ u.password.toList ++ (u.host ++ u.port.toList ++ u.path.toList))) e ∧
      u.scheme.length ≤ 1 ∧ u.host.length = (if u.file = none then 1 else 0) ∧ (u.password ≠ none → u.username ≠ none) := by
  unfold url at h
  cases q1 : slashes c c.http i with
  | some r =>
    obtain ⟨a, e⟩ := r
    rw [q1] at h
    dsimp only at h
    have l := slashes_order hc hc.http hi q1
    have us := userInfo_order hc (ftp := false) l.2.2 (Eq.refl (userInfo c false e))
    obtain ⟨j, s1, s2, s3, s4, s5, s6, s7, s8, s9, s10⟩ := site_order hc us.2.1 h
    refine ⟨j, s4, s2, ?_, ?_, ?_, ?_⟩
    · unfold Url.scheme
      rw [s5, s6, s7, s8, s9, s10]
      exact ⟨Nat.le_refl _, l.1, inOrder_append (l := []) l.2.1 (inOrder_append us.1 s1)⟩
    · unfold Url.scheme
      rw [s5, s6, s7, s8]; simp
    · rw [s8, s3]; rfl
    · rw [s9, s10]; exact us.2.2
  | none =>
    rw [q1] at h
    dsimp only at h
    cases q2 : slashes c c.ftp i with
    | some r =>
      obtain ⟨a, e⟩ := r
      rw [q2] at h
      dsimp only at h
      have l := slashes_order hc hc.ftp hi q2
      have us := userInfo_order hc (ftp := true) l.2.2 (Eq.refl (userInfo c true e))
      obtain ⟨j, s1, s2, s3, s4, s5, s6, s7, s8, s9, s10⟩ := site_order hc us.2.1 h
      refine ⟨j, s4, s2, ?_, ?_, ?_, ?_⟩
      · unfold Url.scheme
        rw [s5, s6, s7, s8, s9, s10]
        exact ⟨Nat.le_refl _, l.1, inOrder_append (l := []) l.2.1 (inOrder_append us.1 s1)⟩
      · unfold Url.scheme
        rw [s5, s6, s7, s8]; simp
      · rw [s8, s3]; rfl
      · rw [s9, s10]; exact us.2.2
    | none =>
      rw [q2] at h
      dsimp only at h
      cases q3 : mailColon c i with
      | some r =>
        obtain ⟨a, e⟩ := r
        rw [q3] at h
        dsimp only at h
        obtain ⟨m1, m2⟩ := mailColon_iff.2 q3
        have l1 := hc.mailto i hi a m1
        have l2 := hc.colon a l1.2 e m2
        cases q4 : c.username e with
        | none => rw [q4] at h; cases h
        | some us =>
          rw [q4] at h
          dsimp only at h
          have l3 := hc.username e l2.2 us q4
          cases q5 : c.at_ us with
          | none => rw [q5] at h; cases h
          | some e1 =>
            rw [q5] at h
            dsimp only at h
            have l4 := hc.at_ us l3.2 e1 q5
            cases q6 : mailHost c e1 with
            | none => rw [q6] at h; cases h
            | some r =>
              obtain ⟨v4, v6, dns, e2⟩ := r
              rw [q6] at h
              cases h
              have ho := host_order hc l4.2 (mailHost_iff.2 q6)
              refine ⟨e2, rfl, ho.2.1, ?_, by simp [Url.scheme], ho.2.2, fun q => absurd rfl q⟩
              refine ⟨Nat.le_refl _, l1.1, Nat.le_of_lt l2.1, l3.1, ?_⟩
              refine inOrder_append (l := []) (m := e1) (Nat.le_of_lt l4.1) ?_
              have := ho.1
              simpa [Url.host] using this
      | none =>
        rw [q3] at h
        dsimp only at h
        cases q4 : slashes c c.file i with
        | some r =>
          obtain ⟨a, e⟩ := r
          rw [q4] at h
          dsimp only at h
          cases h
          have l := slashes_order hc hc.file hi q4
          have pa := pathAt_order hc l.2.2 (pathAt_iff.2 (Eq.refl (pathAt c e)))
          exact ⟨_, rfl, pa.2, ⟨Nat.le_refl _, l.1, inOrder_append (l := []) l.2.1 pa.1⟩, by simp [Url.scheme], rfl, fun q => absurd rfl q⟩
        | none =>
          rw [q4] at h
          dsimp only at h
          obtain ⟨j, s1, s2, s3, s4, s5, s6, s7, s8, s9, s10⟩ := site_order hc hi h
          refine ⟨j, s4, s2, ?_, ?_, ?_, ?_⟩
          · unfold Url.scheme
            rw [s5, s6, s7, s8, s9, s10]
            exact s1
          · unfold Url.scheme
            rw [s5, s6, s7, s8]; simp
          · rw [s8, s3]; rfl
          · rw [s9, s10]; exact fun q => absurd rfl q

/-! ### Examples -/

/-- An element that matches a given string. -/
def wordSub (t w : List Int) : Sub := fun i => if w ≠ [] ∧ w.isPrefixOf (t.drop i) then some (i + w.length) else none

/-- An element that matches the longest run of characters. -/
def runSub (t : List Int) (p : Int → Bool) : Sub := fun i => if ((t.drop i).takeWhile p) ≠ [] then some (i + ((t.drop i).takeWhile p).length) else none

def asciiAlnum (c : Int) : Bool := decide ((65 ≤ c ∧ c ≤ 90) ∨ (97 ≤ c ∧ c ≤ 122) ∨ (48 ≤ c ∧ c ≤ 57))

/-- The elements of URLs in a text. -/
def asciiUrl (t : List Int) : UrlParts where
  http := wordSub t [104, 116, 116, 112]
  ftp := wordSub t [102, 116, 112]
  mailto := wordSub t [109, 97, 105, 108, 116, 111]
  file := wordSub t [102, 105, 108, 101]
  colon := charSub t 58
  slash := charSub t 47
  username := runSub t (urlUserChar asciiAlnum)
  password := runSub t (urlPassChar asciiAlnum)
  at_ := charSub t 64
  lbracket := charSub t 91
  rbracket := charSub t 93
  ipv4 := fun i => match ipv4 (ipEnv t) (ascii10 t) (charSub t 46) i with | some (true, x) => x.interval.map Prod.snd | _ => none
  ipv6 := fun _ => none
  dns := fun i => match dnsName (ipEnv t) (asciiDns t false (fun _ => false) false) i with | some (some (_, j)) => some j | _ => none
  port := fun i => (asciiInt t i).map Prod.fst
  path := fun i => match urlPath (ipEnv t) (asciiPath t (urlPathChar asciiAlnum)) i with | some (true, x) => x.interval.map Prod.snd | _ => none

/-- `http://u:p@a.b:80/x?y#z` -/
def urlText : List Int := [104, 116, 116, 112, 58, 47, 47, 117, 58, 112, 64, 97, 46, 98, 58, 56, 48, 47, 120, 63, 121, 35, 122]

example : url (asciiUrl urlText) 0 = (true, ⟨some (0, 4), none, none, none, some (7, 8), some (9, 10), none, none, some (11, 14), some (15, 17), some (17, 23), some (0, 23)⟩) ∧
    urlPath (ipEnv urlText) (asciiPath urlText (urlPathChar asciiAlnum)) 17 = some (true, ⟨some (17, 19), some (20, 21), some (22, 23), some (17, 23)⟩) := by decide +kernel

/-- The hypotheses of `urlPath_parts` for the path `/x?y#z` -/
example : PathSplit (urlPathChar asciiAlnum) [47, 120] (some [121]) (some [122]) [] ∧ pathText [47, 120] (some [121]) (some [122]) = [47, 120, 63, 121, 35, 122] :=
  ⟨⟨by decide, (fun q e => by cases e; decide), (fun q e => by cases e; decide), fun c e => nomatch e⟩, rfl⟩

/-- `ftp://a@b.c` -/
def ftpText : List Int := [102, 116, 112, 58, 47, 47, 97, 64, 98, 46, 99]

/-- What C84 lacks: in `ftp://a@b.c` the user name is `a` and the host `b.c`, but the parser takes `a` for the host, and `@b.c` for the path. -/
theorem url_ftp_user : FtpUser (asciiUrl ftpText) 0 ∧ UrlAt (asciiUrl ftpText) 0 ⟨none, some (0, 3), none, none, some (6, 7), none, none, none, some (8, 11), none, none, some (0, 11)⟩ ∧
    url (asciiUrl ftpText) 0 = (true, ⟨none, some (0, 3), none, none, none, none, none, none, some (6, 7), none, some (7, 11), some (0, 11)⟩) := by
  have n1 : ∀ a e, ¬ SchemeAt (asciiUrl ftpText) (asciiUrl ftpText).http 0 a e := slashes_none.2 (by decide +kernel)
  have s1 : SchemeAt (asciiUrl ftpText) (asciiUrl ftpText).ftp 0 3 6 := slashes_iff.2 (by decide +kernel)
  have us : User (asciiUrl ftpText) 6 (some (6, 7)) none 8 := user_iff.2 (by decide +kernel)
  refine ⟨⟨n1, 3, 6, s1, .inl ⟨7, 8, by decide +kernel, by decide +kernel⟩, ?_⟩, ?_, by decide +kernel⟩
  · cases us with
    | only q _ => exact q
  · exact UrlAt.ftp (e2 := 11) (e3 := 11) n1 s1 us (siteHost_iff.2 (by decide +kernel)) (port_iff.2 (by decide +kernel)) (pathAt_iff.2 (by decide +kernel))

/-- `a@b.c` as an e-mail address -/
example : email (asciiUrl [97, 64, 98, 46, 99]) 0 = (true, ⟨some (0, 1), none, none, some (2, 5), some (0, 5)⟩) := by decide +kernel

end Verif.Parser
