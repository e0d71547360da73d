import Verif.Parser.HostWritten
import Verif.Parser.IpWritten
/-
URLs from end to end (include/stdex/parser.hpp 3296-3745): an address of the web that is written in a text is found with its parts.
-/
namespace Verif.Parser
open Verif.Str Verif.Html Verif.Sgml

/-- `:80`, or nothing -/
def portText : Option (List Int) → List Int
  | none => []
  | some w => 58 :: w

/-- `http://a.b:80/x?y#z`, where port and path may be left out -/
def webText (ls : List (List Int)) (port : Option (List Int)) (path : List Int) : List Int := asc "http://" ++ dotJoin ls ++ portText port ++ path

/-- The port is a number. -/
def PortFit : Option (List Int) → Prop
  | none => True
  | some w => NumberText w

/-- The path is absent and what follows is no character of a path, or begins with a slash and is all there is of it. -/
def PathFit (path post : List Int) : Prop :=
  (path = [] ∧ ∀ c, post.head? = some c → urlPathChar asciiAlnum c = false) ∨
  ∃ p q b, path = pathText (47 :: p) q b ∧ PathSplit (urlPathChar asciiAlnum) (47 :: p) q b post

theorem path_head {path post : List Int} (h : PathFit path post) : ∀ c, (path ++ post).head? = some c → c = 47 ∨ urlPathChar asciiAlnum c = false := by
  intro c hc
  rcases h with ⟨rfl, h⟩ | ⟨p, q, b, rfl, _⟩
  · exact .inr (h c hc)
  · simp [pathText] at hc; exact .inl hc.symm

theorem path_here {t pre path post : List Int} (h : (ipEnv t).Ok t) (ht : t = pre ++ path ++ post) (hp : PathFit path post) :
    pathAt (asciiUrl t) pre.length = (if path = [] then none else some (pre.length, pre.length + path.length), pre.length + path.length) := by
  have d : t.drop pre.length = path ++ post := by rw [ht, List.append_assoc, List.drop_left]
  have P : (asciiUrl t).path pre.length = match urlPath (ipEnv t) (asciiPath t (urlPathChar asciiAlnum)) pre.length with | some (true, x) => x.interval.map Prod.snd | _ => none := rfl
  unfold pathAt
  rcases hp with ⟨rfl, hp⟩ | ⟨p, q, b, rfl, hp⟩
  · obtain ⟨p, q, b, rest, s, e, n⟩ := urlPath_total h (urlPathChar asciiAlnum) (i := pre.length) (by rw [ht]; simp)
    rw [d, List.nil_append] at e
    have z : pathText p q b = [] := by
      cases w : pathText p q b with
      | nil => rfl
      | cons c r =>
        exfalso
        rw [w] at e
        have bad := hp c (by rw [e]; rfl)
        unfold pathText at w
        cases p with
        | cons x p => cases w; rw [(s.path _ List.mem_cons_self).1] at bad; cases bad
        | nil =>
          cases q with
          | some q => cases w; revert bad; decide
          | none =>
            cases b with
            | some b => cases w; revert bad; decide
            | none => cases w
    rw [P, n z]
    rfl
  · have := urlPath_parts h hp (by simp [pathText]) (i := pre.length) d
    rw [P, this]
    dsimp only
    rw [if_neg (by simp [pathText])]
    rfl

theorem path_user (c : Int) (h : urlPathChar asciiAlnum c = false) : urlUserChar asciiAlnum c = false ∧ urlPassChar asciiAlnum c = false ∧ c ≠ 58 ∧ c ≠ 64 ∧ c ≠ 45 ∧ c ≠ 46 ∧ edgeChar false (fun _ => false) c = false ∧ ¬ (48 ≤ c ∧ c ≤ 57) := by
  unfold urlPathChar at h
  simp only [Bool.or_eq_false_iff, beq_eq_false_iff_ne] at h
  unfold urlUserChar urlPassChar edgeChar
  simp only [asciiAlnum, decide_eq_false_iff_not] at h ⊢
  simp [h]
  omega

theorem run_here {t pre w post : List Int} {f : Int → Bool} (ht : t = pre ++ w ++ post) (hw : w ≠ []) (hf : ∀ c ∈ w, f c = true) (hp : ∀ c, post.head? = some c → f c = false) :
    runSub t f pre.length = some (pre.length + w.length) := by
  have tw : (t.drop pre.length).takeWhile f = w := by
    rw [ht, List.append_assoc, List.drop_left, List.takeWhile_append_of_pos hf]
    cases post with
    | nil => simp
    | cons c r => rw [List.takeWhile_cons_of_neg (by rw [hp c rfl]; decide), List.append_nil]
  unfold runSub
  rw [tw, if_pos hw]

theorem char_here {t pre post : List Int} (c : Int) (ht : t = pre ++ post) : charSub t c pre.length = if post.head? = some c then some (pre.length + 1) else none := by
  unfold charSub; rw [at_end ht]

theorem ipv4_no {t pre post : List Int} (h : (ipEnv t).Ok t) (ht : t = pre ++ post) (hp : NoDigit post) : (asciiUrl t).ipv4 pre.length = none := by
  have spec := (ipv4_spec h (ds := ascii10 t) (ascii10_takes t) (sep := charSub t 46) (fun i hi j q => (charSub_takes t 46 i hi j q).2) (i := pre.length) (by rw [ht]; simp)).2 (by
    intro x0 e0 s1 x1 e1 s2 x2 e2 s3 x3 e3 H
    obtain ⟨w, n, a, _⟩ := H.a0
    cases a with
    | nil => exact n rfl
    | cons _ d _ =>
      obtain ⟨x, m, q⟩ := digitAt_mem d
      rw [ascii10_none (fun c hc => noDigit_isDec hp c (by rw [at_end ht] at hc; exact hc)) x m] at q
      cases q)
  show (match ipv4 (ipEnv t) (ascii10 t) (charSub t 46) pre.length with | some (true, x) => x.interval.map Prod.snd | _ => none) = none
  rw [spec]

theorem name_chars : ∀ {ls : List (List Int)}, (∀ l ∈ ls, LabelText false (fun _ => false) l) → ∀ c ∈ dotJoin ls, urlUserChar asciiAlnum c = true := by
  have lab : ∀ {l : List Int}, LabelText false (fun _ => false) l → ∀ c ∈ l, urlUserChar asciiAlnum c = true := by
    intro l hl c hc
    have := hl.2.1 c hc
    unfold edgeChar at this
    unfold urlUserChar asciiAlnum
    simp only [Bool.and_false, Bool.or_false, decide_eq_true_eq] at this
    rcases this with a | rfl
    · rw [decide_eq_true a, Bool.or_true]
    · decide
  intro ls
  induction ls with
  | nil => intro _ c hc; cases hc
  | cons l ls ih =>
    intro hl c hc
    cases ls with
    | nil => exact lab (hl l List.mem_cons_self) c hc
    | cons l2 ls =>
      rcases List.mem_append.1 (show c ∈ l ++ 46 :: dotJoin (l2 :: ls) from hc) with a | a
      · exact lab (hl l List.mem_cons_self) c a
      · rcases List.mem_cons.1 a with rfl | a
        · decide
        · exact ih (fun l' q => hl l' (List.mem_cons_of_mem _ q)) c a

theorem name_first {ls : List (List Int)} (h0 : ls ≠ []) (hl : ∀ l ∈ ls, LabelText false (fun _ => false) l) (post : List Int) :
    ∃ c r, ls.head? = some (c :: r) ∧ (dotJoin ls ++ post).head? = some c ∧ edgeChar false (fun _ => false) c = true := by
  cases ls with
  | nil => exact absurd rfl h0
  | cons l ls =>
    obtain ⟨n, _, hd, _⟩ := hl l List.mem_cons_self
    cases l with
    | nil => exact absurd rfl n
    | cons c l => exact ⟨c, l, rfl, by cases ls <;> rfl, hd c rfl⟩

/-- **C166** (URL) An address of a web page with a host name that does not begin with a digit, and a port and a path with query and bookmark if they are there, anywhere in a text that does not
continue it, is found with its parts. -/
theorem web_written {t pre path post : List Int} {ls : List (List Int)} {port : Option (List Int)} (h : (ipEnv t).Ok t) (ht : t = pre ++ webText ls port path ++ post) (h0 : ls ≠ [])
    (hn : ls.length ≤ 127) (hl : ∀ l ∈ ls, LabelText false (fun _ => false) l) (hd : ∀ l, ls.head? = some l → NoDigit l) (hq : PortFit port) (hp : PathFit path post) :
    ∃ u, url (asciiUrl t) pre.length = (true, u) ∧ u.http.map (textAt t) = some (asc "http") ∧ u.dns.map (textAt t) = some (dotJoin ls) ∧ u.port.map (textAt t) = port ∧
      u.path.map (textAt t) = (if path = [] then none else some path) ∧ u.interval = some (pre.length, pre.length + (webText ls port path).length) ∧
      u.ftp = none ∧ u.mailto = none ∧ u.file = none ∧ u.username = none ∧ u.password = none ∧ u.ipv4 = none ∧ u.ipv6 = none := by
  have lit : asc "http://" = [104, 116, 116, 112, 58, 47, 47] := by decide +kernel
  have ht0 : t = pre ++ [104, 116, 116, 112] ++ 58 :: 47 :: 47 :: (dotJoin ls ++ (portText port ++ (path ++ post))) := by rw [ht]; unfold webText; rw [lit]; simp
  -- the scheme
  have sch : slashes (asciiUrl t) (asciiUrl t).http pre.length = some (pre.length + 4, pre.length + 7) := by
    have a1 : (asciiUrl t).http pre.length = some (pre.length + 4) := by
      show wordSub t [104, 116, 116, 112] pre.length = _
      unfold wordSub
      rw [if_pos]
      · rfl
      · refine ⟨by decide, ?_⟩
        rw [ht0, List.append_assoc, List.drop_left, List.isPrefixOf_iff_prefix]
        exact List.prefix_append _ _
    have a2 : (asciiUrl t).colon (pre.length + 4) = some (pre.length + 5) := by
      have := char_here (t := t) (pre := pre ++ [104, 116, 116, 112]) 58 ht0
      rw [List.length_append] at this
      exact this
    have a3 : (asciiUrl t).slash (pre.length + 5) = some (pre.length + 6) := by
      have := char_here (t := t) (pre := pre ++ [104, 116, 116, 112, 58]) (post := 47 :: 47 :: (dotJoin ls ++ (portText port ++ (path ++ post)))) 47 (by rw [ht0]; simp)
      rw [List.length_append] at this
      exact this
    have a4 : (asciiUrl t).slash (pre.length + 6) = some (pre.length + 7) := by
      have := char_here (t := t) (pre := pre ++ [104, 116, 116, 112, 58, 47]) (post := 47 :: (dotJoin ls ++ (portText port ++ (path ++ post)))) 47 (by rw [ht0]; simp)
      rw [List.length_append] at this
      exact this
    unfold slashes
    rw [a1]; dsimp only
    rw [a2]; dsimp only
    rw [a3]; dsimp only
    rw [a4]
  -- the places of the parts
  let p1 := pre ++ [104, 116, 116, 112, 58, 47, 47]
  let p2 := p1 ++ dotJoin ls
  let p3 := p2 ++ portText port
  have l1 : p1.length = pre.length + 7 := by simp [p1]
  have t1 : t = p1 ++ dotJoin ls ++ (portText port ++ (path ++ post)) := by rw [ht0]; simp [p1]
  have t2 : t = p2 ++ portText port ++ (path ++ post) := by rw [ht0]; simp [p1, p2]
  have t3 : t = p3 ++ path ++ post := by rw [ht0]; simp [p1, p2, p3]
  have l2 : p2.length = p1.length + (dotJoin ls).length := List.length_append ..
  have l3 : p3.length = p2.length + (portText port).length := List.length_append ..
  obtain ⟨c0, r0, f1, f2, f3⟩ := name_first h0 hl (portText port ++ (path ++ post))
  have ne : dotJoin ls ≠ [] := by
    intro q
    cases ls with
    | nil => exact h0 rfl
    | cons l ls =>
      have := (hl l List.mem_cons_self).1
      cases ls with
      | nil => exact this q
      | cons k2 ls => exact this (List.append_eq_nil_iff.1 (show l ++ 46 :: dotJoin (k2 :: ls) = [] from q)).1
  -- what follows the host, and what follows the port
  have pa : ∀ c, (path ++ post).head? = some c → urlUserChar asciiAlnum c = false ∧ urlPassChar asciiAlnum c = false ∧ c ≠ 58 ∧ c ≠ 64 ∧ c ≠ 45 ∧ c ≠ 46 ∧
      edgeChar false (fun _ => false) c = false ∧ ¬ (48 ≤ c ∧ c ≤ 57) := by
    intro c hc
    rcases path_head hp c hc with rfl | q
    · decide
    · exact path_user c q
  have po : ∀ c, (portText port ++ (path ++ post)).head? = some c → urlUserChar asciiAlnum c = false ∧ c ≠ 64 ∧ c ≠ 45 ∧ c ≠ 46 ∧ edgeChar false (fun _ => false) c = false := by
    intro c hc
    cases port with
    | none => have := pa c hc; exact ⟨this.1, this.2.2.2.1, this.2.2.2.2.1, this.2.2.2.2.2.1, this.2.2.2.2.2.2.1⟩
    | some w => cases hc; decide
  -- no user
  have us : userInfo (asciiUrl t) false p1.length = (none, none, p1.length) := by
    have b1 : (asciiUrl t).username p1.length = some p2.length := by
      rw [l2]
      exact run_here t1 ne (name_chars hl) fun c hc => (po c hc).1
    have b2 : passAt (asciiUrl t) p2.length = none := by
      unfold passAt
      have q := char_here (t := t) (pre := p2) (post := portText port ++ (path ++ post)) 58 (by rw [t2, List.append_assoc])
      cases port with
      | none =>
        have q := q.trans (if_neg (fun q => (pa 58 q).2.2.1 rfl))
        rw [show (asciiUrl t).colon p2.length = none from q]
      | some w =>
        have q := q.trans (if_pos rfl)
        rw [show (asciiUrl t).colon p2.length = _ from q]; dsimp only
        have q2 := run_here (t := t) (pre := p2 ++ [58]) (w := w) (post := path ++ post) (f := urlPassChar asciiAlnum) (by rw [t2]; simp [portText]) hq.1 (fun c hc => by
          have := hq.2.1 c hc
          unfold urlPassChar asciiAlnum
          rw [decide_eq_true (.inr (.inr this)), Bool.or_true]) (fun c hc => (pa c hc).2.1)
        have q3 := char_here (t := t) (pre := p2 ++ [58] ++ w) (post := path ++ post) 64 (by rw [t2]; simp [portText])
        rw [if_neg (fun q => (pa 64 q).2.2.2.1 rfl)] at q3
        rw [List.length_append, List.length_singleton] at q2
        rw [List.length_append, List.length_append, List.length_singleton] at q3
        rw [show (asciiUrl t).password (p2.length + 1) = _ from q2]; dsimp only
        rw [show (asciiUrl t).at_ _ = none from q3]; rfl
    have b3 : (asciiUrl t).at_ p2.length = none := by
      have q := char_here (t := t) (pre := p2) (post := portText port ++ (path ++ post)) 64 (by rw [t2, List.append_assoc])
      rw [if_neg (fun q => (po 64 q).2.1 rfl)] at q
      exact q
    unfold userInfo
    rw [b1]; dsimp only
    rw [b2]; dsimp only
    rw [if_neg (by decide), b3]
  -- the host
  have ho : siteHost (asciiUrl t) p1.length = some (none, none, some (p1.length, p2.length), p2.length) := by
    have c1 : (asciiUrl t).ipv4 p1.length = none := ipv4_no h (post := dotJoin ls ++ (portText port ++ (path ++ post))) (by rw [t1, List.append_assoc]) (fun c hc => by
      rw [f2] at hc; cases hc
      exact hd _ f1 _ rfl)
    have c2 : (asciiUrl t).lbracket p1.length = none := by
      have q := char_here (t := t) (pre := p1) (post := dotJoin ls ++ (portText port ++ (path ++ post))) 91 (by rw [t1, List.append_assoc])
      rw [if_neg (fun q => by rw [f2] at q; cases q; revert f3; decide)] at q
      exact q
    have c3 := dns_written (alnum := fun _ => false) (ab := false) h rfl h0 hn hl t1 ⟨fun c hc => ⟨(po c hc).2.2.2.2, (po c hc).2.2.1⟩, fun r e => absurd rfl (po 46 (by rw [e]; rfl)).2.2.2.1⟩
    have c4 : (asciiUrl t).dns p1.length = some p2.length := by
      show (match dnsName (ipEnv t) (asciiDns t false (fun _ => false) false) p1.length with | some (some (_, j)) => some j | _ => none) = _
      rw [c3, l2]
    unfold siteHost bracketed
    rw [c1]; dsimp only
    rw [c2]; dsimp only
    rw [c4]
  -- the port
  have pt : portAt (asciiUrl t) p2.length = (port.map fun _ => (p2.length + 1, p3.length), p3.length) := by
    unfold portAt
    have q := char_here (t := t) (pre := p2) (post := portText port ++ (path ++ post)) 58 (by rw [t2, List.append_assoc])
    cases port with
    | none =>
      have q := q.trans (if_neg (fun q => (pa 58 q).2.2.1 rfl))
      rw [show (asciiUrl t).colon p2.length = none from q, l3]; rfl
    | some w =>
      have q := q.trans (if_pos rfl)
      rw [show (asciiUrl t).colon p2.length = _ from q]; dsimp only
      have q2 := number_at (t := t) (pre := p2 ++ [58]) (w := w) (post := path ++ post) h (by rw [t2]; simp [portText]) hq (fun c hc => (pa c hc).2.2.2.2.2.2.2)
      rw [List.length_append, List.length_singleton] at q2
      have q3 : (asciiUrl t).port (p2.length + 1) = some (p2.length + 1 + w.length) := by
        show (numberAt (ipEnv t) t (p2.length + 1)).map Prod.fst = _
        rw [q2]; rfl
      rw [q3, l3]
      simp [portText]; omega
  have pth := path_here h t3 hp
  have len : pre.length + (webText ls port path).length = p3.length + path.length := by
    unfold webText; rw [lit]; simp [p3, p2, p1]; omega
  refine ⟨⟨some (pre.length, pre.length + 4), none, none, none, none, none, none, none, some (p1.length, p2.length), port.map fun _ => (p2.length + 1, p3.length),
    if path = [] then none else some (p3.length, p3.length + path.length), some (pre.length, p3.length + path.length)⟩, ?_, ?_, ?_, ?_, ?_, by rw [len], rfl, rfl, rfl, rfl, rfl, rfl, rfl⟩
  · unfold url
    rw [sch]; dsimp only
    rw [← l1, us]; dsimp only
    unfold site
    rw [ho]; dsimp only
    rw [pt]; dsimp only
    rw [pth]
  · have := textAt_mid (m := t) (pre := pre) (w := [104, 116, 116, 112]) ht0
    exact congrArg some this
  · have := textAt_mid t1
    rw [l2]
    exact congrArg some this
  · cases port with
    | none => rfl
    | some w =>
      have := textAt_mid (m := t) (pre := p2 ++ [58]) (w := w) (post := path ++ post) (by rw [t2]; simp [portText])
      rw [List.length_append, List.length_singleton] at this
      have e : p3.length = p2.length + 1 + w.length := by rw [l3]; simp [portText]; omega
      dsimp only [Option.map_some]
      rw [e, this]
  · have := textAt_mid t3
    dsimp only
    split
    · rfl
    · exact congrArg some this

theorem word_no {t pre post w : List Int} (ht : t = pre ++ post) (h : w.head? ≠ post.head?) : wordSub t w pre.length = none := by
  unfold wordSub
  rw [if_neg]
  rintro ⟨n, q⟩
  rw [ht, List.drop_left, List.isPrefixOf_iff_prefix] at q
  obtain ⟨r, e⟩ := q
  cases w with
  | nil => exact n rfl
  | cons c w => exact h (by rw [← e]; rfl)

theorem word_here {t pre post w : List Int} (hw : w ≠ []) (ht : t = pre ++ (w ++ post)) : wordSub t w pre.length = some (pre.length + w.length) := by
  unfold wordSub
  rw [if_pos]
  refine ⟨hw, ?_⟩
  rw [ht, List.drop_left, List.isPrefixOf_iff_prefix]
  exact List.prefix_append _ _

/-- **C166** (URL) `mailto:` and an e-mail address, anywhere in a text that does not continue it, is found with the user name and the host as they are written. -/
theorem mailto_written {t pre u post : List Int} {ls : List (List Int)} (h : (ipEnv t).Ok t) (hu : u ≠ []) (hc : ∀ c ∈ u, urlUserChar asciiAlnum c = true) (h0 : ls ≠ []) (hn : ls.length ≤ 127)
    (hl : ∀ l ∈ ls, LabelText false (fun _ => false) l) (ht : t = pre ++ (asc "mailto:" ++ (u ++ 64 :: dotJoin ls)) ++ post) (hp : AfterName (edgeChar false (fun _ => false)) false post) :
    ∃ x, url (asciiUrl t) pre.length = (true, x) ∧ x.mailto.map (textAt t) = some (asc "mailto") ∧ x.username.map (textAt t) = some u ∧ x.dns.map (textAt t) = some (dotJoin ls) ∧
      x.interval = some (pre.length, pre.length + (asc "mailto:" ++ (u ++ 64 :: dotJoin ls)).length) ∧
      x.http = none ∧ x.ftp = none ∧ x.file = none ∧ x.password = none ∧ x.ipv4 = none ∧ x.ipv6 = none ∧ x.port = none ∧ x.path = none := by
  have lit : asc "mailto:" = [109, 97, 105, 108, 116, 111] ++ [58] := by decide +kernel
  have E := email_written (t := t) (pre := pre ++ asc "mailto:") (post := post) h hu hc h0 hn hl (by rw [ht]; simp) hp
  have lp : (pre ++ asc "mailto:").length = pre.length + 7 := by rw [lit]; simp
  have t0 : t = pre ++ ([109, 97, 105, 108, 116, 111] ++ (58 :: (u ++ 64 :: (dotJoin ls ++ post)))) := by rw [ht, lit]; simp
  have n1 : (asciiUrl t).http pre.length = none := word_no t0 (by simp)
  have n2 : (asciiUrl t).ftp pre.length = none := word_no t0 (by simp)
  have m1 : (asciiUrl t).mailto pre.length = some (pre.length + 6) := word_here (by decide) t0
  have m2 : (asciiUrl t).colon (pre.length + 6) = some (pre.length + 7) := by
    have := char_here (t := t) (pre := pre ++ [109, 97, 105, 108, 116, 111]) (post := 58 :: (u ++ 64 :: (dotJoin ls ++ post))) 58 (by rw [t0]; simp)
    rw [List.length_append] at this
    exact this
  have mc : mailColon (asciiUrl t) pre.length = some (pre.length + 6, pre.length + 7) := by
    unfold mailColon
    rw [m1]; dsimp only
    rw [m2]; rfl
  rw [lp] at E
  have x1 := textAt_mid (m := t) (pre := pre) (w := [109, 97, 105, 108, 116, 111]) (post := 58 :: (u ++ 64 :: (dotJoin ls ++ post))) (by rw [t0]; simp)
  have x2 := textAt_mid (m := t) (pre := pre ++ asc "mailto:") (w := u) (post := 64 :: (dotJoin ls ++ post)) (by rw [ht]; simp)
  have x3 := textAt_mid (m := t) (pre := pre ++ asc "mailto:" ++ u ++ [64]) (w := dotJoin ls) (post := post) (by rw [ht]; simp)
  rw [lp] at x2
  rw [List.length_append, List.length_append, lp, List.length_singleton] at x3
  have len : (asc "mailto:" ++ (u ++ 64 :: dotJoin ls)).length = 7 + (u ++ 64 :: dotJoin ls).length := by rw [lit, List.length_append]; rfl
  have len2 : (u ++ 64 :: dotJoin ls).length = u.length + 1 + (dotJoin ls).length := by simp; omega
  unfold email at E
  split at E
  · cases E
  · rename_i k hk
    split at E
    · cases E
    · rename_i e he
      split at E
      · cases E
      · rename_i v4 v6 dns e1 hm
        simp only [Prod.mk.injEq, Email.mk.injEq, true_and] at E
        obtain ⟨ea, eb, ec, ed, ee⟩ := E
        refine ⟨⟨none, none, some (pre.length, pre.length + 6), none, some (pre.length + 7, k), none, v4, v6, dns, none, none, some (pre.length, e1)⟩, ?_, congrArg some x1, ?_, ?_, ?_, rfl, rfl, rfl, rfl, eb, ec, rfl, rfl⟩
        · unfold url slashes
          rw [n1, n2]; dsimp only
          rw [mc]; dsimp only
          rw [hk]; dsimp only
          rw [he]; dsimp only
          rw [hm]
        · rw [ea]; exact congrArg some x2
        · rw [ed, len2, show pre.length + 7 + (u.length + 1 + (dotJoin ls).length) = pre.length + 7 + u.length + 1 + (dotJoin ls).length from by omega]; exact congrArg some x3
        · have := congrArg (Option.map Prod.snd) ee
          simp only [Option.map_some, Option.some.injEq] at this
          rw [this, len, Nat.add_assoc]

/-- **C166** (URL) `file://` and a path, anywhere in a text that does not continue it, is found with the path as it is written. -/
theorem file_written {t pre path post : List Int} (h : (ipEnv t).Ok t) (ht : t = pre ++ (asc "file://" ++ path) ++ post) (hp : PathFit path post) :
    ∃ x, url (asciiUrl t) pre.length = (true, x) ∧ x.file.map (textAt t) = some (asc "file") ∧ x.path.map (textAt t) = (if path = [] then none else some path) ∧
      x.interval = some (pre.length, pre.length + (asc "file://" ++ path).length) ∧
      x.http = none ∧ x.ftp = none ∧ x.mailto = none ∧ x.username = none ∧ x.password = none ∧ x.ipv4 = none ∧ x.ipv6 = none ∧ x.dns = none ∧ x.port = none := by
  have lit : asc "file://" = [102, 105, 108, 101, 58, 47, 47] := by decide +kernel
  have t0 : t = pre ++ ([102, 105, 108, 101] ++ (58 :: 47 :: 47 :: (path ++ post))) := by rw [ht, lit]; simp
  have n1 : (asciiUrl t).http pre.length = none := word_no t0 (by simp)
  have n2 : (asciiUrl t).ftp pre.length = none := by
    show wordSub t [102, 116, 112] pre.length = none
    unfold wordSub
    rw [if_neg]
    rintro ⟨_, q⟩
    rw [t0, List.drop_left, List.isPrefixOf_iff_prefix] at q
    obtain ⟨r, e⟩ := q
    simp at e
  have n3 : (asciiUrl t).mailto pre.length = none := word_no t0 (by simp)
  have m1 : (asciiUrl t).file pre.length = some (pre.length + 4) := word_here (by decide) t0
  have m2 : (asciiUrl t).colon (pre.length + 4) = some (pre.length + 5) := by
    have := char_here (t := t) (pre := pre ++ [102, 105, 108, 101]) (post := 58 :: 47 :: 47 :: (path ++ post)) 58 (by rw [t0]; simp)
    rw [List.length_append] at this
    exact this
  have m3 : (asciiUrl t).slash (pre.length + 5) = some (pre.length + 6) := by
    have := char_here (t := t) (pre := pre ++ [102, 105, 108, 101, 58]) (post := 47 :: 47 :: (path ++ post)) 47 (by rw [t0]; simp)
    rw [List.length_append] at this
    exact this
  have m4 : (asciiUrl t).slash (pre.length + 6) = some (pre.length + 7) := by
    have := char_here (t := t) (pre := pre ++ [102, 105, 108, 101, 58, 47]) (post := 47 :: (path ++ post)) 47 (by rw [t0]; simp)
    rw [List.length_append] at this
    exact this
  have t1 : t = (pre ++ asc "file://") ++ path ++ post := by rw [ht]; simp
  have lp : (pre ++ asc "file://").length = pre.length + 7 := by rw [lit]; simp
  have pth := path_here h t1 hp
  have x1 := textAt_mid (m := t) (pre := pre) (w := [102, 105, 108, 101]) (post := 58 :: 47 :: 47 :: (path ++ post)) (by rw [t0]; simp)
  have x2 := textAt_mid t1
  rw [lp] at pth x2
  have sl : slashes (asciiUrl t) (asciiUrl t).file pre.length = some (pre.length + 4, pre.length + 7) := by
    unfold slashes
    rw [m1]; dsimp only
    rw [m2]; dsimp only
    rw [m3]; dsimp only
    rw [m4]
  have mc : mailColon (asciiUrl t) pre.length = none := by unfold mailColon; rw [n3]
  have s1 : slashes (asciiUrl t) (asciiUrl t).http pre.length = none := by unfold slashes; rw [n1]
  have s2 : slashes (asciiUrl t) (asciiUrl t).ftp pre.length = none := by unfold slashes; rw [n2]
  refine ⟨⟨none, none, none, some (pre.length, pre.length + 4), none, none, none, none, none, none, if path = [] then none else some (pre.length + 7, pre.length + 7 + path.length),
    some (pre.length, pre.length + 7 + path.length)⟩, ?_, congrArg some x1, ?_, ?_, rfl, rfl, rfl, rfl, rfl, rfl, rfl, rfl, rfl⟩
  · unfold url
    rw [s1]; dsimp only
    rw [s2]; dsimp only
    rw [mc]; dsimp only
    rw [sl]; dsimp only
    rw [pth]
  · dsimp only
    split
    · rfl
    · exact congrArg some x2
  · rw [lit]; simp; omega

/-- A host, and a port and a path if they are there, after whatever comes before them. -/
theorem site_here {t p1 path post : List Int} {ls : List (List Int)} {port : Option (List Int)} (h : (ipEnv t).Ok t) (t1 : t = p1 ++ dotJoin ls ++ (portText port ++ (path ++ post))) (h0 : ls ≠ [])
    (hn : ls.length ≤ 127) (hl : ∀ l ∈ ls, LabelText false (fun _ => false) l) (hd : ∀ l, ls.head? = some l → NoDigit l) (hq : PortFit port) (hp : PathFit path post) (i : Nat) (a b u v : Iv) :
    ∃ x, site (asciiUrl t) i a b u v p1.length = (true, x) ∧ x.http = a ∧ x.ftp = b ∧ x.mailto = none ∧ x.file = none ∧ x.username = u ∧ x.password = v ∧ x.ipv4 = none ∧ x.ipv6 = none ∧
      x.dns.map (textAt t) = some (dotJoin ls) ∧ x.port.map (textAt t) = port ∧ x.path.map (textAt t) = (if path = [] then none else some path) ∧
      x.interval = some (i, p1.length + (dotJoin ls).length + (portText port).length + path.length) := by
  let p2 := p1 ++ dotJoin ls
  let p3 := p2 ++ portText port
  have t2 : t = p2 ++ portText port ++ (path ++ post) := by rw [t1]; simp [p2]
  have t3 : t = p3 ++ path ++ post := by rw [t1]; simp [p2, p3]
  have l2 : p2.length = p1.length + (dotJoin ls).length := List.length_append ..
  have l3 : p3.length = p2.length + (portText port).length := List.length_append ..
  obtain ⟨c0, r0, f1, f2, f3⟩ := name_first h0 hl (portText port ++ (path ++ post))
  -- what follows the host, and what follows the port
  have pa : ∀ c, (path ++ post).head? = some c → urlUserChar asciiAlnum c = false ∧ urlPassChar asciiAlnum c = false ∧ c ≠ 58 ∧ c ≠ 64 ∧ c ≠ 45 ∧ c ≠ 46 ∧
      edgeChar false (fun _ => false) c = false ∧ ¬ (48 ≤ c ∧ c ≤ 57) := by
    intro c hc
    rcases path_head hp c hc with rfl | q
    · decide
    · exact path_user c q
  have po : ∀ c, (portText port ++ (path ++ post)).head? = some c → urlUserChar asciiAlnum c = false ∧ c ≠ 64 ∧ c ≠ 45 ∧ c ≠ 46 ∧ edgeChar false (fun _ => false) c = false := by
    intro c hc
    cases port with
    | none => have := pa c hc; exact ⟨this.1, this.2.2.2.1, this.2.2.2.2.1, this.2.2.2.2.2.1, this.2.2.2.2.2.2.1⟩
    | some w => cases hc; decide
  -- the host
  have ho : siteHost (asciiUrl t) p1.length = some (none, none, some (p1.length, p2.length), p2.length) := by
    have c1 : (asciiUrl t).ipv4 p1.length = none := ipv4_no h (post := dotJoin ls ++ (portText port ++ (path ++ post))) (by rw [t1, List.append_assoc]) (fun c hc => by
      rw [f2] at hc; cases hc
      exact hd _ f1 _ rfl)
    have c2 : (asciiUrl t).lbracket p1.length = none := by
      have q := char_here (t := t) (pre := p1) (post := dotJoin ls ++ (portText port ++ (path ++ post))) 91 (by rw [t1, List.append_assoc])
      rw [if_neg (fun q => by rw [f2] at q; cases q; revert f3; decide)] at q
      exact q
    have c3 := dns_written (alnum := fun _ => false) (ab := false) h rfl h0 hn hl t1 ⟨fun c hc => ⟨(po c hc).2.2.2.2, (po c hc).2.2.1⟩, fun r e => absurd rfl (po 46 (by rw [e]; rfl)).2.2.2.1⟩
    have c4 : (asciiUrl t).dns p1.length = some p2.length := by
      show (match dnsName (ipEnv t) (asciiDns t false (fun _ => false) false) p1.length with | some (some (_, j)) => some j | _ => none) = _
      rw [c3, l2]
    unfold siteHost bracketed
    rw [c1]; dsimp only
    rw [c2]; dsimp only
    rw [c4]
  -- the port
  have pt : portAt (asciiUrl t) p2.length = (port.map fun _ => (p2.length + 1, p3.length), p3.length) := by
    unfold portAt
    have q := char_here (t := t) (pre := p2) (post := portText port ++ (path ++ post)) 58 (by rw [t2, List.append_assoc])
    cases port with
    | none =>
      have q := q.trans (if_neg (fun q => (pa 58 q).2.2.1 rfl))
      rw [show (asciiUrl t).colon p2.length = none from q, l3]; rfl
    | some w =>
      have q := q.trans (if_pos rfl)
      rw [show (asciiUrl t).colon p2.length = _ from q]; dsimp only
      have q2 := number_at (t := t) (pre := p2 ++ [58]) (w := w) (post := path ++ post) h (by rw [t2]; simp [portText]) hq (fun c hc => (pa c hc).2.2.2.2.2.2.2)
      rw [List.length_append, List.length_singleton] at q2
      have q3 : (asciiUrl t).port (p2.length + 1) = some (p2.length + 1 + w.length) := by
        show (numberAt (ipEnv t) t (p2.length + 1)).map Prod.fst = _
        rw [q2]; rfl
      rw [q3, l3]
      simp [portText]; omega
  have pth := path_here h t3 hp
  refine ⟨⟨a, b, none, none, u, v, none, none, some (p1.length, p2.length), port.map fun _ => (p2.length + 1, p3.length),
    if path = [] then none else some (p3.length, p3.length + path.length), some (i, p3.length + path.length)⟩, ?_, rfl, rfl, rfl, rfl, rfl, rfl, rfl, rfl, ?_, ?_, ?_, by rw [l3, l2]⟩
  · unfold site
    rw [ho]; dsimp only
    rw [pt]; dsimp only
    rw [pth]
  · have := textAt_mid t1
    rw [l2]
    exact congrArg some this
  · cases port with
    | none => rfl
    | some w =>
      have := textAt_mid (m := t) (pre := p2 ++ [58]) (w := w) (post := path ++ post) (by rw [t2]; simp [portText])
      rw [List.length_append, List.length_singleton] at this
      have e : p3.length = p2.length + 1 + w.length := by rw [l3]; simp [portText]; omega
      dsimp only [Option.map_some]
      rw [e, this]
  · have := textAt_mid t3
    dsimp only
    split
    · rfl
    · exact congrArg some this

/-- `user@` or `user:password@` -/
def loginText (u : List Int) (w : Option (List Int)) : List Int := u ++ portText w ++ [64]

/-- The scheme of a web address or of an address for the transfer of files. -/
def webScheme (ftp : Bool) : List Int := if ftp then asc "ftp" else asc "http"

/-- **C166** (URL) The same with a user name before the host, and a password if it is there; for `ftp` the password is there. -/
theorem login_written {t pre u path post : List Int} {w : Option (List Int)} {ls : List (List Int)} {port : Option (List Int)} {ftp : Bool} (h : (ipEnv t).Ok t)
    (ht : t = pre ++ (webScheme ftp ++ asc "://" ++ loginText u w ++ dotJoin ls ++ portText port ++ path) ++ post)
    (hu : u ≠ []) (hc : ∀ c ∈ u, urlUserChar asciiAlnum c = true) (hw : ∀ w', w = some w' → w' ≠ [] ∧ ∀ c ∈ w', urlPassChar asciiAlnum c = true) (hf : ftp = true → w ≠ none) (h0 : ls ≠ [])
    (hn : ls.length ≤ 127) (hl : ∀ l ∈ ls, LabelText false (fun _ => false) l) (hd : ∀ l, ls.head? = some l → NoDigit l) (hq : PortFit port) (hp : PathFit path post) :
    ∃ x, url (asciiUrl t) pre.length = (true, x) ∧ x.http.map (textAt t) = (if ftp then none else some (asc "http")) ∧ x.ftp.map (textAt t) = (if ftp then some (asc "ftp") else none) ∧
      x.username.map (textAt t) = some u ∧ x.password.map (textAt t) = w ∧ x.dns.map (textAt t) = some (dotJoin ls) ∧ x.port.map (textAt t) = port ∧
      x.path.map (textAt t) = (if path = [] then none else some path) ∧
      x.interval = some (pre.length, pre.length + (webScheme ftp ++ asc "://" ++ loginText u w ++ dotJoin ls ++ portText port ++ path).length) ∧
      x.mailto = none ∧ x.file = none ∧ x.ipv4 = none ∧ x.ipv6 = none := by
  have lit : asc "://" = [58, 47, 47] := by decide +kernel
  have lit1 : asc "http" = [104, 116, 116, 112] := by decide +kernel
  have lit2 : asc "ftp" = [102, 116, 112] := by decide +kernel
  generalize hs : webScheme ftp = sc at *
  let p0 := pre ++ sc ++ asc "://"
  have l0 : p0.length = pre.length + sc.length + 3 := by simp [p0, lit]; omega
  have t0 : t = pre ++ (sc ++ (58 :: 47 :: 47 :: (loginText u w ++ (dotJoin ls ++ (portText port ++ (path ++ post)))))) := by rw [ht, lit]; simp
  have m2 : (asciiUrl t).colon (pre.length + sc.length) = some (pre.length + sc.length + 1) := by
    have := char_here (t := t) (pre := pre ++ sc) (post := 58 :: 47 :: 47 :: (loginText u w ++ (dotJoin ls ++ (portText port ++ (path ++ post))))) 58 (by rw [t0]; simp)
    rw [List.length_append] at this
    exact this
  have m3 : (asciiUrl t).slash (pre.length + sc.length + 1) = some (pre.length + sc.length + 2) := by
    have := char_here (t := t) (pre := pre ++ sc ++ [58]) (post := 47 :: 47 :: (loginText u w ++ (dotJoin ls ++ (portText port ++ (path ++ post))))) 47 (by rw [t0]; simp)
    rw [List.length_append, List.length_append] at this
    exact this
  have m4 : (asciiUrl t).slash (pre.length + sc.length + 2) = some (pre.length + sc.length + 3) := by
    have := char_here (t := t) (pre := pre ++ sc ++ [58, 47]) (post := 47 :: (loginText u w ++ (dotJoin ls ++ (portText port ++ (path ++ post))))) 47 (by rw [t0]; simp)
    rw [List.length_append, List.length_append] at this
    exact this
  have sl : ∀ s : Sub, s pre.length = some (pre.length + sc.length) → slashes (asciiUrl t) s pre.length = some (pre.length + sc.length, p0.length) := by
    intro s e
    unfold slashes
    rw [e]; dsimp only
    rw [m2]; dsimp only
    rw [m3]; dsimp only
    rw [m4, l0]
  -- the user
  let p1 := p0 ++ loginText u w
  have t1 : t = p1 ++ dotJoin ls ++ (portText port ++ (path ++ post)) := by rw [t0]; simp [p1, p0, lit]
  have l1 : p1.length = p0.length + u.length + (portText w).length + 1 := by simp [p1, loginText]; omega
  have tu : t = p0 ++ u ++ (portText w ++ 64 :: (dotJoin ls ++ (portText port ++ (path ++ post)))) := by rw [t0]; simp [p0, lit, loginText]
  have us : userInfo (asciiUrl t) ftp p0.length = (some (p0.length, p0.length + u.length), w.map fun w => (p0.length + u.length + 1, p0.length + u.length + 1 + w.length), p1.length) := by
    have b1 : (asciiUrl t).username p0.length = some (p0.length + u.length) := run_here tu hu hc (fun c q => by
      cases w with
      | none => cases q; decide
      | some w => cases q; decide)
    have q := char_here (t := t) (pre := p0 ++ u) (post := portText w ++ 64 :: (dotJoin ls ++ (portText port ++ (path ++ post)))) 58 tu
    rw [List.length_append] at q
    unfold userInfo
    rw [b1]; dsimp only
    unfold passAt
    cases w with
    | none =>
      have f : ftp = false := by cases ftp with | false => rfl | true => exact absurd rfl (hf rfl)
      have q := q.trans (if_neg (by simp [portText]))
      have q2 := (char_here (t := t) (pre := p0 ++ u) (post := 64 :: (dotJoin ls ++ (portText port ++ (path ++ post)))) 64 tu).trans (if_pos rfl)
      rw [List.length_append] at q2
      rw [show (asciiUrl t).colon (p0.length + u.length) = none from q, f]; dsimp only
      rw [if_neg (by decide), show (asciiUrl t).at_ (p0.length + u.length) = _ from q2, l1]; rfl
    | some w =>
      obtain ⟨w1, w2⟩ := hw w rfl
      have q := q.trans (if_pos (by simp [portText]))
      have q2 := run_here (t := t) (pre := p0 ++ u ++ [58]) (w := w) (post := 64 :: (dotJoin ls ++ (portText port ++ (path ++ post)))) (f := urlPassChar asciiAlnum) (by rw [tu]; simp [portText]) w1 w2
        (fun c q => by cases q; decide)
      have q3 := (char_here (t := t) (pre := p0 ++ u ++ [58] ++ w) (post := 64 :: (dotJoin ls ++ (portText port ++ (path ++ post)))) 64 (by rw [tu]; simp [portText])).trans (if_pos rfl)
      rw [List.length_append, List.length_append, List.length_singleton] at q2
      rw [List.length_append, List.length_append, List.length_append, List.length_singleton] at q3
      rw [show (asciiUrl t).colon (p0.length + u.length) = _ from q]; dsimp only
      rw [show (asciiUrl t).password (p0.length + u.length + 1) = _ from q2]; dsimp only
      rw [show (asciiUrl t).at_ _ = _ from q3, l1]
      simp [portText]; omega
  have xs := textAt_mid (m := t) (pre := pre) (w := sc) (post := 58 :: 47 :: 47 :: (loginText u w ++ (dotJoin ls ++ (portText port ++ (path ++ post))))) (by rw [t0]; simp)
  have xu : (some (p0.length, p0.length + u.length)).map (textAt t) = some u := congrArg some (textAt_mid tu)
  have xw : (w.map fun w => (p0.length + u.length + 1, p0.length + u.length + 1 + w.length)).map (textAt t) = w := by
    cases w with
    | none => rfl
    | some w =>
      have := textAt_mid (m := t) (pre := p0 ++ u ++ [58]) (w := w) (post := 64 :: (dotJoin ls ++ (portText port ++ (path ++ post)))) (by rw [tu]; simp [portText])
      rw [List.length_append, List.length_append, List.length_singleton] at this
      exact congrArg some this
  have len : pre.length + (sc ++ asc "://" ++ loginText u w ++ dotJoin ls ++ portText port ++ path).length = p1.length + (dotJoin ls).length + (portText port).length + path.length := by
    simp [p1, p0]; omega
  cases ftp with
  | false =>
    have hs : sc = [104, 116, 116, 112] := by rw [← hs, ← lit1]; rfl
    have n1 := sl (asciiUrl t).http (by subst hs; exact word_here (by decide) t0)
    obtain ⟨x, e, a1, a2, a3, a4, a5, a6, a7, a8, a9, a10, a11, a12⟩ := site_here h t1 h0 hn hl hd hq hp pre.length (some (pre.length, pre.length + sc.length)) none
      (some (p0.length, p0.length + u.length)) (w.map fun w => (p0.length + u.length + 1, p0.length + u.length + 1 + w.length))
    refine ⟨x, ?_, ?_, by rw [a2]; rfl, by rw [a5]; exact xu, by rw [a6]; exact xw, a9, a10, a11, by rw [a12, len], a3, a4, a7, a8⟩
    · unfold url
      rw [n1]; dsimp only
      rw [us]; exact e
    · rw [a1, lit1, ← hs]; exact congrArg some xs
  | true =>
    have hs : sc = [102, 116, 112] := by rw [← hs, ← lit2]; rfl
    have n0 : slashes (asciiUrl t) (asciiUrl t).http pre.length = none := by
      unfold slashes
      rw [show (asciiUrl t).http pre.length = none from word_no t0 (by subst hs; simp)]
    have n1 := sl (asciiUrl t).ftp (by subst hs; exact word_here (by decide) t0)
    obtain ⟨x, e, a1, a2, a3, a4, a5, a6, a7, a8, a9, a10, a11, a12⟩ := site_here h t1 h0 hn hl hd hq hp pre.length none (some (pre.length, pre.length + sc.length))
      (some (p0.length, p0.length + u.length)) (w.map fun w => (p0.length + u.length + 1, p0.length + u.length + 1 + w.length))
    refine ⟨x, ?_, by rw [a1]; rfl, ?_, by rw [a5]; exact xu, by rw [a6]; exact xw, a9, a10, a11, by rw [a12, len], a3, a4, a7, a8⟩
    · unfold url
      rw [n0]; dsimp only
      rw [n1]; dsimp only
      rw [us]; exact e
    · rw [a2, lit2, ← hs]; exact congrArg some xs

/-- `see http://a.b:80/x?y#z ` -/
example : asc "see http://a.b:80/x?y#z " = asc "see " ++ webText [asc "a", asc "b"] (some (asc "80")) (asc "/x?y#z") ++ asc " " ∧
    (∀ l ∈ [asc "a", asc "b"], LabelText false (fun _ => false) l) ∧ NoDigit (asc "a") ∧ PortFit (some (asc "80")) ∧ PathFit (asc "/x?y#z") (asc " ") ∧
    (ipEnv (asc "see http://a.b:80/x?y#z ")).Ok (asc "see http://a.b:80/x?y#z ") := by
  refine ⟨by decide +kernel, ?_, ?_, ⟨by decide +kernel, by decide +kernel, by decide +kernel⟩,
    .inr ⟨[120], some [121], some [122], by decide +kernel, ⟨by decide, ?_, ?_, ?_⟩⟩, ⟨.inl (by decide), by decide +kernel, (fun n q => nomatch q), fun _ => Iff.rfl⟩⟩
  · have one : ∀ x : Int, edgeChar false (fun _ => false) x = true → LabelText false (fun _ => false) [x] := fun x hx =>
      ⟨by simp, fun c hc => by rw [List.mem_singleton.1 hc]; exact .inl hx, fun c hc => by cases hc; exact hx, fun c hc => by cases hc; exact hx⟩
    intro l hl
    have : l = [97] ∨ l = [98] := by simpa [asc] using hl
    rcases this with rfl | rfl
    · exact one 97 (by decide)
    · exact one 98 (by decide)
  · intro c hc
    have : c = 97 := by simpa [asc] using hc.symm
    subst this
    decide
  · intro q' e; cases e; decide
  · intro b' e; cases e; decide
  · intro c hc
    have : c = 32 := by simpa [asc] using hc.symm
    subst this
    decide

/-- `to mailto:a.b@c.d.` -/
example : asc "to mailto:a.b@c.d." = asc "to " ++ (asc "mailto:" ++ (asc "a.b" ++ 64 :: dotJoin [asc "c", asc "d"])) ++ asc "." ∧ (∀ c ∈ asc "a.b", urlUserChar asciiAlnum c = true) ∧
    (∀ l ∈ [asc "c", asc "d"], LabelText false (fun _ => false) l) ∧ AfterName (edgeChar false (fun _ => false)) false (asc ".") ∧
    (ipEnv (asc "to mailto:a.b@c.d.")).Ok (asc "to mailto:a.b@c.d.") := by
  refine ⟨by decide +kernel, by decide +kernel, ?_, ⟨?_, ?_⟩, ⟨.inl (by decide), by decide +kernel, (fun n q => nomatch q), fun _ => Iff.rfl⟩⟩
  · have one : ∀ x : Int, edgeChar false (fun _ => false) x = true → LabelText false (fun _ => false) [x] := fun x hx =>
      ⟨by simp, fun c hc => by rw [List.mem_singleton.1 hc]; exact .inl hx, fun c hc => by cases hc; exact hx, fun c hc => by cases hc; exact hx⟩
    intro l hl
    have : l = [99] ∨ l = [100] := by simpa [asc] using hl
    rcases this with rfl | rfl
    · exact one 99 (by decide)
    · exact one 100 (by decide)
  · intro c hc
    have : c = 46 := by simpa [asc] using hc.symm
    subst this
    decide
  · intro r e
    have : r = [] := by simpa [asc] using (congrArg List.tail e).symm
    subst this
    exact ⟨rfl, fun c hc => nomatch hc⟩

/-- `file:///x` and a space -/
example : asc "see file:///x " = asc "see " ++ (asc "file://" ++ asc "/x") ++ asc " " ∧ PathFit (asc "/x") (asc " ") ∧ (ipEnv (asc "see file:///x ")).Ok (asc "see file:///x ") := by
  refine ⟨by decide +kernel, .inr ⟨[120], none, none, by decide +kernel, ⟨by decide, (fun q' e => nomatch e), (fun b' e => nomatch e), ?_⟩⟩,
    ⟨.inl (by decide), by decide +kernel, (fun n q => nomatch q), fun _ => Iff.rfl⟩⟩
  intro c hc
  have : c = 32 := by simpa [asc] using hc.symm
  subst this
  decide

/-- `at ftp://u:p@a.b/x ` -/
example : asc "at ftp://u:p@a.b/x " = asc "at " ++ (webScheme true ++ asc "://" ++ loginText (asc "u") (some (asc "p")) ++ dotJoin [asc "a", asc "b"] ++ portText none ++ asc "/x") ++ asc " " ∧
    (∀ c ∈ asc "u", urlUserChar asciiAlnum c = true) ∧ (∀ c ∈ asc "p", urlPassChar asciiAlnum c = true) ∧
    (∀ l ∈ [asc "a", asc "b"], LabelText false (fun _ => false) l) ∧ NoDigit (asc "a") ∧ PortFit none ∧ PathFit (asc "/x") (asc " ") ∧ (ipEnv (asc "at ftp://u:p@a.b/x ")).Ok (asc "at ftp://u:p@a.b/x ") := by
  refine ⟨by decide +kernel, by decide +kernel, by decide +kernel, ?_, ?_, trivial,
    .inr ⟨[120], none, none, by decide +kernel, ⟨by decide, (fun q' e => nomatch e), (fun b' e => nomatch e), ?_⟩⟩, ⟨.inl (by decide), by decide +kernel, (fun n q => nomatch q), fun _ => Iff.rfl⟩⟩
  · have one : ∀ x : Int, edgeChar false (fun _ => false) x = true → LabelText false (fun _ => false) [x] := fun x hx =>
      ⟨by simp, fun c hc => by rw [List.mem_singleton.1 hc]; exact .inl hx, fun c hc => by cases hc; exact hx, fun c hc => by cases hc; exact hx⟩
    intro l hl
    have : l = [97] ∨ l = [98] := by simpa [asc] using hl
    rcases this with rfl | rfl
    · exact one 97 (by decide)
    · exact one 98 (by decide)
  · intro c hc
    have : c = 97 := by simpa [asc] using hc.symm
    subst this
    decide
  · intro c hc
    have : c = 32 := by simpa [asc] using hc.symm
    subst this
    decide

/-- **C166** (URL) An ftp URL without a user, with a port and a path if they are there, is found with its parts. -/
theorem ftp_written {t pre path post : List Int} {ls : List (List Int)} {port : Option (List Int)} (h : (ipEnv t).Ok t)
    (ht : t = pre ++ (asc "ftp://" ++ dotJoin ls ++ portText port ++ path) ++ post) (h0 : ls ≠ []) (hn : ls.length ≤ 127) (hl : ∀ l ∈ ls, LabelText false (fun _ => false) l)
    (hd : ∀ l, ls.head? = some l → NoDigit l) (hq : PortFit port) (hp : PathFit path post) :
    ∃ u, url (asciiUrl t) pre.length = (true, u) ∧ u.ftp.map (textAt t) = some (asc "ftp") ∧ u.dns.map (textAt t) = some (dotJoin ls) ∧ u.port.map (textAt t) = port ∧
      u.path.map (textAt t) = (if path = [] then none else some path) ∧ u.interval = some (pre.length, pre.length + (asc "ftp://" ++ dotJoin ls ++ portText port ++ path).length) ∧
      u.http = none ∧ u.mailto = none ∧ u.file = none ∧ u.username = none ∧ u.password = none ∧ u.ipv4 = none ∧ u.ipv6 = none := by
  have lit : asc "ftp://" = [102, 116, 112, 58, 47, 47] := by decide +kernel
  have ht0 : t = pre ++ ([102, 116, 112] ++ (58 :: 47 :: 47 :: (dotJoin ls ++ (portText port ++ (path ++ post))))) := by rw [ht, lit]; simp
  have sch : slashes (asciiUrl t) (asciiUrl t).ftp pre.length = some (pre.length + 3, pre.length + 6) := by
    have a1 : (asciiUrl t).ftp pre.length = some (pre.length + 3) := word_here (by decide) ht0
    have a2 : (asciiUrl t).colon (pre.length + 3) = some (pre.length + 4) := by
      have := char_here (t := t) (pre := pre ++ [102, 116, 112]) (post := 58 :: 47 :: 47 :: (dotJoin ls ++ (portText port ++ (path ++ post)))) 58 (by rw [ht0]; simp)
      rw [List.length_append] at this
      exact this
    have a3 : (asciiUrl t).slash (pre.length + 4) = some (pre.length + 5) := by
      have := char_here (t := t) (pre := pre ++ [102, 116, 112, 58]) (post := 47 :: 47 :: (dotJoin ls ++ (portText port ++ (path ++ post)))) 47 (by rw [ht0]; simp)
      rw [List.length_append] at this
      exact this
    have a4 : (asciiUrl t).slash (pre.length + 5) = some (pre.length + 6) := by
      have := char_here (t := t) (pre := pre ++ [102, 116, 112, 58, 47]) (post := 47 :: (dotJoin ls ++ (portText port ++ (path ++ post)))) 47 (by rw [ht0]; simp)
      rw [List.length_append] at this
      exact this
    unfold slashes
    rw [a1]; dsimp only
    rw [a2]; dsimp only
    rw [a3]; dsimp only
    rw [a4]
  have n0 : slashes (asciiUrl t) (asciiUrl t).http pre.length = none := by
    unfold slashes
    rw [show (asciiUrl t).http pre.length = none from word_no ht0 (by simp)]
  let p1 := pre ++ [102, 116, 112, 58, 47, 47]
  let p2 := p1 ++ dotJoin ls
  have l1 : p1.length = pre.length + 6 := by simp [p1]
  have t1 : t = p1 ++ dotJoin ls ++ (portText port ++ (path ++ post)) := by rw [ht0]; simp [p1]
  have t2 : t = p2 ++ portText port ++ (path ++ post) := by rw [ht0]; simp [p1, p2]
  have l2 : p2.length = p1.length + (dotJoin ls).length := List.length_append ..
  obtain ⟨c0, r0, f1, f2, f3⟩ := name_first h0 hl (portText port ++ (path ++ post))
  have ne : dotJoin ls ≠ [] := by
    intro q
    cases ls with
    | nil => exact h0 rfl
    | cons l ls =>
      have := (hl l List.mem_cons_self).1
      cases ls with
      | nil => exact this q
      | cons k2 ls => exact this (List.append_eq_nil_iff.1 (show l ++ 46 :: dotJoin (k2 :: ls) = [] from q)).1
  -- what follows the host, and what follows the port
  have pa : ∀ c, (path ++ post).head? = some c → urlUserChar asciiAlnum c = false ∧ urlPassChar asciiAlnum c = false ∧ c ≠ 58 ∧ c ≠ 64 ∧ c ≠ 45 ∧ c ≠ 46 ∧
      edgeChar false (fun _ => false) c = false ∧ ¬ (48 ≤ c ∧ c ≤ 57) := by
    intro c hc
    rcases path_head hp c hc with rfl | q
    · decide
    · exact path_user c q
  have po : ∀ c, (portText port ++ (path ++ post)).head? = some c → urlUserChar asciiAlnum c = false ∧ c ≠ 64 ∧ c ≠ 45 ∧ c ≠ 46 ∧ edgeChar false (fun _ => false) c = false := by
    intro c hc
    cases port with
    | none => have := pa c hc; exact ⟨this.1, this.2.2.2.1, this.2.2.2.2.1, this.2.2.2.2.2.1, this.2.2.2.2.2.2.1⟩
    | some w => cases hc; decide
  -- no user
  have us : userInfo (asciiUrl t) true p1.length = (none, none, p1.length) := by
    have b1 : (asciiUrl t).username p1.length = some p2.length := by
      rw [l2]
      exact run_here t1 ne (name_chars hl) fun c hc => (po c hc).1
    have b2 : passAt (asciiUrl t) p2.length = none := by
      unfold passAt
      have q := char_here (t := t) (pre := p2) (post := portText port ++ (path ++ post)) 58 (by rw [t2, List.append_assoc])
      cases port with
      | none =>
        have q := q.trans (if_neg (fun q => (pa 58 q).2.2.1 rfl))
        rw [show (asciiUrl t).colon p2.length = none from q]
      | some w =>
        have q := q.trans (if_pos rfl)
        rw [show (asciiUrl t).colon p2.length = _ from q]; dsimp only
        have q2 := run_here (t := t) (pre := p2 ++ [58]) (w := w) (post := path ++ post) (f := urlPassChar asciiAlnum) (by rw [t2]; simp [portText]) hq.1 (fun c hc => by
          have := hq.2.1 c hc
          unfold urlPassChar asciiAlnum
          rw [decide_eq_true (.inr (.inr this)), Bool.or_true]) (fun c hc => (pa c hc).2.1)
        have q3 := char_here (t := t) (pre := p2 ++ [58] ++ w) (post := path ++ post) 64 (by rw [t2]; simp [portText])
        rw [if_neg (fun q => (pa 64 q).2.2.2.1 rfl)] at q3
        rw [List.length_append, List.length_singleton] at q2
        rw [List.length_append, List.length_append, List.length_singleton] at q3
        rw [show (asciiUrl t).password (p2.length + 1) = _ from q2]; dsimp only
        rw [show (asciiUrl t).at_ _ = none from q3]; rfl
    have b3 : (asciiUrl t).at_ p1.length = none := by
      have q := char_here (t := t) (pre := p1) (post := dotJoin ls ++ (portText port ++ (path ++ post))) 64 (by rw [t1, List.append_assoc])
      rw [if_neg (fun q => by rw [f2] at q; cases q; revert f3; decide)] at q
      exact q
    unfold userInfo
    rw [b1]; dsimp only
    rw [b2]; dsimp only
    rw [if_pos rfl, b3]
  obtain ⟨x, e, a1, a2, a3, a4, a5, a6, a7, a8, a9, a10, a11, a12⟩ := site_here h t1 h0 hn hl hd hq hp pre.length none (some (pre.length, pre.length + 3)) none none
  have xs := textAt_mid (m := t) (pre := pre) (w := [102, 116, 112]) (post := 58 :: 47 :: 47 :: (dotJoin ls ++ (portText port ++ (path ++ post)))) (by rw [ht0]; simp)
  refine ⟨x, ?_, ?_, a9, a10, a11, ?_, a1, a3, a4, a5, a6, a7, a8⟩
  · unfold url
    rw [n0]; dsimp only
    rw [sch]; dsimp only
    rw [← l1, us]; exact e
  · rw [a2]; exact congrArg some xs
  · rw [a12, lit, l1]; simp; omega

/-- `at ftp://a.b:21 ` -/
example : asc "at ftp://a.b:21 " = asc "at " ++ (asc "ftp://" ++ dotJoin [asc "a", asc "b"] ++ portText (some (asc "21")) ++ []) ++ asc " " ∧ PortFit (some (asc "21")) ∧ PathFit [] (asc " ") := by
  refine ⟨by decide +kernel, ⟨by decide +kernel, by decide +kernel, by decide +kernel⟩, .inl ⟨rfl, ?_⟩⟩
  intro c hc
  have : c = 32 := by simpa [asc] using hc.symm
  subst this
  decide

end Verif.Parser
