import Verif.Parser.Url
import Verif.Html.ComesBack
/-
Host names and e-mail addresses from end to end (include/stdex/parser.hpp 3395-3509, 3786-3850): what is written in a text is found.
-/
namespace Verif.Parser
open Verif.Str Verif.Html Verif.Sgml

/-- What follows a name: no character of a label, and no dot unless absolute names are not allowed and no label starts after it. -/
def AfterName (edge : Int → Bool) (absolute : Bool) (l : List Int) : Prop :=
  (∀ c, l.head? = some c → edge c = false ∧ c ≠ 45) ∧ ∀ r, l = 46 :: r → absolute = false ∧ ∀ c, r.head? = some c → edge c = false

theorem chr_some {t : List Int} {idn : Bool} {alnum : Int → Bool} {ab : Bool} {i j : Nat} {b : Bool} (h : (asciiDns t idn alnum ab).chr i = some (j, b)) :
    ∃ c, t[i]? = some c ∧ (edgeChar idn alnum c = true ∨ c = 45) ∧ (b = true → edgeChar idn alnum c = true) ∧ j = i + 1 := by
  unfold asciiDns at h
  dsimp only at h
  split at h
  · cases h
  · rename_i c e
    refine ⟨c, e, ?_⟩
    by_cases q : edgeChar idn alnum c = true
    · rw [if_pos q] at h; cases h; exact ⟨.inl q, fun _ => q, rfl⟩
    · rw [if_neg q] at h
      by_cases q' : c = 45
      · rw [if_pos q'] at h; cases h; exact ⟨.inr q', (fun u => nomatch u), rfl⟩
      · rw [if_neg q'] at h; cases h

theorem name_stops {t pre post : List Int} {idn : Bool} {alnum : Int → Bool} {ab : Bool} (ht : t = pre ++ post) (hp : AfterName (edgeChar idn alnum) ab post) :
    (∀ {i j : Nat} {b : Bool}, Chars (asciiDns t idn alnum ab) i j b → i ≤ pre.length → j ≤ pre.length) ∧
    (∀ {k i j : Nat}, Name (asciiDns t idn alnum ab) k i j → i ≤ pre.length → j ≤ pre.length) ∧
    (∀ {k i j : Nat}, Whole (asciiDns t idn alnum ab) k i j → i ≤ pre.length → j ≤ pre.length) := by
  have get := at_end ht
  have step : ∀ {i j : Nat} {b : Bool}, (asciiDns t idn alnum ab).chr i = some (j, b) → i ≤ pre.length → j ≤ pre.length := by
    intro i j b h hi
    obtain ⟨c, c1, c2, _, rfl⟩ := chr_some h
    by_cases e : i = pre.length
    · rw [e, get] at c1
      have ⟨a1, a2⟩ := hp.1 c c1
      rcases c2 with c2 | c2
      · rw [a1] at c2; cases c2
      · exact absurd c2 a2
    · omega
  have chars : ∀ {i j : Nat} {b : Bool}, Chars (asciiDns t idn alnum ab) i j b → i ≤ pre.length → j ≤ pre.length := by
    intro i j b h
    induction h with
    | one q => exact step q
    | cons q _ ih => exact fun hi => ih (step q hi)
  have sep : ∀ {m s : Nat}, charSub t 46 m = some s → m ≤ pre.length → s ≤ pre.length ∨ (m = pre.length ∧ s = m + 1 ∧ ∃ r, post = 46 :: r) := by
    intro m s h hm
    unfold charSub at h
    split at h
    · rename_i q
      cases h
      by_cases e : m = pre.length
      · rw [e, get] at q
        refine .inr ⟨e, rfl, ?_⟩
        cases post with
        | nil => cases q
        | cons x r => rw [List.head?_cons] at q; cases q; exact ⟨r, rfl⟩
      · exact .inl (by omega)
    · cases h
  have name : ∀ {k i j : Nat}, Name (asciiDns t idn alnum ab) k i j → i ≤ pre.length → j ≤ pre.length := by
    intro k i j h
    induction h with
    | one q => exact chars q.2
    | @cons k i m s j q qs qn ih =>
      intro hi
      rcases sep qs (chars q.2 hi) with a | ⟨a, b, r, e⟩
      · exact ih a
      · obtain ⟨x, hx⟩ := name_head qn
        obtain ⟨c, c1, _, c2, _⟩ := chr_some hx
        have g := at_end (t := t) (pre := pre ++ [46]) (post := r) (by rw [ht, e]; simp)
        rw [List.length_append, List.length_singleton] at g
        rw [b, a, g] at c1
        have := (hp.2 r e).2 c c1
        rw [c2 rfl] at this; cases this
  refine ⟨chars, name, fun h hi => ?_⟩
  rcases h with h | ⟨a, m, h, s⟩
  · exact name h hi
  · rcases sep s (name h hi) with q | ⟨_, _, r, e⟩
    · exact q
    · have := (hp.2 r e).1
      have a : ab = true := a
      rw [a] at this; cases this

/-- **C166** (host name) A name of labels with dots between them, anywhere in a text that does not continue it, is found and nothing more. -/
theorem dns_written {v : Env} {idn : Bool} {alnum : Int → Bool} {ab : Bool} {t pre post : List Int} {ls : List (List Int)} (h : v.Ok t) (h46 : alnum 46 = false) (h0 : ls ≠ []) (hn : ls.length ≤ 127)
    (hl : ∀ l ∈ ls, LabelText idn alnum l) (ht : t = pre ++ dotJoin ls ++ post) (hp : AfterName (edgeChar idn alnum) ab post) :
    dnsName v (asciiDns t idn alnum ab) pre.length = some (some (pre.length, pre.length + (dotJoin ls).length)) := by
  have w := name_text (t := t) (idn := idn) (alnum := alnum) (ab := ab) ls pre.length post h0 (by rw [ht, List.append_assoc, List.drop_left]) hl
  have le : pre.length ≤ t.length := by rw [ht]; simp
  rcases dnsName_spec h (asciiDns_ok t idn alnum ab h46) le with ⟨e, ⟨⟨k, _, a2⟩, a3⟩, b⟩ | ⟨a, _⟩
  · have l1 := a3 _ _ hn (.inl w)
    have l2 := (name_stops ht hp).2.2 a2 (by rw [List.length_append]; omega)
    rw [List.length_append] at l2
    rw [b, show e = pre.length + (dotJoin ls).length from by omega]
  · exact absurd w (a _ _)

/-- **C166** (e-mail) A user name, `@` and a host name, anywhere in a text that does not continue it, are found with their parts. -/
theorem email_written {t pre u post : List Int} {ls : List (List Int)} (h : (ipEnv t).Ok t) (hu : u ≠ []) (hc : ∀ c ∈ u, urlUserChar asciiAlnum c = true) (h0 : ls ≠ []) (hn : ls.length ≤ 127)
    (hl : ∀ l ∈ ls, LabelText false (fun _ => false) l) (ht : t = pre ++ (u ++ 64 :: dotJoin ls) ++ post) (hp : AfterName (edgeChar false (fun _ => false)) false post) :
    email (asciiUrl t) pre.length = (true, ⟨some (pre.length, pre.length + u.length), none, none, some (pre.length + u.length + 1, pre.length + (u ++ 64 :: dotJoin ls).length),
      some (pre.length, pre.length + (u ++ 64 :: dotJoin ls).length)⟩) := by
  have d : t.drop pre.length = u ++ 64 :: (dotJoin ls ++ post) := by rw [ht, List.append_assoc, List.drop_left]; simp
  have tw : (t.drop pre.length).takeWhile (urlUserChar asciiAlnum) = u := by
    rw [d, List.takeWhile_append_of_pos hc, List.takeWhile_cons_of_neg (by decide), List.append_nil]
  have e1 : (asciiUrl t).username pre.length = some (pre.length + u.length) := by
    show runSub t _ _ = _
    unfold runSub
    rw [tw, if_pos hu]
  have e2 : (asciiUrl t).at_ (pre.length + u.length) = some (pre.length + u.length + 1) := by
    have := at_end (t := t) (pre := pre ++ u) (post := 64 :: (dotJoin ls ++ post)) (by rw [ht]; simp)
    rw [List.length_append] at this
    show charSub t 64 _ = _
    unfold charSub
    rw [this]; rfl
  have l3 : (pre ++ u ++ [64]).length = pre.length + u.length + 1 := by simp; omega
  have e3 := dns_written (t := t) (pre := pre ++ u ++ [64]) (post := post) h rfl h0 hn hl (by rw [ht]; simp) hp
  rw [l3] at e3
  have e4 : (asciiUrl t).lbracket (pre.length + u.length + 1) = none := by
    have g := at_end (t := t) (pre := pre ++ u ++ [64]) (post := dotJoin ls ++ post) (by rw [ht]; simp)
    rw [l3] at g
    show charSub t 91 _ = _
    unfold charSub
    rw [g, if_neg]
    intro q
    have k : ∃ c, (dotJoin ls ++ post).head? = some c ∧ edgeChar false (fun _ => false) c = true := by
      cases ls with
      | nil => exact absurd rfl h0
      | cons l ls =>
        obtain ⟨n, _, hd, _⟩ := hl l List.mem_cons_self
        cases l with
        | nil => exact absurd rfl n
        | cons c l => exact ⟨c, by cases ls <;> rfl, hd c rfl⟩
    obtain ⟨c, c1, c2⟩ := k
    rw [q] at c1; cases c1
    revert c2; decide
  have e5 : (asciiUrl t).dns (pre.length + u.length + 1) = some (pre.length + u.length + 1 + (dotJoin ls).length) := by
    show (match dnsName (ipEnv t) (asciiDns t false (fun _ => false) false) (pre.length + u.length + 1) with | some (some (_, j)) => some j | _ => none) = _
    rw [e3]
  have b : ∀ x, bracketed (asciiUrl t) x (pre.length + u.length + 1) = none := by
    intro x; unfold bracketed; rw [e4]
  have len : pre.length + (u ++ 64 :: dotJoin ls).length = pre.length + u.length + 1 + (dotJoin ls).length := by simp; omega
  unfold email
  rw [e1]; dsimp only
  rw [e2]; dsimp only
  unfold mailHost
  rw [b, b, e5, len]

/-- `to a.b@c-d.si.` -/
example : asc "to a.b@c-d.si." = asc "to " ++ (asc "a.b" ++ 64 :: dotJoin [asc "c-d", asc "si"]) ++ asc "." ∧ AfterName (edgeChar false (fun _ => false)) false (asc ".") ∧
    (∀ c ∈ asc "a.b", urlUserChar asciiAlnum c = true) ∧ (ipEnv (asc "to a.b@c-d.si.")).Ok (asc "to a.b@c-d.si.") := by
  refine ⟨by decide +kernel, ⟨?_, ?_⟩, by decide +kernel, ⟨.inl (by decide), by decide +kernel, (fun n q => nomatch q), fun _ => Iff.rfl⟩⟩
  · intro c hc
    have : c = 46 := by simpa [asc] using hc.symm
    subst this
    decide
  · intro r e
    have : r = [] := by simpa [asc] using (congrArg List.tail e).symm
    subst this
    exact ⟨rfl, fun c hc => nomatch hc⟩

end Verif.Parser
