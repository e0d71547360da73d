import Verif.Parser.HttpWritten
import Verif.Parser.HttpMedia
/-
Media types and cookies of HTTP from end to end (include/stdex/parser.hpp 5720-6022, 6610-6739): what is written of their parts is read as these parts.
-/
namespace Verif.Parser
open Verif.Str Verif.Sgml Verif.Html

/-! ### The writer -/

/-- A value is written as it is, or with quotes. -/
inductive Val
  | token (w : List Int)
  | string (w : List Int)
deriving DecidableEq

def Val.text : Val → List Int
  | .token w => w
  | .string w => asc "\"" ++ escapeQuotes w ++ asc "\""

/-- `; name=value` for each; names begin with `d`. -/
def writeParams (d : List Int) : List (List Int × Val) → List Int
  | [] => []
  | p :: r => asc "; " ++ d ++ p.1 ++ asc "=" ++ p.2.text ++ writeParams d r

def writeType (type sub : List Int) (params : List (List Int × Val)) : List Int := type ++ asc "/" ++ sub ++ writeParams [] params

def writeCookie (name : List Int) (value : Val) (params : List (List Int × Val)) : List Int := name ++ asc "=" ++ value.text ++ writeParams (asc "$") params

/-! ### The reader -/

/-- Text between quotes, without the backslashes -/
def unquote : List Int → List Int
  | [] => []
  | [c] => [c]
  | c :: x :: w => if c = 92 then x :: unquote w else c :: unquote (x :: w)

/-- What a value says. -/
def seen (m : List Int) (x : HttpValue) : Option Val :=
  match x.string, x.token with
  | some _, none => x.content.map fun p => .string (unquote (textAt m p))
  | none, some p => some (.token (textAt m p))
  | _, _ => none

/-! ### Specification -/

/-- RFC 2616: a token -/
def IsToken (w : List Int) : Prop := w ≠ [] ∧ ∀ c ∈ w, TokenChar c

/-- A token, or text with no controls (and in ASCII: see C88) -/
def Val.Ok : Val → Prop
  | .token w => IsToken w
  | .string w => ∀ c ∈ w, 32 ≤ c

/-! ### Proof -/

theorem unquote_escape : ∀ (w : List Int), unquote (escapeQuotes w) = w := by
  have k : ∀ (c : Int) (w : List Int), c ≠ 92 → unquote (c :: w) = c :: unquote w := by
    intro c w h
    cases w with
    | nil => rw [unquote, unquote]
    | cons x w => rw [unquote, if_neg h]
  intro w
  induction w with
  | nil => rw [escapeQuotes, unquote]
  | cons c w ih =>
    rw [escapeQuotes]
    by_cases h : c = 34 ∨ c = 92
    · rw [if_pos h, unquote, if_pos rfl, ih]
    · rw [if_neg h, k c _ (fun e => h (.inr e)), ih]

theorem drop_mid {t pre post : List Int} (ht : t = pre ++ post) : t.drop pre.length = post := by rw [ht, List.drop_left]

theorem token_run {w post : List Int} (hw : IsToken w) (hp : ∀ c, post.head? = some c → isToken c = false) : run1 isToken (w ++ post) = some w.length := by
  have tw : ∀ c ∈ w, isToken c = true := fun c hc => (token_char c (by have := (hw.2 c hc).1; omega)).2 (.inl (hw.2 c hc))
  have : (w ++ post).takeWhile isToken = w := by
    rw [List.takeWhile_append_of_pos tw]
    cases post with
    | nil => simp
    | cons c y => rw [List.takeWhile_cons, hp c rfl]; simp
  unfold run1
  rw [this, if_neg]
  exact fun q => hw.1 (List.length_eq_zero_iff.1 q)

theorem dark_blank {post : List Int} (hp : ∀ c, post.head? = some c → 32 < c) : blank post = none := by
  cases post with
  | nil => rfl
  | cons c r =>
    have := hp c rfl
    have l : lineBreak (c :: r) = none := by
      unfold lineBreak
      split
      · rename_i e; cases e; omega
      · rename_i e; cases e; omega
      · rfl
    have s : isspace c = false := by
      unfold isspace
      simp only [Bool.or_eq_false_iff, beq_eq_false_iff_ne, decide_eq_false_iff_not]
      omega
    unfold blank run1
    rw [l]
    simp [List.takeWhile_cons, s]

theorem skip_dark {t pre post : List Int} (ht : t = pre ++ post) (hp : ∀ c, post.head? = some c → 32 < c) : skipTo t pre.length = pre.length := by
  unfold skipTo
  rw [drop_mid ht, dark_blank hp]
  rfl

theorem skip_space {t pre post : List Int} (ht : t = pre ++ 32 :: post) (hp : ∀ c, post.head? = some c → 32 < c) : skipTo t pre.length = pre.length + 1 := by
  unfold skipTo
  rw [drop_mid ht]
  have : blank (32 :: post) = some 1 := by
    have e : post.takeWhile isspace = [] := by
      cases post with
      | nil => rfl
      | cons c r =>
        have := hp c rfl
        have s : isspace c = false := by
          unfold isspace
          simp only [Bool.or_eq_false_iff, beq_eq_false_iff_ne, decide_eq_false_iff_not]
          omega
        rw [List.takeWhile_cons, s]; rfl
    unfold blank run1
    rw [show lineBreak (32 :: post) = none from rfl]
    simp only [List.takeWhile_cons, show isspace 32 = true from by decide, if_true, e]
    rfl
  rw [this]
  rfl

/-- Nothing, or what ends a value -/
def Halts (post : List Int) : Prop := ∀ c, post.head? = some c → c = 44 ∨ c = 59

theorem Halts.dark {post : List Int} (h : Halts post) : ∀ c, post.head? = some c → 32 < c := fun c hc => by have := h c hc; omega
theorem Halts.token {post : List Int} (h : Halts post) : ∀ c, post.head? = some c → isToken c = false := fun c hc => by
  rcases h c hc with rfl | rfl <;> decide

theorem quote_asc : asc "\"" = [34] := by decide +kernel

theorem value_at {t m pre post : List Int} (hm : t <+: m) {w : Val} (hw : w.Ok) (ht : t = pre ++ w.text ++ post) (hp : Halts post) :
    ∃ x, ValueAt t pre.length x (pre.length + w.text.length) ∧ seen m x = some w ∧ ∃ c, w.text.head? = some c ∧ 32 < c := by
  obtain ⟨more, rfl⟩ := hm
  have d : t.drop pre.length = w.text ++ post := drop_mid (by rw [ht, List.append_assoc])
  cases w with
  | token w =>
    refine ⟨_, .token (k := w.length) (by rw [d]; exact token_run hw hp.token), ?_, ?_⟩
    · show some (Val.token (textAt (t ++ more) (pre.length, pre.length + w.length))) = _
      rw [textAt_mid (w := w) (post := post ++ more) (by rw [ht]; simp only [Val.text, List.append_assoc])]
    · obtain ⟨ne, hw⟩ := hw
      cases w with
      | nil => exact absurd rfl ne
      | cons c r =>
        refine ⟨c, rfl, ?_⟩
        obtain ⟨k1, -, k3⟩ := hw c List.mem_cons_self
        have : c ≠ 32 := fun e => k3 (by rw [e]; unfold Separator; decide)
        omega
  | string w =>
    simp only [Val.text, quote_asc] at d ht ⊢
    have e : (([34] : List Int) ++ escapeQuotes w ++ [34]).length = (escapeQuotes w).length + 2 := by simp only [List.length_append, List.length_cons, List.length_nil]; omega
    refine ⟨_, by rw [e, ← Nat.add_assoc]; exact .string (w := escapeQuotes w) (r := post) (by rw [d]; simp only [List.append_assoc, List.cons_append, List.nil_append]) (escape_qtext w hw), ?_, 34, rfl, by decide⟩
    have := textAt_mid (m := t ++ more) (pre := pre ++ [34]) (w := escapeQuotes w) (post := [34] ++ post ++ more) (by rw [ht]; simp only [List.append_assoc])
    rw [List.length_append] at this
    have this : textAt (t ++ more) (pre.length + 1, pre.length + 1 + (escapeQuotes w).length) = escapeQuotes w := this
    show some (Val.string (unquote (textAt (t ++ more) (pre.length + 1, pre.length + 1 + (escapeQuotes w).length)))) = _
    rw [this, unquote_escape]

theorem pair_at {t m pre post : List Int} (hm : t <+: m) {n : List Int} {w : Val} (hn : IsToken n) (hw : w.Ok) (ht : t = pre ++ (n ++ [61] ++ w.text) ++ post) (hp : Halts post) :
    ∃ a x, TokenAt t pre.length a ∧ t[a]? = some 61 ∧ skipTo t a = a ∧ skipTo t (a + 1) = a + 1 ∧ ValueAt t (a + 1) x (pre.length + (n ++ [61] ++ w.text).length) ∧
      textAt m (pre.length, a) = n ∧ seen m x = some w := by
  have ht1 : t = pre ++ (n ++ ([61] ++ w.text ++ post)) := by rw [ht]; simp only [List.append_assoc]
  have ht2 : t = (pre ++ n) ++ ([61] ++ (w.text ++ post)) := by rw [ht]; simp only [List.append_assoc]
  have ht3 : t = (pre ++ n ++ [61]) ++ w.text ++ post := by rw [ht]; simp only [List.append_assoc]
  obtain ⟨x, x1, x2, c, c1, c2⟩ := value_at hm hw ht3 hp
  have l : (pre ++ n).length = pre.length + n.length := List.length_append
  have l2 : (pre ++ n ++ [61]).length = pre.length + n.length + 1 := by rw [List.length_append, l]; rfl
  rw [l2] at x1
  refine ⟨pre.length + n.length, x, ⟨n.length, ?_, rfl⟩, ?_, ?_, ?_, ?_, ?_, x2⟩
  · rw [drop_mid ht1]
    exact token_run hn (fun c hc => by
      have : c = 61 := (Option.some.inj hc).symm
      rw [this]; decide)
  · have := at_end ht2
    rw [l] at this; exact this
  · have := skip_dark ht2 (fun c hc => by
      have : c = 61 := (Option.some.inj hc).symm
      rw [this]; decide)
    rw [l] at this; exact this
  · have := skip_dark (by rw [ht3, List.append_assoc] : t = (pre ++ n ++ [61]) ++ (w.text ++ post)) (fun d hd => by
      rw [List.head?_append, c1] at hd
      have : c = d := Option.some.inj hd
      rw [← this]; exact c2)
    rw [l2] at this; exact this
  · have : pre.length + (n ++ [61] ++ w.text).length = pre.length + n.length + 1 + w.text.length := by
      simp only [List.length_append, List.length_cons, List.length_nil]; omega
    rw [this]; exact x1
  · obtain ⟨more, rfl⟩ := hm
    exact textAt_mid (post := [61] ++ w.text ++ post ++ more) (by rw [ht]; simp only [List.append_assoc])

/-- A name and a value -/
def ParamOk (p : List Int × Val) : Prop := IsToken p.1 ∧ p.2.Ok

theorem params_stop {d : List Int} : ∀ (ps : List (List Int × Val)) {post : List Int}, (∀ c, post.head? = some c → c = 44) → Halts (writeParams d ps ++ post)
  | [], post, h => fun c hc => .inl (h c hc)
  | p :: r, post, h => fun c hc => by
    rw [writeParams, show asc "; " = [59, 32] from by decide +kernel] at hc
    exact .inr (Option.some.inj hc).symm

theorem params_at {t m : List Int} {El : Nat → HttpParam → Nat → Prop} {d : List Int} (hd : d = [] ∨ d = [36])
    (hel : ∀ (pre post n : List Int) (w : Val), IsToken n → w.Ok → t = pre ++ (d ++ n ++ [61] ++ w.text) ++ post → Halts post →
      ∃ p, El pre.length p (pre.length + (d ++ n ++ [61] ++ w.text).length) ∧ p.name.map (textAt m) = some n ∧ seen m p.value = some w) :
    ∀ (ps : List (List Int × Val)) (pre post : List Int), (∀ p ∈ ps, ParamOk p) → (∀ c, post.head? = some c → c = 44) → t = pre ++ writeParams d ps ++ post →
      ∃ l, ParamsAt t El pre.length l (pre.length + (writeParams d ps).length) ∧ l.map (fun p => (p.name.map (textAt m), seen m p.value)) = ps.map fun p => (some p.1, some p.2)
  | [], pre, post, _, hp, ht => by
    refine ⟨[], .stop ?_, rfl⟩
    rintro p e ⟨q, -⟩
    have ht : t = pre ++ post := by rw [ht, writeParams, List.append_nil]
    rw [skip_dark ht (fun c hc => by rw [hp c hc]; decide), at_end ht] at q
    exact absurd (hp _ q) (by decide)
  | p :: r, pre, post, ho, hp, ht => by
    obtain ⟨hn, hw⟩ := ho p List.mem_cons_self
    have e : writeParams d (p :: r) = [59, 32] ++ (d ++ p.1 ++ [61] ++ p.2.text) ++ writeParams d r := by
      rw [writeParams, show asc "; " = [59, 32] from by decide +kernel, show asc "=" = [61] from by decide +kernel]
      simp only [List.append_assoc]
    rw [e] at ht ⊢
    have ht1 : t = pre ++ ([59] ++ ([32] ++ (d ++ p.1 ++ [61] ++ p.2.text) ++ writeParams d r ++ post)) := by rw [ht]; simp only [List.append_assoc, List.cons_append, List.nil_append]
    have ht2 : t = (pre ++ [59]) ++ 32 :: ((d ++ p.1 ++ [61] ++ p.2.text) ++ writeParams d r ++ post) := by rw [ht]; simp only [List.append_assoc, List.cons_append, List.nil_append]
    have ht3 : t = (pre ++ [59, 32]) ++ (d ++ p.1 ++ [61] ++ p.2.text) ++ (writeParams d r ++ post) := by rw [ht]; simp only [List.append_assoc]
    have ht4 : t = (pre ++ [59, 32] ++ (d ++ p.1 ++ [61] ++ p.2.text)) ++ writeParams d r ++ post := by rw [ht]; simp only [List.append_assoc]
    obtain ⟨x, x1, x2, x3⟩ := hel _ _ _ _ hn hw ht3 (params_stop r hp)
    obtain ⟨l, l1, l2⟩ := params_at hd hel r _ post (fun q hq => ho q (List.mem_cons_of_mem _ hq)) hp ht4
    have dark : ∀ c, ((d ++ p.1 ++ [61] ++ p.2.text) ++ writeParams d r ++ post).head? = some c → 32 < c := by
      intro c hc
      rcases hd with rfl | rfl
      · obtain ⟨ne, hn⟩ := hn
        obtain ⟨n, w⟩ := p
        cases n with
        | nil => exact absurd rfl ne
        | cons y n =>
          have : y = c := Option.some.inj hc
          subst this
          obtain ⟨k1, -, k3⟩ := hn y List.mem_cons_self
          have : y ≠ 32 := fun e => k3 (by rw [e]; unfold Separator; decide)
          omega
      · have : (36 : Int) = c := Option.some.inj hc
        omega
    have s1 := skip_dark ht1 (fun c hc => by
      have : (59 : Int) = c := Option.some.inj hc
      omega)
    have s2 := skip_space ht2 dark
    have a := at_end ht1
    have a : t[pre.length]? = some 59 := a
    rw [List.length_append] at s2
    have s2 : skipTo t (pre.length + 1) = pre.length + 2 := s2
    have ll : (pre ++ [59, 32]).length = pre.length + 2 := List.length_append
    have lm : (pre ++ [59, 32] ++ (d ++ p.1 ++ [61] ++ p.2.text)).length = pre.length + 2 + (d ++ p.1 ++ [61] ++ p.2.text).length := by rw [List.length_append, ll]
    rw [ll] at x1
    rw [lm] at l1
    refine ⟨x :: l, ?_, by rw [List.map_cons, List.map_cons, l2, x2, x3]⟩
    have f : pre.length + ([59, 32] ++ (d ++ p.1 ++ [61] ++ p.2.text) ++ writeParams d r).length = pre.length + 2 + (d ++ p.1 ++ [61] ++ p.2.text).length + (writeParams d r).length := by
      rw [List.length_append, List.length_append (as := [59, 32])]
      show _ + (2 + _ + _) = _
      omega
    rw [f]
    exact .more ⟨by rw [s1]; exact a, by rw [s1, s2]; exact x1⟩ l1


/-! ### Theorems -/

/-- **C162** (media types) A media type that is written, anywhere in a text, up to its end or a comma, is read whole, with all parameters, whatever they are. -/
theorem type_written {v : Env} {before rest type sub : List Int} {params : List (List Int × Val)} (h : v.Ok (before ++ writeType type sub params ++ rest))
    (hr : ∀ c, rest.head? = some c → c = 44) (ht : IsToken type) (hs : IsToken sub) (hp : ∀ p ∈ params, IsToken p.1 ∧ p.2.Ok) :
    ∃ r l, mediaType v before.length = some (true, r, l) ∧ r.type.map (textAt v.s) = some type ∧ r.subtype.map (textAt v.s) = some sub ∧
      r.interval = some (before.length, before.length + (writeType type sub params).length) ∧
      l.map (fun p => (p.name.map (textAt v.s), seen v.s p.value)) = params.map fun p => (some p.1, some p.2) := by
  obtain ⟨t, hT⟩ : ∃ t, t = before ++ writeType type sub params ++ rest := ⟨_, rfl⟩
  rw [← hT] at h
  have hm : t <+: v.s := by rw [h.text]; exact text_prefix _ _
  have e : writeType type sub params = type ++ [47] ++ sub ++ writeParams [] params := by rw [writeType, show asc "/" = [47] from by decide +kernel]
  rw [e] at hT ⊢
  have t1 : t = before ++ (type ++ ([47] ++ sub ++ writeParams [] params ++ rest)) := by rw [hT]; simp only [List.append_assoc]
  have t2 : t = (before ++ type) ++ ([47] ++ (sub ++ writeParams [] params ++ rest)) := by rw [hT]; simp only [List.append_assoc]
  have t3 : t = (before ++ type ++ [47]) ++ (sub ++ (writeParams [] params ++ rest)) := by rw [hT]; simp only [List.append_assoc]
  have t4 : t = (before ++ type ++ [47] ++ sub) ++ writeParams [] params ++ rest := by rw [hT]; simp only [List.append_assoc]
  have stop := params_stop (d := []) params hr
  have l2 : (before ++ type).length = before.length + type.length := List.length_append
  have l3 : (before ++ type ++ [47]).length = before.length + type.length + 1 := by rw [List.length_append, l2]; rfl
  have l4 : (before ++ type ++ [47] ++ sub).length = before.length + type.length + 1 + sub.length := by rw [List.length_append, l3]
  have c2 := at_end t2
  have s2 := skip_dark t2 (fun c hc => by
    have : (47 : Int) = c := Option.some.inj hc
    omega)
  have s3 := skip_dark t3 (fun c hc => by
    obtain ⟨ne, hs⟩ := hs
    cases sub with
    | nil => exact absurd rfl ne
    | cons y n =>
      have : y = c := Option.some.inj hc
      subst this
      obtain ⟨k1, -, k3⟩ := hs y List.mem_cons_self
      have : y ≠ 32 := fun e => k3 (by rw [e]; unfold Separator; decide)
      omega)
  rw [l2] at c2 s2
  rw [l3] at s3
  have range : RangeAt t before.length ⟨some (before.length, before.length + type.length), some (before.length + type.length + 1, before.length + type.length + 1 + sub.length),
      some (before.length, before.length + type.length + 1 + sub.length)⟩ (before.length + type.length + 1 + sub.length) := by
    refine ⟨before.length + type.length, ⟨_, ?_, rfl⟩, by rw [s2]; exact c2, ?_, by rw [s2, s3]⟩
    · rw [drop_mid t1]
      exact token_run ht (fun c hc => by
        have : c = 47 := (Option.some.inj hc).symm
        rw [this]; decide)
    · rw [s2, s3]
      refine ⟨sub.length, ?_, rfl⟩
      have := drop_mid t3
      rw [l3] at this
      rw [this]
      exact token_run hs stop.token
  obtain ⟨l, k1, k2⟩ := params_at (t := t) (m := v.s) (El := ParamRead t) (d := []) (.inl rfl) (fun pre post n w hn hw ht hp => by
    obtain ⟨a, x, x1, x2, x3, x4, x5, x6, x7⟩ := pair_at hm hn hw (by rw [ht]; rfl) hp
    exact ⟨⟨some (pre.length, a), x, some (pre.length, pre.length + (n ++ [61] ++ w.text).length)⟩, ⟨a, x, x1, by rw [x3, if_pos x2]; exact x5, rfl⟩, congrArg some x6, x7⟩) params _ rest hp hr t4
  rw [l4] at k1
  have le : before.length ≤ t.length := by rw [t1, List.length_append]; omega
  rcases type_reads h le with ⟨m, a, l', f, q1, q2, q3⟩ | ⟨n, -⟩
  · obtain ⟨rfl, rfl⟩ := rangeAt_one q1 range
    obtain ⟨rfl, rfl⟩ := paramsAt_one (fun e p m p' m' x y => (param_reads h).one _ (skipTo_le (get_lt x.1)).2 _ _ _ _ x.2 y.2) q2 k1
    obtain ⟨more, hmore⟩ := hm
    have g1 := textAt_mid (m := v.s) (pre := before) (w := type) (post := [47] ++ sub ++ writeParams [] params ++ rest ++ more) (by rw [← hmore, hT]; simp only [List.append_assoc])
    have g2 := textAt_mid (m := v.s) (pre := before ++ type ++ [47]) (w := sub) (post := writeParams [] params ++ rest ++ more) (by rw [← hmore, hT]; simp only [List.append_assoc])
    rw [l3] at g2
    refine ⟨_, _, q3, congrArg some g1, congrArg some g2, ?_, k2⟩
    simp only [List.length_append, List.length_cons, List.length_nil]
    congr 2
    omega
  · exact absurd range (n _ _)

/-- **C162** (cookies) So is a cookie with its parameters. -/
theorem cookie_written {v : Env} {before rest name : List Int} {value : Val} {params : List (List Int × Val)} (h : v.Ok (before ++ writeCookie name value params ++ rest))
    (hr : ∀ c, rest.head? = some c → c = 44) (hn : IsToken name) (hw : value.Ok) (hp : ∀ p ∈ params, IsToken p.1 ∧ p.2.Ok) :
    ∃ r l, cookie v before.length = some (true, r, l) ∧ r.name.map (textAt v.s) = some name ∧ seen v.s r.value = some value ∧
      r.interval = some (before.length, before.length + (writeCookie name value params).length) ∧
      l.map (fun p => (p.name.map (textAt v.s), seen v.s p.value)) = params.map fun p => (some p.1, some p.2) := by
  obtain ⟨t, hT⟩ : ∃ t, t = before ++ writeCookie name value params ++ rest := ⟨_, rfl⟩
  rw [← hT] at h
  have hm : t <+: v.s := by rw [h.text]; exact text_prefix _ _
  have e : writeCookie name value params = (name ++ [61] ++ value.text) ++ writeParams [36] params := by rw [writeCookie, show asc "=" = [61] from by decide +kernel, show asc "$" = [36] from by decide +kernel]
  rw [e] at hT ⊢
  have t1 : t = before ++ (name ++ [61] ++ value.text) ++ (writeParams [36] params ++ rest) := by rw [hT]; simp only [List.append_assoc]
  have t2 : t = (before ++ (name ++ [61] ++ value.text)) ++ writeParams [36] params ++ rest := by rw [hT]; simp only [List.append_assoc]
  obtain ⟨a, x, x1, x2, x3, x4, x5, x6, x7⟩ := pair_at hm hn hw t1 (params_stop params hr)
  have pair : PairAt t before.length before.length ⟨some (before.length, a), x, some (before.length, before.length + (name ++ [61] ++ value.text).length)⟩ (before.length + (name ++ [61] ++ value.text).length) :=
    ⟨a, x, x1, by rw [x3]; exact x2, by rw [x3, x4]; exact x5, rfl⟩
  obtain ⟨l, k1, k2⟩ := params_at (t := t) (m := v.s) (El := CookieParamAt t) (d := [36]) (.inr rfl) (fun pre post n w hn hw ht hp => by
    have ht' : t = (pre ++ [36]) ++ (n ++ [61] ++ w.text) ++ post := by rw [ht]; simp only [List.append_assoc]
    obtain ⟨a, x, x1, x2, x3, x4, x5, x6, x7⟩ := pair_at hm hn hw ht' hp
    have l1 : (pre ++ [36]).length = pre.length + 1 := List.length_append
    have d := at_end (by rw [ht]; simp only [List.append_assoc] : t = pre ++ ([36] ++ (n ++ ([61] ++ (w.text ++ post)))))
    have d : t[pre.length]? = some 36 := d
    have f : pre.length + ([36] ++ n ++ [61] ++ w.text).length = pre.length + 1 + (n ++ [61] ++ w.text).length := by
      simp only [List.length_append, List.length_cons, List.length_nil]; omega
    rw [l1] at x1 x5 x6
    rw [f]
    exact ⟨⟨some (pre.length + 1, a), x, some (pre.length, pre.length + 1 + (n ++ [61] ++ w.text).length)⟩, ⟨d, a, x, x1, by rw [x3]; exact x2, by rw [x3, x4]; exact x5, rfl⟩, congrArg some x6, x7⟩) params _ rest hp hr t2
  rw [List.length_append] at k1
  have le : before.length ≤ t.length := by rw [t1, List.length_append, List.length_append]; omega
  rcases cookie_spec h le with ⟨p, b, l', f, q1, q2, q3⟩ | ⟨n, -⟩
  · have := pairAt_one h le q1 pair
    obtain ⟨rfl, rfl⟩ := this
    obtain ⟨-, rfl, rfl⟩ := cookie_one h le q1 q2 pair k1
    refine ⟨_, _, q3, congrArg some x6, x7, ?_, k2⟩
    rw [List.length_append (as := name ++ [61] ++ value.text), Nat.add_assoc]
  · exact absurd pair (n _ _)

/-- Nothing is lost in quotes: two texts that are written in the same way are the same. -/
theorem quotes_tell {w w' : List Int} (h : (Val.string w).text = (Val.string w').text) : w = w' := by
  simp only [Val.text, quote_asc, List.append_assoc] at h
  have h := List.append_cancel_left h
  have h := List.append_cancel_right h
  rw [← unquote_escape w, h, unquote_escape]

/-! ### Cases -/

/-- What C162 asks of values: a cookie whose value is written with a semicolon and without quotes is cut there. -/
theorem cookie_cut : writeCookie (asc "a") (.token (asc "b; $c=d")) [] = writeCookie (asc "a") (.token (asc "b")) [(asc "c", .token (asc "d"))] ∧
    cookie (ipEnv (asc "a=b; $c=d")) 0 = some (true, ⟨some (0, 1), ⟨none, none, some (2, 3), some (2, 3)⟩, some (0, 9)⟩, [⟨some (6, 7), ⟨none, none, some (8, 9), some (8, 9)⟩, some (5, 9)⟩]) := by decide +kernel

-- A media type with a parameter in quotes, which has a quote and a semicolon
example : writeType (asc "text") (asc "html") [(asc "charset", .token (asc "utf-8")), (asc "x", .string (asc "a\"; b"))] = asc "text/html; charset=utf-8; x=\"a\\\"; b\"" ∧
    (mediaType (ipEnv (asc "text/html; charset=utf-8; x=\"a\\\"; b\"")) 0).map (fun r => r.2.2.map fun p => seen (asc "text/html; charset=utf-8; x=\"a\\\"; b\"") p.value) =
      some [some (.token (asc "utf-8")), some (.string (asc "a\"; b"))] := by decide +kernel
example : IsToken (asc "text") ∧ IsToken (asc "charset") ∧ (Val.token (asc "utf-8")).Ok ∧ (Val.string (asc "a\"; b")).Ok := by
  have : ∀ w ∈ [asc "text", asc "charset", asc "utf-8"], w ≠ [] ∧ ∀ c ∈ w, 32 ≤ c ∧ c < 127 ∧ c ∉ ([40, 41, 60, 62, 64, 44, 59, 58, 92, 34, 47, 91, 93, 63, 61, 123, 125, 32, 9] : List Int) := by decide +kernel
  have s : ∀ c ∈ asc "a\"; b", 32 ≤ c := by decide +kernel
  exact ⟨this _ (by simp), this _ (by simp), this _ (by simp), s⟩

end Verif.Parser
