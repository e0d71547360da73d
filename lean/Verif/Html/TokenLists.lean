import Verif.Html.LinkBack
/-
Lists of active tokens: `parser::start_tokens`, `end_tokens`, `append_inserted_tokens` and `merge`, lines 2278-2377 of include/stdex/html.hpp.
-/
namespace Verif.Html
open Verif.Str Verif.Sgml Verif.Parser

/-! ### Model -/

/-- `source`, `active_tokens` and `m_tokens`. Pointers to tokens are indexes in `m_tokens`; the last active token is the innermost one. -/
structure Sink where
  src : List Int := []
  active : List Nat := []
  toks : List Tok := []
deriving DecidableEq

/-- The loop of `start_tokens`, 2280-2284, over the tokens that are left. -/
def startTokens (C : Ctx) : List Nat → Sink → Sink
  | [], s => s
  | k :: l, s => startTokens C l { s with src := s.src ++ tokenTag (C.addr k), active := s.active ++ [k] }

/-- The loop 2306-2324. `n` is how many tokens are active (the position of `cend()`), and `stop` is `i1`. A token that is not a starting one gives a null pointer, 2307. -/
def closeTokens (C : Ctx) (stop : Nat) : Nat → Sink → Out Sink
  | 0, s => pure s
  | i + 1, s =>
    match s.active[i]? with
    | none => .fault
    | some k =>
      match s.toks[k]? with
      | none => .fault
      | some t =>
        if t.kind ≠ .starting then .fault
        else
          let s' : Sink := ⟨s.src ++ tokenTag (C.addr s.toks.length), s.active.eraseIdx i, s.toks ++ [{ kind := .ending, text := [60, 47] ++ t.name ++ [62] }]⟩
          if stop = i then pure s' else closeTokens C stop i s'

/-- The loop of `end_tokens`, 2302-2328, from the position `i` of both iterators: what it leaves and the position in `new`. -/
def endTokens (C : Ctx) (new : List Nat) : Nat → Nat → Sink → Out (Sink × Nat)
  | 0, _, _ => .fault
  | fuel + 1, i, s =>
    match s.active[i]? with
    | none => pure (s, i)
    | some k =>
      if new[i]? = some k then endTokens C new fuel (i + 1) s
      else do pure (← closeTokens C i s.active.length s, i)

/-- `start_tokens(source, active_tokens, new, end_tokens(source, active_tokens, new))` -/
def switchTokens (C : Ctx) (new : List Nat) (s : Sink) : Out Sink := do
  let r ← endTokens C new (s.active.length + 1) 0 s
  pure (startTokens C (new.drop r.2) r.1)

/-- `inserted_token`, 2160-2165. -/
structure Ins where
  token : Nat
  active : List Nat
  word : Nat
  after : Bool
deriving DecidableEq

/-- What a matching token does, 2347-2349. -/
def insertToken (C : Ctx) (t : Ins) (s : Sink) : Out Sink :=
  match s.toks[t.token]? with
  | none => .fault
  | some x =>
    if x.kind ≠ .ending then do
      let s ← switchTokens C t.active s
      pure { s with src := s.src ++ tokenTag (C.addr t.token) }
    else pure { s with src := s.src ++ tokenTag (C.addr t.token) }

/-- `append_inserted_tokens`, 2339-2355: what it leaves, and the tokens that are left to insert. -/
def insertTokens (C : Ctx) (word : Nat) (after : Bool) : List Ins → Sink → Out (Sink × List Ins)
  | [], s => pure (s, [])
  | t :: l, s =>
    if t.word = word ∧ t.after = after then do
      insertTokens C word after l (← insertToken C t s)
    else do
      let r ← insertTokens C word after l s
      pure (r.1, t :: r.2)

/-- The inner loop of `merge`, 2367-2375, over the rest `l` of `a`. Its condition keeps the end from being seen inside. -/
def mergeOne (t2 : Nat) (a : List Nat) : List Nat → List Nat
  | [] => a
  | t1 :: l => if t1 = t2 then a else mergeOne t2 a l

/-- `merge`, 2363-2377. -/
def mergeTokens (a : List Nat) : List Nat → List Nat
  | [] => a
  | t2 :: b => mergeTokens (mergeOne t2 a a) b

/-! ### Specification -/

/-- What both lists begin with. -/
def common : List Nat → List Nat → List Nat
  | x :: a, y :: b => if x = y then x :: common a b else []
  | _, _ => []

/-- What is written: the tag of a token that starts, that of a new token which ends another one, or that of a token which is inserted. -/
inductive Ev where
  | opens (k : Nat)
  | closes (k : Nat)
  | puts (k : Nat)
deriving DecidableEq

/-- Elements that are open after it, the innermost last; only the innermost one may be closed. -/
def replay : List Nat → List Ev → Option (List Nat)
  | s, [] => some s
  | s, .opens k :: l => replay (s ++ [k]) l
  | s, .closes k :: l => if s.getLast? = some k then replay s.dropLast l else none
  | s, .puts _ :: l => replay s l

/-- The new tokens it needs: the end tags. -/
def endings (toks : List Tok) : List Ev → List Tok
  | [] => []
  | .closes k :: l => { kind := .ending, text := asc "</" ++ (toks[k]?.map Tok.name).getD [] ++ asc ">" } :: endings toks l
  | _ :: l => endings toks l

/-- How it is written, where the next new token is number `n`. -/
def written (C : Ctx) : Nat → List Ev → List Int
  | _, [] => []
  | n, .opens k :: l => tokenTag (C.addr k) ++ written C n l
  | n, .closes _ :: l => tokenTag (C.addr n) ++ written C (n + 1) l
  | n, .puts k :: l => tokenTag (C.addr k) ++ written C n l

/-- From the open elements `a` to `b`: what they share stays, the rest is closed from the innermost one on, and then opened from the outermost one on. -/
def switching (a b : List Nat) : List Ev := ((a.drop (common a b).length).reverse.map .closes) ++ (b.drop (common a b).length).map .opens

/-- Inserting tokens where the elements `a` are open. -/
def inserting (toks : List Tok) : List Nat → List Ins → List Ev
  | _, [] => []
  | a, t :: l =>
    if (toks[t.token]?.map Tok.kind) = some .ending then .puts t.token :: inserting toks a l
    else switching a t.active ++ .puts t.token :: inserting toks t.active l

/-- Which elements are open after it. -/
def innermost (toks : List Tok) : List Nat → List Ins → List Nat
  | a, [] => a
  | a, t :: l => innermost toks (if (toks[t.token]?.map Tok.kind) = some .ending then a else t.active) l

/-- Active tokens are such that they may be ended. -/
def Startings (toks : List Tok) (l : List Nat) : Prop := ∀ k ∈ l, ∃ t, toks[k]? = some t ∧ t.kind = .starting

/-! ### Proofs -/

theorem common_prefix : ∀ a b : List Nat, common a b <+: a ∧ common a b <+: b
  | [], b => by unfold common; exact ⟨List.nil_prefix, List.nil_prefix⟩
  | x :: a, [] => by unfold common; exact ⟨List.nil_prefix, List.nil_prefix⟩
  | x :: a, y :: b => by
    unfold common
    by_cases h : x = y
    · rw [if_pos h, h]
      obtain ⟨h1, h2⟩ := common_prefix a b
      exact ⟨List.cons_prefix_cons.2 ⟨rfl, h1⟩, List.cons_prefix_cons.2 ⟨rfl, h2⟩⟩
    · rw [if_neg h]; exact ⟨List.nil_prefix, List.nil_prefix⟩

theorem startings_mono {toks more : List Tok} {l : List Nat} (h : Startings toks l) : Startings (toks ++ more) l := by
  intro k hk
  obtain ⟨t, h1, h2⟩ := h k hk
  exact ⟨t, by rw [List.getElem?_append_left (List.getElem?_eq_some_iff.1 h1).1]; exact h1, h2⟩

theorem startTokens_spec (C : Ctx) : ∀ (l : List Nat) (s : Sink) (n : Nat), startTokens C l s = ⟨s.src ++ written C n (l.map .opens), s.active ++ l, s.toks⟩
  | [], s, n => by simp [startTokens, written]
  | k :: l, s, n => by
    rw [startTokens, startTokens_spec C l _ n]
    simp [written]

/-- The tokens that are already there keep their names. -/
theorem endings_mono {toks more : List Tok} : ∀ (l : List Ev), (∀ k, Ev.closes k ∈ l → k < toks.length) → endings (toks ++ more) l = endings toks l
  | [], _ => rfl
  | .closes k :: l, h => by
    simp only [endings]
    rw [List.getElem?_append_left (h k List.mem_cons_self), endings_mono l (fun k q => h k (List.mem_cons_of_mem _ q))]
  | .opens k :: l, h => by simp only [endings]; exact endings_mono l (fun k q => h k (List.mem_cons_of_mem _ q))
  | .puts k :: l, h => by simp only [endings]; exact endings_mono l (fun k q => h k (List.mem_cons_of_mem _ q))

theorem closeTokens_spec (C : Ctx) (stop : Nat) : ∀ (rest : List Nat) (keep : List Nat) (s : Sink), keep.length = stop → rest ≠ [] → s.active = keep ++ rest.reverse → Startings s.toks rest →
    closeTokens C stop s.active.length s = .done ⟨s.src ++ written C s.toks.length (rest.map .closes), keep, s.toks ++ endings s.toks (rest.map .closes)⟩
  | [], _, _, _, h, _, _ => absurd rfl h
  | k :: rest, keep, s, hk, _, ha, hS => by
    obtain ⟨t, ht, hkind⟩ := hS k List.mem_cons_self
    have hlen : s.active.length = (keep.length + rest.length) + 1 := by rw [ha]; simp; omega
    rw [hlen, closeTokens]
    have hget : s.active[keep.length + rest.length]? = some k := by
      rw [ha, List.getElem?_append_right (by omega)]
      simp
    rw [hget]
    dsimp only
    rw [ht]
    dsimp only
    rw [if_neg (by simp [hkind])]
    have her : s.active.eraseIdx (keep.length + rest.length) = keep ++ rest.reverse := by
      rw [ha, List.eraseIdx_append_of_length_le (by omega)]
      simp only [List.reverse_cons]
      rw [show keep.length + rest.length - keep.length = rest.reverse.length from by simp]
      rw [List.eraseIdx_append_of_length_le (Nat.le_refl _)]
      simp
    have hend : endings s.toks ((k :: rest).map .closes) = { kind := .ending, text := [60, 47] ++ t.name ++ [62] } :: endings s.toks (rest.map .closes) := by
      simp only [List.map_cons, endings]
      rw [ht]
      rfl
    have hw : written C s.toks.length ((k :: rest).map .closes) = tokenTag (C.addr s.toks.length) ++ written C (s.toks.length + 1) (rest.map .closes) := rfl
    rw [her]
    by_cases hr : rest = []
    · subst hr
      rw [if_pos (by simp [hk])]
      rw [hend, hw]
      simp [written, endings]
    · rw [if_neg (by have := List.length_pos_iff.2 hr; omega)]
      have hlt : ∀ q, Ev.closes q ∈ rest.map .closes → q < s.toks.length := by
        intro q hq
        obtain ⟨x, hx, e⟩ := List.mem_map.1 hq
        injection e with e
        subst e
        obtain ⟨t', ht', -⟩ := hS x (List.mem_cons_of_mem _ hx)
        exact (List.getElem?_eq_some_iff.1 ht').1
      have := closeTokens_spec C stop rest keep ⟨s.src ++ tokenTag (C.addr s.toks.length), keep ++ rest.reverse, s.toks ++ [{ kind := .ending, text := [60, 47] ++ t.name ++ [62] }]⟩ hk hr rfl
        (startings_mono fun q hq => hS q (List.mem_cons_of_mem _ hq))
      dsimp only at this
      rw [show (keep ++ rest.reverse).length = keep.length + rest.length from by simp] at this
      rw [this, hend, hw, endings_mono _ hlt]
      simp

theorem common_step {a b : List Nat} : ∀ {i : Nat} {k : Nat}, a.take i = b.take i → i ≤ a.length → i ≤ b.length → a[i]? = some k → b[i]? ≠ some k → common a b = a.take i := by
  induction a generalizing b with
  | nil => intro i k _ h1 _ h3; simp at h3
  | cons x a ih =>
    intro i k h h1 h2 h3 h4
    cases i with
    | zero =>
      cases b with
      | nil => rfl
      | cons y b =>
        unfold common
        simp at h3 h4
        rw [if_neg (by rw [h3]; exact fun e => h4 e.symm)]
        rfl
    | succ i =>
      cases b with
      | nil => simp at h2
      | cons y b =>
        simp only [List.take_succ_cons, List.cons.injEq] at h ⊢
        unfold common
        rw [if_pos h.1, ih h.2 (by simp at h1; exact h1) (by simp at h2; exact h2) (by simpa using h3) (by simpa using h4)]

theorem common_all {a b : List Nat} (h : a = b.take a.length) : common a b = a := by
  induction a generalizing b with
  | nil => unfold common; rfl
  | cons x a ih =>
    cases b with
    | nil => simp at h
    | cons y b =>
      simp only [List.length_cons, List.take_succ_cons, List.cons.injEq] at h
      unfold common
      rw [if_pos h.1, ih h.2]

theorem endTokens_spec (C : Ctx) (new : List Nat) (s : Sink) (hS : Startings s.toks s.active) : ∀ (fuel i : Nat), s.active.length - i < fuel → i ≤ s.active.length → i ≤ new.length → s.active.take i = new.take i →
    endTokens C new fuel i s = .done (⟨s.src ++ written C s.toks.length ((s.active.drop (common s.active new).length).reverse.map .closes), common s.active new,
      s.toks ++ endings s.toks ((s.active.drop (common s.active new).length).reverse.map .closes)⟩, (common s.active new).length)
  | 0, _, h, _, _, _ => absurd h (Nat.not_lt_zero _)
  | fuel + 1, i, hf, h1, h2, he => by
    rw [endTokens]
    cases hg : s.active[i]? with
    | none =>
      have : i = s.active.length := by have := List.getElem?_eq_none_iff.1 hg; omega
      subst this
      rw [List.take_length] at he
      rw [common_all he]
      simp [written, endings]
    | some k =>
      dsimp only
      have hi := (List.getElem?_eq_some_iff.1 hg).1
      by_cases hn : new[i]? = some k
      · rw [if_pos hn]
        have hi2 := (List.getElem?_eq_some_iff.1 hn).1
        refine endTokens_spec C new s hS fuel (i + 1) (by omega) (by omega) (by omega) ?_
        rw [List.take_add_one, List.take_add_one, he, hg, hn]
      · rw [if_neg hn]
        have hc := common_step he h1 h2 hg hn
        have hl : (common s.active new).length = i := by rw [hc]; simp; omega
        rw [hl]
        rw [closeTokens_spec C i (s.active.drop i).reverse (s.active.take i) s (by simp; omega) (by simp; omega) (by simp) (fun q hq => hS q (List.mem_of_mem_drop (List.mem_reverse.1 hq)))]
        rw [hc]
        rfl

theorem written_append (C : Ctx) : ∀ (n : Nat) (a b : List Ev), written C n (a ++ b) = written C n a ++ written C (n + (endings [] a).length) b
  | _, [], _ => by simp [written, endings]
  | n, .opens k :: a, b => by simp only [List.cons_append, written, endings, written_append C n a b, List.append_assoc]
  | n, .closes k :: a, b => by
    simp only [List.cons_append, written, endings, written_append C (n + 1) a b, List.append_assoc, List.length_cons]
    rw [show n + 1 + (endings [] a).length = n + ((endings [] a).length + 1) from by omega]
  | n, .puts k :: a, b => by simp only [List.cons_append, written, endings, written_append C n a b, List.append_assoc]

theorem endings_length (toks : List Tok) : ∀ l : List Ev, (endings toks l).length = (endings [] l).length
  | [] => rfl
  | .closes k :: l => by simp [endings, endings_length toks l]
  | .opens k :: l => by simp [endings, endings_length toks l]
  | .puts k :: l => by simp [endings, endings_length toks l]

theorem endings_append (toks : List Tok) : ∀ a b : List Ev, endings toks (a ++ b) = endings toks a ++ endings toks b
  | [], _ => rfl
  | .closes k :: a, b => by simp [endings, endings_append toks a b]
  | .opens k :: a, b => by simp [endings, endings_append toks a b]
  | .puts k :: a, b => by simp [endings, endings_append toks a b]

theorem endings_opens (toks : List Tok) : ∀ l : List Nat, endings toks (l.map .opens) = []
  | [] => rfl
  | k :: l => by simp [endings, endings_opens toks l]

theorem replay_append : ∀ (a b : List Ev) (s : List Nat), replay s (a ++ b) = (replay s a).bind (fun q => replay q b)
  | [], _, s => rfl
  | .opens k :: a, b, s => by simp only [List.cons_append, replay]; exact replay_append a b _
  | .puts k :: a, b, s => by simp only [List.cons_append, replay]; exact replay_append a b _
  | .closes k :: a, b, s => by
    simp only [List.cons_append, replay]
    split
    · exact replay_append a b _
    · rfl

theorem replay_closes : ∀ (l keep : List Nat), replay (keep ++ l.reverse) (l.map .closes) = some keep
  | [], keep => by simp [replay]
  | k :: l, keep => by
    simp only [List.map_cons, replay, List.reverse_cons]
    rw [← List.append_assoc, if_pos (by simp), List.dropLast_concat]
    exact replay_closes l keep

theorem replay_opens : ∀ (l keep : List Nat), replay keep (l.map .opens) = some (keep ++ l)
  | [], keep => by simp [replay]
  | k :: l, keep => by
    simp only [List.map_cons, replay]
    rw [replay_opens l]
    simp

theorem take_common (a b : List Nat) : a.take (common a b).length = common a b := by
  obtain ⟨t, ht⟩ := (common_prefix a b).1
  have := congrArg (List.take (common a b).length) ht
  rw [← this]; simp

theorem take_common' (a b : List Nat) : b.take (common a b).length = common a b := by
  obtain ⟨t, ht⟩ := (common_prefix a b).2
  have := congrArg (List.take (common a b).length) ht
  rw [← this]; simp

/-! ### Properties -/

/-- **C116** From some open elements to others, only innermost elements are closed, and the others are open after it. -/
theorem switching_nested (a b : List Nat) : replay a (switching a b) = some b := by
  unfold switching
  rw [replay_append]
  have h1 : a = common a b ++ (a.drop (common a b).length) := by
    conv => lhs; rw [← List.take_append_drop (common a b).length a]
    rw [take_common]
  have h2 : common a b ++ b.drop (common a b).length = b := by
    conv => rhs; rw [← List.take_append_drop (common a b).length b]
    rw [take_common']
  have := replay_closes (a.drop (common a b).length).reverse (common a b)
  rw [List.reverse_reverse, ← h1] at this
  rw [this]
  simp only [Option.bind_some]
  rw [replay_opens, h2]

/-- **C116** Elements that both have stay open: an element is closed only if something before it, or itself, is not to be open; none is closed and opened again without need. -/
theorem switching_least (a b : List Nat) : (a <+: b → switching a b = (b.drop a.length).map .opens) ∧ (b <+: a → switching a b = (a.drop b.length).reverse.map .closes) ∧
    ∀ x y l r, a = l ++ x :: r → (∃ r', b = l ++ y :: r') → x ≠ y → common a b = l := by
  refine ⟨?_, ?_, ?_⟩
  · rintro ⟨t, rfl⟩
    unfold switching
    rw [common_all (by simp)]
    simp
  · rintro ⟨t, rfl⟩
    have : common (b ++ t) b = b := by
      cases t with
      | nil => rw [common_all]; simp; simp
      | cons x t => rw [common_step (i := b.length) (k := x)] <;> simp
    unfold switching
    rw [this]
    simp
  · rintro x y l r rfl ⟨r', rfl⟩ hne
    rw [common_step (i := l.length) (k := x)] <;> simp
    exact fun e => hne e.symm

/-- **C116** `end_tokens` and `start_tokens` write just that: end tags `</name>` are new tokens; and the active tokens are those that were asked for. -/
theorem switch_tokens (C : Ctx) (new : List Nat) (s : Sink) (hS : Startings s.toks s.active) :
    switchTokens C new s = .done ⟨s.src ++ written C s.toks.length (switching s.active new), new, s.toks ++ endings s.toks (switching s.active new)⟩ := by
  unfold switchTokens
  rw [endTokens_spec C new s hS (s.active.length + 1) 0 (by omega) (Nat.zero_le _) (Nat.zero_le _) rfl]
  simp only [Out.done_bind, Out.pure_done]
  rw [startTokens_spec C _ _ (s.toks.length + (endings [] ((s.active.drop (common s.active new).length).reverse.map .closes)).length)]
  have h2 : common s.active new ++ new.drop (common s.active new).length = new := by
    conv => rhs; rw [← List.take_append_drop (common s.active new).length new]
    rw [take_common']
  unfold switching
  rw [written_append, endings_append, endings_opens, h2]
  simp

/-- **C117** Inserting tokens at a word: those of the word are inserted, in their order, each where its elements are open (unless it is an end tag), only innermost elements are closed, and the other tokens are left for later. -/
theorem insert_tokens (C : Ctx) (word : Nat) (after : Bool) (l : List Ins) (s : Sink) (hS : Startings s.toks s.active) (hI : ∀ t ∈ l, t.token < s.toks.length ∧ Startings s.toks t.active) :
    insertTokens C word after l s = .done (⟨s.src ++ written C s.toks.length (inserting s.toks s.active (l.filter fun t => t.word = word ∧ t.after = after)),
      innermost s.toks s.active (l.filter fun t => t.word = word ∧ t.after = after),
      s.toks ++ endings s.toks (inserting s.toks s.active (l.filter fun t => t.word = word ∧ t.after = after))⟩, l.filter fun t => ¬ (t.word = word ∧ t.after = after)) := by
  suffices H : ∀ (l : List Ins) (base more : List Tok) (src : List Int) (active : List Nat), Startings base active → (∀ t ∈ l, t.token < base.length ∧ Startings base t.active) →
      insertTokens C word after l ⟨src, active, base ++ more⟩ = .done (⟨src ++ written C (base ++ more).length (inserting base active (l.filter fun t => t.word = word ∧ t.after = after)),
        innermost base active (l.filter fun t => t.word = word ∧ t.after = after),
        base ++ more ++ endings base (inserting base active (l.filter fun t => t.word = word ∧ t.after = after))⟩, l.filter fun t => ¬ (t.word = word ∧ t.after = after)) by
    have := H l s.toks [] s.src s.active hS hI
    simpa using this
  intro l
  induction l with
  | nil => intro base more src active _ _; simp [insertTokens, inserting, innermost, written, endings]
  | cons t l ih =>
    intro base more src active hS hI
    have ht := hI t List.mem_cons_self
    have hl : ∀ t ∈ l, t.token < base.length ∧ Startings base t.active := fun x hx => hI x (List.mem_cons_of_mem _ hx)
    rw [insertTokens]
    by_cases hc : t.word = word ∧ t.after = after
    · rw [if_pos hc, List.filter_cons_of_pos (by simpa using hc), List.filter_cons_of_neg (by simpa using hc)]
      have hget : (base ++ more)[t.token]? = some base[t.token] := by
        rw [List.getElem?_append_left ht.1, List.getElem?_eq_getElem ht.1]
      have hget' : base[t.token]? = some base[t.token] := List.getElem?_eq_getElem ht.1
      unfold insertToken
      dsimp only
      rw [hget]
      dsimp only
      by_cases hk : base[t.token].kind = .ending
      · rw [if_neg (by simpa using hk)]
        simp only [Out.pure_done, Out.done_bind]
        rw [ih base more _ active hS hl]
        rw [inserting, innermost, hget']
        simp only [Option.map_some, hk, if_true, written, endings, List.append_assoc]
      · rw [if_pos hk, switch_tokens C t.active ⟨src, active, base ++ more⟩ (startings_mono hS)]
        simp only [Out.pure_done, Out.done_bind]
        have hlt : ∀ k, Ev.closes k ∈ switching active t.active → k < base.length := by
          intro k hk
          unfold switching at hk
          rcases List.mem_append.1 hk with q | q
          · obtain ⟨x, hx, e⟩ := List.mem_map.1 q
            injection e with e
            subst e
            obtain ⟨t', ht', -⟩ := hS x (List.mem_of_mem_drop (List.mem_reverse.1 hx))
            exact (List.getElem?_eq_some_iff.1 ht').1
          · obtain ⟨x, hx, e⟩ := List.mem_map.1 q
            cases e
        rw [endings_mono _ hlt, List.append_assoc base more]
        rw [ih base _ _ t.active ht.2 hl]
        rw [inserting, innermost, hget']
        have hk' : ¬ (some base[t.token].kind = some TokKind.ending) := fun e => hk (Option.some.inj e)
        simp only [Option.map_some, if_neg hk', endings_append, written_append, written, endings, List.append_assoc]
        rw [show (base ++ (more ++ endings base (switching active t.active))).length = (base ++ more).length + (endings [] (switching active t.active)).length from by
          rw [← List.append_assoc, List.length_append, endings_length]]
    · rw [if_neg hc, List.filter_cons_of_neg (by simpa using hc), List.filter_cons_of_pos (by exact decide_eq_true hc)]
      rw [ih base more src active hS hl]
      simp

/-- **C117** What is inserted is nested. -/
theorem inserting_nested (toks : List Tok) : ∀ (l : List Ins) (a : List Nat), replay a (inserting toks a l) = some (innermost toks a l)
  | [], a => rfl
  | t :: l, a => by
    unfold inserting innermost
    by_cases h : (toks[t.token]?.map Tok.kind) = some .ending
    · rw [if_pos h, if_pos h]
      simp only [replay]
      exact inserting_nested toks l a
    · rw [if_neg h, if_neg h, replay_append, switching_nested]
      simp only [Option.bind_some, replay]
      exact inserting_nested toks l t.active

theorem mergeOne_idle (t2 : Nat) (a : List Nat) : ∀ l, mergeOne t2 a l = a
  | [] => rfl
  | t1 :: l => by
    unfold mergeOne
    split
    · rfl
    · exact mergeOne_idle t2 a l

/-- **C118** (defect) `merge` never adds anything to the list. -/
theorem merge_idle (a b : List Nat) : mergeTokens a b = a := by
  induction b generalizing a with
  | nil => rfl
  | cons t b ih => rw [mergeTokens, mergeOne_idle]; exact ih a

/-- **C118** (partial) `merge` makes a union of two lists. Missing: lists of which the second has something that is not in the first, see `merge_idle`. -/
theorem merge_union_partial {a b : List Nat} (h : ∀ x ∈ b, x ∈ a) (x : Nat) : x ∈ mergeTokens a b ↔ x ∈ a ∨ x ∈ b := by
  rw [merge_idle]
  exact ⟨.inl, fun q => q.elim id (h x)⟩

/-! ### Examples -/

/-- Two elements and a line break. -/
def demoSink : Sink := ⟨[], [0, 1], [{ kind := .starting, text := asc "<b>", name := asc "b" }, { kind := .starting, text := asc "<i>", name := asc "i" }, { text := asc "<br>" }, { kind := .ending, text := asc "</i>" }]⟩

example : Startings demoSink.toks demoSink.active := by
  intro k hk
  simp only [demoSink, List.mem_cons, List.not_mem_nil, or_false] at hk
  rcases hk with rfl | rfl <;> exact ⟨_, rfl, rfl⟩

example : switching [0, 1] [1] = [.closes 1, .closes 0, .opens 1] ∧ switching [0, 1] [0] = [.closes 1] ∧ switching [0] [0, 1] = [.opens 1] := by decide

/-- A word after which there is a line break in the element `b` only. -/
example : inserting demoSink.toks [0, 1] [⟨2, [0], 7, true⟩] = [.closes 1, .puts 2] := by decide

/-- **C117** (defect) An end tag that is inserted leaves its element active: it is ended twice. -/
theorem insert_ends_twice : inserting demoSink.toks [0, 1] [⟨3, [0], 7, true⟩, ⟨2, [0], 7, true⟩] = [.puts 3, .closes 1, .puts 2] := by decide

example : mergeTokens [1] [2] = [1] := by decide

end Verif.Html
