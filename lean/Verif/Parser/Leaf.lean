import Verif.Parser.Tree
import Verif.Str.Compare
import Verif.Str.Uuid
/-
The parsers of single code units, line ends, sets and strings (include/stdex/parser.hpp 182-856), for any character type.
-/
namespace Verif.Parser
open Verif.Interval Verif.Str

/-- The arguments of `match`: `text`, `end` (`none` is `SIZE_MAX`), the two flags 74-76, and the facets of the locale used:
`tolower`, `is(space)` and `is(punct)`, arbitrary functions. -/
structure Env where
  s : List Int
  fin : Option Nat
  ci : Bool
  ml : Bool
  lower : Int → Int
  space : Int → Bool
  punct : Int → Bool

/-- `start < end && text[start]`, then a test of the character. -/
def onChar (v : Env) (p : Int → Option (Nat × Option Nat)) : Leaf := fun i =>
  match Str.cond v.s v.fin i with
  | none => none
  | some none => some none
  | some (some c) => some (p c)

/-- `(r && !m_invert) || (!r && m_invert)` -/
def hits (r invert : Bool) : Bool := (r && !invert) || (!r && invert)

/-- `basic_noop::do_match` 186-199. -/
def noop (v : Env) : Leaf := fun i => onChar v (fun _ => some (i, none)) i

/-- `basic_any_cu::do_match` 221-234. -/
def anyCu (v : Env) : Leaf := fun i => onChar v (fun _ => some (i + 1, none)) i

/-- `basic_cu::do_match` 297-319. -/
def cu (v : Env) (chr : Int) (invert : Bool) : Leaf := fun i =>
  onChar v (fun c => if hits (if v.ci then decide (v.lower c = v.lower chr) else decide (c = chr)) invert then some (i + 1, none) else none) i

/-- `basic_space_cu::do_match` 389-407. -/
def spaceCu (v : Env) (invert : Bool) : Leaf := fun i =>
  onChar v (fun c => if hits ((v.ml || !islbreak c) && v.space c) invert then some (i + 1, none) else none) i

/-- `basic_punct_cu::do_match` 469-485. -/
def punctCu (v : Env) (invert : Bool) : Leaf := fun i =>
  onChar v (fun c => if hits (v.punct c) invert then some (i + 1, none) else none) i

/-- `basic_space_or_punct_cu::do_match` 544-562. -/
def spaceOrPunctCu (v : Env) (invert : Bool) : Leaf := fun i =>
  onChar v (fun c => if hits ((v.ml || !islbreak c) && (v.space c || v.punct c)) invert then some (i + 1, none) else none) i

/-- `start <= end` -/
def upTo (fin : Option Nat) (i : Nat) : Bool :=
  match fin with
  | none => true
  | some n => decide (i ≤ n)

/-- The condition of `basic_bol` 628. -/
def bolTest (v : Env) (i : Nat) : Option Bool :=
  if i = 0 then some true
  else if upTo v.fin i then (rd v.s (i - 1)).map islbreak else some false

/-- `basic_bol::do_match` 620-635. -/
def bol (v : Env) (invert : Bool) : Leaf := fun i =>
  (bolTest v i).map fun r => if hits r invert then some (i, none) else none

/-- `basic_eol::do_match` 659-673; the condition 666 is the negation of `start < end && text[start]`, or a line break. -/
def eol (v : Env) (invert : Bool) : Leaf := fun i =>
  match Str.cond v.s v.fin i with
  | none => none
  | some none => some (if hits true invert then some (i, none) else none)
  | some (some c) => some (if hits (islbreak c) invert then some (i, none) else none)

/-- `basic_cu_set::do_match` 734-755; `set` is `m_set`. -/
def cuSet (v : Env) (set : List Int) (invert : Bool) : Leaf := fun i =>
  match Str.cond v.s v.fin i with
  | none => none
  | some none => some none
  | some (some c) =>
    match (if v.ci then strnchr v.lower set (some set.length) (v.lower c) else strnchr id set (some set.length) c) with
    | none => none
    | some r => some (if hits r.isSome invert then some (i + 1, r) else none)

/-- `end - start`, in `size_t`. -/
def room (fin : Option Nat) (i m : Nat) : Nat :=
  match fin with
  | none => m
  | some e => min ((e + 2 ^ 64 - i) % 2 ^ 64) m

/-- `basic_string::do_match` 826-845; `str` is `m_str`. -/
def string (v : Env) (str : List Int) : Leaf := fun i =>
  let n := room v.fin i str.length
  match (if v.ci then strncmp2 v.lower v.lower (v.s.drop i) (some n) str (some str.length) else strncmp2 id id (v.s.drop i) (some n) str (some str.length)) with
  | none => none
  | some r => some (if r = 0 then some (i + n, none) else none)

/-! ### Specification: the text is `t` -/

/-- The text can be read, and `tolower` maps only the terminator to the terminator. -/
structure Env.Ok (v : Env) (t : List Int) : Prop where
  valid : Valid v.s v.fin
  text : t = Str.text v.s v.fin
  small : ∀ n, v.fin = some n → n < 2 ^ 64
  lower : ∀ c, v.lower c = 0 ↔ c = 0

/-- A parser of one code unit that passes a test. -/
def One (t : List Int) (m : Leaf) (p : Int → Bool) : Prop :=
  ∀ i ≤ t.length, m i = some (match t[i]? with | none => none | some c => if p c then some (i + 1, none) else none)

/-- Equality of characters, up to case if asked for. -/
def same (v : Env) (a b : Int) : Bool := if v.ci then v.lower a == v.lower b else a == b

theorem hits_xor (r invert : Bool) : hits r invert = (r ^^ invert) := by cases r <;> cases invert <;> rfl

theorem onChar_spec {v : Env} {t : List Int} (h : v.Ok t) (p : Int → Option (Nat × Option Nat)) {i : Nat} (hi : i ≤ t.length) :
    onChar v p i = some (match t[i]? with | none => none | some c => p c) := by
  unfold onChar
  rw [h.text] at hi ⊢
  rw [cond_eq h.valid hi]
  cases (Str.text v.s v.fin)[i]? <;> rfl

/-- **C71** -/
theorem noop_spec {v : Env} {t : List Int} (h : v.Ok t) : ∀ i ≤ t.length, noop v i = some (if i < t.length then some (i, none) else none) := by
  intro i hi
  unfold noop
  rw [onChar_spec h _ hi]
  by_cases c : i < t.length
  · rw [if_pos c, List.getElem?_eq_getElem c]
  · rw [if_neg c, List.getElem?_eq_none (by omega)]

theorem anyCu_spec {v : Env} {t : List Int} (h : v.Ok t) : One t (anyCu v) fun _ => true := by
  intro i hi; unfold anyCu; rw [onChar_spec h _ hi]; rfl

/-- **C71** A code unit, or with `invert` any other code unit. -/
theorem cu_spec {v : Env} {t : List Int} (h : v.Ok t) (chr : Int) (invert : Bool) : One t (cu v chr invert) fun c => same v c chr ^^ invert := by
  intro i hi
  unfold cu
  rw [onChar_spec h _ hi]
  simp only [hits_xor]
  have e : ∀ c, (if v.ci = true then decide (v.lower c = v.lower chr) else decide (c = chr)) = same v c chr := by
    intro c; unfold same; split <;> rfl
  simp only [e]

theorem spaceCu_spec {v : Env} {t : List Int} (h : v.Ok t) (invert : Bool) :
    One t (spaceCu v invert) fun c => ((v.ml || (c != 10 && c != 13)) && v.space c) ^^ invert := by
  intro i hi
  unfold spaceCu
  rw [onChar_spec h _ hi]
  have e : ∀ c, (!islbreak c) = (c != 10 && c != 13) := by
    intro c; unfold islbreak; by_cases a : c = 10 <;> by_cases b : c = 13 <;> simp [a, b]
  simp only [hits_xor, e]

theorem punctCu_spec {v : Env} {t : List Int} (h : v.Ok t) (invert : Bool) : One t (punctCu v invert) fun c => v.punct c ^^ invert := by
  intro i hi
  unfold punctCu
  rw [onChar_spec h _ hi]
  simp only [hits_xor]

theorem spaceOrPunctCu_spec {v : Env} {t : List Int} (h : v.Ok t) (invert : Bool) :
    One t (spaceOrPunctCu v invert) fun c => ((v.ml || (c != 10 && c != 13)) && (v.space c || v.punct c)) ^^ invert := by
  intro i hi
  unfold spaceOrPunctCu
  rw [onChar_spec h _ hi]
  have e : ∀ c, (!islbreak c) = (c != 10 && c != 13) := by
    intro c; unfold islbreak; by_cases a : c = 10 <;> by_cases b : c = 13 <;> simp [a, b]
  simp only [hits_xor, e]

theorem text_len_fin {v : Env} {t : List Int} (h : v.Ok t) {n : Nat} (hn : v.fin = some n) : t.length ≤ n := by
  rw [h.text, hn]; exact text_length_take _ _

/-- The beginning of a line: of the text, or behind CR or LF. -/
def lineStart (t : List Int) (i : Nat) : Bool := i == 0 || t[i - 1]? == some 10 || t[i - 1]? == some 13

/-- The end of a line: of the text, or before CR or LF. -/
def lineEnd (t : List Int) (i : Nat) : Bool := i == t.length || t[i]? == some 10 || t[i]? == some 13

/-- **C71** `bol` matches the empty string at the beginnings of lines, inverted elsewhere. -/
theorem bol_spec {v : Env} {t : List Int} (h : v.Ok t) (invert : Bool) : ∀ i ≤ t.length,
    bol v invert i = some (if lineStart t i ^^ invert then some (i, none) else none) := by
  intro i hi
  have e : bolTest v i = some (lineStart t i) := by
    unfold bolTest lineStart
    by_cases c : i = 0
    · subst c; rfl
    · rw [if_neg c]
      have u : upTo v.fin i = true := by
        unfold upTo
        cases hn : v.fin with
        | none => rfl
        | some n => have := text_len_fin h hn; exact decide_eq_true (by omega)
      have hlt : i - 1 < t.length := by omega
      rw [if_pos u]
      have hr : rd v.s (i - 1) = some t[i - 1] := by
        have h1 : i - 1 < (Str.text v.s v.fin).length := by rw [← h.text]; exact hlt
        rw [text_rd h1]
        congr 1
        simp only [h.text]
      rw [hr, List.getElem?_eq_getElem hlt]
      have c0 : (i == 0) = false := by simpa using c
      rw [c0]
      simp only [islbreak, Option.map_some]
      by_cases x : t[i - 1] = 10 <;> by_cases y : t[i - 1] = 13 <;> simp [x, y]
  unfold bol
  rw [e]
  simp only [Option.map_some, hits_xor]

/-- **C71** `eol` matches the empty string at the ends of lines, inverted elsewhere. -/
theorem eol_spec {v : Env} {t : List Int} (h : v.Ok t) (invert : Bool) : ∀ i ≤ t.length,
    eol v invert i = some (if lineEnd t i ^^ invert then some (i, none) else none) := by
  intro i hi
  unfold eol lineEnd
  have hi' := hi
  rw [h.text] at hi'
  rw [cond_eq h.valid hi', ← h.text]
  by_cases c : i < t.length
  · rw [List.getElem?_eq_getElem c]
    have c0 : (i == t.length) = false := by rw [beq_eq_false_iff_ne]; omega
    rw [c0]
    simp only [hits_xor, islbreak]
    have e : (decide (t[i] = 10 ∨ t[i] = 13)) = (some t[i] == some 10 || some t[i] == some 13) := by
      by_cases x : t[i] = 10 <;> by_cases y : t[i] = 13 <;> simp [x, y]
    rw [e, Bool.false_or]
  · have : i = t.length := by omega
    rw [List.getElem?_eq_none (by omega)]
    simp only [hits_xor]
    simp [this]

theorem text_self {l : List Int} (h : ∀ c ∈ l, c ≠ 0) : Str.text l (some l.length) = l := by
  show (l.take l.length).takeWhile _ = l
  rw [List.take_length]
  induction l with
  | nil => rfl
  | cons x r ih =>
    rw [List.takeWhile_cons_of_pos (by simpa using h x List.mem_cons_self), ih fun c hc => h c (List.mem_cons_of_mem _ hc)]

/-- **C71** A set matches a code unit that is in it (with `invert`: that is not), and its hit offset is the first position
in the set. -/
theorem cuSet_spec {v : Env} {t : List Int} (h : v.Ok t) {set : List Int} (hs : ∀ c ∈ set, c ≠ 0) (invert : Bool) : ∀ i ≤ t.length,
    ∃ hit, cuSet v set invert i = some (match t[i]? with | none => none | some c => if (set.any fun x => same v x c) ^^ invert then some (i + 1, hit) else none) ∧
      ∀ c, t[i]? = some c → (match hit with
        | some k => (∃ x, set[k]? = some x ∧ same v x c = true) ∧ ∀ (j : Nat) (y : Int), j < k → set[j]? = some y → same v y c = false
        | none => ∀ x ∈ set, same v x c = false) := by
  intro i hi
  unfold cuSet
  have hi' := hi
  rw [h.text] at hi'
  rw [cond_eq h.valid hi', ← h.text]
  cases hc : t[i]? with
  | none => exact ⟨none, rfl, fun c q => nomatch q⟩
  | some c =>
    have hv : Valid set (some set.length) := .inr ⟨_, rfl, Nat.le_refl _⟩
    have key : ∃ r, (if v.ci = true then strnchr v.lower set (some set.length) (v.lower c) else strnchr id set (some set.length) c) = some r ∧
        (match r with
        | some k => (∃ x, set[k]? = some x ∧ same v x c = true) ∧ ∀ (j : Nat) (y : Int), j < k → set[j]? = some y → same v y c = false
        | none => ∀ x ∈ set, same v x c = false) := by
      by_cases ci : v.ci = true
      · rw [if_pos ci]
        have ⟨r, e, q⟩ := strnchr_spec v.lower hv (v.lower c)
        rw [text_self hs] at q
        refine ⟨r, e, ?_⟩
        cases r with
        | some k =>
          obtain ⟨⟨x, a, b⟩, d⟩ := q
          exact ⟨⟨x, a, by unfold same; rw [if_pos ci]; simp [b]⟩, fun j y hj hy => by unfold same; rw [if_pos ci]; simp [d j y hj hy]⟩
        | none => exact fun x hx => by unfold same; rw [if_pos ci]; simp [q x hx]
      · rw [if_neg ci]
        have ⟨r, e, q⟩ := strnchr_spec id hv c
        rw [text_self hs] at q
        refine ⟨r, e, ?_⟩
        cases r with
        | some k =>
          obtain ⟨⟨x, a, b⟩, d⟩ := q
          refine ⟨⟨x, a, by unfold same; rw [if_neg ci]; simpa using b⟩, fun j y hj hy => ?_⟩
          have := d j y hj hy
          unfold same; rw [if_neg ci]; simpa using this
        | none =>
          intro x hx
          have := q x hx
          unfold same; rw [if_neg ci]; simpa using this
    have ⟨r, e, q⟩ := key
    refine ⟨r, ?_, ?_⟩
    · simp only [e, hits_xor]
      have : r.isSome = set.any fun x => same v x c := by
        cases r with
        | none =>
          symm
          rw [Option.isSome_none, List.any_eq_false]
          intro x hx
          simp [q x hx]
        | some k =>
          obtain ⟨⟨x, a, b⟩, d⟩ := q
          symm
          rw [Option.isSome_some, List.any_eq_true]
          exact ⟨x, List.mem_of_getElem? a, b⟩
      rw [this]
    · intro c' hc'
      cases hc'
      exact q

theorem takeWhile_take' (p : Int → Bool) : ∀ (l : List Int) (k : Nat), (l.take k).takeWhile p = (l.takeWhile p).take k := by
  intro l
  induction l with
  | nil => intro k; simp
  | cons x r ih =>
    intro k
    cases k with
    | zero => simp
    | succ k =>
      rw [List.take_succ_cons]
      by_cases hx : p x = true
      · rw [List.takeWhile_cons_of_pos hx, List.takeWhile_cons_of_pos hx, List.take_succ_cons, ih]
      · rw [List.takeWhile_cons_of_neg hx, List.takeWhile_cons_of_neg hx]; rfl

theorem takeWhile_drop' (p : Int → Bool) : ∀ (l : List Int) (k : Nat), k ≤ (l.takeWhile p).length → (l.drop k).takeWhile p = (l.takeWhile p).drop k := by
  intro l
  induction l with
  | nil => intro k h; simp
  | cons x r ih =>
    intro k h
    cases k with
    | zero => rfl
    | succ k =>
      by_cases hx : p x = true
      · rw [List.takeWhile_cons_of_pos hx] at h ⊢
        rw [List.drop_succ_cons, List.drop_succ_cons]
        exact ih k (by simpa using h)
      · rw [List.takeWhile_cons_of_neg hx] at h
        cases h

theorem room_eq {v : Env} {t : List Int} (h : v.Ok t) {i : Nat} (hi : i ≤ t.length) (m : Nat) :
    room v.fin i m = match v.fin with | none => m | some e => min (e - i) m := by
  unfold room
  cases hn : v.fin with
  | none => rfl
  | some e =>
    have h1 := h.small e hn
    have h2 := text_len_fin h hn
    simp only
    rw [show e + 2 ^ 64 - i = (e - i) + 2 ^ 64 from by omega, Nat.add_mod_right, Nat.mod_eq_of_lt (by omega)]

/-- The text from `i`, as seen with a count. -/
theorem text_from {v : Env} {t : List Int} (h : v.Ok t) {i : Nat} (hi : i ≤ t.length) (m : Nat) :
    Str.text (v.s.drop i) (some (room v.fin i m)) = (t.drop i).take m ∧ Valid (v.s.drop i) (some (room v.fin i m)) := by
  rw [room_eq h hi]
  have hi' := hi
  rw [h.text] at hi'
  cases hn : v.fin with
  | none =>
    rw [hn] at hi'
    have hv := h.valid
    rw [hn] at hv
    have hz : 0 ∈ v.s := hv.elim id fun ⟨n, q, _⟩ => nomatch q
    constructor
    · show ((v.s.drop i).take m).takeWhile _ = _
      rw [takeWhile_take', takeWhile_drop' _ _ _ hi', h.text, hn]
      rfl
    · refine .inl ?_
      -- the terminator lies behind the text
      have hl : (Str.text v.s none).length < v.s.length := takeWhile_zero _ hz
      have hc := cond_eq hv (Nat.le_refl (Str.text v.s none).length)
      rw [List.getElem?_eq_none (Nat.le_refl _)] at hc
      unfold Str.cond below rd at hc
      simp only [if_true] at hc
      rw [List.getElem?_eq_getElem hl] at hc
      have hzero : v.s[(Str.text v.s none).length] = 0 := by
        by_cases q : v.s[(Str.text v.s none).length] = 0
        · exact q
        · simp [q] at hc
      have : (v.s.drop i)[(Str.text v.s none).length - i]? = some 0 := by
        rw [List.getElem?_drop, show i + ((Str.text v.s none).length - i) = (Str.text v.s none).length from by omega,
          List.getElem?_eq_getElem hl, hzero]
      exact List.mem_of_getElem? this
  | some e =>
    rw [hn] at hi'
    have hle := text_len_fin h hn
    have ht : t = (v.s.take e).takeWhile fun c => decide (c ≠ 0) := by rw [h.text, hn]; rfl
    constructor
    · show ((v.s.drop i).take (min (e - i) m)).takeWhile _ = _
      rw [Nat.min_comm, ← List.take_take, takeWhile_take']
      congr 1
      rw [List.take_drop, show i + (e - i) = e from by omega, takeWhile_drop' _ _ _ hi', ht]
    · have hv := h.valid
      rw [hn] at hv
      have := valid_drop hv hi'
      rcases this with q | ⟨n, q, r⟩
      · exact .inl q
      · cases q
        exact .inr ⟨_, rfl, by simp only; omega⟩

/-- **C71** A string parser matches where the string occurs in the text, up to case if asked for, and its interval is the
length of the string. -/
theorem string_spec {v : Env} {t : List Int} (h : v.Ok t) {str : List Int} (hs : ∀ c ∈ str, c ≠ 0) : ∀ i ≤ t.length,
    string v str i = some (if ((t.drop i).take str.length).map (if v.ci then v.lower else id) = str.map (if v.ci then v.lower else id) then some (i + str.length, none) else none) := by
  intro i hi
  have ⟨e1, e2⟩ := text_from h hi str.length
  have hv : Valid str (some str.length) := .inr ⟨_, rfl, Nat.le_refl _⟩
  have key : ∀ f : Int → Int, (∀ c, f c = 0 ↔ c = 0) → ∃ r, strncmp2 f f (v.s.drop i) (some (room v.fin i str.length)) str (some str.length) = some r ∧
      (r = 0 ↔ ((t.drop i).take str.length).map f = str.map f) := by
    intro f hf
    have ⟨r, a, b, _⟩ := strncmp_equal f f e2 hv hf hf
    rw [e1, text_self hs] at b
    exact ⟨r, a, b⟩
  have hn : ∀ f : Int → Int, ((t.drop i).take str.length).map f = str.map f → room v.fin i str.length = str.length := by
    intro f q
    have := congrArg List.length q
    simp only [List.length_map, List.length_take, List.length_drop] at this
    rw [room_eq h hi]
    cases hf : v.fin with
    | none => rfl
    | some e => have := text_len_fin h hf; simp only; omega
  have fin : ∀ f : Int → Int, (∀ c, f c = 0 ↔ c = 0) → (match strncmp2 f f (v.s.drop i) (some (room v.fin i str.length)) str (some str.length) with
      | none => none | some r => some (if r = 0 then some (i + room v.fin i str.length, (none : Option Nat)) else none)) =
      some (if ((t.drop i).take str.length).map f = str.map f then some (i + str.length, none) else none) := by
    intro f hf
    have ⟨r, a, b⟩ := key f hf
    rw [a]
    simp only
    by_cases c : r = 0
    · rw [if_pos c, if_pos (b.1 c), hn f (b.1 c)]
    · rw [if_neg c, if_neg fun q => c (b.2 q)]
  unfold string
  simp only
  by_cases ci : v.ci = true
  · simp only [if_pos ci]
    exact fin _ h.lower
  · simp only [if_neg ci]
    exact fin _ fun c => Iff.rfl

/-! ### The leaves are good -/

theorem one_good {t : List Int} {m : Leaf} {p : Int → Bool} (h : One t m p) : Good t.length (.leaf m) := by
  rw [Good]
  intro i hi
  rw [h i hi]
  refine ⟨(fun q => nomatch q), ?_⟩
  intro j k q
  have q := Option.some.inj q
  cases hc : t[i]? with
  | none => rw [hc] at q; cases q
  | some c =>
    rw [hc] at q
    have := (List.getElem?_eq_some_iff.1 hc).1
    simp only at q
    split at q
    · cases q; omega
    · cases q

theorem empty_good {t : List Int} {m : Leaf} {p : Nat → Bool} (h : ∀ i ≤ t.length, m i = some (if p i then some (i, none) else none)) : Good t.length (.leaf m) := by
  rw [Good]
  intro i hi
  rw [h i hi]
  refine ⟨(fun q => nomatch q), ?_⟩
  intro j k q
  have q := Option.some.inj q
  split at q
  · cases q; omega
  · cases q

theorem string_good {v : Env} {t : List Int} (h : v.Ok t) {str : List Int} (hs : ∀ c ∈ str, c ≠ 0) : Good t.length (.leaf (string v str)) := by
  rw [Good]
  intro i hi
  rw [string_spec h hs i hi]
  refine ⟨(fun q => nomatch q), ?_⟩
  intro j k q
  generalize (if v.ci = true then v.lower else id) = f at q
  have q := Option.some.inj q
  split at q
  · rename_i e
    have := congrArg List.length e
    simp only [List.length_map, List.length_take, List.length_drop] at this
    cases q
    omega
  · cases q

theorem cuSet_good {v : Env} {t : List Int} (h : v.Ok t) {set : List Int} (hs : ∀ c ∈ set, c ≠ 0) (invert : Bool) : Good t.length (.leaf (cuSet v set invert)) := by
  rw [Good]
  intro i hi
  have ⟨hit, e, _⟩ := cuSet_spec h hs invert i hi
  rw [e]
  refine ⟨(fun q => nomatch q), ?_⟩
  intro j k q
  have q := Option.some.inj q
  cases hc : t[i]? with
  | none => rw [hc] at q; cases q
  | some c =>
    rw [hc] at q
    have := (List.getElem?_eq_some_iff.1 hc).1
    simp only at q
    split at q
    · cases q; omega
    · cases q

/-- The loop condition of `search` 92. -/
def atChar (v : Env) (i : Nat) : Option Bool := (Str.cond v.s v.fin i).map Option.isSome

theorem atChar_spec {v : Env} {t : List Int} (h : v.Ok t) : ∀ i ≤ t.length, atChar v i = some (decide (i < t.length)) := by
  intro i hi
  unfold atChar
  rw [h.text] at hi ⊢
  rw [cond_eq h.valid hi, Option.map_some]
  by_cases c : i < (Str.text v.s v.fin).length
  · rw [List.getElem?_eq_getElem c, decide_eq_true c]; rfl
  · rw [List.getElem?_eq_none (by omega), decide_eq_false c]; rfl

/-! ### Examples -/

/-- `"ab,b"` with the terminator, case-sensitive. -/
def demo : Env := ⟨[97, 98, 44, 98, 0], none, false, false, fun c => if 65 ≤ c ∧ c ≤ 90 then c + 32 else c, isspace, ispunct⟩

theorem demo_ok : demo.Ok [97, 98, 44, 98] :=
  ⟨.inl (by decide), by decide, fun n q => (by cases q), fun c => by show (if 65 ≤ c ∧ c ≤ 90 then c + 32 else c) = 0 ↔ c = 0; split <;> omega⟩

/-- A permutation of `b` and `a`, any number of `,`, then anything but a line break: three levels. -/
def demoShape : Shape :=
  .seq [.perm [.leaf (cu demo 98 false), .leaf (cu demo 97 false)], .iter (.leaf (cuSet demo [59, 44] false)) 1 5 true,
    .branch [.leaf (string demo [97, 98]), .leaf (anyCu demo)], .leaf (eol demo false)]

theorem demo_good : Good 4 demoShape := by
  have h := demo_ok
  simp only [demoShape, Good, Goods]
  refine ⟨⟨?_, ?_, trivial⟩, ?_, ⟨?_, ?_, trivial⟩, ?_, trivial⟩
  · simpa [Good] using one_good (cu_spec h 98 false)
  · simpa [Good] using one_good (cu_spec h 97 false)
  · simpa [Good] using cuSet_good h (set := [59, 44]) (by decide) false
  · simpa [Good] using string_good h (str := [97, 98]) (by decide)
  · simpa [Good] using one_good (anyCu_spec h)
  · simpa [Good] using empty_good (eol_spec h false)

example : sem demoShape 0 = some 4 := by decide +kernel
example : ∃ s', (obj 5 demoShape).run fresh 0 = some (true, s') ∧ s'.iv = ⟨0, 4⟩ := by
  have ⟨b, s', a, q⟩ := tree_match (n := 4) (fuel := 5) (by omega) demo_good fresh (i := 0) (by omega)
  rw [show sem demoShape 0 = some 4 from by decide +kernel] at q
  obtain ⟨rfl, q, _⟩ := q
  exact ⟨s', a, q⟩

/-- Searching for `b` or `,` from 2: found at 2. -/
example : ∃ s', search (atChar demo) (obj 5 (.branch [.leaf (cu demo 98 false), .leaf (cu demo 44 false)])) 5 fresh 2 = some (true, s') ∧ s'.iv = ⟨2, 3⟩ :=
  ⟨_, rfl, rfl⟩

end Verif.Parser
