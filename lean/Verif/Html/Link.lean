import Verif.Html.Tokens
import Verif.Html.CssEscape
/-
`parser::parse`, `parser::link` and `parser::parse_css`, lines 2187-2268 and 2440-2664 of include/stdex/html.hpp.
-/
namespace Verif.Html
open Verif.Str Verif.Sgml Verif.Parser

/-! ### Model -/

/-- How a call ends: undefined behaviour (or no end), an exception, or a result. -/
inductive Out (α : Type) where
  | fault
  | throws
  | done (a : α)
deriving DecidableEq

def Out.bind {α β : Type} : Out α → (α → Out β) → Out β
  | .fault, _ => .fault
  | .throws, _ => .throws
  | .done a, f => f a

/-- What is undefined in a function without exceptions is undefined. -/
def Out.of {α : Type} : Option α → Out α
  | none => .fault
  | some a => .done a

instance : Monad Out where
  pure := .done
  bind := Out.bind

@[simp] theorem Out.done_bind {α β : Type} (a : α) (f : α → Out β) : (Out.done a >>= f) = f a := rfl
@[simp] theorem Out.fault_bind {α β : Type} (f : α → Out β) : (Out.fault >>= f) = .fault := rfl
@[simp] theorem Out.throws_bind {α β : Type} (f : α → Out β) : (Out.throws >>= f) = .throws := rfl
@[simp] theorem Out.pure_done {α : Type} (a : α) : (pure a : Out α) = .done a := rfl
@[simp] theorem Out.of_some {α : Type} (a : α) : Out.of (some a) = .done a := rfl

/-- `token_t`, 1960-1966. -/
inductive TokKind where
  | root | complete | starting | ending | url
deriving DecidableEq

/-- `token_url_t`, 2129-2133. -/
inductive UrlEnc where
  | plain | sgml | css
deriving DecidableEq

/-- `token` 1993-2063, `text_token` 2081-2101, `starting_token` 2107-2124, `url_token` 2139-2155. `text` is `url` for URLs; the flags are bits of `text_type`. Sequences are indexes. `data` is for the user and left out. -/
structure Tok where
  kind : TokKind := .complete
  text : List Int := []
  hasTokens : Bool := false
  hasText : Bool := false
  isTitle : Bool := false
  isBullet : Bool := false
  name : List Int := []
  enc : UrlEnc := .plain
  seq : Option Nat := none
  endSeq : Option Nat := none
  map : List (Nat × Nat) := []
deriving DecidableEq

/-- What a parser depends on: the document's environment, `wchar_t` (for `css_unescape`), where the tokens are in memory (the token that is appended to `m_tokens` as number `i` is at `addr i`), the size of an address, and `m_parse_frames`. -/
structure Ctx where
  L : Lex
  W : CT
  addr : Nat → Nat
  w : Nat
  frames : Bool

/-- `parser` 2666-2672 while it parses: `m_offset`, the token that is being filled, `rel.to`, and `m_tokens`. -/
structure Cur where
  off : Nat
  tok : Tok
  rel : Nat
  toks : List Tok
deriving DecidableEq

/-- `rel.from = start; token->mapping.push_back(rel); rel.to += t->append_tag(token->text); token->text_type |= has_tokens`, where `t` is number `k` of `m_tokens`. -/
def Cur.mark (C : Ctx) (c : Cur) (start k : Nat) : Cur :=
  { c with
    tok := { c.tok with text := c.tok.text ++ tokenTag (C.addr k), hasTokens := true, map := c.tok.map ++ [(start, c.rel)] }
    rel := c.rel + (tokenTag (C.addr k)).length }

/-- The same with `append_token(t, token->text)`, 2421-2429. -/
def Cur.put (C : Ctx) (c : Cur) (start : Nat) (t : Tok) : Cur := { c with toks := c.toks ++ [t] }.mark C start c.toks.length

/-- `m_source + iv.start` -/
def Doc.at (d : Doc) (i : Nat) : List Int := d.source.drop i ++ [0]

/-- `stdex::isblank(m_source + a, b - a)` -/
def Doc.blank (d : Doc) (a b : Nat) : Out Bool := .of (isall isspace (d.at a) (some (b - a)))

/-- The test 2469-2470. -/
def textBlank (d : Doc) (n : Node) (t : Tok) : Out Bool := if t.hasText then pure true else d.blank n.iv.1 n.iv.2

/-- The test 2489-2490. -/
def valueBlank (d : Doc) (v : Nat × Nat) : Out Bool := if v.2 ≤ v.1 then pure true else d.blank v.1 v.2

/-- A text, 2463-2472. -/
def textStep (d : Doc) (n : Node) (c : Cur) : Out Cur := do
  let r ← .of (sgml2strcat (d.at n.iv.1) (n.iv.2 - n.iv.1) 0 c.tok.text)
  let blank ← textBlank d n c.tok
  pure { c with
    tok := { c.tok with text := r.1, map := c.tok.map ++ (n.iv.1, c.rel) :: r.2.map (fun p => (n.iv.1 + p.1, c.rel + p.2)), hasText := c.tok.hasText || !blank }
    rel := r.1.length
    off := c.off + 1 }

/-- The attributes of a tag, 2488-2519, and the rest of it, 2521: the token of the tag, from `off` on, and `m_tokens`. -/
def attrLoop (C : Ctx) (d : Doc) (k : Nat) (n : Node) : List Attr → Nat → Tok → List Tok → Out (Tok × List Tok)
  | [], off, t, toks => if n.iv.2 < off then .fault else pure ({ t with text := t.text ++ slice d.source (off, n.iv.2) }, toks)
  | a :: l, off, t, toks =>
    match a.value with
    | none => attrLoop C d k n l off t toks
    | some v => do
      let blank ← valueBlank d v
      if blank then attrLoop C d k n l off t toks
      else if ← .of (isUri C.L.T C.L.C n.code (d.at a.name.1) (a.name.2 - a.name.1)) then
        if v.1 < off then .fault
        else do
          let r ← .of (sgml2strcat (d.at v.1) (v.2 - v.1) 0 [])
          attrLoop C d k n l v.2 { t with text := t.text ++ slice d.source (off, v.1) ++ tokenTag (C.addr toks.length), hasTokens := true } (toks ++ [{ kind := .url, text := r.1, enc := .sgml, seq := some k }])
      else if ← .of (isLocalizable C.L.T C.L.C n.code (d.at a.name.1) (a.name.2 - a.name.1)) then
        if v.1 < off then .fault
        else do
          let r ← .of (sgml2strcat (d.at v.1) (v.2 - v.1) 0 [])
          attrLoop C d k n l v.2 { t with text := t.text ++ slice d.source (off, v.1) ++ tokenTag (C.addr toks.length), hasTokens := true }
            (toks ++ [{ text := r.1, hasText := true, isTitle := true, seq := some k, map := (v.1, 0) :: r.2.map (fun p => (v.1 + p.1, 0 + p.2)) }])
      else attrLoop C d k n l off t toks

/-- The token of a tag before its text, 2483-2485. -/
def tagToken (d : Doc) (k : Nat) (n : Node) : Tok :=
  if n.kind = .element ∨ span n.code = .immediate then { seq := some k }
  else { kind := .starting, name := slice d.source n.name, seq := some k, endSeq := n.fin }

/-- An element that has nothing to be translated, 2530-2537. -/
def isVerbatim (e : Elem) : Bool := e == .address || e == .code || e == .comment || e == .cite || e == .kbd || e == .samp || e == .script || e == .style

/-- Up to `target` or to the end: 2565-2566, 2570-2571. -/
def seek (fin : Nat) (target : Option Nat) (i : Nat) : Nat := if i < fin then (if target = some i then i else seek fin target (i + 1)) else i
termination_by fin - i

/-- The test 2635-2636: the URL of an import or another one. -/
def cssUrl (v : Env) (i : Nat) : Option (Option Part) :=
  match cssImport v i with
  | none => none
  | some (some p) => some (some p)
  | some none => cssUri v i

/-- `parse_css`, 2611-2663: the token and `m_tokens`. `seq` is the sequence at `m_offset`. The loop has an end (`fuel`), as every iteration but the last proceeds. -/
def cssLoop (C : Ctx) (d : Doc) (fin seq : Nat) : Nat → Nat → Tok → List Tok → Out (Tok × List Tok)
  | 0, _, _, _ => .fault
  | fuel + 1, i, t, toks => do
    let raw := fun (e : Nat) => cssLoop C d fin seq fuel e { t with text := t.text ++ slice d.source (i, e) } toks
    let v := C.L.env d.source fin
    match ← .of (cssComment v i) with
    | some p => raw p.2.2
    | none =>
      match ← .of (cssCdo v i) with
      | some e => raw e
      | none =>
        match ← .of (cssCdc v i) with
        | some e => raw e
        | none =>
          match ← .of (cssUrl v i) with
          | some p =>
            match cssUnescape C.W C.L.T (d.at p.1.1) (p.1.2 - p.1.1) (p.1.2 - p.1.1 + 1) 0 [] with
            | .done u =>
              if p.1.1 < i ∨ p.2.2 < p.1.2 then .fault
              else
                cssLoop C d fin seq fuel p.2.2 { t with text := t.text ++ slice d.source (i, p.1.1) ++ tokenTag (C.addr toks.length) ++ slice d.source (p.1.2, p.2.2), hasTokens := true }
                  (toks ++ [{ kind := .url, text := u, enc := .css, seq := some seq }])
            | _ => .fault
          | none =>
            match ← .of (anyCu v i) with
            | some (e, _) => raw e
            | none => pure (t, toks)

/-- Heading, definition term or title, 2573. -/
def isTitled (e : Elem) : Bool := isHeading e || e == .dt || e == .title

/-- The token of the content that ends at `e`, 2542-2564; `c` is after the start tag `n`. -/
def contentToken (C : Ctx) (d : Doc) (n : Node) (e : Nat) (c : Cur) : Out Cur :=
  if n.iv.2 < e then
    match d.nodes[c.off]? with
    | none => .fault
    | some _ =>
      if n.code ≠ .style then pure (c.put C n.iv.1 { text := slice d.source (n.iv.2, e), seq := some c.off })
      else do
        let r ← cssLoop C d e c.off (e - n.iv.2 + 1) n.iv.2 { seq := some c.off } c.toks
        pure ({ c with toks := r.2 }.put C n.iv.1 r.1)
  else pure c

/-- The content of an element that has nothing to be translated, 2539-2567; `c` is after the start tag `n`. -/
def verbatimStep (C : Ctx) (d : Doc) (fin : Nat) (n : Node) (c : Cur) : Out Cur := do
  let q ← .of n.fin
  let m ← .of d.nodes[q]?
  let c ← contentToken C d n m.iv.1 c
  pure { c with off := seek fin (some q) c.off }

/-- The loop of `parse(end)`, 2450-2602. Elements in groups are parsed with recursion. The user's `cancel` is left out. -/
def parseLoop (C : Ctx) (d : Doc) : Nat → Nat → Cur → Out Cur
  | 0, _, _ => .fault
  | fuel + 1, fin, c =>
    if c.off = fin then pure c
    else
      match d.nodes[c.off]? with
      | none => .fault
      | some n =>
        match n.kind with
        | .text => do parseLoop C d fuel fin (← textStep d n c)
        | .element | .element_start =>
          if n.code = .frameset ∧ C.frames = false then .throws
          else do
            let r ← attrLoop C d c.off n n.attrs n.iv.1 (tagToken d c.off n) c.toks
            let c := { { c with toks := r.2 }.put C n.iv.1 r.1 with off := c.off + 1 }
            if n.kind = .element then parseLoop C d fuel fin c
            else if isVerbatim n.code then do parseLoop C d fuel fin (← verbatimStep C d fin n c)
            else if isGroup n.code then do
              let g ← parseLoop C d fuel (seek fin n.fin c.off) { off := c.off, tok := { isTitle := isTitled n.code, isBullet := isList n.code, seq := if c.off ≠ seek fin n.fin c.off then some c.off else none }, rel := 0, toks := c.toks }
              parseLoop C d fuel fin ({ c with toks := g.toks ++ [g.tok], off := g.off }.mark C n.iv.1 g.toks.length)
            else parseLoop C d fuel fin c
        | .element_end => parseLoop C d fuel fin { c.put C n.iv.1 { kind := .ending, text := slice d.source n.iv, seq := some c.off } with off := c.off + 1 }
        | _ => parseLoop C d fuel fin { c.put C n.iv.1 { text := slice d.source n.iv, seq := some c.off } with off := c.off + 1 }

/-- `parse()`, 2187-2202: the tokens; the last one is returned. -/
def parse (C : Ctx) (d : Doc) : Out (List Tok) := do
  let c ← parseLoop C d (d.nodes.length + 1) d.nodes.length { off := 0, tok := { seq := if d.nodes.length ≠ 0 then some 0 else none }, rel := 0, toks := [] }
  pure (c.toks ++ [c.tok])

/-- The token at an address, if there is one. -/
def tokenAt (addr : Nat → Nat) (toks : List Tok) (a : Nat) : Option Nat := (List.range toks.length).find? fun k => addr k == a

/-- The loop of `link`, 2222-2258. `go` is the recursion. -/
def linkScan (C : Ctx) (toks : List Tok) (t : Tok) (go : Nat → List Int → Out (List Int)) : Nat → Nat → List Int → Out (List Int)
  | 0, _, _ => .fault
  | fuel + 1, i, src =>
    match t.text[i]? with
    | none => pure src
    | some x =>
      if x = 0 then pure src
      else do
        match ← .of (parseTag C.w (t.text ++ [0]) i) with
        | .throws => .throws
        | .tok a i' =>
          match tokenAt C.addr toks a with
          | none => .fault
          | some j =>
            match toks[j]? with
            | none => .fault
            | some t2 =>
              match t2.kind with
              | .url =>
                match t2.enc with
                | .plain => linkScan C toks t go fuel i' (src ++ t2.text)
                | .sgml => do linkScan C toks t go fuel i' (← .of (escape (t2.text ++ [0]) t2.text.length src))
                | .css => do linkScan C toks t go fuel i' (← .of (cssEscape (t2.text ++ [0]) t2.text.length src))
              | _ => do linkScan C toks t go fuel i' (← go j src)
        | .null =>
          if t.hasText then linkScan C toks t go fuel (i + 1) (escapeMin1 x src)
          else linkScan C toks t go fuel (i + 1) (src ++ [x])

/-- `link(source, t)`, 2211-2268, where `t` is number `k` of the tokens. The recursion has no limit in the code. -/
def link (C : Ctx) (toks : List Tok) : Nat → Nat → List Int → Out (List Int)
  | 0, _, _ => .fault
  | fuel + 1, k, src =>
    match toks[k]? with
    | none => .fault
    | some t =>
      if t.hasTokens then linkScan C toks t (link C toks fuel) (t.text.length + 1) 0 src
      else if t.hasText then .of (escapeMin (t.text ++ [0]) t.text.length src)
      else pure (src ++ t.text)

/-- `parse()` and `link(source, …)` of its result, into an empty string. -/
def relink (C : Ctx) (d : Doc) : Out (List Int) := do
  let toks ← parse C d
  link C toks toks.length (toks.length - 1) []

/-! ### Specification -/

/-- A text, written again: as the reader sees it, with `<`, `>`, `&` and no-break spaces escaped where needed. -/
def retext (t : List Int) : List Int := (decodeSpec 0 t).flatMap escapeMinChar

/-- An address, written again. -/
def reurl (t : List Int) : List Int := (decodeSpec 0 t).flatMap escapeChar

/-- The attribute is an address. -/
def urlAttr (e : Elem) (name : List Int) : Bool := uriSpec.any fun p => decide (e.spelled = some p.1) && decide (name.map lowerSpec = asc p.2)

/-- The attribute is for the reader. -/
def textAttr (e : Elem) (name : List Int) : Bool := decide (name.map lowerSpec = asc "title") || textSpec.any fun p => decide (e.spelled = some p.1) && decide (name.map lowerSpec = asc p.2)

/-- A tag, written again, from the place `o` to its end `e`: values of attributes that are addresses or texts are rewritten, and nothing else. -/
def retag (src : List Int) (code : Elem) (e : Nat) : Nat → List Attr → List Int
  | o, [] => slice src (o, e)
  | o, a :: l =>
    match a.value with
    | none => retag src code e o l
    | some v =>
      slice src (o, v.1) ++
        (if urlAttr code (slice src a.name) then reurl (slice src v) else if textAttr code (slice src a.name) then retext (slice src v) else slice src v) ++
        retag src code e v.2 l

/-- A style sheet, the rest of `t` from `i` on, written again: addresses are rewritten, and nothing else. Comments hold no addresses. -/
inductive CssOut (space : Int → Bool) (W T : CT) (t : List Int) : Nat → List Int → Prop
  | nil : CssOut space W T t t.length []
  | comment {i : Nat} {p : Part} {o : List Int} : CssComment t i p → CssOut space W T t p.2.2 o → CssOut space W T t i (slice t (i, p.2.2) ++ o)
  | url {i : Nat} {p : Part} {u o : List Int} : CssImport space t i p ∨ CssUri space t i p → CssReads W T (slice t p.1) u → CssOut space W T t p.2.2 o →
    CssOut space W T t i (slice t (i, p.1.1) ++ u.flatMap cssEscapeChar ++ slice t (p.1.2, p.2.2) ++ o)
  | other {i : Nat} {c : Int} {o : List Int} : t[i]? = some c → (∀ p, ¬ CssComment t i p ∧ ¬ CssImport space t i p ∧ ¬ CssUri space t i p) → CssOut space W T t (i + 1) o → CssOut space W T t i (c :: o)

/-- The elements whose content is left alone, but for addresses in style sheets. -/
def leftAlone : List String := ["address", "code", "comment", "cite", "kbd", "samp", "script"]

/-- The sequences from `i` to `j`, written again. -/
inductive Renders (C : Ctx) (d : Doc) (j : Nat) : Nat → List Int → Prop
  | nil : Renders C d j j []
  | text {i : Nat} {n : Node} {o : List Int} : i < j → d.nodes[i]? = some n → n.kind = .text → Renders C d j (i + 1) o → Renders C d j i (retext (slice d.source n.iv) ++ o)
  | other {i : Nat} {n : Node} {o : List Int} : i < j → d.nodes[i]? = some n → n.kind ≠ .text → n.kind ≠ .element → n.kind ≠ .element_start → Renders C d j (i + 1) o → Renders C d j i (slice d.source n.iv ++ o)
  | tag {i : Nat} {n : Node} {o : List Int} : i < j → d.nodes[i]? = some n → n.kind = .element ∨ n.kind = .element_start ∧ (∀ s ∈ leftAlone, n.code.spelled ≠ some s) ∧ n.code ≠ .style → Renders C d j (i + 1) o →
    Renders C d j i (retag d.source n.code n.iv.2 n.iv.1 n.attrs ++ o)
  | content {i : Nat} {n m : Node} {q : Nat} {o : List Int} : i < j → d.nodes[i]? = some n → n.kind = .element_start → (∃ s ∈ leftAlone, n.code.spelled = some s) → n.fin = some q → d.nodes[q]? = some m → Renders C d j q o →
    Renders C d j i (retag d.source n.code n.iv.2 n.iv.1 n.attrs ++ slice d.source (n.iv.2, m.iv.1) ++ o)
  | style {i : Nat} {n m : Node} {q : Nat} {css o : List Int} : i < j → d.nodes[i]? = some n → n.kind = .element_start → n.code = .style → n.fin = some q → d.nodes[q]? = some m →
    CssOut C.L.v.space C.W C.L.T (d.source.take m.iv.1) n.iv.2 css → Renders C d j q o → Renders C d j i (retag d.source n.code n.iv.2 n.iv.1 n.attrs ++ css ++ o)

/-- Where the tokens are: at different places, none of which is null. -/
structure Ctx.Places (C : Ctx) (n : Nat) : Prop where
  inj : ∀ i j, i < n → j < n → C.addr i = C.addr j → i = j
  range : ∀ i, i < n → 0 < C.addr i ∧ C.addr i < 2 ^ C.w

/-- What a document needs for its tokens: no marks of tags, neither in the source nor in texts as the reader sees them; elements whose content is left alone have an end; no frame set, unless frames are parsed; and every address in a style sheet reads as something. -/
structure Linkable (C : Ctx) (d : Doc) : Prop where
  marks : ∀ c ∈ d.source, c ≠ 18 ∧ c ≠ 19
  text : ∀ n ∈ d.nodes, n.kind = .text → ∀ c ∈ decodeSpec 0 (slice d.source n.iv), c ≠ 18 ∧ c ≠ 19
  ended : ∀ n ∈ d.nodes, n.kind = .element_start → (∃ s ∈ "style" :: leftAlone, n.code.spelled = some s) → n.fin ≠ none
  frames : C.frames = true ∨ ∀ n ∈ d.nodes, n.code ≠ .frameset
  css : ∀ n ∈ d.nodes, n.kind = .element_start → n.code = .style → ∀ q m, n.fin = some q → d.nodes[q]? = some m → ∀ i p, n.iv.2 ≤ i →
    CssImport C.L.v.space (d.source.take m.iv.1) i p ∨ CssUri C.L.v.space (d.source.take m.iv.1) i p → ∃ u, CssReads C.W C.L.T (slice (d.source.take m.iv.1) p.1) u ∧ ∀ c ∈ u, c ≠ 0

end Verif.Html
