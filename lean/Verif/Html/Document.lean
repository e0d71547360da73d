import Verif.Html.Elements
import Verif.Parser.Html
/-
HTML documents: `document` of include/stdex/html.hpp (1310-1330, 1502-1955).

Sequences are held in a list and pointers to sequences are positions in that list: the store only grows at its end, and a pointer to a sequence outlives neither the store nor the sequence. `m_tag`, `m_condition_start`,
`m_condition_end` and `m_any_char` are the parsers modelled in Parser/Html.lean and Parser/Leaf.lean, constructed without arguments and so with the locale of the process.
-/
namespace Verif.Html
open Verif.Str Verif.Sgml Verif.Parser

/-! ### Model -/

/-- `html_sequence_t`, parser.hpp 8007-8019. -/
inductive Kind where
  | text | element | element_start | element_end | declaration | comment | instruction | PCDATA | CDATA
deriving DecidableEq, Repr

/-- `sequence` 1315-1329, `element` 1334-1506, `element_start` 1513-1524, `element_end` 1529-1544, `declaration` 1549-1562, `comment` 1567-1578, `instruction` 1583-1594. `name` is `content` for comments and
instructions; `fin` is `element_start::end`, `beg` is `element_end::start`. -/
structure Node where
  kind : Kind
  iv : Nat × Nat
  parent : Option Nat
  code : Elem := .empty
  name : Nat × Nat := (0, 0)
  attrs : List Attr := []
  fin : Option Nat := none
  beg : Option Nat := none
deriving DecidableEq

/-- What the document depends on: the types of characters (`T` for the source, `C` for `char`), the locale, and `charset_from_name`, whose results are numbers; `charset_id::system` is 0. -/
structure Lex where
  T : CT
  C : CT
  v : Env
  charsetOf : List Int → Nat

/-- `document`, 1936-1954. The stack of elements has its top first. -/
structure Doc where
  source : List Int := []
  parsed : Nat := 0
  charset : Nat := 0
  valid : Nat := 0
  invalid : Nat := 0
  cdata : Bool := false
  rcdata : Bool := false
  entities : List ((Nat × Nat) × List Int) := []
  nodes : List Node := []
  stack : List Nat := []
  special : Bool := false
deriving DecidableEq

/-- `match(source, i, e)` -/
def Lex.env (L : Lex) (src : List Int) (e : Nat) : Env := { L.v with s := src ++ [0], fin := some e }

/-- `element::element_code(source + name.start, name.size())` -/
def Lex.code (L : Lex) (src : List Int) (name : Nat × Nat) : Option Elem := elementCode L.T L.C (src.drop name.1 ++ [0]) (name.2 - name.1)

/-- `strncmp(source + iv.start, iv.size(), w, SIZE_MAX) == 0`, where `w` is a literal. -/
def says (src : List Int) (count : Nat) (w : List Int) : Option Bool := (strncmp2 id id src (some count) (w ++ [0]) (some (2 ^ 64 - 1))).map fun r => r == 0

/-- `strnicmp(source + iv.start, iv.size(), w, SIZE_MAX) == 0`, where `w` is a literal. An interval that is not valid begins at 1 and has size `SIZE_MAX`. -/
def Lex.saysIv (L : Lex) (src : List Int) (iv : Iv) (w : List Int) : Option Bool :=
  match iv with
  | none => saysI L.T L.C (src.drop 1 ++ [0]) (2 ^ 64 - 1) w
  | some (a, b) => saysI L.T L.C (src.drop a ++ [0]) (b - a) w

/-- `active_element`, 1899-1902. -/
def Doc.active (d : Doc) : Option Nat := d.stack.head?

/-- `m_sequences.push_back` -/
def Doc.push (d : Doc) (n : Node) : Doc := { d with nodes := d.nodes ++ [n] }

/-- The text up to `i`, if there is any: 1688-1689, 1720-1721, 1734-1735, 1872-1873. -/
def Doc.pushText (d : Doc) (i : Nat) : Doc := if d.parsed < i then d.push { kind := .text, iv := (d.parsed, i), parent := d.active } else d

/-- The search of the entity, 1915-1926: its value and its length. -/
def findEntity (src input : List Int) (num i : Nat) : List ((Nat × Nat) × List Int) → Option (Option (List Int × Nat))
  | [] => some none
  | (name, value) :: l =>
    if i + (name.2 - name.1) + 1 < num then
      match strncmp1 (input.drop (i + 1)) (src.drop name.1 ++ [0]) (some (name.2 - name.1)) with
      | none => none
      | some r =>
        if r = 0 then
          match input[i + (name.2 - name.1) + 1]? with
          | none => none
          | some c => if c = 59 then some (some (value, name.2 - name.1)) else findEntity src input num i l
        else findEntity src input num i l
    else findEntity src input num i l

/-- `replace_entities`, 1907-1933: `some none` if it throws. The fuel is never used up. -/
def replaceEntities (d : Doc) (input : List Int) (num : Nat) : Nat → Nat → List Int → Option (Option (List Int))
  | 0, _, _ => none
  | fuel + 1, i, out =>
    match Str.cond input (some num) i with
    | none => none
    | some none => some (some out)
    | some (some c) =>
      if c = 37 then
        match findEntity d.source input num i d.entities with
        | none => none
        | some none => some none
        | some (some (value, n)) => replaceEntities d input num fuel (i + n + 2) (out ++ value)
      else replaceEntities d input num fuel (i + 1) (out ++ [c])

/-- `replace_entities(source + iv.start, iv.size())` -/
def Doc.replace (d : Doc) (iv : Nat × Nat) : Option (Option (List Int)) := replaceEntities d (d.source.drop iv.1 ++ [0]) (iv.2 - iv.1) (iv.2 - iv.1 + 1) 0 []

/-- How a round of the loop of `append` ends: undefined behaviour or no end, an exception, `break`, or the next round. -/
inductive Step where
  | fault
  | throws (d : Doc)
  | stop (d : Doc)
  | go (d : Doc) (i : Nat)
deriving DecidableEq

/-- `next_char`, 1857-1862. -/
def nextChar (L : Lex) (d : Doc) (i : Nat) : Step :=
  match anyCu (L.env d.source d.source.length) i with
  | none => .fault
  | some none => .stop d
  | some (some (e, _)) => .go d e

/-- 1697-1710: the condition begins. -/
def beginCondition (d : Doc) (p : Part) : Step :=
  match d.replace p.1 with
  | none => .fault
  | some none => .throws d
  | some (some c) =>
    match says (c ++ [0]) c.length (asc "CDATA"), says (c ++ [0]) c.length (asc "RCDATA"), says (c ++ [0]) c.length (asc "IGNORE") with
    | some isC, some isR, some isI =>
      let d := if isC then { d with cdata := true } else if isR then { d with rcdata := true } else d
      let d := if d.invalid ≠ 0 then { d with invalid := d.invalid + 1 } else if isI then { d with invalid := d.invalid + 1 } else { d with valid := d.valid + 1 }
      .go { d with parsed := p.2.2 } p.2.2
    | _, _, _ => .fault

/-- `e->parent`, `m_element_stack` and the ends of the elements that the tag ends: 1747-1757. `k` is the position of the tag in the store. -/
def endOpen (code : Elem) (k : Nat) : List Node → List Nat → Option Nat → Option (List Node × List Nat × Option Nat)
  | nodes, [], parent => some (nodes, [], parent)
  | nodes, s :: stack, _ =>
    match nodes[s]? with
    | none => none
    | some n =>
      if mayContain n.code code then some (nodes, s :: stack, some s)
      else endOpen code k (nodes.set s { n with fin := some k }) stack n.parent

/-- The element is special, 1765-1773. -/
def isSpecialElement (e : Elem) : Bool := e == .code || e == .comment || e == .script || e == .style

/-- 1780-1786: whether there is `http-equiv="content-type"`, and the last `content`. -/
def metaAttrs (L : Lex) (src : List Int) : List Attr → Bool → Option Attr → Option (Bool × Option Attr)
  | [], b, c => some (b, c)
  | a :: l, b, c =>
    match L.saysIv src (some a.name) (asc "http-equiv"), L.saysIv src a.value (asc "content-type"), L.saysIv src (some a.name) (asc "content") with
    | some h, some t, some n => if h && t then metaAttrs L src l true c else if n then metaAttrs L src l b (some a) else metaAttrs L src l b c
    | _, _, _ => none

/-- 1777-1800: `m_charset`. -/
def metaCharset (L : Lex) (d : Doc) (code : Elem) (attrs : List Attr) : Option Nat :=
  if code = .«meta» ∧ d.charset = 0 then
    match metaAttrs L d.source attrs false none with
    | none => none
    | some (true, some a) =>
      match a.value with
      | none => some d.charset
      | some (x, y) =>
        match mime (L.env d.source y) x with
        | none => none
        | some none => some d.charset
        | some (some m) =>
          match m.charset with
          | none => some d.charset
          | some (p, q) => some (L.charsetOf (((d.source.drop p).take (q - p)).map L.C.wrap))
    | some _ => some d.charset
  else some d.charset

/-- 1759-1775, 1802: the element is added to the store, and put on the stack if it is open. -/
def Doc.addElement (d : Doc) (tag : Tag) (code : Elem) (parent : Option Nat) : Doc :=
  let n : Node := { kind := .element_start, iv := tag.interval, parent := parent, code := code, name := tag.name, attrs := tag.attrs }
  if tag.type = .element then d.push { n with kind := .element }
  else if span code = .immediate then d.push { n with fin := some d.nodes.length }
  else { d with stack := d.nodes.length :: d.stack, special := d.special || isSpecialElement code }.push n

/-- `<...>` and `<.../>`, 1739-1804. -/
def tagElement (L : Lex) (d : Doc) (tag : Tag) : Step :=
  match L.code d.source tag.name with
  | none => .fault
  | some code =>
    match endOpen code d.nodes.length d.nodes d.stack none with
    | none => .fault
    | some (nodes, stack, parent) =>
      match metaCharset L d code tag.attrs with
      | none => .fault
      | some charset => .go ({ d with nodes := nodes, stack := stack, charset := charset }.addElement tag code parent) tag.interval.2

/-- The search of the start, 1808-1820: its position in the store and the elements around it. -/
def findStart (L : Lex) (src : List Int) (code : Elem) (name : Nat × Nat) (nodes : List Node) : List Nat → Option (Option (Nat × Node × List Nat))
  | [] => some none
  | s :: stack =>
    match nodes[s]? with
    | none => none
    | some n =>
      if n.code = code then some (some (s, n, stack))
      else if n.code = .unknown ∧ code = .unknown then
        match strncmp2 (Str.tolower L.T) (Str.tolower L.T) (src.drop n.name.1 ++ [0]) (some (n.name.2 - n.name.1)) (src.drop name.1 ++ [0]) (some (name.2 - name.1)) with
        | none => none
        | some r => if r = 0 then some (some (s, n, stack)) else findStart L src code name nodes stack
      else findStart L src code name nodes stack

/-- `</...>`, 1805-1824. -/
def tagEnd (L : Lex) (d : Doc) (tag : Tag) : Step :=
  match L.code d.source tag.name with
  | none => .fault
  | some code =>
    match findStart L d.source code tag.name d.nodes d.stack with
    | none => .fault
    | some none => .go (d.push { kind := .element_end, iv := tag.interval, parent := d.active, code := code, name := tag.name }) tag.interval.2
    | some (some (s, n, stack)) =>
      .go ({ d with nodes := d.nodes.set s { n with fin := some d.nodes.length }, stack := stack }.push
        { kind := .element_end, iv := tag.interval, parent := n.parent, code := code, name := tag.name, beg := some s }) tag.interval.2

/-- `<!...>`, 1825-1842. -/
def tagDeclaration (L : Lex) (d : Doc) (tag : Tag) : Step :=
  let d' := d.push { kind := .declaration, iv := tag.interval, parent := d.active, name := tag.name, attrs := tag.attrs }
  match tag.attrs with
  | a0 :: a1 :: a2 :: a3 :: _ =>
    match L.saysIv d.source (some a0.name) (asc "entity"), says (d.source.drop a1.name.1 ++ [0]) (a1.name.2 - a1.name.1) (asc "%"),
        says (d.source.drop a3.name.1 ++ [0]) (a3.name.2 - a3.name.1) (asc "SYSTEM"), says (d.source.drop a3.name.1 ++ [0]) (a3.name.2 - a3.name.1) (asc "PUBLIC") with
    | some isE, some isP, some isS, some isU =>
      if isE && isP && !isS && !isU then
        match d.replace a3.name with
        | none => .fault
        | some none => .throws d
        | some (some value) => .go { d' with entities := d'.entities ++ [(a2.name, value)] } tag.interval.2
      else .go d' tag.interval.2
    | _, _, _, _ => .fault
  | _ => .go d' tag.interval.2

/-- The tag, 1734-1853. -/
def tagStep (L : Lex) (d : Doc) (i : Nat) (tag : Tag) : Step :=
  let d := { d.pushText i with parsed := tag.interval.2 }
  match tag.type with
  | .element => tagElement L d tag
  | .element_start => tagElement L d tag
  | .element_end => tagEnd L d tag
  | .declaration => tagDeclaration L d tag
  | .comment => .go (d.push { kind := .comment, iv := tag.interval, parent := d.active, name := tag.name }) tag.interval.2
  | .instruction => .go (d.push { kind := .instruction, iv := tag.interval, parent := d.active, name := tag.name }) tag.interval.2

/-- In a special element, 1714-1730: it ends with its end tag. -/
def specialStep (L : Lex) (d : Doc) (i : Nat) : Step :=
  match d.stack with
  | [] => .fault
  | s :: stack =>
    match d.nodes[s]?, htmlTag (L.env d.source d.source.length) i with
    | some n, some (some tag) =>
      if tag.type = .element_end then
        match L.code d.source tag.name with
        | none => .fault
        | some code =>
          if code = n.code then
            let d := { d.pushText i with parsed := tag.interval.2 }
            .go ({ d with nodes := d.nodes.set s { n with fin := some d.nodes.length }, stack := stack, special := false }.push
              { kind := .element_end, iv := tag.interval, parent := n.parent, code := code, name := tag.name, beg := some s }) tag.interval.2
          else nextChar L d i
      else nextChar L d i
    | some _, some none => nextChar L d i
    | _, _ => .fault

/-- 1713-1862: no condition begins or ends here. -/
def markupStep (L : Lex) (d : Doc) (i : Nat) : Step :=
  if d.special then specialStep L d i
  else
    match htmlTag (L.env d.source d.source.length) i with
    | none => .fault
    | some (some tag) => tagStep L d i tag
    | some none => nextChar L d i

/-- 1696-1862: no condition ends here. -/
def openStep (L : Lex) (d : Doc) (i : Nat) : Step :=
  match conditionStart (L.env d.source d.source.length) i with
  | none => .fault
  | some (some p) => beginCondition d p
  | some none => markupStep L d i

/-- A round of the loop, 1665-1862. -/
def docStep (L : Lex) (d : Doc) (i : Nat) : Step :=
  match conditionEnd (L.env d.source d.source.length) i with
  | none => .fault
  | some c =>
    if d.cdata || d.rcdata then
      match c with
      | some e => .go { d.push { kind := if d.cdata then .CDATA else .PCDATA, iv := (d.parsed, i), parent := d.active } with cdata := false, rcdata := false, parsed := e } e
      | none => nextChar L d i
    else if d.invalid ≠ 0 then
      match c with
      | some e => .go { d with invalid := d.invalid - 1, parsed := e } e
      | none => nextChar L d i
    else
      match c with
      | some e => if d.valid ≠ 0 then .go { d.pushText i with valid := d.valid - 1, parsed := e } e else openStep L d i
      | none => openStep L d i

/-- How `append` ends. -/
inductive Result where
  | fault
  | throws (d : Doc)
  | done (d : Doc)
deriving DecidableEq

/-- The loop, 1664-1863. The fuel is not used up, unless there is no end to it. -/
def docLoop (L : Lex) : Nat → Doc → Nat → Result
  | 0, _, _ => .fault
  | fuel + 1, d, i =>
    if i < d.source.length then
      match docStep L d i with
      | .fault => .fault
      | .throws d' => .throws d'
      | .stop d' => .done d'
      | .go d' i' => docLoop L fuel d' i'
    else .done d

/-- `append`, 1657-1864: `more` is the text that `strnlen` leaves. -/
def Doc.append (L : Lex) (d : Doc) (more : List Int) : Result :=
  docLoop L ((d.source ++ more).length + 1) { d with source := d.source ++ more } d.parsed

/-- `finalize`, 1869-1876. -/
def Doc.finalize (d : Doc) : Doc := { d.pushText d.source.length with parsed := d.source.length, stack := [] }

/-- `clear`, 1636-1652. -/
def Doc.clear (d : Doc) : Doc :=
  { d with source := [], parsed := 0, charset := 0, valid := 0, invalid := 0, cdata := false, rcdata := false, entities := [], nodes := [], stack := [], special := false }

/-- `assign`, 1881-1886. -/
def Doc.assign (L : Lex) (d : Doc) (src : List Int) : Result :=
  match d.clear.append L src with
  | .done d' => .done d'.finalize
  | r => r

end Verif.Html
