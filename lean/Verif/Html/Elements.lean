import Verif.Str.Compare
import Verif.Str.Trim
import Verif.Str.Char
import Verif.Sgml.Decode
/-
HTML elements: `element_t`, `element_traits`, `element::element_code` of include/stdex/html.hpp (561-1500).
-/
namespace Verif.Html
open Verif.Str Verif.Sgml

set_option maxRecDepth 20000

/-! ### Model -/

/-- `element_t`, html.hpp 561-672, in the order of the enumeration. -/
inductive Elem where
  | empty | a | abbr | acronym | address | applet | area | b | base | basefont | bdo | bgsound
  | big | blink | blockquote | body | br | button | caption | center | cite | code | col | colgroup
  | comment | dd | del | dfn | dir | div | dl | dt | em | embed | fieldset | font
  | form | frame | frameset | h1 | h2 | h3 | h4 | h5 | h6 | head | hr | html
  | i | iframe | img | input | ins | isindex | kbd | label | legend | li | link | listing
  | map | marquee | menu | «meta» | nextid | nobr | noembed | noframes | noscript | object | ol | optgroup
  | option | p | param | plaintext | pre | q | rt | ruby | s | samp | script | select
  | small | span | strike | strong | style | sub | sup | table | tbody | td | textarea | tfoot
  | th | thead | title | tr | tt | u | ul | var | wbr | xmp | unknown | PCDATA
  | CDATA
deriving DecidableEq, Repr

/-- `element_span_t`, html.hpp 677-681. -/
inductive Span where
  | needs_end | end_optional | immediate
deriving DecidableEq, Repr

/-- The elements from `a` to `xmp`, in the order of the enumeration, html.hpp 563-667: what `code - element_t::a` indexes. -/
def elements : List Elem := [
  .a, .abbr, .acronym, .address, .applet, .area, .b, .base, .basefont, .bdo, .bgsound, .big,
  .blink, .blockquote, .body, .br, .button, .caption, .center, .cite, .code, .col, .colgroup, .comment,
  .dd, .del, .dfn, .dir, .div, .dl, .dt, .em, .embed, .fieldset, .font, .form,
  .frame, .frameset, .h1, .h2, .h3, .h4, .h5, .h6, .head, .hr, .html, .i,
  .iframe, .img, .input, .ins, .isindex, .kbd, .label, .legend, .li, .link, .listing, .map,
  .marquee, .menu, .«meta», .nextid, .nobr, .noembed, .noframes, .noscript, .object, .ol, .optgroup, .option,
  .p, .param, .plaintext, .pre, .q, .rt, .ruby, .s, .samp, .script, .select, .small,
  .span, .strike, .strong, .style, .sub, .sup, .table, .tbody, .td, .textarea, .tfoot, .th,
  .thead, .title, .tr, .tt, .u, .ul, .var, .wbr, .xmp]

/-- The table of `span`, html.hpp 695-801. -/
def spanTable : List Span := [
  .needs_end, .needs_end, .needs_end, .needs_end, .needs_end, .immediate, .needs_end, .immediate,
  .immediate, .needs_end, .immediate, .needs_end, .needs_end, .needs_end, .end_optional, .immediate,
  .needs_end, .needs_end, .needs_end, .needs_end, .needs_end, .immediate, .end_optional, .needs_end,
  .end_optional, .needs_end, .needs_end, .needs_end, .needs_end, .needs_end, .end_optional, .needs_end,
  .immediate, .needs_end, .needs_end, .needs_end, .immediate, .needs_end, .needs_end, .needs_end,
  .needs_end, .needs_end, .needs_end, .needs_end, .end_optional, .immediate, .end_optional, .needs_end,
  .needs_end, .immediate, .immediate, .needs_end, .immediate, .needs_end, .needs_end, .needs_end,
  .end_optional, .immediate, .needs_end, .needs_end, .needs_end, .needs_end, .immediate, .immediate,
  .needs_end, .needs_end, .needs_end, .needs_end, .needs_end, .needs_end, .needs_end, .end_optional,
  .end_optional, .immediate, .end_optional, .needs_end, .needs_end, .immediate, .needs_end, .needs_end,
  .needs_end, .needs_end, .needs_end, .needs_end, .needs_end, .needs_end, .needs_end, .needs_end,
  .needs_end, .needs_end, .needs_end, .end_optional, .end_optional, .needs_end, .end_optional, .end_optional,
  .end_optional, .needs_end, .end_optional, .needs_end, .needs_end, .needs_end, .needs_end, .immediate,
  .needs_end]

/-- `static_cast<size_t>(code) - static_cast<size_t>(element_t::a)`, if the code is between `a` and `xmp`: html.hpp 802-803. -/
def Elem.index (e : Elem) : Option Nat := elements.findIdx? (fun x => x = e)

/-- `element_traits::span`, html.hpp 693-805. -/
def span (e : Elem) : Span :=
  match e.index with
  | some k => (spanTable[k]?).getD .needs_end
  | none => .needs_end

/-- `is_fontstyle`, html.hpp 812-828. -/
def isFontstyle (e : Elem) : Bool :=
  match e with
  | .tt | .i | .b | .u | .s | .strike | .blink | .big | .small => true
  | _ => false

/-- `is_phrase`, html.hpp 835-853. -/
def isPhrase (e : Elem) : Bool :=
  match e with
  | .em | .strong | .dfn | .code | .samp | .kbd | .var | .cite | .abbr | .acronym | .xmp => true
  | _ => false

/-- `is_special`, html.hpp 860-887. -/
def isSpecial (e : Elem) : Bool :=
  match e with
  | .a | .img | .applet | .object | .embed | .font | .basefont | .br | .wbr | .rt | .script | .map | .q | .sub | .sup | .ruby | .span | .bdo | .iframe | .nobr => true
  | _ => false

/-- `is_formctrl`, html.hpp 894-906. -/
def isFormctrl (e : Elem) : Bool :=
  match e with
  | .input | .select | .textarea | .label | .button => true
  | _ => false

/-- `is_heading`, html.hpp 928-941. -/
def isHeading (e : Elem) : Bool :=
  match e with
  | .h1 | .h2 | .h3 | .h4 | .h5 | .h6 => true
  | _ => false

/-- `is_list`, html.hpp 948-959. -/
def isList (e : Elem) : Bool :=
  match e with
  | .ul | .ol | .dir | .menu => true
  | _ => false

/-- `is_preformatted`, html.hpp 966-975. -/
def isPreformatted (e : Elem) : Bool :=
  match e with
  | .pre | .listing => true
  | _ => false

/-- `is_head_content`, html.hpp 1024-1035. -/
def isHeadContent (e : Elem) : Bool :=
  match e with
  | .title | .isindex | .base | .nextid => true
  | _ => false

/-- `is_head_misc`, html.hpp 1042-1054. -/
def isHeadMisc (e : Elem) : Bool :=
  match e with
  | .script | .style | .«meta» | .link | .object => true
  | _ => false

/-- `is_pre_exclusion`, html.hpp 1061-1080. -/
def isPreExclusion (e : Elem) : Bool :=
  match e with
  | .img | .object | .applet | .embed | .big | .small | .sub | .sup | .ruby | .font | .basefont | .nobr => true
  | _ => false

/-- `is_html_content`, html.hpp 1087-1097. -/
def isHtmlContent (e : Elem) : Bool :=
  match e with
  | .head | .body | .frameset => true
  | _ => false

/-- `is_inline`, html.hpp 913-921. -/
def isInline (e : Elem) : Bool := e == .PCDATA || isFontstyle e || isPhrase e || isSpecial e || isFormctrl e

/-- `is_block`, html.hpp 982-1007. -/
def isBlock (e : Elem) : Bool :=
  isHeading e || isList e || isPreformatted e ||
  match e with
  | .p | .dl | .div | .center | .marquee | .noscript | .noframes | .noembed | .blockquote | .form | .isindex | .hr | .table | .fieldset | .address => true
  | _ => false

/-- `is_flow`, html.hpp 1014-1017. -/
def isFlow (e : Elem) : Bool := isBlock e || isInline e

/-- `is_group`, html.hpp 1104-1125. -/
def isGroup (e : Elem) : Bool :=
  isBlock e || isHtmlContent e || isHeadContent e ||
  match e with
  | .col | .colgroup | .dd | .dir | .dt | .frame | .iframe | .legend | .td | .th | .tr => true
  | _ => false

/-- `may_contain`, html.hpp 1135-1225. -/
def mayContain (parent child : Elem) : Bool :=
  if child = .unknown ∨ child = .comment then true
  else if isFontstyle parent || isPhrase parent then isInline child
  else if isHeading parent then isInline child
  else match parent with
  | .a => isInline child && (child != .a)
  | .address => isInline child || (child == .p)
  | .applet => isFlow child || (child == .param)
  | .area => false
  | .base => false
  | .basefont => false
  | .bdo => isInline child
  | .blockquote => isFlow child
  | .body => isFlow child || (child == .ins) || (child == .del)
  | .br => false
  | .button => isFlow child && !isFormctrl child && (child != .a) && (child != .form) && (child != .isindex) && (child != .fieldset) && (child != .iframe)
  | .caption => isInline child
  | .center => isFlow child
  | .col => false
  | .colgroup => (child == .col)
  | .comment => (child == .CDATA)
  | .dd => isFlow child
  | .del => isFlow child
  | .dir => (child == .li)
  | .div => isFlow child
  | .dl => (child == .dt) || (child == .dd)
  | .dt => isInline child
  | .embed => isFlow child || (child == .param)
  | .fieldset => isFlow child || (child == .legend) || (child == .PCDATA)
  | .font => isInline child
  | .form => isFlow child && (child != .form)
  | .frame => false
  | .frameset => (child == .frameset) || (child == .frame) || (child == .noframes)
  | .head => isHeadContent child || isHeadMisc child
  | .hr => false
  | .html => isHtmlContent child
  | .iframe => isFlow child
  | .img => false
  | .input => false
  | .ins => isFlow child
  | .isindex => false
  | .label => isInline child && (child != .label)
  | .legend => isInline child
  | .li => isFlow child
  | .link => false
  | .listing => (child == .CDATA)
  | .map => isBlock child || (child == .area)
  | .marquee => isFlow child
  | .menu => (child == .li)
  | .«meta» => false
  | .nobr => isInline child || (child == .wbr)
  | .noframes => (isFlow child || (child == .body)) && (child != .noframes)
  | .noscript => isFlow child
  | .noembed => isFlow child
  | .object => isFlow child || (child == .param)
  | .ol => (child == .li)
  | .optgroup => (child == .option)
  | .option => (child == .PCDATA)
  | .p => isInline child
  | .param => false
  | .plaintext => isFlow child
  | .pre => isInline child && !isPreExclusion child
  | .q => isInline child
  | .rt => false
  | .ruby => isInline child
  | .script => (child == .CDATA)
  | .select => (child == .optgroup) || (child == .option)
  | .span => isInline child
  | .style => (child == .CDATA)
  | .sub => isInline child
  | .sup => isInline child
  | .table => (child == .caption) || (child == .col) || (child == .colgroup) || (child == .thead) || (child == .tfoot) || (child == .tbody)
  | .tbody => (child == .tr)
  | .td => isFlow child
  | .textarea => (child == .PCDATA)
  | .tfoot => (child == .tr)
  | .th => isFlow child
  | .thead => (child == .tr)
  | .title => (child == .PCDATA)
  | .tr => (child == .td) || (child == .th)
  | .ul => (child == .li)
  | .wbr => false
  | .unknown => true
  | _ => false

/-- The table of `element_code`, html.hpp 1348-1457. -/
def mapping : List (List Int × Elem) := [
  ([97], .a),
  ([97, 98, 98, 114], .abbr),
  ([97, 99, 114, 111, 110, 121, 109], .acronym),
  ([97, 100, 100, 114, 101, 115, 115], .address),
  ([97, 112, 112, 108, 101, 116], .applet),
  ([97, 114, 101, 97], .area),
  ([98], .b),
  ([98, 97, 115, 101], .base),
  ([98, 97, 115, 101, 102, 111, 110, 116], .basefont),
  ([98, 100, 111], .bdo),
  ([98, 103, 115, 111, 117, 110, 100], .bgsound),
  ([98, 105, 103], .big),
  ([98, 108, 105, 110, 107], .blink),
  ([98, 108, 111, 99, 107, 113, 117, 111, 116, 101], .blockquote),
  ([98, 111, 100, 121], .body),
  ([98, 114], .br),
  ([98, 117, 116, 116, 111, 110], .button),
  ([99, 97, 112, 116, 105, 111, 110], .caption),
  ([99, 101, 110, 116, 101, 114], .center),
  ([99, 105, 116, 101], .cite),
  ([99, 111, 100, 101], .code),
  ([99, 111, 108], .col),
  ([99, 111, 108, 103, 114, 111, 117, 112], .colgroup),
  ([99, 111, 109, 109, 101, 110, 116], .comment),
  ([100, 100], .dd),
  ([100, 101, 108], .del),
  ([100, 102, 110], .dfn),
  ([100, 105, 114], .dir),
  ([100, 105, 118], .div),
  ([100, 108], .dl),
  ([100, 116], .dt),
  ([101, 109], .em),
  ([101, 109, 98, 101, 100], .embed),
  ([102, 105, 101, 108, 100, 115, 101, 116], .fieldset),
  ([102, 111, 110, 116], .font),
  ([102, 111, 114, 109], .form),
  ([102, 114, 97, 109, 101], .frame),
  ([102, 114, 97, 109, 101, 115, 101, 116], .frameset),
  ([104, 49], .h1),
  ([104, 50], .h2),
  ([104, 51], .h3),
  ([104, 52], .h4),
  ([104, 53], .h5),
  ([104, 54], .h6),
  ([104, 101, 97, 100], .head),
  ([104, 114], .hr),
  ([104, 116, 109, 108], .html),
  ([105], .i),
  ([105, 102, 114, 97, 109, 101], .iframe),
  ([105, 109, 103], .img),
  ([105, 110, 112, 117, 116], .input),
  ([105, 110, 115], .ins),
  ([105, 115, 105, 110, 100, 101, 120], .isindex),
  ([107, 98, 100], .kbd),
  ([108, 97, 98, 101, 108], .label),
  ([108, 101, 103, 101, 110, 100], .legend),
  ([108, 105], .li),
  ([108, 105, 110, 107], .link),
  ([108, 105, 115, 116, 105, 110, 103], .listing),
  ([109, 97, 112], .map),
  ([109, 97, 114, 113, 117, 101, 101], .marquee),
  ([109, 101, 110, 117], .menu),
  ([109, 101, 116, 97], .«meta»),
  ([110, 101, 120, 116, 105, 100], .nextid),
  ([110, 111, 98, 114], .nobr),
  ([110, 111, 101, 109, 98, 101, 100], .noembed),
  ([110, 111, 102, 114, 97, 109, 101, 115], .noframes),
  ([110, 111, 115, 99, 114, 105, 112, 116], .noscript),
  ([111, 98, 106, 101, 99, 116], .object),
  ([111, 108], .ol),
  ([111, 112, 116, 103, 114, 111, 117, 112], .optgroup),
  ([111, 112, 116, 105, 111, 110], .option),
  ([112], .p),
  ([112, 97, 114, 97, 109], .param),
  ([112, 108, 97, 105, 110, 116, 101, 120, 116], .plaintext),
  ([112, 114, 101], .pre),
  ([113], .q),
  ([114, 116], .rt),
  ([114, 117, 98, 121], .ruby),
  ([115], .s),
  ([115, 97, 109, 112], .samp),
  ([115, 99, 114, 105, 112, 116], .script),
  ([115, 101, 108, 101, 99, 116], .select),
  ([115, 109, 97, 108, 108], .small),
  ([115, 112, 97, 110], .span),
  ([115, 116, 114, 105, 107, 101], .strike),
  ([115, 116, 114, 111, 110, 103], .strong),
  ([115, 116, 121, 108, 101], .style),
  ([115, 117, 98], .sub),
  ([115, 117, 112], .sup),
  ([116, 97, 98, 108, 101], .table),
  ([116, 98, 111, 100, 121], .tbody),
  ([116, 100], .td),
  ([116, 101, 120, 116, 97, 114, 101, 97], .textarea),
  ([116, 102, 111, 111, 116], .tfoot),
  ([116, 104], .th),
  ([116, 104, 101, 97, 100], .thead),
  ([116, 105, 116, 108, 101], .title),
  ([116, 114], .tr),
  ([116, 116], .tt),
  ([117], .u),
  ([117, 108], .ul),
  ([118, 97, 114], .var),
  ([119, 98, 114], .wbr),
  ([120, 109, 112], .xmp)]

/-- The comparison of a table name with the text, html.hpp 1470-1490. Names are compared from their character `i1`; `i2` is the same index. `char` is signed, or not: `C`; `T` is the type of the
characters. The conversion of `tolower` to `char` truncates. -/
def cmpName (T C : CT) (s : List Int) (count : Nat) : List Int → Nat → Option Int
  | [], i => (Str.cond s (some count) i).map fun c => if c.isNone then 0 else -1
  | x :: n, i =>
    match Str.cond s (some count) i with
    | none => none
    | some none => some 1
    | some (some c) =>
      let chr := C.wrap (Str.tolower T c)
      if x > chr then some 1
      else if x < chr then some (-1)
      else cmpName T C s count n (i + 1)

/-- The binary search, html.hpp 1467-1499. -/
def codeSearch (T C : CT) (s : List Int) (count i j : Nat) : Option Elem :=
  if h : i < j then
    match mapping[(i + j) / 2]? with
    | none => none
    | some (n, e) =>
      match cmpName T C s count n 0 with
      | none => none
      | some r =>
        if r < 0 then codeSearch T C s count ((i + j) / 2 + 1) j
        else if r > 0 then codeSearch T C s count i ((i + j) / 2)
        else some e
  else some .unknown
termination_by j - i
decreasing_by all_goals omega

/-- `element::element_code`, html.hpp 1346-1500. -/
def elementCode (T C : CT) (s : List Int) (count : Nat) : Option Elem := codeSearch T C s count 0 mapping.length

/-- `strnicmp(attr_name, num_chars, w, SIZE_MAX) == 0`, where `w` is a literal. -/
def saysI (T C : CT) (s : List Int) (count : Nat) (w : List Int) : Option Bool :=
  (strncmp2 (Str.tolower T) (Str.tolower C) s (some count) (w ++ [0]) (some (2 ^ 64 - 1))).map fun r => r == 0

/-- `||` of such comparisons. -/
def saysAny (T C : CT) (s : List Int) (count : Nat) : List (List Int) → Option Bool
  | [] => some false
  | w :: ws => (saysI T C s count w).bind fun b => if b then some true else saysAny T C s count ws

/-- The cases of `is_uri`, html.hpp 1238-1279. -/
def uriAttrs (e : Elem) : List (List Int) :=
  match e with
  | .a => [[104, 114, 101, 102]]
  | .applet => [[99, 111, 100, 101], [99, 111, 100, 101, 98, 97, 115, 101], [115, 114, 99]]
  | .area => [[104, 114, 101, 102]]
  | .base => [[104, 114, 101, 102]]
  | .bgsound => [[115, 114, 99]]
  | .blockquote => [[99, 105, 116, 101]]
  | .body => [[98, 97, 99, 107, 103, 114, 111, 117, 110, 100]]
  | .comment => [[100, 97, 116, 97]]
  | .del => [[99, 105, 116, 101]]
  | .embed => [[112, 108, 117, 103, 105, 110, 115, 112, 97, 103, 101], [115, 114, 99]]
  | .form => [[97, 99, 116, 105, 111, 110]]
  | .frame => [[108, 111, 110, 103, 100, 101, 115, 99], [115, 114, 99]]
  | .head => [[112, 114, 111, 102, 105, 108, 101]]
  | .iframe => [[108, 111, 110, 103, 100, 101, 115, 99], [115, 114, 99]]
  | .img => [[108, 111, 110, 103, 100, 101, 115, 99], [108, 111, 119, 115, 114, 99], [115, 114, 99], [117, 115, 101, 109, 97, 112]]
  | .input => [[108, 111, 119, 115, 114, 99], [115, 114, 99], [117, 115, 101, 109, 97, 112]]
  | .ins => [[99, 105, 116, 101]]
  | .link => [[104, 114, 101, 102]]
  | .object => [[98, 97, 115, 101, 104, 114, 101, 102], [99, 108, 97, 115, 115, 105, 100], [99, 111, 100, 101], [99, 111, 100, 101, 98, 97, 115, 101], [100, 97, 116, 97], [117, 115, 101, 109, 97, 112]]
  | .q => [[99, 105, 116, 101]]
  | .script => [[115, 114, 99]]
  | .table => [[98, 97, 99, 107, 103, 114, 111, 117, 110, 100]]
  | .td => [[98, 97, 99, 107, 103, 114, 111, 117, 110, 100]]
  | .th => [[98, 97, 99, 107, 103, 114, 111, 117, 110, 100]]
  | _ => []

/-- `is_uri`, html.hpp 1235-1280. -/
def isUri (T C : CT) (e : Elem) (s : List Int) (count : Nat) : Option Bool := saysAny T C s count (uriAttrs e)

/-- The cases of `is_localizable`, html.hpp 1295-1305. -/
def localizableAttrs (e : Elem) : List (List Int) :=
  match e with
  | .applet => [[97, 108, 116]]
  | .area => [[97, 108, 116]]
  | .img => [[97, 108, 116]]
  | .input => [[97, 108, 116]]
  | .object => [[97, 108, 116]]
  | .table => [[115, 117, 109, 109, 97, 114, 121]]
  | .td => [[97, 98, 98, 114]]
  | .th => [[97, 98, 98, 114]]
  | _ => []

/-- `is_localizable`, html.hpp 1290-1306. -/
def isLocalizable (T C : CT) (e : Elem) (s : List Int) (count : Nat) : Option Bool := saysAny T C s count ([116, 105, 116, 108, 101] :: localizableAttrs e)

/-! ### Specification -/

/-- The name of an element of HTML, as it is spelled. -/
def Elem.spelled (e : Elem) : Option String :=
  match e with
  | .a => some "a"
  | .abbr => some "abbr"
  | .acronym => some "acronym"
  | .address => some "address"
  | .applet => some "applet"
  | .area => some "area"
  | .b => some "b"
  | .base => some "base"
  | .basefont => some "basefont"
  | .bdo => some "bdo"
  | .bgsound => some "bgsound"
  | .big => some "big"
  | .blink => some "blink"
  | .blockquote => some "blockquote"
  | .body => some "body"
  | .br => some "br"
  | .button => some "button"
  | .caption => some "caption"
  | .center => some "center"
  | .cite => some "cite"
  | .code => some "code"
  | .col => some "col"
  | .colgroup => some "colgroup"
  | .comment => some "comment"
  | .dd => some "dd"
  | .del => some "del"
  | .dfn => some "dfn"
  | .dir => some "dir"
  | .div => some "div"
  | .dl => some "dl"
  | .dt => some "dt"
  | .em => some "em"
  | .embed => some "embed"
  | .fieldset => some "fieldset"
  | .font => some "font"
  | .form => some "form"
  | .frame => some "frame"
  | .frameset => some "frameset"
  | .h1 => some "h1"
  | .h2 => some "h2"
  | .h3 => some "h3"
  | .h4 => some "h4"
  | .h5 => some "h5"
  | .h6 => some "h6"
  | .head => some "head"
  | .hr => some "hr"
  | .html => some "html"
  | .i => some "i"
  | .iframe => some "iframe"
  | .img => some "img"
  | .input => some "input"
  | .ins => some "ins"
  | .isindex => some "isindex"
  | .kbd => some "kbd"
  | .label => some "label"
  | .legend => some "legend"
  | .li => some "li"
  | .link => some "link"
  | .listing => some "listing"
  | .map => some "map"
  | .marquee => some "marquee"
  | .menu => some "menu"
  | .«meta» => some "meta"
  | .nextid => some "nextid"
  | .nobr => some "nobr"
  | .noembed => some "noembed"
  | .noframes => some "noframes"
  | .noscript => some "noscript"
  | .object => some "object"
  | .ol => some "ol"
  | .optgroup => some "optgroup"
  | .option => some "option"
  | .p => some "p"
  | .param => some "param"
  | .plaintext => some "plaintext"
  | .pre => some "pre"
  | .q => some "q"
  | .rt => some "rt"
  | .ruby => some "ruby"
  | .s => some "s"
  | .samp => some "samp"
  | .script => some "script"
  | .select => some "select"
  | .small => some "small"
  | .span => some "span"
  | .strike => some "strike"
  | .strong => some "strong"
  | .style => some "style"
  | .sub => some "sub"
  | .sup => some "sup"
  | .table => some "table"
  | .tbody => some "tbody"
  | .td => some "td"
  | .textarea => some "textarea"
  | .tfoot => some "tfoot"
  | .th => some "th"
  | .thead => some "thead"
  | .title => some "title"
  | .tr => some "tr"
  | .tt => some "tt"
  | .u => some "u"
  | .ul => some "ul"
  | .var => some "var"
  | .wbr => some "wbr"
  | .xmp => some "xmp"
  | .empty | .unknown | .PCDATA | .CDATA => none

/-- The elements without an end tag. -/
def voidElements : List String := ["area", "base", "basefont", "bgsound", "br", "col", "embed", "frame", "hr", "img", "input", "isindex", "link", "meta", "nextid", "param", "rt", "wbr"]

/-- The elements whose end tag may be left out. -/
def openElements : List String := ["body", "colgroup", "dd", "dt", "head", "html", "li", "option", "p", "plaintext", "tbody", "td", "tfoot", "th", "thead", "tr"]

/-- The attributes that are URIs. -/
def uriSpec : List (String × String) := [
  ("a", "href"), ("applet", "code"), ("applet", "codebase"), ("applet", "src"), ("area", "href"), ("base", "href"), ("bgsound", "src"), ("blockquote", "cite"),
  ("body", "background"), ("comment", "data"), ("del", "cite"), ("embed", "pluginspage"), ("embed", "src"), ("form", "action"), ("frame", "longdesc"), ("frame", "src"),
  ("head", "profile"), ("iframe", "longdesc"), ("iframe", "src"), ("img", "longdesc"), ("img", "lowsrc"), ("img", "src"), ("img", "usemap"), ("input", "lowsrc"),
  ("input", "src"), ("input", "usemap"), ("ins", "cite"), ("link", "href"), ("object", "basehref"), ("object", "classid"), ("object", "code"), ("object", "codebase"),
  ("object", "data"), ("object", "usemap"), ("q", "cite"), ("script", "src"), ("table", "background"), ("td", "background"), ("th", "background")]

/-- The attributes, beside `title`, that are text for the reader. -/
def textSpec : List (String × String) := [
  ("applet", "alt"), ("area", "alt"), ("img", "alt"), ("input", "alt"), ("object", "alt"), ("table", "summary"), ("td", "abbr"), ("th", "abbr")]

/-- The text is the name of the element, in any case. -/
def Names (t : List Int) (e : Elem) : Prop := ∃ n, e.spelled = some n ∧ t.map lowerSpec = asc n

/-! ### Proofs -/

theorem elem_all (e : Elem) : e ∈ .empty :: .unknown :: .PCDATA :: .CDATA :: elements := by
  cases e <;> decide +kernel

/-- A statement on all elements that a list decides. -/
theorem elem_forall {p : Elem → Bool} (h : (.empty :: .unknown :: .PCDATA :: .CDATA :: elements).all p = true) (e : Elem) : p e = true := List.all_eq_true.1 h e (elem_all e)

theorem wrap_has {C : CT} (hC : C.bits = 8) {c : Int} (h : C.has c) : C.wrap c = c := by
  unfold CT.has at h
  unfold CT.wrap
  rw [hC] at h ⊢
  by_cases s : C.signed = true
  · rw [if_pos s] at h ⊢
    rw [Int.bmod_eq_of_le] <;> omega
  · rw [if_neg s] at h ⊢
    exact Int.emod_eq_of_lt h.1 h.2

theorem has_lower {C : CT} (hC : C.bits = 8) {c : Int} (h : C.has c) : C.has (lowerSpec c) := by
  unfold lowerSpec
  split
  · unfold CT.has
    rw [hC]
    split <;> omega
  · exact h

theorem cmpName_eq {T C : CT} (hT : 8 ≤ T.bits) (hC : C.bits = 8) {s : List Int} {count : Nat} (hv : Valid s (some count)) (hc : ∀ c ∈ text s (some count), C.has c) :
    ∀ (n : List Int) (i : Nat), i ≤ (text s (some count)).length → cmpName T C s count n i = some (cmpL n (((text s (some count)).drop i).map lowerSpec))
  | [], i, hi => by
    rw [cmpName, cond_eq hv hi, drop_get]
    cases (text s (some count))[i]? <;> rfl
  | x :: n, i, hi => by
    rw [cmpName, cond_eq hv hi, drop_get]
    cases he : (text s (some count))[i]? with
    | none => rfl
    | some c =>
      have hl := (List.getElem?_eq_some_iff.1 he).1
      have hm : c ∈ text s (some count) := List.mem_of_getElem? he
      dsimp only
      rw [tolower_spec T hT, wrap_has hC (has_lower hC (hc c hm)), List.map_cons, cmpL, cmpName_eq hT hC hv hc n (i + 1) (by omega)]
      by_cases h1 : x > lowerSpec c
      · rw [if_pos h1, if_pos h1]
      · rw [if_neg h1, if_neg h1]
        by_cases h2 : x < lowerSpec c
        · rw [if_pos h2, if_pos h2]
        · rw [if_neg h2, if_neg h2]

theorem cmpL_lt {a b : List Int} : cmpL a b < 0 ↔ a < b := by
  rcases cmpL_sgn a b with ⟨e, h⟩ | ⟨e, h⟩ | ⟨e, h⟩ <;> rw [e]
  · simp [h]
  · subst h; simp [List.lt_irrefl]
  · simp [List.lt_asymm h]

theorem cmpL_gt {a b : List Int} : 0 < cmpL a b ↔ b < a := by
  rcases cmpL_sgn a b with ⟨e, h⟩ | ⟨e, h⟩ | ⟨e, h⟩ <;> rw [e]
  · simp [List.lt_asymm h]
  · subst h; simp [List.lt_irrefl]
  · simp [h]

/-- Sorted, strictly. -/
def increasing : List (List Int) → Bool
  | a :: b :: l => decide (cmpL a b < 0) && increasing (b :: l)
  | _ => true

theorem increasing_get : ∀ (l : List (List Int)), increasing l = true → ∀ (i j : Nat) (a b : List Int), i < j → l[i]? = some a → l[j]? = some b → a < b
  | [], _, i, j, a, b, _, h, _ => by cases h
  | [x], _, i, j, a, b, hij, _, h => by
    cases j with
    | zero => omega
    | succ j => cases h
  | x :: y :: l, hs, i, j, a, b, hij, h1, h2 => by
    simp only [increasing, Bool.and_eq_true, decide_eq_true_eq] at hs
    cases j with
    | zero => omega
    | succ j =>
      have ih := increasing_get (y :: l) hs.2
      cases i with
      | succ i => exact ih i j a b (by omega) h1 h2
      | zero =>
        injection h1 with h1
        subst h1
        have hxy := cmpL_lt.1 hs.1
        cases j with
        | zero => injection h2 with h2; subst h2; exact hxy
        | succ j => exact List.lt_trans hxy (ih 0 (j + 1) y b (by omega) rfl h2)

theorem mapping_sorted : increasing (mapping.map Prod.fst) = true := by decide +kernel

theorem codeSearch_spec {T C : CT} (hT : 8 ≤ T.bits) (hC : C.bits = 8) {s : List Int} {count : Nat} (hv : Valid s (some count)) (hc : ∀ c ∈ text s (some count), C.has c) :
    ∀ (d i j : Nat), j - i ≤ d → j ≤ mapping.length →
      (∀ k n e, k < i → mapping[k]? = some (n, e) → n ≠ (text s (some count)).map lowerSpec) → (∀ k n e, j ≤ k → mapping[k]? = some (n, e) → n ≠ (text s (some count)).map lowerSpec) →
      ∃ r, codeSearch T C s count i j = some r ∧ (((text s (some count)).map lowerSpec, r) ∈ mapping ∨ (r = .unknown ∧ ∀ n e, (n, e) ∈ mapping → n ≠ (text s (some count)).map lowerSpec)) := by
  intro d
  have done : ∀ i j, ¬ i < j → (∀ k n e, k < i → mapping[k]? = some (n, e) → n ≠ (text s (some count)).map lowerSpec) → (∀ k n e, j ≤ k → mapping[k]? = some (n, e) → n ≠ (text s (some count)).map lowerSpec) →
      ∃ r, codeSearch T C s count i j = some r ∧ (((text s (some count)).map lowerSpec, r) ∈ mapping ∨ (r = .unknown ∧ ∀ n e, (n, e) ∈ mapping → n ≠ (text s (some count)).map lowerSpec)) := by
    intro i j h h1 h2
    refine ⟨.unknown, by rw [codeSearch, dif_neg h], Or.inr ⟨rfl, ?_⟩⟩
    intro n e hm
    obtain ⟨k, hk⟩ := List.mem_iff_getElem?.1 hm
    by_cases q : k < i
    · exact h1 k n e q hk
    · exact h2 k n e (by omega) hk
  induction d with
  | zero => intro i j hd hj h1 h2; exact done i j (by omega) h1 h2
  | succ d ih =>
    intro i j hd hj h1 h2
    by_cases hij : i < j
    · have hm : (i + j) / 2 < mapping.length := by omega
      have hg := List.getElem?_eq_getElem hm
      generalize hx : mapping[(i + j) / 2] = x at hg
      obtain ⟨n, e⟩ := x
      have names : ∀ (k : Nat) (n' : List Int) (e' : Elem), mapping[k]? = some (n', e') → (mapping.map Prod.fst)[k]? = some n' := by
        intro k n' e' h; rw [List.getElem?_map, h]; rfl
      rw [codeSearch, dif_pos hij, hg]
      dsimp only
      rw [cmpName_eq hT hC hv hc n 0 (Nat.zero_le _), List.drop_zero]
      dsimp only
      generalize hk : (text s (some count)).map lowerSpec = key at h1 h2 ⊢
      by_cases r1 : cmpL n key < 0
      · rw [if_pos r1]
        have := ih ((i + j) / 2 + 1) j (by omega) hj (fun k n' e' hkm hg' e => by
          rw [hk] at e
          have hlt : n' < key := by
            by_cases q : k = (i + j) / 2
            · rw [q, hg] at hg'; cases hg'; exact cmpL_lt.1 r1
            · exact List.lt_trans (increasing_get _ mapping_sorted k ((i + j) / 2) n' n (by omega) (names _ _ _ hg') (names _ _ _ hg)) (cmpL_lt.1 r1)
          rw [e] at hlt
          exact List.lt_irrefl _ hlt) (fun k n' e' hkm hg' e => h2 k n' e' hkm hg' (by rw [hk] at e; exact e))
        rw [hk] at this
        exact this
      · rw [if_neg r1]
        by_cases r2 : cmpL n key > 0
        · rw [if_pos r2]
          have := ih i ((i + j) / 2) (by omega) (by omega) (fun k n' e' hkm hg' e => h1 k n' e' hkm hg' (by rw [hk] at e; exact e)) (fun k n' e' hkm hg' e => by
            rw [hk] at e
            have hlt : key < n' := by
              by_cases q : k = (i + j) / 2
              · rw [q, hg] at hg'; cases hg'; exact cmpL_gt.1 r2
              · exact List.lt_trans (cmpL_gt.1 r2) (increasing_get _ mapping_sorted ((i + j) / 2) k n n' (by omega) (names _ _ _ hg) (names _ _ _ hg'))
            rw [e] at hlt
            exact List.lt_irrefl _ hlt)
          rw [hk] at this
          exact this
        · rw [if_neg r2]
          have e0 : n = key := by
            rcases cmpL_sgn n key with ⟨q, _⟩ | ⟨_, q⟩ | ⟨q, _⟩
            · omega
            · exact q
            · omega
          subst e0
          exact ⟨e, rfl, Or.inl (List.mem_of_getElem? hg)⟩
    · exact done i j hij h1 h2

theorem mapping_spelled : mapping.all (fun p => decide (p.2.spelled.map asc = some p.1)) = true := by decide +kernel
theorem spelled_mapping : (.empty :: .unknown :: .PCDATA :: .CDATA :: elements).all (fun e => match e.spelled with | none => true | some n => mapping.contains (asc n, e)) = true := by decide +kernel

theorem mem_mapping {n : List Int} {e : Elem} : (n, e) ∈ mapping ↔ e.spelled.map asc = some n := by
  constructor
  · intro h
    simpa using List.all_eq_true.1 mapping_spelled _ h
  · intro h
    have := elem_forall spelled_mapping e
    cases hs : e.spelled with
    | none => rw [hs] at h; cases h
    | some m =>
      rw [hs] at this h
      simp only [Option.map_some, Option.some.injEq] at h
      rw [← h]
      simpa using this

theorem names_iff {t : List Int} {e : Elem} : Names t e ↔ (t.map lowerSpec, e) ∈ mapping := by
  rw [mem_mapping]
  unfold Names
  cases e.spelled with
  | none => simp
  | some n => simp [eq_comm]

theorem names_one {t : List Int} {e e' : Elem} (h : Names t e) (h' : Names t e') : e = e' := by
  rw [names_iff] at h h'
  obtain ⟨k, hk⟩ := List.mem_iff_getElem?.1 h
  obtain ⟨k', hk'⟩ := List.mem_iff_getElem?.1 h'
  have g : ∀ (k : Nat) (e : Elem), mapping[k]? = some (t.map lowerSpec, e) → (mapping.map Prod.fst)[k]? = some (t.map lowerSpec) := by
    intro k e h; rw [List.getElem?_map, h]; rfl
  have : k = k' := by
    rcases Nat.lt_trichotomy k k' with q | q | q
    · exact absurd (increasing_get _ mapping_sorted k k' _ _ q (g _ _ hk) (g _ _ hk')) (List.lt_irrefl _)
    · exact q
    · exact absurd (increasing_get _ mapping_sorted k' k _ _ q (g _ _ hk') (g _ _ hk)) (List.lt_irrefl _)
  subst this
  rw [hk] at hk'
  cases hk'
  rfl

theorem unknown_names (t : List Int) : ¬ Names t .unknown := by
  rintro ⟨n, h, _⟩
  cases h

theorem saysI_eq {T C : CT} (hT : 8 ≤ T.bits) (hC : 8 ≤ C.bits) {s : List Int} {count : Nat} (hv : Valid s (some count)) {w : List Int} (hw : ∀ c ∈ w, c ≠ 0 ∧ lowerSpec c = c) (hl : w.length < 2 ^ 64 - 1) :
    saysI T C s count w = some (decide ((text s (some count)).map lowerSpec = w)) := by
  unfold saysI
  have hv2 : Valid (w ++ [0]) (some (2 ^ 64 - 1)) := Or.inl (by simp)
  have et : text (w ++ [0]) (some (2 ^ 64 - 1)) = w := by
    refine text_eq_of (fun c hc => (hw c hc).1) (List.prefix_append _ _) (Or.inl ?_) (by intro n e; cases e; omega)
    rw [List.getElem?_append_right (Nat.le_refl _), Nat.sub_self]; rfl
  have hl0 : ∀ (T : CT), 8 ≤ T.bits → ∀ c, Str.tolower T c = 0 ↔ c = 0 := by
    intro T hT c
    rw [tolower_spec T hT]
    unfold lowerSpec
    split <;> omega
  obtain ⟨r, e, h0, _⟩ := strncmp_equal (Str.tolower T) (Str.tolower C) hv hv2 (hl0 T hT) (hl0 C hC)
  rw [et] at h0
  have e1 : (text s (some count)).map (Str.tolower T) = (text s (some count)).map lowerSpec := List.map_congr_left fun c _ => tolower_spec T hT c
  have e2 : w.map (Str.tolower C) = w := by
    rw [show w.map (Str.tolower C) = w.map id from List.map_congr_left fun c hc => by rw [tolower_spec C hC]; exact (hw c hc).2]
    simp
  rw [e1, e2] at h0
  rw [e, Option.map_some]
  congr 1
  by_cases q : r = 0
  · rw [decide_eq_true (h0.1 q)]; simp [q]
  · rw [decide_eq_false (fun x => q (h0.2 x))]; simp [q]

theorem saysAny_eq {T C : CT} (hT : 8 ≤ T.bits) (hC : 8 ≤ C.bits) {s : List Int} {count : Nat} (hv : Valid s (some count)) : ∀ {ws : List (List Int)}, (∀ w ∈ ws, (∀ c ∈ w, c ≠ 0 ∧ lowerSpec c = c) ∧ w.length < 2 ^ 64 - 1) →
    saysAny T C s count ws = some (ws.contains ((text s (some count)).map lowerSpec))
  | [], _ => rfl
  | w :: ws, h => by
    have := h w List.mem_cons_self
    rw [saysAny, saysI_eq hT hC hv this.1 this.2, saysAny_eq hT hC hv fun x hx => h x (List.mem_cons_of_mem _ hx)]
    by_cases q : (text s (some count)).map lowerSpec = w
    · simp [q]
    · simp [q]

/-- Names of attributes are lower-case, and short. -/
def plainNames (ws : List (List Int)) : Bool := ws.all fun w => w.all (fun c => decide (c ≠ 0 ∧ lowerSpec c = c)) && decide (w.length < 100)

theorem plainNames_ok {ws : List (List Int)} (h : plainNames ws = true) : ∀ w ∈ ws, (∀ c ∈ w, c ≠ 0 ∧ lowerSpec c = c) ∧ w.length < 2 ^ 64 - 1 := by
  intro w hw
  have := List.all_eq_true.1 h w hw
  simp only [Bool.and_eq_true, List.all_eq_true, decide_eq_true_eq] at this
  exact ⟨this.1, by omega⟩

theorem attrs_plain (e : Elem) : plainNames (uriAttrs e) = true ∧ plainNames ([116, 105, 116, 108, 101] :: localizableAttrs e) = true := by
  have : (.empty :: .unknown :: .PCDATA :: .CDATA :: elements).all (fun e => plainNames (uriAttrs e) && plainNames ([116, 105, 116, 108, 101] :: localizableAttrs e)) = true := by decide +kernel
  simpa using elem_forall this e

theorem uri_spec (e : Elem) : uriAttrs e = (match e.spelled with | none => [] | some n => (uriSpec.filter fun p => p.1 = n).map fun p => asc p.2) := by
  have : (.empty :: .unknown :: .PCDATA :: .CDATA :: elements).all (fun e => decide (uriAttrs e = (match e.spelled with | none => [] | some n => (uriSpec.filter fun p => p.1 = n).map fun p => asc p.2))) = true := by decide +kernel
  simpa using elem_forall this e

theorem text_spec (e : Elem) : localizableAttrs e = (match e.spelled with | none => [] | some n => (textSpec.filter fun p => p.1 = n).map fun p => asc p.2) := by
  have : (.empty :: .unknown :: .PCDATA :: .CDATA :: elements).all (fun e => decide (localizableAttrs e = (match e.spelled with | none => [] | some n => (textSpec.filter fun p => p.1 = n).map fun p => asc p.2))) = true := by decide +kernel
  simpa using elem_forall this e

theorem listed (spec : List (String × String)) (e : Elem) (key : List Int) :
    (match e.spelled with | none => [] | some n => ((spec.filter fun p : String × String => p.1 = n).map fun p : String × String => asc p.2 : List (List Int))).contains key = true ↔ ∃ n a, e.spelled = some n ∧ (n, a) ∈ spec ∧ key = asc a := by
  cases e.spelled with
  | none => simp
  | some n =>
    simp only [List.contains_iff_mem, List.mem_map, List.mem_filter, decide_eq_true_eq, Prod.exists, Option.some.injEq]
    constructor
    · rintro ⟨x, a, ⟨h, q⟩, r⟩
      exact ⟨n, a, rfl, by rw [← q]; exact h, r.symm⟩
    · rintro ⟨m, a, h, q, r⟩
      subst h
      exact ⟨n, a, ⟨q, rfl⟩, r.symm⟩

/-! ### Properties -/

/-- **C103** The code of an element name is the element that has that name, in any case, and `unknown` if there is none. The characters of the name are representable in `char`.
Missing: wide characters that are not, see `element_code_truncates`. -/
theorem element_code_partial {T C : CT} (hT : 8 ≤ T.bits) (hC : C.bits = 8) {s : List Int} {count : Nat} (hv : Valid s (some count)) (hc : ∀ c ∈ text s (some count), C.has c) :
    ∃ r, elementCode T C s count = some r ∧ (∀ e, e ≠ .unknown → (r = e ↔ Names (text s (some count)) e)) ∧ (r = .unknown ↔ ∀ e, ¬ Names (text s (some count)) e) := by
  obtain ⟨r, e, h⟩ := codeSearch_spec hT hC hv hc mapping.length 0 mapping.length (by omega) (Nat.le_refl _) (fun k n e hk => by omega)
    (fun k n e hk hg => by rw [List.getElem?_eq_none_iff.2 hk] at hg; cases hg)
  refine ⟨r, e, ?_⟩
  rw [← names_iff] at h
  rcases h with h | ⟨h1, h2⟩
  · have hr : r ≠ .unknown := by
      intro q
      rw [q] at h
      exact unknown_names _ h
    exact ⟨fun e _ => ⟨fun q => q ▸ h, fun q => names_one h q⟩, fun q => absurd q hr, fun q => absurd h (q r)⟩
  · have hn : ∀ e, ¬ Names (text s (some count)) e := fun e q => h2 _ e (names_iff.1 q) rfl
    exact ⟨fun e he => ⟨fun q => absurd (q.symm.trans h1) he, fun q => absurd q (hn e)⟩, fun _ => hn, fun _ => h1⟩

/-- **C103** For `char`, every name. -/
theorem element_code_char {T : CT} (hT : T.bits = 8) {s : List Int} {count : Nat} (hv : Valid s (some count)) (hc : ∀ c ∈ s, T.has c) :
    ∃ r, elementCode T T s count = some r ∧ (∀ e, e ≠ .unknown → (r = e ↔ Names (text s (some count)) e)) ∧ (r = .unknown ↔ ∀ e, ¬ Names (text s (some count)) e) :=
  element_code_partial (by omega) hT hv fun c h => hc c ((text_prefix s (some count)).subset h)

/-- **C103** Every name of HTML is known. -/
theorem element_code_known {T : CT} (hT : 8 ≤ T.bits) {e : Elem} {n : String} (h : e.spelled = some n) (rest : List Int) : elementCode T ⟨8, true⟩ (asc n ++ rest) (asc n).length = some e := by
  have hm := mem_mapping.2 (by rw [h]; rfl : e.spelled.map asc = some (asc n))
  have hp : mapping.all (fun p => p.1.all fun c => decide (0 < c ∧ c < 128 ∧ lowerSpec c = c)) = true := by decide +kernel
  have hn : ∀ c ∈ asc n, 0 < c ∧ c < 128 ∧ lowerSpec c = c := by
    have := List.all_eq_true.1 hp _ hm
    simpa using this
  have et : text (asc n ++ rest) (some (asc n).length) = asc n :=
    text_eq_of (fun c hc => by have := hn c hc; omega) (List.prefix_append _ _) (Or.inr rfl) (by intro n e; cases e; exact Nat.le_refl _)
  obtain ⟨r, hr, h1, _⟩ := element_code_partial (C := ⟨8, true⟩) hT rfl (s := asc n ++ rest) (count := (asc n).length) (Or.inr ⟨_, rfl, by simp⟩) (by
    rw [et]; intro c hc; have := hn c hc; simp [CT.has]; omega)
  rw [et] at h1
  have hne : e ≠ .unknown := by intro q; rw [q] at h; cases h
  rw [hr, (h1 e hne).2 ⟨n, h, by
    rw [show (asc n).map lowerSpec = (asc n).map id from List.map_congr_left fun c hc => (hn c hc).2.2]; simp⟩]

/-- The elements of running text. -/
def inlineElements : List String := ["a", "abbr", "acronym", "applet", "b", "basefont", "bdo", "big", "blink", "br", "button", "cite", "code", "dfn", "em", "embed", "font", "i", "iframe", "img", "input", "kbd", "label", "map", "nobr", "object", "q",
  "rt", "ruby", "s", "samp", "script", "select", "small", "span", "strike", "strong", "sub", "sup", "textarea", "tt", "u", "var", "wbr", "xmp"]

/-- The elements that are blocks. -/
def blockElements : List String := ["address", "blockquote", "center", "dir", "div", "dl", "fieldset", "form", "h1", "h2", "h3", "h4", "h5", "h6", "hr", "isindex", "listing", "marquee", "menu", "noembed", "noframes", "noscript", "ol", "p", "pre",
  "table", "ul"]

/-- The other elements that text does not run across. `li` is not among them. -/
def groupElements : List String := ["base", "body", "col", "colgroup", "dd", "dt", "frame", "frameset", "head", "iframe", "legend", "nextid", "td", "th", "title", "tr"]

/-- **C104** Which elements are of running text, which are blocks, and which text does not run across. -/
theorem kinds_spec (e : Elem) (n : String) (h : e.spelled = some n) :
    (isInline e = true ↔ n ∈ inlineElements) ∧ (isBlock e = true ↔ n ∈ blockElements) ∧ (isFlow e = true ↔ n ∈ inlineElements ∨ n ∈ blockElements) ∧ (isGroup e = true ↔ n ∈ blockElements ∨ n ∈ groupElements) := by
  have : (.empty :: .unknown :: .PCDATA :: .CDATA :: elements).all (fun e => (match e.spelled with | none => true | some n => decide ((isInline e = true ↔ n ∈ inlineElements) ∧ (isBlock e = true ↔ n ∈ blockElements) ∧ (isFlow e = true ↔ n ∈ inlineElements ∨ n ∈ blockElements) ∧ (isGroup e = true ↔ n ∈ blockElements ∨ n ∈ groupElements)))) = true := by
    decide +kernel
  have := elem_forall this e
  rw [h] at this
  exact of_decide_eq_true this

/-- **C104** No element is both, so that a block never counts as running text. -/
theorem kinds_apart (e : Elem) : ¬ (isInline e = true ∧ isBlock e = true) := by
  have : (.empty :: .unknown :: .PCDATA :: .CDATA :: elements).all (fun e => !(isInline e && isBlock e)) = true := by decide +kernel
  have := elem_forall this e
  rintro ⟨h1, h2⟩
  simp [h1, h2] at this

/-- **C104** Which elements have no end tag, and for which it may be left out. -/
theorem span_spec (e : Elem) :
    (span e = .immediate ↔ ∃ n ∈ voidElements, e.spelled = some n) ∧ (span e = .end_optional ↔ ∃ n ∈ openElements, e.spelled = some n) := by
  have : (.empty :: .unknown :: .PCDATA :: .CDATA :: elements).all (fun e => decide ((span e = .immediate ↔ ∃ n ∈ voidElements, e.spelled = some n) ∧ (span e = .end_optional ↔ ∃ n ∈ openElements, e.spelled = some n))) = true := by
    decide +kernel
  simpa using elem_forall this e

/-- **C104** An element whose end tag may be left out is ended by the next one of its kind. -/
theorem span_optional (e : Elem) (h : span e = .end_optional) : mayContain e e = false := by
  have : (.empty :: .unknown :: .PCDATA :: .CDATA :: elements).all (fun e => decide (span e = .end_optional → mayContain e e = false)) = true := by decide +kernel
  have := elem_forall this e
  simp only [decide_eq_true_eq] at this
  exact this h

/-- **C104** Elements without end tag contain nothing known, `embed` aside. -/
theorem span_immediate (e c : Elem) (h : span e = .immediate) (he : e ≠ .embed) (hc : c ≠ .unknown) (hc' : c ≠ .comment) : mayContain e c = false := by
  have : (.empty :: .unknown :: .PCDATA :: .CDATA :: elements).all (fun e => decide (span e = .immediate → e ≠ .embed → (.empty :: .unknown :: .PCDATA :: .CDATA :: elements).all (fun c => mayContain e c == false || c == .unknown || c == .comment) = true)) = true := by decide +kernel
  have := elem_forall this e
  simp only [decide_eq_true_eq] at this
  have := elem_forall (this h he) c
  simpa [hc, hc'] using this

/-- **C104** Anything may contain an element that is not known. -/
theorem may_contain_unknown (e : Elem) : mayContain e .unknown = true ∧ mayContain e .comment = true := ⟨rfl, rfl⟩

/-- **C104** Scripts and styles contain no elements of HTML. -/
theorem may_contain_script (c : Elem) (n : String) (h : c.spelled = some n) (hc : n ≠ "comment") : mayContain .script c = false ∧ mayContain .style c = false := by
  have : (.empty :: .unknown :: .PCDATA :: .CDATA :: elements).all (fun c => match c.spelled with | none => true | some n => n == "comment" || (mayContain .script c == false && mayContain .style c == false)) = true := by decide +kernel
  have := elem_forall this c
  rw [h] at this
  simpa [hc] using this

/-- **C104** The parts of lists, tables, menus and documents are contained only where they belong. -/
def properParents : List (String × List String) := [
  ("li", ["ul", "ol", "dir", "menu"]), ("dt", ["dl"]), ("dd", ["dl"]), ("tr", ["thead", "tbody", "tfoot"]), ("td", ["tr"]), ("th", ["tr"]), ("thead", ["table"]), ("tbody", ["table"]), ("tfoot", ["table"]), ("caption", ["table"]),
  ("option", ["select", "optgroup"]), ("optgroup", ["select"]), ("legend", ["fieldset"]), ("area", ["map"]), ("head", ["html"]), ("body", ["html", "noframes"]), ("title", ["head"]), ("html", []), ("frame", ["frameset"])]

theorem may_contain_parts (e c : Elem) (x y : String) (he : e.spelled = some x) (hc : c.spelled = some y) (l : List String) (hl : (y, l) ∈ properParents) : mayContain e c = true ↔ x ∈ l := by
  have : (.empty :: .unknown :: .PCDATA :: .CDATA :: elements).all (fun c => properParents.all fun q => !(decide (c.spelled = some q.1)) || (.empty :: .unknown :: .PCDATA :: .CDATA :: elements).all (fun e =>
      match e.spelled with | none => true | some x => mayContain e c == q.2.contains x)) = true := by decide +kernel
  have := List.all_eq_true.1 (elem_forall this c) _ hl
  simp only [hc, decide_true, Bool.not_true, Bool.false_or] at this
  have := elem_forall this e
  rw [he] at this
  rw [← List.contains_iff_mem]
  simp only [beq_iff_eq] at this
  rw [this]

/-- **C104** Running text contains no blocks: a paragraph, a heading, a link and every phrase of text holds text only. -/
theorem may_contain_text (e c : Elem) (he : isFontstyle e = true ∨ isPhrase e = true ∨ isHeading e = true ∨ e = .p ∨ e = .a ∨ e = .dt ∨ e = .pre) (hc : c ≠ .unknown) (hc' : c ≠ .comment) (h : mayContain e c = true) :
    isInline c = true := by
  have : (.empty :: .unknown :: .PCDATA :: .CDATA :: elements).all (fun e => !(isFontstyle e || isPhrase e || isHeading e || e == .p || e == .a || e == .dt || e == .pre) || (.empty :: .unknown :: .PCDATA :: .CDATA :: elements).all (fun c =>
      c == .unknown || c == .comment || !(mayContain e c) || isInline c)) = true := by decide +kernel
  have := elem_forall this e
  rw [Bool.or_eq_true] at this
  rcases this with q | q
  · exfalso
    rcases he with r | r | r | r | r | r | r <;> simp [r] at q <;> revert q <;> decide +kernel
  · have := elem_forall q c
    simpa [hc, hc', h] using this

/-- **C104** The attributes that are URIs. -/
theorem is_uri_spec {T C : CT} (hT : 8 ≤ T.bits) (hC : 8 ≤ C.bits) (e : Elem) {s : List Int} {count : Nat} (hv : Valid s (some count)) :
    ∃ r, isUri T C e s count = some r ∧ (r = true ↔ ∃ n a, e.spelled = some n ∧ (n, a) ∈ uriSpec ∧ (text s (some count)).map lowerSpec = asc a) := by
  refine ⟨_, saysAny_eq hT hC hv (plainNames_ok (attrs_plain e).1), ?_⟩
  rw [uri_spec]
  exact listed uriSpec e _

/-- **C104** The attributes that are text for the reader. -/
theorem is_localizable_spec {T C : CT} (hT : 8 ≤ T.bits) (hC : 8 ≤ C.bits) (e : Elem) {s : List Int} {count : Nat} (hv : Valid s (some count)) :
    ∃ r, isLocalizable T C e s count = some r ∧ (r = true ↔ (text s (some count)).map lowerSpec = asc "title" ∨
      ∃ n a, e.spelled = some n ∧ (n, a) ∈ textSpec ∧ (text s (some count)).map lowerSpec = asc a) := by
  refine ⟨_, saysAny_eq hT hC hv (plainNames_ok (attrs_plain e).2), ?_⟩
  rw [List.contains_cons, Bool.or_eq_true, text_spec, listed textSpec e]
  have : asc "title" = [116, 105, 116, 108, 101] := by decide +kernel
  rw [this]
  simp

/-- Finding: a `tr` cannot be in a `table` without a `tbody`, though that is how most tables are written: it ends the table, and the body and the document around it. -/
theorem table_row : mayContain .table .tr = false ∧ mayContain .body .tr = false ∧ mayContain .html .tr = false := by decide +kernel

/-- Finding: wide characters are truncated: U+0161 is taken for `a`. -/
theorem element_code_truncates : elementCode ⟨32, true⟩ ⟨8, true⟩ [0x161] 1 = some .a ∧ ∀ e, ¬ Names [0x161] e := by
  refine ⟨by decide +kernel, fun e h => ?_⟩
  rw [names_iff] at h
  have : mapping.all (fun p => decide (p.1 ≠ [0x161])) = true := by decide +kernel
  have := List.all_eq_true.1 this _ h
  simp [lowerSpec] at this

/-- Non-vacuity. -/
example : elementCode ⟨8, true⟩ ⟨8, true⟩ (asc "TextArea>") 8 = some .textarea ∧ elementCode ⟨8, true⟩ ⟨8, true⟩ (asc "h7") 2 = some .unknown ∧
    Names (asc "TextArea") .textarea ∧ isUri ⟨8, true⟩ ⟨8, true⟩ .a (asc "HREF=") 4 = some true := by
  refine ⟨by decide +kernel, by decide +kernel, ⟨"textarea", rfl, by decide +kernel⟩, by decide +kernel⟩

end Verif.Html
