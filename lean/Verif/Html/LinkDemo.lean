import Verif.Html.LinkAll
/-
Documents parsed into tokens and linked: examples and defects. Lines 2187-2268 and 2440-2664 of include/stdex/html.hpp.
-/
namespace Verif.Html
open Verif.Str Verif.Sgml Verif.Parser

/-- A parser on 64 bits whose tokens are 16 bytes apart. -/
def demoCtx : Ctx := ⟨demoLex, ⟨32, true⟩, fun i => 0x1000 + 16 * i, 64, false⟩

/-- The tokens are at places a program may have them. -/
theorem demoCtx_places (n : Nat) (h : n ≤ 2 ^ 32) : demoCtx.Places n :=
  ⟨fun i j _ _ e => by simp only [demoCtx] at e; omega, fun i hi => by simp only [demoCtx]; omega⟩

/-- A document from a string: appended and finalized. -/
def demoDoc (s : String) : Doc :=
  match ({} : Doc).append demoLex (asc s) with
  | .done d => d.finalize
  | _ => {}

/-- Parsed and linked. -/
def demoRun (s : String) : Out (List Int) := relink demoCtx (demoDoc s)

/-- Such a document is one a user may have. -/
theorem demoDoc_reach {s : String} (hs : SrcOk (asc s)) : Reach demoCtx.L (demoDoc s) := by
  unfold demoDoc
  split
  · rename_i d he
    exact .finalize (.append .new (by simpa using hs) he)
  · exact .new

/-- A document with a text, a title and an address. -/
def demoHtml : String := "<p title=\"a&amp;b\">x &lt; y<br><a href=u&amp;v>z</a></p>"

/-- The document meets the hypotheses of `relink_partial`. -/
example : demoCtx.L.Ok ∧ Reach demoCtx.L (demoDoc demoHtml) ∧ Linkable demoCtx (demoDoc demoHtml) := by
  refine ⟨demoLex_ok, demoDoc_reach ⟨by decide +kernel, by decide +kernel⟩, ⟨by decide +kernel, by decide +kernel, by decide +kernel, .inr (by decide +kernel), ?_⟩⟩
  have : ∀ n ∈ (demoDoc demoHtml).nodes, n.code ≠ .style := by decide +kernel
  intro n hn _ e
  exact absurd e (this n hn)

/-- It is written as it was. -/
example : demoRun demoHtml = .done (asc demoHtml) := by decide +kernel

/-- A style sheet's address is read and written again, and one in a comment is not. -/
example : demoRun "<style>/* url(\\78) */ a { b: url( 'c\\64 ' ) }</style>x" = .done (asc "<style>/* url(\\78) */ a { b: url( 'cd' ) }</style>x") := by decide +kernel

/-- Code is left alone. -/
example : demoRun "<p><code>a &lt; <b>&quot;</code>&quot;</p>" = .done (asc "<p><code>a &lt; <b>&quot;</code>\"</p>") := by decide +kernel

/-- **C115** (defect) A quote in a value is not escaped when it is written again: what was a part of a title becomes attributes. -/
theorem relink_injects : demoRun "<p title=\"x&quot; onclick=&quot;y\">" = .done (asc "<p title=\"x\" onclick=\"y\">") := by decide +kernel

/-- **C115** (defect) A text that has the marks of a token, which may be written as entities, is taken for one: the number in it is used as an address of a token. -/
theorem relink_forged : demoRun "&#18;1&#19;<b>" = .fault := by decide +kernel

/-- **C115** (defect) An element whose content is left alone but has no end tag is dereferenced through a null pointer. -/
theorem relink_unended : demoRun "<code>x" = .fault ∧ demoRun "<script>x" = .fault ∧ demoRun "<style>x" = .fault := ⟨by decide +kernel, by decide +kernel, by decide +kernel⟩

/-- A frame set is refused, unless frames are parsed. -/
theorem relink_frames : demoRun "<frameset>" = .throws ∧ relink { demoCtx with frames := true } (demoDoc "<frameset>") = .done (asc "<frameset>") := ⟨by decide +kernel, by decide +kernel⟩

/-- What the last token of a document maps to what: places in the source, and in its text. -/
def demoMap (s : String) : Out (List (Nat × Nat)) := do
  let toks ← parse demoCtx (demoDoc s)
  pure ((toks.getLast?.map (·.map)).getD [])

/-- **C115** (defect) The points of a text that follows something are displaced. In the text of the token, the tag of `<br>` is `[1, 7)`, `b` is at 7, `&` is at 8 and `c` is at 9, but the entity, `[6, 11)` in the source, is said to be `[15, 16)`; the next tag's place, 10, is right. -/
theorem relink_map_doubled : demoMap "a<br>b&amp;c<br>d" = .done [(0, 0), (1, 1), (5, 7), (6, 15), (11, 16), (12, 10), (16, 16)] ∧
    (do pure ((← parse demoCtx (demoDoc "a<br>b&amp;c<br>d")).getLast?.map (·.text)) : Out (Option (List Int))) = .done (some (97 :: tokenTag (demoCtx.addr 0) ++ asc "b&c" ++ tokenTag (demoCtx.addr 1) ++ asc "d")) ∧
    (tokenTag (demoCtx.addr 0)).length = 6 := ⟨by decide +kernel, by decide +kernel, by decide +kernel⟩

end Verif.Html
