import Verif.Html.DocSections
/-
Reading a document again, and what goes wrong: `document` of include/stdex/html.hpp (1636-1886).
-/
namespace Verif.Html
open Verif.Str Verif.Sgml Verif.Parser

/-! ### Proofs -/

/-- From `parsed` on there is nothing to do. -/
def Idle (L : Lex) (d : Doc) (i : Nat) : Prop := ∀ j, d.parsed ≤ j → j < i → docStep L d j = .go d (j + 1)

theorem move_parsed {L : Lex} {d d' : Doc} {i i' : Nat} (h : Move L d i d' i') : (d' = d ∧ i' = i + 1) ∨ d'.parsed = i' := by
  have ha := move_adds h
  cases ha with
  | skip => exact .inl ⟨rfl, rfl⟩
  | mark _ h2 => exact .inr h2
  | tag _ h2 => exact .inr h2

theorem docLoop_idle {L : Lex} (hL : L.Ok) : ∀ (fuel : Nat) (d d' : Doc) (i : Nat), SrcOk d.source → Idle L d i → d.parsed ≤ i → i ≤ d.source.length → docLoop L fuel d i = .done d' → Idle L d' d'.source.length
  | 0, _, _, _, _, _, _, _, h => by rw [docLoop] at h; cases h
  | fuel + 1, d, d', i, hs, hid, hle, hlen, h => by
    rw [docLoop] at h
    by_cases hi : i < d.source.length
    · rw [if_pos hi] at h
      have hm := docStep_move hL hs hi
      cases hd : docStep L d i with
      | fault => rw [hd] at h; cases h
      | throws x => rw [hd] at h; cases h
      | stop x => exact absurd hd (hm.2.2 _)
      | go x i' =>
        rw [hd] at h
        dsimp only at h
        have hm := hm.1 _ _ hd
        obtain ⟨a1, a2, a3⟩ := adds_source (move_adds hm) hi
        refine docLoop_idle hL fuel x d' i' (by rw [a1]; exact hs) ?_ ?_ (by rw [a1]; exact a3) h
        · rcases move_parsed hm with ⟨rfl, rfl⟩ | q
          · intro j h1 h2
            by_cases q : j = i
            · rw [q]; exact hd
            · exact hid j h1 (by omega)
          · intro j h1 h2; omega
        · rcases move_parsed hm with ⟨rfl, rfl⟩ | q
          · omega
          · omega
    · rw [if_neg hi] at h
      cases h
      have : i = d.source.length := by omega
      rw [← this]
      exact hid

theorem idle_loop {L : Lex} {d : Doc} (h : Idle L d d.source.length) : ∀ (k fuel i : Nat), d.source.length = i + k → d.parsed ≤ i → k < fuel → docLoop L fuel d i = .done d
  | 0, fuel, i, h1, _, h3 => by
    obtain ⟨f, rfl⟩ : ∃ f, fuel = f + 1 := ⟨fuel - 1, by omega⟩
    rw [docLoop, if_neg (by omega)]
  | k + 1, fuel, i, h1, h2, h3 => by
    obtain ⟨f, rfl⟩ : ∃ f, fuel = f + 1 := ⟨fuel - 1, by omega⟩
    rw [docLoop, if_pos (by omega), h i h2 (by omega)]
    exact idle_loop h k f (i + 1) (by omega) (by omega) (by omega)

theorem fed_idle {L : Lex} (hL : L.Ok) {d : Doc} (h : Fed L d) : Idle L d d.source.length := by
  cases h with
  | new => intro j _ h2; simp at h2
  | @append d0 _ more hf hs he =>
    obtain ⟨i, hpl⟩ := reach_placed hL (fed_reach hf)
    exact docLoop_idle hL _ { d0 with source := d0.source ++ more } d d0.parsed hs (fun j h1 h2 => absurd h1 (Nat.not_le.2 h2)) (Nat.le_refl _) (by have := hpl.le; have := hpl.fits; simp; omega) he

/-! ### Properties -/

/-- **C111** Appending nothing changes nothing. -/
theorem doc_append_nil {L : Lex} (hL : L.Ok) {d : Doc} (h : Fed L d) : d.append L [] = .done d := by
  obtain ⟨i, hpl⟩ := reach_placed hL (fed_reach h)
  have hle := hpl.le
  have hft := hpl.fits
  unfold Doc.append
  simp only [List.append_nil]
  exact idle_loop (fed_idle hL h) (d.source.length - d.parsed) _ _ (by omega) (Nat.le_refl _) (by omega)

/-- **C111** `assign` leaves nothing of what the document held: it is as if the document were new, whatever was done to it. -/
theorem doc_assign (L : Lex) (d d' : Doc) (src : List Int) : d.assign L src = d'.assign L src := rfl

/-- **C111** `assign` succeeds unless the text makes the parser of tags loop or has a `%`, and makes the document that `append` to a new document and `finalize` make. -/
theorem doc_assign_spec_partial {L : Lex} (hL : L.Ok) (d : Doc) {src : List Int} (hs : SrcOk src) (hn : NoStuck L src) (hp : 37 ∉ src) : ∃ d', Fed L d' ∧ d'.source = src ∧ d.assign L src = .done d'.finalize := by
  rcases doc_ends_partial hL (d := {}) .new (more := src) (by simpa using hs) (by simpa using hn) with ⟨d', h⟩ | ⟨_, _, h⟩
  · refine ⟨d', .append .new (by simpa using hs) h, ?_, ?_⟩
    · have := append_source hL (d := {}) (more := src) (by simpa using hs) h
      simpa using this
    · unfold Doc.assign Doc.clear
      rw [h]
  · exact absurd (by simpa using h) hp

/-! ### Cases -/

/-- A locale and character types. -/
def demoLex : Lex := ⟨⟨8, true⟩, ⟨8, true⟩, ipEnv [], fun l => l.length⟩

theorem demoLex_ok : demoLex.Ok := ⟨by decide, by decide, fun _ => Iff.rfl⟩

/-- The kinds, intervals, parents and ends. -/
def outline : Result → Option (List (Kind × (Nat × Nat) × Option Nat × Option Nat))
  | .done d => some (d.nodes.map fun n => (n.kind, n.iv, n.parent, n.fin))
  | _ => none

example : outline (({} : Doc).assign demoLex (asc "<p>a<br>b<p>c</p>d")) = some [(.element_start, (0, 3), none, some 4), (.text, (3, 4), some 0, none), (.element_start, (4, 8), some 0, some 2), (.text, (8, 9), some 0, none),
    (.element_start, (9, 12), none, some 6), (.text, (12, 13), some 4, none), (.element_end, (13, 17), none, none), (.text, (17, 18), none, none)] := by decide +kernel

example : outline (({} : Doc).assign demoLex (asc "<script>a<b>c</script>d")) = some [(.element_start, (0, 8), none, some 2), (.text, (8, 13), some 0, none), (.element_end, (13, 22), none, none), (.text, (22, 23), none, none)] := by decide +kernel

example : outline (({} : Doc).assign demoLex (marked (asc "CDATA") (asc "a<b>c"))) = some [(.CDATA, (9, 14), none, none)] := by decide +kernel

/-- Text before a marked section is lost, 1696-1710. -/
theorem doc_loses_text : outline (({} : Doc).assign demoLex (asc "ab<![CDATA[c]]>")) = some [(.CDATA, (11, 12), none, none)] := by decide +kernel

/-- A marked section in an ignored one ends the ignored one, 1702-1703. -/
theorem doc_ignore_nested : outline (({} : Doc).assign demoLex (asc "<![IGNORE[<![INCLUDE[b]]>c]]>d")) = some [(.text, (25, 30), none, none)] := by decide +kernel

/-- The end tag of an unknown element ends any other unknown element, 1811. -/
theorem doc_unknown_end : outline (({} : Doc).assign demoLex (asc "<foo><bar></foo>")) = some [(.element_start, (0, 5), none, none), (.element_start, (5, 10), some 0, some 2), (.element_end, (10, 16), some 0, none)] := by decide +kernel

/-- An end tag ends the elements inside of its element without saying so, 1808-1820. -/
theorem doc_inner_open : outline (({} : Doc).assign demoLex (asc "<p><b></p>")) = some [(.element_start, (0, 3), none, some 2), (.element_start, (3, 6), some 0, none), (.element_end, (6, 10), none, none)] := by decide +kernel

/-- A row ends the table that it is in. -/
theorem doc_table_row : outline (({} : Doc).assign demoLex (asc "<table><tr>")) = some [(.element_start, (0, 7), none, some 1), (.element_start, (7, 11), none, none)] := by decide +kernel

/-- `append` to what is left -/
def Result.next (L : Lex) (more : List Int) : Result → Result
  | .done d => d.append L more
  | r => r

/-- After `finalize` in a special element, `append` dereferences a null pointer, 1715-1716. -/
theorem doc_finalize_special : (match ({} : Doc).append demoLex (asc "<script>a") with | .done d => d.finalize.append demoLex (asc "b") | r => r) = .fault := by decide +kernel

/-- Two pieces are not the same as one, 1657-1664. -/
theorem doc_pieces : outline (({} : Doc).append demoLex (asc "<!-- <b> -->")) = some [(.comment, (0, 12), none, none)] ∧
    outline ((({} : Doc).append demoLex (asc "<!-- <b>")).next demoLex (asc " -->")) = some [(.text, (0, 5), none, none), (.element_start, (5, 8), none, none)] := ⟨by decide +kernel, by decide +kernel⟩

end Verif.Html
