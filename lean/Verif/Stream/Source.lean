import Verif.Stream.Basic
/-
What is assumed of a source / a sink in theorems about helpers and filters, and a concrete
family of streams satisfying it.
-/
namespace Verif.Stream
variable {β σ τ : Type}

/-- `S` is a well-behaved source whose not yet delivered contents in state `s` are `rem s`: it delivers
the contents in order in pieces of any size (short reads allowed, as long as something is
delivered), and reports eof exactly when a non-empty read finds nothing left. -/
structure IsSource (S : Strm β σ) (rem : σ → List β) : Prop where
  split : ∀ s n, (S.read s n).1 ++ rem (S.read s n).2 = rem s
  le : ∀ s n, (S.read s n).1.length ≤ n
  more : ∀ s n, n ≠ 0 → rem s ≠ [] → (S.read s n).1 ≠ [] ∧ S.state (S.read s n).2 = .ok
  eof : ∀ s n, n ≠ 0 → rem s = [] → S.state (S.read s n).2 = .eof
  zero : ∀ s, S.state (S.read s 0).2 = .ok ∨ S.state (S.read s 0).2 = S.state s

/-- `D` stores what it accepts: `got t` is what it received so far.  A write may be short or fail. -/
structure IsSink (D : Strm β τ) (got : τ → List β) : Prop where
  le : ∀ t d, (D.write t d).1 ≤ d.length
  write : ∀ t d, got (D.write t d).2 = got t ++ d.take (D.write t d).1

/-- A sink that accepts everything. -/
structure Reliable (D : Strm β τ) (got : τ → List β) : Prop extends IsSink D got where
  all : ∀ t d, (D.write t d).1 = d.length
  ok : ∀ t d, D.state (D.write t d).2 = .ok

theorem Reliable.got {D : Strm β τ} {got : τ → List β} (h : Reliable D got) (t : τ) (d : List β) :
    got (D.write t d).2 = got t ++ d := by
  rw [h.write, h.all, List.take_of_length_le (Nat.le_refl _)]

/-- Reading `n` bytes from a source that has contents delivers a non-empty prefix of them. -/
theorem IsSource.read_eq {S : Strm β σ} {rem : σ → List β} (h : IsSource S rem) (s : σ) (n : Nat) :
    (S.read s n).1 = (rem s).take (S.read s n).1.length ∧
    rem (S.read s n).2 = (rem s).drop (S.read s n).1.length := by
  have e := h.split s n
  constructor
  · rw [← e, List.take_left]
  · conv => rhs; rw [← e]
    rw [List.drop_left]

/-- A concrete source and sink in one: delivers its list in pieces of at most `chunk`, collects what
is written. -/
def pipe (chunk : Nat) : Strm β (List β × List β × St) where
  read s n :=
    let d := s.1.take (min n chunk)
    (d, (s.1.drop (min n chunk), s.2.1, if n ≠ 0 ∧ s.1 = [] then .eof else .ok))
  write s d := (d.length, (s.1, s.2.1 ++ d, .ok))
  close s := s
  flush s := s
  state s := s.2.2

theorem pipe_source (chunk : Nat) (hc : 0 < chunk) :
    IsSource (pipe chunk : Strm β _) (fun s => s.1) := by
  refine ⟨?_, ?_, ?_, ?_, ?_⟩
  · intro s n; exact List.take_append_drop _ _
  · intro s n
    show (s.1.take (min n chunk)).length ≤ n
    rw [List.length_take]; omega
  · intro s n hn hs
    refine ⟨?_, ?_⟩
    · show s.1.take (min n chunk) ≠ []
      intro e
      have := congrArg List.length e
      rw [List.length_take, List.length_nil] at this
      have := List.length_pos_iff.2 hs
      omega
    · show (if n ≠ 0 ∧ s.1 = [] then St.eof else .ok) = _
      rw [if_neg (fun c => hs c.2)]
  · intro s n hn hs
    show (if n ≠ 0 ∧ s.1 = [] then St.eof else .ok) = _
    rw [if_pos ⟨hn, hs⟩]
  · intro s
    left
    show (if (0 : Nat) ≠ 0 ∧ s.1 = [] then St.eof else .ok) = _
    rw [if_neg (fun c => c.1 rfl)]

theorem pipe_reliable (chunk : Nat) : Reliable (pipe chunk : Strm β _) (fun s => s.2.1) := by
  refine ⟨⟨fun _ _ => Nat.le_refl _, ?_⟩, fun _ _ => rfl, fun _ _ => rfl⟩
  intro t d
  show t.2.1 ++ d = t.2.1 ++ d.take d.length
  rw [List.take_of_length_le (Nat.le_refl _)]

end Verif.Stream
