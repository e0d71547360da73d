import Verif.Stream.Helpers
import Verif.Stream.Buffer
/-
Model of `stdex::stream::limiter` (include/stdex/stream.hpp 1548-1603) and `stdex::stream::window`
(1608-1686) over an arbitrary stream.

`m_source->skip` of `window` is `basic::skip` (148-171, `skip` in Helpers): it may throw when the source ends,
and its loops carry a bound.
-/
namespace Verif.Stream
variable {β σ : Type}

/-- `fsize_max`, stream.hpp 62-73: stands for "no limit". -/
def fsizeMax : Nat := 2 ^ 64 - 1

/-- `limiter`: source, `m_state`, the limits. -/
structure Lim (σ : Type) where
  src : σ
  st : St
  rl : Nat
  wl : Nat

/-- `limiter::read`, 1557-1576. -/
def limRead (S : Strm β σ) (l : Lim σ) (length : Nat) : List β × Lim σ :=
  if l.rl = fsizeMax then
    let r := S.read l.src length
    (r.1, { l with src := r.2, st := S.state r.2 })
  else if length ≤ l.rl then
    let r := S.read l.src length
    (r.1, { l with src := r.2, st := S.state r.2, rl := l.rl - r.1.length })
  else if length ≠ 0 ∧ l.rl = 0 then ([], { l with st := .eof })
  else
    let r := S.read l.src l.rl
    (r.1, { l with src := r.2, st := S.state r.2, rl := l.rl - r.1.length })

/-- `limiter::write`, 1578-1597. -/
def limWrite (S : Strm β σ) (l : Lim σ) (d : List β) : Nat × Lim σ :=
  if l.wl = fsizeMax then
    let r := S.write l.src d
    (r.1, { l with src := r.2, st := S.state r.2 })
  else if d.length ≤ l.wl then
    let r := S.write l.src d
    (r.1, { l with src := r.2, st := S.state r.2, wl := l.wl - r.1 })
  else if d.length ≠ 0 ∧ l.wl = 0 then (0, { l with st := .fail })
  else
    let r := S.write l.src (d.take l.wl)
    (r.1, { l with src := r.2, st := S.state r.2, wl := l.wl - r.1 })

/-- `stream::limiter`. -/
def limiter (S : Strm β σ) : Strm β (Lim σ) where
  read := limRead S
  write := limWrite S
  close l := let s := S.close l.src; { l with src := s, st := S.state s }
  flush l := let s := S.flush l.src; { l with src := s, st := S.state s }
  state l := l.st

/-- `limiter(source, read_limit, write_limit)`, 1551-1555. -/
def Lim.new (S : Strm β σ) (s : σ) (rl wl : Nat) : Lim σ := ⟨s, S.state s, rl, wl⟩

/-- What a read does: at most the limit is asked for, and the limit shrinks by what was delivered. -/
theorem limRead_spec (S : Strm β σ) (hS : Lawful S) (l : Lim σ) (n : Nat) (hl : l.rl ≠ fsizeMax) :
    (limRead S l n).1.length ≤ l.rl ∧ (limRead S l n).2.rl = l.rl - (limRead S l n).1.length ∧
    (limRead S l n).2.wl = l.wl ∧
    ((n ≠ 0 ∧ l.rl = 0 ∧ (limRead S l n).1 = [] ∧ (limRead S l n).2.src = l.src ∧ (limRead S l n).2.st = .eof) ∨
     ((n = 0 ∨ l.rl ≠ 0) ∧ (limRead S l n).1 = (S.read l.src (min n l.rl)).1 ∧ (limRead S l n).2.src = (S.read l.src (min n l.rl)).2 ∧
      (limRead S l n).2.st = S.state (S.read l.src (min n l.rl)).2)) := by
  unfold limRead
  rw [if_neg hl]
  have h1 := hS.read_le l.src n
  have h2 := hS.read_le l.src l.rl
  by_cases c1 : n ≤ l.rl
  · rw [if_pos c1, Nat.min_eq_left c1]
    exact ⟨by simp only []; omega, rfl, rfl, Or.inr ⟨by omega, rfl, rfl, rfl⟩⟩
  · rw [if_neg c1]
    by_cases c2 : n ≠ 0 ∧ l.rl = 0
    · rw [if_pos c2]
      exact ⟨by simp, by simp, rfl, Or.inl ⟨c2.1, c2.2, rfl, rfl, rfl⟩⟩
    · rw [if_neg c2, Nat.min_eq_right (by omega)]
      exact ⟨by simp only []; omega, rfl, rfl, Or.inr ⟨by omega, rfl, rfl, rfl⟩⟩

theorem limWrite_spec (S : Strm β σ) (hS : Lawful S) (l : Lim σ) (d : List β) (hl : l.wl ≠ fsizeMax) :
    (limWrite S l d).1 ≤ l.wl ∧ (limWrite S l d).1 ≤ d.length ∧ (limWrite S l d).2.wl = l.wl - (limWrite S l d).1 ∧
    (limWrite S l d).2.rl = l.rl ∧
    ((d ≠ [] ∧ l.wl = 0 ∧ (limWrite S l d).1 = 0 ∧ (limWrite S l d).2.src = l.src ∧ (limWrite S l d).2.st = .fail) ∨
     ((d = [] ∨ l.wl ≠ 0) ∧ (limWrite S l d).1 = (S.write l.src (d.take l.wl)).1 ∧ (limWrite S l d).2.src = (S.write l.src (d.take l.wl)).2 ∧
      (limWrite S l d).2.st = S.state (S.write l.src (d.take l.wl)).2)) := by
  unfold limWrite
  rw [if_neg hl]
  have h1 := hS.write_le l.src d
  have h2 := hS.write_le l.src (d.take l.wl)
  rw [List.length_take] at h2
  have hd : d ≠ [] ↔ d.length ≠ 0 := by
    cases d <;> simp
  by_cases c1 : d.length ≤ l.wl
  · rw [if_pos c1, List.take_of_length_le c1]
    refine ⟨by simp only []; omega, h1, rfl, rfl, Or.inr ⟨?_, rfl, rfl, rfl⟩⟩
    by_cases hz : d = []
    · exact Or.inl hz
    · right; have := hd.1 hz; omega
  · rw [if_neg c1]
    by_cases c2 : d.length ≠ 0 ∧ l.wl = 0
    · rw [if_pos c2]
      exact ⟨by simp, by simp, by simp, rfl, Or.inl ⟨hd.2 c2.1, c2.2, rfl, rfl, rfl⟩⟩
    · rw [if_neg c2]
      refine ⟨by simp only []; omega, by simp only []; omega, rfl, rfl, Or.inr ⟨?_, rfl, rfl, rfl⟩⟩
      right; omega

/-- C36.  For every stream and every history of calls: the source has delivered at most `rl` bytes and
accepted at most `wl` bytes in total, exactly what the caller got and was told is accepted, and the
limits are what is left. -/
theorem limiter_bound (S : Strm β σ) (hS : Lawful S) :
    ∀ (ops : List (Op β)) (l : Lim (σ × List β × List β)), l.rl < fsizeMax → l.wl < fsizeMax →
      ((limiter (logged S)).run l ops).2.src.2.1 = l.src.2.1 ++ readOut ((limiter (logged S)).run l ops).1 ∧
      ((limiter (logged S)).run l ops).2.src.2.2 = l.src.2.2 ++ writeAcc ops ((limiter (logged S)).run l ops).1 ∧
      (readOut ((limiter (logged S)).run l ops).1).length + ((limiter (logged S)).run l ops).2.rl = l.rl ∧
      (writeAcc ops ((limiter (logged S)).run l ops).1).length + ((limiter (logged S)).run l ops).2.wl = l.wl := by
  intro ops
  induction ops with
  | nil => intro l _ _; exact ⟨by simp [Strm.run, readOut], by simp [Strm.run, writeAcc], by simp [Strm.run, readOut], by simp [Strm.run, writeAcc]⟩
  | cons op ops ih =>
    intro l hr hw
    have hL := logged_lawful hS
    cases op with
    | read n =>
      obtain ⟨a1, a2, a3, a4⟩ := limRead_spec (logged S) hL l n (by omega)
      obtain ⟨i1, i2, i3, i4⟩ := ih (limRead (logged S) l n).2 (by omega) (by omega)
      have hs : (limRead (logged S) l n).2.src.2.1 = l.src.2.1 ++ (limRead (logged S) l n).1 ∧
          (limRead (logged S) l n).2.src.2.2 = l.src.2.2 := by
        rcases a4 with ⟨_, _, q1, q2, _⟩ | ⟨_, q1, q2, _⟩
        · rw [q1, q2]; simp
        · rw [q1, q2]; exact ⟨rfl, rfl⟩
      show _ ∧ ((limiter (logged S)).run (limRead (logged S) l n).2 ops).2.src.2.2 = _ ++ writeAcc ops ((limiter (logged S)).run (limRead (logged S) l n).2 ops).1 ∧
        ((limRead (logged S) l n).1 ++ readOut ((limiter (logged S)).run (limRead (logged S) l n).2 ops).1).length + _ = _ ∧
        (writeAcc ops ((limiter (logged S)).run (limRead (logged S) l n).2 ops).1).length + ((limiter (logged S)).run (limRead (logged S) l n).2 ops).2.wl = _
      refine ⟨?_, ?_, ?_, ?_⟩
      · refine i1.trans ?_
        rw [hs.1, List.append_assoc]; rfl
      · rw [i2, hs.2]
      · rw [List.length_append]
        have : ((limiter (logged S)).run l (.read n :: ops)).2 = ((limiter (logged S)).run (limRead (logged S) l n).2 ops).2 := rfl
        rw [this]; omega
      · omega
    | write d =>
      obtain ⟨a1, a2, a3, a4, a5⟩ := limWrite_spec (logged S) hL l d (by omega)
      obtain ⟨i1, i2, i3, i4⟩ := ih (limWrite (logged S) l d).2 (by omega) (by omega)
      have hs : (limWrite (logged S) l d).2.src.2.2 = l.src.2.2 ++ d.take (limWrite (logged S) l d).1 ∧
          (limWrite (logged S) l d).2.src.2.1 = l.src.2.1 := by
        rcases a5 with ⟨_, _, q1, q2, _⟩ | ⟨_, q1, q2, _⟩
        · rw [q1, q2]; simp
        · rw [q2]
          refine ⟨?_, rfl⟩
          show l.src.2.2 ++ (d.take l.wl).take (S.write l.src.1 (d.take l.wl)).1 = _
          have q1 : (limWrite (logged S) l d).1 = (S.write l.src.1 (d.take l.wl)).1 := q1
          rw [← q1, List.take_take, Nat.min_eq_left a1]
      have tl : (d.take (limWrite (logged S) l d).1).length = (limWrite (logged S) l d).1 := by
        rw [List.length_take]; omega
      show ((limiter (logged S)).run (limWrite (logged S) l d).2 ops).2.src.2.1 = _ ++ readOut ((limiter (logged S)).run (limWrite (logged S) l d).2 ops).1 ∧
        _ ∧ (readOut ((limiter (logged S)).run (limWrite (logged S) l d).2 ops).1).length + ((limiter (logged S)).run (limWrite (logged S) l d).2 ops).2.rl = _ ∧
        (d.take (limWrite (logged S) l d).1 ++ writeAcc ops ((limiter (logged S)).run (limWrite (logged S) l d).2 ops).1).length + ((limiter (logged S)).run (limWrite (logged S) l d).2 ops).2.wl = _
      refine ⟨?_, ?_, ?_, ?_⟩
      · rw [i1, hs.2]
      · refine i2.trans ?_
        rw [hs.1, List.append_assoc]; rfl
      · omega
      · rw [List.length_append, tl]; omega
    | close => exact ih { l with src := (logged S).close l.src, st := S.state ((logged S).close l.src).1 } hr hw
    | flush => exact ih { l with src := (logged S).flush l.src, st := S.state ((logged S).flush l.src).1 } hr hw

/-- Bytes asked for in a history. -/
def readDemand : List (Op β) → Nat
  | [] => 0
  | .read n :: ops => n + readDemand ops
  | _ :: ops => readDemand ops

def writeDemand : List (Op β) → Nat
  | [] => 0
  | .write d :: ops => d.length + writeDemand ops
  | _ :: ops => writeDemand ops

/-- C36.  Below the limit (and always without one) the limiter is transparent: every call has the same
result as on the bare converter. -/
theorem limiter_transparent (S : Strm β σ) (hS : Lawful S) :
    ∀ (ops : List (Op β)) (l : Lim σ), (l.rl = fsizeMax ∨ readDemand ops ≤ l.rl) → (l.wl = fsizeMax ∨ writeDemand ops ≤ l.wl) →
      ((limiter S).run l ops).1 = ((converter S).run (l.src, l.st) ops).1 := by
  intro ops
  induction ops with
  | nil => intro l _ _; rfl
  | cons op ops ih =>
    intro l h1 h2
    cases op with
    | read n =>
      have e : ∃ rl, (limRead S l n) = ((S.read l.src n).1, ⟨(S.read l.src n).2, S.state (S.read l.src n).2, rl, l.wl⟩) ∧
          (rl = fsizeMax ∨ readDemand ops ≤ rl) := by
        have hl := hS.read_le l.src n
        by_cases hm : l.rl = fsizeMax
        · refine ⟨l.rl, ?_, Or.inl hm⟩
          unfold limRead; rw [if_pos hm]
        · have h1 : n + readDemand ops ≤ l.rl := h1.resolve_left hm
          refine ⟨l.rl - (S.read l.src n).1.length, ?_, Or.inr (by omega)⟩
          unfold limRead; rw [if_neg hm, if_pos (by omega)]
      obtain ⟨rl, e1, e2⟩ := e
      have := ih ⟨(S.read l.src n).2, S.state (S.read l.src n).2, rl, l.wl⟩ e2 h2
      show Res.read (limRead S l n).1 (limRead S l n).2.st :: ((limiter S).run (limRead S l n).2 ops).1 = _
      rw [e1]
      exact congrArg (List.cons _) this
    | write d =>
      have e : ∃ wl, (limWrite S l d) = ((S.write l.src d).1, ⟨(S.write l.src d).2, S.state (S.write l.src d).2, l.rl, wl⟩) ∧
          (wl = fsizeMax ∨ writeDemand ops ≤ wl) := by
        have hl := hS.write_le l.src d
        by_cases hm : l.wl = fsizeMax
        · refine ⟨l.wl, ?_, Or.inl hm⟩
          unfold limWrite; rw [if_pos hm]
        · have h2 : d.length + writeDemand ops ≤ l.wl := h2.resolve_left hm
          refine ⟨l.wl - (S.write l.src d).1, ?_, Or.inr (by omega)⟩
          unfold limWrite; rw [if_neg hm, if_pos (by omega)]
      obtain ⟨wl, e1, e2⟩ := e
      have := ih ⟨(S.write l.src d).2, S.state (S.write l.src d).2, l.rl, wl⟩ h1 e2
      show Res.write (limWrite S l d).1 (limWrite S l d).2.st :: ((limiter S).run (limWrite S l d).2 ops).1 = _
      rw [e1]
      exact congrArg (List.cons _) this
    | close => exact congrArg (List.cons _) (ih { l with src := S.close l.src, st := S.state (S.close l.src) } h1 h2)
    | flush => exact congrArg (List.cons _) (ih { l with src := S.flush l.src, st := S.state (S.flush l.src) } h1 h2)

/-- C36.  At the limit: the call is refused, with state eof on reading and fail on writing, and the
source is not touched. -/
theorem limiter_refuses (S : Strm β σ) (s : σ) (st : St) (k n : Nat) (d : List β) (hn : n ≠ 0) (hd : d ≠ []) :
    limRead S ⟨s, st, 0, k⟩ n = ([], ⟨s, .eof, 0, k⟩) ∧ limWrite S ⟨s, st, k, 0⟩ d = (0, ⟨s, .fail, k, 0⟩) := by
  have hd : d.length ≠ 0 := by cases d <;> simp_all
  constructor
  · unfold limRead
    rw [if_neg (by simp [fsizeMax]), if_neg (by simp only []; omega), if_pos ⟨hn, rfl⟩]
  · unfold limWrite
    rw [if_neg (by simp [fsizeMax]), if_neg (by simp only []; omega), if_pos ⟨hd, rfl⟩]

/-- A well-behaved source seen through a limiter: one read returns a prefix of what is left of the
limited contents, non-empty unless nothing is left, then the state is eof. -/
theorem limRead_source {S : Strm β σ} {rem : σ → List β} (h : IsSource S rem) (hS : Lawful S) (l : Lim σ) (n : Nat)
    (hl : l.rl ≠ fsizeMax) :
    (limRead S l n).1 ++ (rem (limRead S l n).2.src).take (limRead S l n).2.rl = (rem l.src).take l.rl ∧
    (n ≠ 0 → (rem l.src).take l.rl ≠ [] → (limRead S l n).1 ≠ [] ∧ (limRead S l n).2.st = .ok) ∧
    (n ≠ 0 → (rem l.src).take l.rl = [] → (limRead S l n).1 = [] ∧ (limRead S l n).2.st = .eof) := by
  obtain ⟨a1, a2, a3, a4⟩ := limRead_spec S hS l n hl
  rcases a4 with ⟨hn, h0, q1, q2, q3⟩ | ⟨hc, q1, q2, q3⟩
  · rw [q1, q2, a2, q1]
    refine ⟨by simp, ?_, fun _ _ => ⟨rfl, q3⟩⟩
    rw [h0]; simp
  · refine ⟨?_, ?_, ?_⟩
    · rw [a2, q2]
      have hsp := h.split l.src (min n l.rl)
      rw [← q1] at hsp
      conv => rhs; rw [← hsp]
      rw [List.take_append, List.take_of_length_le a1]
    · intro hn hr
      have h0 : l.rl ≠ 0 := by intro c; rw [c] at hr; exact hr rfl
      have hrem : rem l.src ≠ [] := by intro c; rw [c] at hr; simp at hr
      rw [q1, q3]
      exact h.more l.src (min n l.rl) (by omega) hrem
    · intro hn hr
      have h0 : l.rl ≠ 0 := hc.resolve_left hn
      have hrem : rem l.src = [] := by
        rcases List.take_eq_nil_iff.1 hr with c | c
        · exact absurd c h0
        · exact c
      have hsp := h.split l.src (min n l.rl)
      rw [hrem] at hsp
      rw [q1, q3]
      exact ⟨(List.append_eq_nil_iff.1 hsp).1, h.eof l.src (min n l.rl) (by omega) hrem⟩

example : ((limiter (pipe 2 : Strm Nat _)).run (Lim.new (pipe 2) ([1, 2, 3, 4, 5], [], .ok) 3 2)
      [.read 9, .write [7, 8, 9], .read 9, .read 9, .write [6]]).1 =
    [.read [1, 2] .ok, .write 2 .ok, .read [3] .ok, .read [] .eof, .write 0 .fail] := by decide +kernel

end Verif.Stream
