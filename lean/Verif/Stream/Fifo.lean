import Verif.Stream.Basic
/-
Model of `stdex::stream::fifo` (include/stdex/stream.hpp 4085-4179).

The linked list of nodes is a list of byte lists (head first; `m_tail` is its last element).
Not modelled: the addresses of the nodes (and hence `delete` of memory obtained with
`new uint8_t[]`, 4128); the total number of queued bytes fits `size_t` since the bytes are in
memory.
-/
namespace Verif.Stream.Fifo
open Verif.Stream

section
variable {β : Type}

/-- Data members, 4172-4178. -/
structure Q (β : Type) where
  nodes : List (List β)
  offset : Nat
  size : Nat
  st : St

/-- Constructor, 4087-4092. -/
def Q.init : Q β := ⟨[], 0, 0, .ok⟩

/-- The loop of `read`, 4108-4129: `out` is what was copied to the caller's buffer so far.  `none` if a
`memcpy` would read outside of a node or an unsigned difference would wrap. -/
def readLoop (length : Nat) : List (List β) → (offset size : Nat) → List β → (to_read : Nat) →
    Option (List β × Nat × Q β)
  | [], offset, size, out, to_read =>
    -- 4109-4112
    some (out, length - to_read,
      ⟨[], offset, size, if to_read < length ∨ length = 0 then .ok else .eof⟩)
  | n :: ns, offset, size, out, to_read =>
    if n.length < offset ∨ size < n.length - offset then none
    else
      let remaining := n.length - offset                                   -- 4113
      if to_read < remaining then                                          -- 4114
        some (out ++ (n.drop offset).take to_read, length,
          ⟨n :: ns, offset + to_read, size - to_read, .ok⟩)                -- 4115-4119
      else
        readLoop length ns 0 (size - remaining) (out ++ n.drop offset) (to_read - remaining)  -- 4121-4128

/-- `read`, 4104-4130: (bytes placed in the buffer, returned count, object). -/
def Q.read (q : Q β) (length : Nat) : Option (List β × Nat × Q β) :=
  readLoop length q.nodes q.offset q.size [] length

/-- `write`, 4132-4153; `alloc` says whether the allocation succeeds. -/
def Q.write (q : Q β) (d : List β) (alloc : Bool) : Nat × Q β :=
  if alloc then (d.length, { q with nodes := q.nodes ++ [d], size := q.size + d.length, st := .ok })
  else (0, { q with st := .fail })

/-- `close`, 4155-4164. -/
def Q.close (_q : Q β) : Q β := ⟨[], 0, 0, .ok⟩

inductive Op (β : Type) where
  | read (n : Nat) | write (d : List β) | close

/-- What the caller sees of a call: data, count, `state()`, `size()`. -/
structure Out (β : Type) where
  data : List β
  count : Nat
  st : St
  size : Nat
deriving DecidableEq

def Q.step (q : Q β) (op : Op β) (alloc : Bool) : Option (Out β × Q β) :=
  match op with
  | .read n => (q.read n).map fun r => (⟨r.1, r.2.1, r.2.2.st, r.2.2.size⟩, r.2.2)
  | .write d => let r := q.write d alloc; some (⟨[], r.1, r.2.st, r.2.size⟩, r.2)
  | .close => let r := q.close; some (⟨[], 0, r.st, r.size⟩, r)

def Q.run (q : Q β) : List (Op β × Bool) → Option (List (Out β))
  | [] => some []
  | (op, a) :: ops =>
    match q.step op a with
    | none => none
    | some (o, q') => (q'.run ops).map (o :: ·)

/-! ### Specification: a queue of bytes -/

/-- One call on a queue of bytes. -/
def specStep (l : List β) : Op β → Bool → Out β × List β
  | .read n, _ =>
    (⟨l.take n, (l.take n).length, if n ≠ 0 ∧ l = [] then .eof else .ok, (l.drop n).length⟩, l.drop n)
  | .write d, true => (⟨[], d.length, .ok, (l ++ d).length⟩, l ++ d)
  | .write _, false => (⟨[], 0, .fail, l.length⟩, l)
  | .close, _ => (⟨[], 0, .ok, 0⟩, [])

def specRun (l : List β) : List (Op β × Bool) → List (Out β)
  | [] => []
  | (op, a) :: ops => (specStep l op a).1 :: specRun (specStep l op a).2 ops

/-! ### Proof -/

/-- Bytes queued. -/
def Q.bytes (q : Q β) : List β := q.nodes.flatten.drop q.offset

/-- The cursor is inside the first node and `m_size` is the number of queued bytes. -/
structure Inv (q : Q β) : Prop where
  first : ∀ n ns, q.nodes = n :: ns → q.offset ≤ n.length
  none : q.nodes = [] → q.offset = 0
  size : q.size = q.bytes.length

theorem readLoop_spec (length : Nat) : ∀ (ns : List (List β)) (offset size : Nat) (out : List β)
    (to_read : Nat), (∀ n ns', ns = n :: ns' → offset ≤ n.length) → (ns = [] → offset = 0) →
    size = (ns.flatten.drop offset).length → to_read ≤ length → out.length + to_read = length →
    ∃ q', readLoop length ns offset size out to_read =
        some (out ++ (ns.flatten.drop offset).take to_read,
              (out ++ (ns.flatten.drop offset).take to_read).length, q') ∧
      Inv q' ∧ q'.bytes = (ns.flatten.drop offset).drop to_read ∧
      q'.st = if length ≠ 0 ∧ out = [] ∧ ns.flatten.drop offset = [] then .eof else .ok := by
  intro ns
  induction ns with
  | nil =>
    intro offset size out to_read _ h2 hs hle hl
    have h2 := h2 rfl
    subst h2
    refine ⟨⟨[], 0, size, if to_read < length ∨ length = 0 then .ok else .eof⟩, ?_, ?_, ?_, ?_⟩
    · rw [readLoop]
      have : length - to_read = out.length := by omega
      rw [this]; simp
    · refine ⟨?_, fun _ => rfl, ?_⟩
      · intro n ns e; cases e
      · simpa [Q.bytes] using hs
    · simp [Q.bytes]
    · simp only [List.flatten_nil, List.drop_nil, and_true]
      have ho : out = [] ↔ to_read = length := by
        rw [← List.length_eq_zero_iff]; omega
      by_cases c : length = 0
      · simp [c]
      · by_cases c2 : to_read < length
        · have : ¬ out = [] := fun e => by have := ho.1 e; omega
          simp [c, c2, this]
        · have : out = [] := ho.2 (by omega)
          simp [c, c2, this]
  | cons n ns ih =>
    intro offset size out to_read h1 _ hs hle hl
    have h1 := h1 n ns rfl
    have hfl : (n :: ns).flatten.drop offset = n.drop offset ++ ns.flatten := by
      rw [List.flatten_cons, List.drop_append_of_le_length h1]
    rw [hfl] at hs ⊢
    have hdl : (n.drop offset).length = n.length - offset := by rw [List.length_drop]
    rw [List.length_append] at hs
    rw [readLoop, if_neg (by omega)]
    simp only []
    by_cases hc : to_read < n.length - offset
    · rw [if_pos hc]
      have ht : (n.drop offset ++ ns.flatten).take to_read = (n.drop offset).take to_read := by
        rw [List.take_append_of_le_length (by omega)]
      have htl : ((n.drop offset).take to_read).length = to_read := by
        rw [List.length_take]; omega
      refine ⟨⟨n :: ns, offset + to_read, size - to_read, .ok⟩, ?_, ⟨?_, ?_, ?_⟩, ?_, ?_⟩
      · rw [ht, List.length_append, htl, hl]
      · intro n' ns' e
        cases e
        show offset + to_read ≤ n.length
        omega
      · intro e; cases e
      · show size - to_read = ((n :: ns).flatten.drop (offset + to_read)).length
        rw [List.length_drop, List.flatten_cons, List.length_append]; omega
      · show (n :: ns).flatten.drop (offset + to_read) = _
        rw [← hfl, List.drop_drop]
      · show St.ok = _
        rw [if_neg]
        rintro ⟨_, _, e⟩
        have := congrArg List.length e
        rw [List.length_append] at this
        simp only [List.length_nil] at this
        omega
    · rw [if_neg hc]
      obtain ⟨q', e1, e2, e3, e4⟩ := ih 0 (size - (n.length - offset)) (out ++ n.drop offset)
        (to_read - (n.length - offset)) (fun _ _ _ => Nat.zero_le _) (fun _ => rfl)
        (by rw [List.drop_zero]; omega) (by omega) (by rw [List.length_append]; omega)
      rw [List.drop_zero] at e1 e3 e4
      have ht : (n.drop offset ++ ns.flatten).take to_read =
          n.drop offset ++ ns.flatten.take (to_read - (n.length - offset)) := by
        rw [List.take_append, List.take_of_length_le (by omega), hdl]
      have hd : (n.drop offset ++ ns.flatten).drop to_read =
          ns.flatten.drop (to_read - (n.length - offset)) := by
        rw [List.drop_append, List.drop_eq_nil_of_le (by omega), hdl, List.nil_append]
      refine ⟨q', ?_, e2, ?_, ?_⟩
      · rw [e1, ht, List.append_assoc]
      · rw [e3, hd]
      · rw [e4]
        simp only [List.append_eq_nil_iff, and_assoc]

theorem step_spec {q : Q β} (h : Inv q) (op : Op β) (a : Bool) :
    ∃ q', q.step op a = some ((specStep q.bytes op a).1, q') ∧ Inv q' ∧
      q'.bytes = (specStep q.bytes op a).2 := by
  cases op with
  | read n =>
    obtain ⟨q', e1, e2, e3, e4⟩ := readLoop_spec n q.nodes q.offset q.size [] n h.first h.none h.size
      (Nat.le_refl _) (by simp)
    refine ⟨q', ?_, e2, e3⟩
    show (q.read n).map _ = _
    unfold Q.read
    rw [e1]
    rw [Option.map_some, List.nil_append]
    have hs : q'.size = (q.bytes.drop n).length := by rw [e2.size, e3]; rfl
    show some ((⟨_, _, q'.st, q'.size⟩ : Out β), q') = _
    have e4' : q'.st = if n ≠ 0 ∧ q.bytes = [] then .eof else .ok := by
      rw [e4]; simp [Q.bytes]
    rw [hs, e4']
    rfl
  | write d =>
    cases a with
    | true =>
      have hb : ({ q with nodes := q.nodes ++ [d], size := q.size + d.length, st := .ok } : Q β).bytes
          = q.bytes ++ d := by
        unfold Q.bytes
        simp only [List.flatten_append, List.flatten_cons, List.flatten_nil, List.append_nil]
        rw [List.drop_append_of_le_length]
        cases hn : q.nodes with
        | nil => rw [h.none hn]; exact Nat.zero_le _
        | cons n ns =>
          have := h.first n ns hn
          rw [List.flatten_cons, List.length_append]; omega
      refine ⟨{ q with nodes := q.nodes ++ [d], size := q.size + d.length, st := .ok }, ?_, ⟨?_, ?_, ?_⟩, hb⟩
      · show some ((⟨[], d.length, .ok, q.size + d.length⟩ : Out β), _) = _
        have e : (specStep q.bytes (.write d) true).1 = ⟨[], d.length, .ok, q.size + d.length⟩ := by
          rw [h.size, ← List.length_append]; rfl
        rw [e]; rfl
      · intro n ns e
        have e : q.nodes ++ [d] = n :: ns := e
        show q.offset ≤ n.length
        cases hn : q.nodes with
        | nil => rw [h.none hn]; exact Nat.zero_le _
        | cons n' ns' =>
          rw [hn, List.cons_append] at e
          have := (List.cons.inj e).1
          rw [← this]; exact h.first n' ns' hn
      · intro e
        have e : q.nodes ++ [d] = [] := e
        simp at e
      · rw [hb, List.length_append, ← h.size]
    | false =>
      refine ⟨{ q with st := .fail }, ?_, ⟨h.first, h.none, h.size⟩, rfl⟩
      show some ((⟨[], 0, .fail, q.size⟩ : Out β), _) = _
      have e : (specStep q.bytes (.write d) false).1 = ⟨[], 0, .fail, q.size⟩ := by rw [h.size]; rfl
      rw [e]; rfl
  | close =>
    refine ⟨⟨[], 0, 0, .ok⟩, rfl, ⟨?_, fun _ => rfl, rfl⟩, rfl⟩
    intro n ns e; cases e

/-- C30.  Any history of reads, writes (with allocation failures anywhere) and closes on a new fifo gives
exactly the answers of a queue of bytes; `size()` is the number of bytes not yet read; eof is
reported exactly for a non-empty read of the empty queue. -/
theorem fifo_is_queue (ops : List (Op β × Bool)) : (Q.init : Q β).run ops = some (specRun [] ops) := by
  have gen : ∀ (ops : List (Op β × Bool)) (q : Q β), Inv q → q.run ops = some (specRun q.bytes ops) := by
    intro ops
    induction ops with
    | nil => intro q _; rfl
    | cons x ops ih =>
      intro q h
      obtain ⟨op, a⟩ := x
      obtain ⟨q', e1, e2, e3⟩ := step_spec h op a
      rw [Q.run, e1]
      simp only []
      rw [ih q' e2, e3]
      rfl
  refine gen ops Q.init ⟨?_, fun _ => rfl, rfl⟩
  intro n ns e; cases e

/-- Bytes delivered by a history. -/
def delivered (os : List (Out β)) : List β := (os.map Out.data).flatten

/-- Bytes accepted by a history. -/
def accepted : List (Op β × Bool) → List β
  | [] => []
  | (.write d, true) :: ops => d ++ accepted ops
  | _ :: ops => accepted ops

/-- C30.  Without `close`, what was read is a prefix of what was written, and the rest is still queued:
nothing is lost, duplicated or reordered. -/
theorem lossless (ops : List (Op β × Bool)) (hc : ∀ a, (Op.close, a) ∉ ops) :
    ∃ os rest, (Q.init : Q β).run ops = some os ∧ delivered os ++ rest = accepted ops ∧
      (∀ o, os.getLast? = some o → o.size = rest.length) := by
  have gen : ∀ (ops : List (Op β × Bool)) (l : List β), (∀ a, (Op.close, a) ∉ ops) →
      ∃ rest, delivered (specRun l ops) ++ rest = l ++ accepted ops ∧
        (∀ o, (specRun l ops).getLast? = some o → o.size = rest.length) := by
    intro ops
    induction ops with
    | nil => intro l _; exact ⟨l, by simp [specRun, delivered, accepted], fun o h => by cases h⟩
    | cons x ops ih =>
      intro l hc
      obtain ⟨op, a⟩ := x
      obtain ⟨rest, h1, h2⟩ := ih (specStep l op a).2 (fun a h => hc a (List.mem_cons_of_mem _ h))
      refine ⟨rest, ?_, ?_⟩
      · have hd : delivered (specRun l ((op, a) :: ops)) =
            (specStep l op a).1.data ++ delivered (specRun (specStep l op a).2 ops) := rfl
        rw [hd, List.append_assoc, h1]
        cases op with
        | read n =>
          show l.take n ++ (l.drop n ++ _) = l ++ accepted ops
          rw [← List.append_assoc, List.take_append_drop]
        | write d =>
          cases a with
          | true =>
            show [] ++ ((l ++ d) ++ accepted ops) = l ++ (d ++ accepted ops)
            rw [List.nil_append, List.append_assoc]
          | false => rfl
        | close => exact absurd List.mem_cons_self (hc a)
      · intro o ho
        cases ops with
        | nil =>
          have hr : rest = (specStep l op a).2 := by
            have h1 : [] ++ rest = (specStep l op a).2 ++ [] := h1
            rw [List.nil_append, List.append_nil] at h1; exact h1
          have ho : some (specStep l op a).1 = some o := ho
          cases ho
          rw [hr]
          cases op with
          | read n => rfl
          | write d => cases a <;> rfl
          | close => rfl
        | cons y ops =>
          apply h2
          have : specRun l ((op, a) :: y :: ops) =
            (specStep l op a).1 :: specRun (specStep l op a).2 (y :: ops) := rfl
          rw [this] at ho
          have hne : specRun (specStep l op a).2 (y :: ops) ≠ [] := by
            obtain ⟨yo, ya⟩ := y
            simp [specRun]
          rw [List.getLast?_cons] at ho
          rw [← ho]
          cases hg : (specRun (specStep l op a).2 (y :: ops)).getLast? with
          | none => exact absurd (List.getLast?_eq_none_iff.1 hg) hne
          | some z => rfl
  obtain ⟨rest, h1, h2⟩ := gen ops [] hc
  exact ⟨specRun [] ops, rest, fifo_is_queue ops, by rw [h1]; rfl, h2⟩

end

/-- Non-vacuity: reads across node boundaries, an empty write, a failing write. -/
example : (Q.init : Q Nat).run [(.write [1, 2, 3], true), (.write [], true), (.write [4, 5], true),
    (.read 2, true), (.write [9], false), (.read 2, true), (.read 5, true), (.read 1, true), (.read 0, true)] =
    some [⟨[], 3, .ok, 3⟩, ⟨[], 0, .ok, 3⟩, ⟨[], 2, .ok, 5⟩, ⟨[1, 2], 2, .ok, 3⟩, ⟨[], 0, .fail, 3⟩,
      ⟨[3, 4], 2, .ok, 1⟩, ⟨[5], 1, .ok, 0⟩, ⟨[], 0, .eof, 0⟩, ⟨[], 0, .ok, 0⟩] := by
  decide +kernel

end Verif.Stream.Fifo
