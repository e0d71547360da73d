/-
Abstract `stdex::stream::basic` (include/stdex/stream.hpp 84-417): what every stream offers to
the filters and helpers built on it.  A filter is modelled against an arbitrary such stream.
-/
namespace Verif.Stream

/-- `state_t`, stream.hpp 50-55. -/
inductive St where
  | ok | eof | fail
deriving DecidableEq, Repr

/-- The virtual interface of `basic` (stream.hpp 84-142, 365): `read` delivers a list of at
most `n` bytes (the first `return` bytes of the caller's buffer), `write` accepts a number of
bytes from the front of the data; `state` is `m_state`. -/
structure Strm (β σ : Type) where
  read : σ → Nat → List β × σ
  write : σ → List β → Nat × σ
  close : σ → σ
  flush : σ → σ
  state : σ → St

/-- The contract of `read`/`write`: never more than asked for. -/
structure Lawful {β σ : Type} (S : Strm β σ) : Prop where
  read_le : ∀ s n, (S.read s n).1.length ≤ n
  write_le : ∀ s d, (S.write s d).1 ≤ d.length

/-- One virtual call. -/
inductive Op (β : Type) where
  | read (n : Nat) | write (d : List β) | close | flush

/-- What the caller sees of a call: the data or count, and the stream state afterwards. -/
inductive Res (β : Type) where
  | read (d : List β) (st : St) | write (n : Nat) (st : St) | unit (st : St)
deriving DecidableEq

variable {β σ : Type}

/-- Perform a call. -/
def Strm.step (S : Strm β σ) (s : σ) : Op β → Res β × σ
  | .read n => let r := S.read s n; (.read r.1 (S.state r.2), r.2)
  | .write d => let r := S.write s d; (.write r.1 (S.state r.2), r.2)
  | .close => let s := S.close s; (.unit (S.state s), s)
  | .flush => let s := S.flush s; (.unit (S.state s), s)

/-- Perform a history of calls. -/
def Strm.run (S : Strm β σ) (s : σ) : List (Op β) → List (Res β) × σ
  | [] => ([], s)
  | op :: ops =>
    let r := S.step s op
    let q := S.run r.2 ops
    (r.1 :: q.1, q.2)

/-- `stream::converter`, stream.hpp 1019-1079, over a source: the source's state and the own
`m_state`. -/
def converter (S : Strm β σ) : Strm β (σ × St) where
  read s n := let r := S.read s.1 n; (r.1, (r.2, S.state r.2))           -- 1049-1055
  write s d := let r := S.write s.1 d; (r.1, (r.2, S.state r.2))         -- 1057-1063
  close s := let r := S.close s.1; (r, S.state r)                        -- 1065-1069
  flush s := let r := S.flush s.1; (r, S.state r)                        -- 1071-1075
  state s := s.2

/-- Bytes of a history that were transferred: delivered by reads, accepted from writes. -/
def transferred : List (Op β) → List (Res β) → List β
  | .read _ :: ops, .read d _ :: rs => d ++ transferred ops rs
  | .write d :: ops, .write n _ :: rs => d.take n ++ transferred ops rs
  | _ :: ops, _ :: rs => transferred ops rs
  | _, _ => []

end Verif.Stream
