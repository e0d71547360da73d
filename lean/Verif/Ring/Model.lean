/-!
# Model of `stdex::ring<T, N_cap>` (include/stdex/ring.hpp 27-154)

All members run under `m_mutex`, so each is one atomic step.  What is *not* under the
mutex is the producer filling the window it got from `back()` and the consumer reading
the window it got from `front()`; those are separate steps here (`write`, `read`), so
that arbitrary interleavings of the two threads are covered.

`m_data` is a function from index to `Option α`; `none` = never initialised (the
constructor, ring.hpp 31-36, leaves the array uninitialised).  `size_t` is `Nat`
(`m_head + m_size < 2 * N_cap`; wrap-around of `size_t` for `N_cap > 2^63` is ignored).
-/
namespace Verif.Ring

/-- The data members of `ring` (ring.hpp 151-153). -/
structure Ring (α : Type) where
  head : Nat
  size : Nat
  quit : Bool
  data : Nat → Option α

/-- Result of `back()`/`front()`: the call blocks (the `wait` predicate is false), or
returns `{nullptr, 0}`, or `{&m_data[off], len}`. -/
inductive Res where
  | block
  | null
  | window (off len : Nat)
deriving DecidableEq, Repr

variable {α : Type}

/-- Constructor, ring.hpp 32-36. -/
def init : Ring α := { head := 0, size := 0, quit := false, data := fun _ => none }

/-- `wrap`, ring.hpp 132-136. -/
def wrap (N idx : Nat) : Nat := idx % N

/-- `space`, ring.hpp 138-141. -/
def Ring.space (N : Nat) (r : Ring α) : Nat := N - r.size

/-- `empty`, ring.hpp 143-146. -/
def Ring.empty (r : Ring α) : Bool := r.size == 0

/-- `back()`, ring.hpp 43-53.  `waited` tells whether the thread is coming out of the
`wait` of line 47 (then `m_quit` is looked at, line 48) or is at the first test of line
46.  A first call that finds no space goes to sleep on `m_head_moved` *unless* the
predicate `m_quit || space()` already holds (`wait` tests it first). -/
def Ring.back (N : Nat) (r : Ring α) (waited : Bool) : Res :=
  let tail := wrap N (r.head + r.size)
  let win := Res.window tail (if r.head ≤ tail then N - tail else r.head - tail)
  if waited || r.space N == 0 then
    if r.quit || r.space N != 0 then
      (if r.quit then Res.null else win)
    else Res.block
  else win

/-- `push(size)`, ring.hpp 60-71 without the notification. -/
def Ring.push (r : Ring α) (n : Nat) : Ring α := { r with size := r.size + n }

/-- The assertion of `push`, ring.hpp 65-66. -/
def Ring.pushOk (N : Nat) (r : Ring α) (n : Nat) : Prop :=
  n ≤ (if r.head ≤ wrap N (r.head + r.size) then N - wrap N (r.head + r.size)
       else r.head - wrap N (r.head + r.size))

/-- `front()`, ring.hpp 78-88. -/
def Ring.front (N : Nat) (r : Ring α) (waited : Bool) : Res :=
  let tail := wrap N (r.head + r.size)
  let win := Res.window r.head (if r.head < tail then r.size else N - r.head)
  if waited || r.empty then
    if r.quit || !r.empty then
      (if r.quit && r.empty then Res.null else win)
    else Res.block
  else win

/-- `pop(size)`, ring.hpp 95-107 without the notification. -/
def Ring.pop (N : Nat) (r : Ring α) (n : Nat) : Ring α :=
  { r with head := wrap N (r.head + n), size := r.size - n }

/-- The assertion of `pop`, ring.hpp 100-101. -/
def Ring.popOk (N : Nat) (r : Ring α) (n : Nat) : Prop :=
  n ≤ (if r.head < wrap N (r.head + r.size) then r.size else N - r.head)

/-- `quit()`, ring.hpp 112-120 without the notifications. -/
def Ring.setQuit (r : Ring α) : Ring α := { r with quit := true }

/-- `sync()`, ring.hpp 125-129: `true` = returns, `false` = blocks. -/
def Ring.sync (r : Ring α) : Bool := r.quit || r.empty

/-- A producer store `p[i] = x` through the pointer `p = &m_data[off]` it got from
`back()` (user code). -/
def Ring.store (r : Ring α) (idx : Nat) (x : α) : Ring α :=
  { r with data := fun j => if j = idx then some x else r.data j }

/-! ## The system: ring + one producer + one consumer -/

/-- Ring plus the two threads' local knowledge and ghost logs.
* `pwin` — window held by the producer since its last successful `back()`;
* `staged i` — what the producer itself stored at offset `i` of that window;
* `cwin` — window held by the consumer since its last successful `front()`;
* `sent` — ghost: the values the producer stored and then committed with `push`;
* `got` — ghost: the memory cells the consumer saw in its window and then popped. -/
structure Sys (α : Type) where
  ring : Ring α
  pwin : Option (Nat × Nat)
  staged : Nat → Option α
  cwin : Option (Nat × Nat)
  sent : List α
  got : List (Option α)

/-- Events of the two threads (and of whoever calls `quit()`). -/
inductive Op (α : Type) where
  | back (waited : Bool)
  | store (i : Nat) (x : α)
  | push (n : Nat)
  | front (waited : Bool)
  | load (i : Nat)
  | pop (n : Nat)
  | quit

/-- What a thread observes from an event. -/
inductive Out (α : Type) where
  | res (r : Res)
  | val (x : Option α)
  | unit

/-- Start state: fresh ring, nobody holds a window. -/
def Sys.init : Sys α :=
  { ring := Ring.init, pwin := none, staged := fun _ => none, cwin := none, sent := [], got := [] }

/-- The values the producer stored at offsets `0..n-1`, if it stored all of them. -/
def collect (f : Nat → Option α) : Nat → Option (List α)
  | 0 => some []
  | n + 1 => do
    let l ← collect f n
    let x ← f n
    pure (l ++ [x])

/-- One event.  `none` = the caller breaks the interface: it stores/loads outside the
window it was given, pushes more than the window or elements it never wrote, or pops
more than its window.  Window bookkeeping is user code, not part of ring.hpp. -/
def Sys.step (N : Nat) (s : Sys α) : Op α → Option (Sys α × Out α)
  | .back w =>
    let r := s.ring.back N w
    match r with
    | .window off len => some ({ s with pwin := some (off, len), staged := fun _ => none }, .res r)
    | _ => some ({ s with pwin := none }, .res r)
  | .store i x =>
    match s.pwin with
    | some (off, len) =>
      if i < len then
        some ({ s with ring := s.ring.store (off + i) x,
                       staged := fun j => if j = i then some x else s.staged j }, .unit)
      else none
    | none => none
  | .push n =>
    match s.pwin with
    | some (_, len) =>
      if n ≤ len then
        match collect s.staged n with
        | some xs => some ({ s with ring := s.ring.push n, pwin := none, sent := s.sent ++ xs }, .unit)
        | none => none
      else none
    | none => none
  | .front w =>
    let r := s.ring.front N w
    match r with
    | .window off len => some ({ s with cwin := some (off, len) }, .res r)
    | _ => some ({ s with cwin := none }, .res r)
  | .load i =>
    match s.cwin with
    | some (off, len) => if i < len then some (s, .val (s.ring.data (off + i))) else none
    | none => none
  | .pop n =>
    match s.cwin with
    | some (off, len) =>
      if n ≤ len then
        some ({ s with ring := s.ring.pop N n, cwin := none,
                       got := s.got ++ (List.range n).map (fun i => s.ring.data (off + i)) }, .unit)
      else none
    | none => none
  | .quit => some ({ s with ring := s.ring.setQuit }, .unit)

/-- States reachable by any interleaving of legal events. -/
inductive Reach (N : Nat) : Sys α → Prop where
  | init : Reach N Sys.init
  | step {s s' : Sys α} {op : Op α} {o : Out α} :
      Reach N s → s.step N op = some (s', o) → Reach N s'

end Verif.Ring
