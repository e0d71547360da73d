import Verif.Stream.Buffer
import Verif.Stream.Limiter
import Verif.Hash.Misc
import Verif.Record.RecordValue
/-
Filters on top of each other: any pile of `stream::converter` (include/stdex/stream.hpp 1019-1079), `stream::buffer` (1391-1543),
`stream::limiter` (1548-1603) and `stream_hasher` (include/stdex/hash.hpp 136-163) over a stream.
-/
namespace Verif.Stack
open Verif.Stream Verif.Record
open Verif.Hash (streamHasher)

variable {H : Type}

/-! ### Model -/

/-- A hash, `basic_hash` of hash.hpp 28-71: `hash(data, length)` and the object as constructed. -/
structure Tap (H : Type) where
  upd : H → List Byte → H
  init : H

/-- A filter with its constructor's arguments. -/
inductive Filter (H : Type) where
  | plain                            -- stream.hpp 1019-1079
  | hasher (t : Tap H)               -- hash.hpp 136-163
  | buffer (r w : Nat)               -- stream.hpp 1391-1543
  | limit (r w : Nat)                -- stream.hpp 1548-1603

/-- A stream object: what it does, the state it is in, what has arrived in the stream at the bottom, and the hashes in the pile. -/
structure Pile (H : Type) where
  σ : Type
  S : Strm Byte σ
  s : σ
  got : σ → List Byte
  taps : σ → List (Tap H × H)

/-- A filter made over a stream: the constructors of stream.hpp 1410-1414, 1551-1555, hash.hpp 139-143. -/
def Filter.on : Filter H → Pile H → Pile H
  | .plain, p => ⟨p.σ × St, converter p.S, (p.s, p.S.state p.s), fun x => p.got x.1, fun x => p.taps x.1⟩
  | .hasher t, p => ⟨(p.σ × St) × H, streamHasher p.S t.upd, ((p.s, p.S.state p.s), t.init), fun x => p.got x.1.1, fun x => (t, x.2) :: p.taps x.1.1⟩
  | .buffer r w, p => ⟨Buf Byte p.σ, Stream.buffer p.S r w, Buf.new p.S p.s, fun x => p.got x.src, fun x => p.taps x.src⟩
  | .limit r w, p => ⟨Lim p.σ, limiter p.S, Lim.new p.S p.s r w, fun x => p.got x.src, fun x => p.taps x.src⟩

/-- The filters on top of each other, the first one on top. -/
def stack (fs : List (Filter H)) (p : Pile H) : Pile H := fs.foldr Filter.on p

/-- A stream without filters. -/
def bare {σ : Type} (S : Strm Byte σ) (s : σ) (got : σ → List Byte) : Pile H := ⟨σ, S, s, got, fun _ => []⟩

/-! ### Specification -/

/-- What is to be seen of contents `L` through a filter. -/
def Filter.view : Filter H → List Byte → List Byte
  | .limit r _, L => if r = fsizeMax then L else L.take r
  | _, L => L

/-- What is to be seen through the filters. -/
def view (fs : List (Filter H)) (L : List Byte) : List Byte := fs.foldr Filter.view L

/-- The limits are numbers of type `fsize_t`. -/
def Filter.Ok : Filter H → Prop
  | .limit r w => r ≤ fsizeMax ∧ w ≤ fsizeMax
  | _ => True

/-- `n` bytes may be written through the filter. -/
def Filter.Fits (n : Nat) : Filter H → Prop
  | .limit _ w => w = fsizeMax ∨ n ≤ w
  | _ => True

/-- The hash object got the bytes `P`, in pieces of some sizes. -/
def Fed (x : Tap H × H) (P : List Byte) : Prop := ∃ chunks : List (List Byte), chunks.flatten = P ∧ x.2 = chunks.foldl x.1.upd x.1.init

/-- The hashes of a pile. -/
def hashers : List (Filter H) → List (Tap H)
  | [] => []
  | .hasher t :: fs => t :: hashers fs
  | _ :: fs => hashers fs

theorem stack_taps (fs : List (Filter H)) {σ : Type} (S : Strm Byte σ) (s : σ) (got : σ → List Byte) : ∀ x, ((stack fs (bare S s got)).taps x).map Prod.fst = hashers fs := by
  induction fs with
  | nil => intro x; rfl
  | cons f fs ih =>
    intro x
    cases f with
    | plain => exact ih x.1
    | hasher t => exact congrArg (List.cons t) (ih x.1.1)
    | buffer r w => exact ih x.src
    | limit r w => exact ih x.src

/-! ### Reading -/

/-- States from which a stream, having delivered `C`, will deliver `L` and then report the end. -/
structure Live {σ : Type} (S : Strm Byte σ) (obs : σ → List Byte → Prop) (R : σ → List Byte → List Byte → Prop) : Prop where
  obs : ∀ {s C L}, R s C L → obs s C
  nofail : ∀ {s C L}, R s C L → S.state s ≠ .fail
  le : ∀ {s C L}, R s C L → ∀ n, (S.read s n).1.length ≤ n
  take : ∀ {s C L}, R s C L → ∀ n, (S.read s n).1 = L.take (S.read s n).1.length
  next : ∀ {s C L}, R s C L → ∀ n, R (S.read s n).2 (C ++ (S.read s n).1) (L.drop (S.read s n).1.length)
  more : ∀ {s C L}, R s C L → ∀ n, n ≠ 0 → L ≠ [] → (S.read s n).1 ≠ [] ∧ S.state (S.read s n).2 = .ok
  eof : ∀ {s C L}, R s C L → ∀ n, n ≠ 0 → L = [] → S.state (S.read s n).2 = .eof
  zero : ∀ {s C L}, R s C L → S.state (S.read s 0).2 = .ok ∨ S.state (S.read s 0).2 = S.state s

/-- Every hash of the pile got what was delivered and maybe some of what follows, up to all of the contents `L0` at the bottom. -/
def Between (L0 : List Byte) (taps : List (Tap H × H)) (C : List Byte) : Prop := ∀ x ∈ taps, ∃ P, Fed x P ∧ C <+: P ∧ P <+: L0

theorem between_less {L0 : List Byte} {taps : List (Tap H × H)} {C D : List Byte} (h : Between L0 taps (C ++ D)) : Between L0 taps C := fun x hx => by
  obtain ⟨P, a, b, c⟩ := h x hx
  exact ⟨P, a, List.IsPrefix.trans (List.prefix_append C D) b, c⟩

theorem fed_init (t : Tap H) : Fed (t, t.init) [] := ⟨[], rfl, rfl⟩

theorem fed_more {t : Tap H} {h : H} {P : List Byte} (hf : Fed (t, h) P) (d : List Byte) : Fed (t, t.upd h d) (P ++ d) := by
  obtain ⟨cs, a, b⟩ := hf
  refine ⟨cs ++ [d], ?_, ?_⟩
  · rw [List.flatten_append, a]; simp
  · rw [List.foldl_append]
    show t.upd h d = t.upd (cs.foldl t.upd t.init) d
    rw [← b]

/-- A pile that delivers `L` of the contents `L0`. -/
def Reads (L0 : List Byte) (p : Pile H) (L : List Byte) : Prop :=
  ∃ R, Live p.S (fun s C => Between L0 (p.taps s) C) R ∧ R p.s [] L ∧ ∀ {s C L}, R s C L → C ++ L <+: L0

theorem reads_bare {σ : Type} {S : Strm Byte σ} {rem : σ → List Byte} (h : IsSource S rem) {s : σ} (hs : S.state s ≠ .fail) (got : σ → List Byte) :
    Reads (H := H) (rem s) (bare S s got) (rem s) := by
  refine ⟨fun x C L => rem x = L ∧ S.state x ≠ .fail ∧ C ++ L = rem s, ⟨?_, ?_, ?_, ?_, ?_, ?_, ?_, ?_⟩, ⟨rfl, hs, rfl⟩, ?_⟩
  · intro x C L _ t ht; cases ht
  · intro x C L hr; exact hr.2.1
  · intro x C L _ n; exact h.le x n
  · rintro x C L ⟨rfl, -, -⟩ n; exact (h.read_eq x n).1
  · rintro x C L ⟨rfl, h2, h3⟩ n
    refine ⟨(h.read_eq x n).2, ?_, ?_⟩
    · show S.state (S.read x n).2 ≠ .fail
      by_cases hn : n = 0
      · subst hn
        rcases h.zero x with c | c
        · rw [c]; decide
        · rw [c]; exact h2
      · by_cases hr : rem x = []
        · rw [h.eof x n hn hr]; decide
        · rw [(h.more x n hn hr).2]; decide
    · show C ++ (S.read x n).1 ++ (rem x).drop (S.read x n).1.length = _
      have e := (h.read_eq (s := (x : σ)) n).2
      have f := h.split (x : σ) n
      have g : C ++ ((S.read (x : σ) n).1 ++ rem (S.read (x : σ) n).2) = rem s := by rw [f]; exact h3
      rw [e, ← List.append_assoc] at g
      exact g
  · rintro x C L ⟨rfl, -, -⟩ n hn hl; exact h.more x n hn hl
  · rintro x C L ⟨rfl, -, -⟩ n hn hl; exact h.eof x n hn hl
  · intro x C L _; exact h.zero x
  · rintro x C L ⟨-, -, h3⟩; rw [h3]; exact List.prefix_refl _

theorem reads_plain {L0 L : List Byte} {p : Pile H} (h : Reads L0 p L) : Reads L0 (Filter.plain.on p) L := by
  obtain ⟨R, h, hs, hc⟩ := h
  refine ⟨fun x C L => R x.1 C L ∧ x.2 = p.S.state x.1, ⟨?_, ?_, ?_, ?_, ?_, ?_, ?_, ?_⟩, ⟨hs, rfl⟩, fun hr => hc hr.1⟩
  · intro x C L hr; exact h.obs hr.1
  · intro x C L hr; show x.2 ≠ _; rw [hr.2]; exact h.nofail hr.1
  · intro x C L hr n; exact h.le hr.1 n
  · intro x C L hr n; exact h.take hr.1 n
  · intro x C L hr n; exact ⟨h.next hr.1 n, rfl⟩
  · intro x C L hr n; exact h.more hr.1 n
  · intro x C L hr n; exact h.eof hr.1 n
  · intro x C L hr
    rcases h.zero hr.1 with c | c
    · exact Or.inl c
    · right; show p.S.state _ = x.2; rw [hr.2]; exact c

theorem reads_hasher {L0 L : List Byte} {p : Pile H} (t : Tap H) (h : Reads L0 p L) : Reads L0 ((Filter.hasher t).on p) L := by
  obtain ⟨R, h, hs, hc⟩ := h
  refine ⟨fun x C L => R x.1.1 C L ∧ x.1.2 = p.S.state x.1.1 ∧ Fed (t, x.2) C, ⟨?_, ?_, ?_, ?_, ?_, ?_, ?_, ?_⟩, ⟨hs, rfl, fed_init t⟩, fun hr => hc hr.1⟩
  · intro x C L hr y hy
    rcases List.mem_cons.1 hy with rfl | hy
    · exact ⟨C, hr.2.2, List.prefix_refl _, List.IsPrefix.trans (List.prefix_append C L) (hc hr.1)⟩
    · exact h.obs hr.1 y hy
  · intro x C L hr; show x.1.2 ≠ _; rw [hr.2.1]; exact h.nofail hr.1
  · intro x C L hr n; exact h.le hr.1 n
  · intro x C L hr n; exact h.take hr.1 n
  · intro x C L hr n; exact ⟨h.next hr.1 n, rfl, fed_more hr.2.2 _⟩
  · intro x C L hr n; exact h.more hr.1 n
  · intro x C L hr n; exact h.eof hr.1 n
  · intro x C L hr
    rcases h.zero hr.1 with c | c
    · exact Or.inl c
    · right; show p.S.state _ = x.1.2; rw [hr.2.1]; exact c

theorem reads_limit {L0 L : List Byte} {p : Pile H} {r w : Nat} (hr : r ≤ fsizeMax) (h : Reads L0 p L) : Reads L0 ((Filter.limit r w).on p) ((Filter.limit r w : Filter H).view L) := by
  obtain ⟨R, h, hs, hc⟩ := h
  refine ⟨fun l C V => ∃ L, R l.src C L ∧ (l.st = p.S.state l.src ∨ l.st = .eof) ∧ (l.rl = fsizeMax ∧ V = L ∨ l.rl < fsizeMax ∧ V = L.take l.rl), ?_,
    ⟨L, hs, Or.inl rfl, ?_⟩, ?_⟩
  · have key : ∀ {l : Lim p.σ} {C V : List Byte}, (∃ L, R l.src C L ∧ (l.st = p.S.state l.src ∨ l.st = .eof) ∧ (l.rl = fsizeMax ∧ V = L ∨ l.rl < fsizeMax ∧ V = L.take l.rl)) → ∀ n,
        ((limRead p.S l n).1.length ≤ n ∧ (limRead p.S l n).1 = V.take (limRead p.S l n).1.length) ∧
        (∃ L, R (limRead p.S l n).2.src (C ++ (limRead p.S l n).1) L ∧ ((limRead p.S l n).2.st = p.S.state (limRead p.S l n).2.src ∨ (limRead p.S l n).2.st = .eof) ∧
          ((limRead p.S l n).2.rl = fsizeMax ∧ V.drop (limRead p.S l n).1.length = L ∨ (limRead p.S l n).2.rl < fsizeMax ∧ V.drop (limRead p.S l n).1.length = L.take (limRead p.S l n).2.rl)) ∧
        (n ≠ 0 → V ≠ [] → (limRead p.S l n).1 ≠ [] ∧ (limRead p.S l n).2.st = .ok) ∧ (n ≠ 0 → V = [] → (limRead p.S l n).2.st = .eof) ∧
        (n = 0 → (limRead p.S l n).2.st = .ok ∨ (limRead p.S l n).2.st = l.st) := by
      rintro l C V ⟨L, h1, h2, h3⟩ n
      have zero : p.S.state (p.S.read l.src 0).2 = .ok ∨ p.S.state (p.S.read l.src 0).2 = l.st := by
        rcases h.zero h1 with c | c
        · exact Or.inl c
        · rcases h2 with e | e
          · exact Or.inr (by rw [e]; exact c)
          · have := h.nofail h1
            rw [c, e]
            cases hq : p.S.state l.src with
            | ok => exact Or.inl rfl
            | eof => exact Or.inr rfl
            | fail => exact absurd hq this
      unfold limRead
      rcases h3 with ⟨hm, rfl⟩ | ⟨hm, rfl⟩
      · rw [if_pos hm]
        refine ⟨⟨h.le h1 n, h.take h1 n⟩, ⟨_, h.next h1 n, Or.inl rfl, Or.inl ⟨hm, rfl⟩⟩, h.more h1 n, h.eof h1 n, ?_⟩
        rintro rfl; exact zero
      · have read : ∀ m, m ≤ l.rl → (m ≠ 0 ∨ n = 0) → m ≤ n →
            ((p.S.read l.src m).1.length ≤ n ∧ (p.S.read l.src m).1 = (L.take l.rl).take (p.S.read l.src m).1.length) ∧
            (∃ L', R (p.S.read l.src m).2 (C ++ (p.S.read l.src m).1) L' ∧ (p.S.state (p.S.read l.src m).2 = p.S.state (p.S.read l.src m).2 ∨ p.S.state (p.S.read l.src m).2 = .eof) ∧
              (l.rl - (p.S.read l.src m).1.length = fsizeMax ∧ (L.take l.rl).drop (p.S.read l.src m).1.length = L' ∨ l.rl - (p.S.read l.src m).1.length < fsizeMax ∧ (L.take l.rl).drop (p.S.read l.src m).1.length = L'.take (l.rl - (p.S.read l.src m).1.length))) ∧
            (n ≠ 0 → L.take l.rl ≠ [] → (p.S.read l.src m).1 ≠ [] ∧ p.S.state (p.S.read l.src m).2 = .ok) ∧ (n ≠ 0 → L.take l.rl = [] → p.S.state (p.S.read l.src m).2 = .eof) ∧
            (n = 0 → p.S.state (p.S.read l.src m).2 = .ok ∨ p.S.state (p.S.read l.src m).2 = l.st) := by
          intro m hml hm0 hmn
          have hle := h.le h1 m
          refine ⟨⟨by omega, ?_⟩, ⟨_, h.next h1 m, Or.inl rfl, Or.inr ⟨by omega, ?_⟩⟩, ?_, ?_, ?_⟩
          · rw [List.take_take, Nat.min_eq_left (by omega)]; exact h.take h1 m
          · rw [List.drop_take]
          · intro hn hl
            exact h.more h1 m (hm0.resolve_right hn) (by intro c; rw [c] at hl; simp at hl)
          · intro hn hl
            refine h.eof h1 m (hm0.resolve_right hn) ?_
            rcases List.take_eq_nil_iff.1 hl with c | c
            · have := hm0.resolve_right hn; omega
            · exact c
          · rintro rfl
            have : m = 0 := by omega
            subst this
            exact zero
        rw [if_neg (by omega)]
        by_cases c1 : n ≤ l.rl
        · rw [if_pos c1]
          exact read n c1 (by omega) (Nat.le_refl _)
        · rw [if_neg c1]
          by_cases c2 : n ≠ 0 ∧ l.rl = 0
          · rw [if_pos c2]
            refine ⟨⟨Nat.zero_le _, rfl⟩, ⟨L, by rw [List.append_nil]; exact h1, Or.inr rfl, Or.inr ⟨hm, rfl⟩⟩, ?_, fun _ _ => rfl, fun c => absurd c c2.1⟩
            intro _ hv
            rw [c2.2] at hv
            exact absurd rfl hv
          · rw [if_neg c2]
            exact read l.rl (Nat.le_refl _) (by omega) (by omega)
    refine ⟨?_, ?_, fun hr n => (key hr n).1.1, fun hr n => (key hr n).1.2, fun hr n => (key hr n).2.1, fun hr n => (key hr n).2.2.1, fun hr n => (key hr n).2.2.2.1, fun hr => (key hr 0).2.2.2.2 rfl⟩
    · rintro l C V ⟨L, h1, -, -⟩; exact h.obs h1
    · rintro l C V ⟨L, h1, h2, -⟩
      show l.st ≠ _
      rcases h2 with c | c
      · rw [c]; exact h.nofail h1
      · rw [c]; decide
  · show r = fsizeMax ∧ (if r = fsizeMax then L else L.take r) = L ∨ r < fsizeMax ∧ (if r = fsizeMax then L else L.take r) = L.take r
    by_cases c : r = fsizeMax
    · rw [if_pos c]; exact Or.inl ⟨c, rfl⟩
    · rw [if_neg c]; exact Or.inr ⟨by omega, rfl⟩
  · rintro l C V ⟨L, h1, -, h3⟩
    have := hc h1
    rcases h3 with ⟨-, rfl⟩ | ⟨-, rfl⟩
    · exact this
    · refine List.IsPrefix.trans ?_ this
      rw [List.prefix_append_right_inj]
      exact List.take_prefix _ _

theorem reads_buffer {L0 L : List Byte} {p : Pile H} {r w : Nat} (h : Reads L0 p L) : Reads L0 ((Filter.buffer r w).on p) L := by
  obtain ⟨R, h, hs, hc⟩ := h
  refine ⟨fun b C V => ∃ L, R b.src (C ++ b.rbuf) L ∧ V = b.rbuf ++ L ∧ b.st ≠ .fail, ?_, ⟨L, hs, rfl, h.nofail hs⟩, ?_⟩
  · have key : ∀ {b : Buf Byte p.σ} {C V : List Byte}, (∃ L, R b.src (C ++ b.rbuf) L ∧ V = b.rbuf ++ L ∧ b.st ≠ .fail) → ∀ n,
        ∃ d b', (Stream.buffer p.S r w).read b n = (d, b') ∧ (d.length ≤ n ∧ d = V.take d.length) ∧
        (∃ L, R b'.src (C ++ d ++ b'.rbuf) L ∧ V.drop d.length = b'.rbuf ++ L ∧ b'.st ≠ .fail) ∧
        (n ≠ 0 → V ≠ [] → d ≠ [] ∧ b'.st = .ok) ∧ (n ≠ 0 → V = [] → b'.st = .eof) ∧ (n = 0 → b'.st = .ok ∨ b'.st = b.st) := by
      rintro b C V ⟨L, h1, rfl, h3⟩ n
      obtain ⟨d, b', e, hl, -, -, g⟩ := bufRead_at p.S r b (h.le h1) n
      refine ⟨d, b', ?_, ?_⟩
      · show (bufRead p.S r b n).getD _ = _
        rw [e]; rfl
      · rcases g with ⟨g1, g2, g3, g4, g5⟩ | ⟨g1, m, g2, g3, g4, g5⟩
        · refine ⟨⟨hl, ?_⟩, ⟨L, ?_, ?_, by rw [g5]; decide⟩, ?_, ?_, fun _ => Or.inl g5⟩
          · rw [← g2, List.append_assoc, List.take_left]
          · rw [g4, List.append_assoc, g2]; exact h1
          · rw [← g2, List.append_assoc, List.drop_left]
          · intro hn _
            refine ⟨?_, g5⟩
            rintro rfl
            rw [List.length_nil] at g3; omega
          · intro hn hv
            have := (List.append_eq_nil_iff.1 hv).1
            rw [this, List.length_nil] at g1; omega
        · have hnext := h.next h1 m
          have htake := h.take h1 m
          have hL : L = (p.S.read b.src m).1 ++ L.drop (p.S.read b.src m).1.length := by
            conv => lhs; rw [← List.take_append_drop (p.S.read b.src m).1.length L, ← htake]
          have hV : b.rbuf ++ L = d ++ (b'.rbuf ++ L.drop (p.S.read b.src m).1.length) := by
            rw [← List.append_assoc, g4, List.append_assoc, ← hL]
          have hst : b'.st ≠ .fail := by
            rcases g5 with ⟨-, -, c⟩ | ⟨-, c⟩
            · rw [c]; exact h.nofail hnext
            · rw [c]; decide
          refine ⟨⟨hl, ?_⟩, ⟨L.drop (p.S.read b.src m).1.length, ?_, ?_, hst⟩, ?_, ?_, fun c => by omega⟩
          · rw [hV, List.take_left]
          · rw [g3, List.append_assoc, g4, ← List.append_assoc]; exact hnext
          · rw [hV, List.drop_left]
          · intro hn hv
            rcases g5 with ⟨c1, c2, -⟩ | c
            · exfalso
              rw [c1, List.nil_append] at hv
              exact (h.more h1 m g2 hv).1 c2
            · exact c
          · intro hn hv
            obtain ⟨v1, v2⟩ := List.append_eq_nil_iff.1 hv
            rcases g5 with ⟨-, -, c⟩ | ⟨c, -⟩
            · rw [c]; exact h.eof h1 m g2 v2
            · rw [hv] at hV
              exact absurd (List.append_eq_nil_iff.1 hV.symm).1 c
    refine ⟨?_, ?_, ?_, ?_, ?_, ?_, ?_, ?_⟩
    · rintro b C V ⟨L, h1, -, -⟩; exact between_less (h.obs h1)
    · rintro b C V ⟨L, -, -, h3⟩; exact h3
    · intro b C V hr n
      obtain ⟨d, b', e, k, -⟩ := key hr n
      show ((Stream.buffer p.S r w).read b n).1.length ≤ _
      rw [e]; exact k.1
    · intro b C V hr n
      obtain ⟨d, b', e, k, -⟩ := key hr n
      show ((Stream.buffer p.S r w).read b n).1 = V.take ((Stream.buffer p.S r w).read b n).1.length
      rw [e]; exact k.2
    · intro b C V hr n
      obtain ⟨d, b', e, -, k, -⟩ := key hr n
      have e : (((Filter.buffer r w).on p).S.read b n) = (d, b') := e
      rw [e]; exact k
    · intro b C V hr n
      obtain ⟨d, b', e, -, -, k, -⟩ := key hr n
      have e : (((Filter.buffer r w).on p).S.read b n) = (d, b') := e
      rw [e]; exact k
    · intro b C V hr n
      obtain ⟨d, b', e, -, -, -, k, -⟩ := key hr n
      have e : (((Filter.buffer r w).on p).S.read b n) = (d, b') := e
      rw [e]; exact k
    · intro b C V hr
      obtain ⟨d, b', e, -, -, -, -, k⟩ := key hr 0
      have e : (((Filter.buffer r w).on p).S.read b 0) = (d, b') := e
      rw [e]; exact k rfl
  · rintro b C V ⟨L, h1, rfl, -⟩
    rw [← List.append_assoc]; exact hc h1

theorem reads_stack {L0 L : List Byte} {p : Pile H} (h : Reads L0 p L) : ∀ {fs : List (Filter H)}, (∀ f ∈ fs, f.Ok) → Reads L0 (stack fs p) (view fs L)
  | [], _ => h
  | f :: fs, hf => by
    have ih := reads_stack h (fs := fs) (fun g hg => hf g (List.mem_cons_of_mem _ hg))
    cases f with
    | plain => exact reads_plain ih
    | hasher t => exact reads_hasher t ih
    | buffer r w => exact reads_buffer ih
    | limit r w => exact reads_limit (hf _ List.mem_cons_self).1 ih

/-- What was delivered and what will be make up the same contents all along. -/
theorem live_const {σ : Type} {S : Strm Byte σ} {obs : σ → List Byte → Prop} {R : σ → List Byte → List Byte → Prop} (h : Live S obs R) (V : List Byte) : Live S obs (fun s C L => R s C L ∧ C ++ L = V) := by
  refine ⟨fun r => h.obs r.1, fun r => h.nofail r.1, fun r => h.le r.1, fun r => h.take r.1, fun r n => ⟨h.next r.1 n, ?_⟩, fun r => h.more r.1, fun r => h.eof r.1, fun r => h.zero r.1⟩
  rename_i s C L
  rw [List.append_assoc]
  conv => lhs; rhs; lhs; rw [h.take r.1 n]
  rw [List.take_append_drop]
  exact r.2

/-- A pile as a source: its states along with what was and what will be delivered. -/
def ghost {σ : Type} {S : Strm Byte σ} {obs : σ → List Byte → Prop} {R : σ → List Byte → List Byte → Prop} (h : Live S obs R) : Strm Byte { x : σ × List Byte × List Byte // R x.1 x.2.1 x.2.2 } where
  read x n := ((S.read x.1.1 n).1, ⟨((S.read x.1.1 n).2, x.1.2.1 ++ (S.read x.1.1 n).1, x.1.2.2.drop (S.read x.1.1 n).1.length), h.next x.2 n⟩)
  write x _ := (0, x)
  close x := x
  flush x := x
  state x := S.state x.1.1

theorem ghost_source {σ : Type} {S : Strm Byte σ} {obs : σ → List Byte → Prop} {R : σ → List Byte → List Byte → Prop} (h : Live S obs R) : IsSource (ghost h) (fun x => x.1.2.2) := by
  refine ⟨?_, fun x n => h.le x.2 n, fun x n => h.more x.2 n, fun x n => h.eof x.2 n, fun x => h.zero x.2⟩
  intro x n
  show (S.read x.1.1 n).1 ++ x.1.2.2.drop (S.read x.1.1 n).1.length = _
  conv => lhs; lhs; rw [h.take x.2 n]
  exact List.take_append_drop _ _

theorem ghost_hom {σ : Type} {S : Strm Byte σ} {obs : σ → List Byte → Prop} {R : σ → List Byte → List Byte → Prop} (h : Live S obs R) : Hom (ghost h) S (fun x => x.1.1) := ⟨fun _ _ => rfl, fun _ => rfl⟩

/-- **C146** Any pile of filters over a source is a source: for everything that reads from it and asks for its state, it is a source
of the contents at the bottom as far as the limits let them through - in order, each byte once, the end reported exactly at the end -
and every hash in the pile has by then got what was delivered, in order, plus at most what the buffers above it read ahead. -/
theorem stack_is_source {σ : Type} {S : Strm Byte σ} {rem : σ → List Byte} (h : IsSource S rem) {s : σ} (hs : S.state s ≠ .fail) (got : σ → List Byte) {fs : List (Filter H)} (hf : ∀ f ∈ fs, f.Ok) :
    ∃ (τ : Type) (T : Strm Byte τ) (left : τ → List Byte) (φ : τ → (stack fs (bare S s got)).σ) (t : τ),
      IsSource T left ∧ Hom T (stack fs (bare S s got)).S φ ∧ φ t = (stack fs (bare S s got)).s ∧ left t = view fs (rem s) ∧
      ∀ t', ∃ C, C ++ left t' = view fs (rem s) ∧ (∀ x ∈ (stack fs (bare S s got)).taps (φ t'), ∃ P, Fed x P ∧ C <+: P ∧ P <+: rem s) := by
  obtain ⟨R, h0, h2, h3⟩ := reads_stack (reads_bare h hs got) hf
  have h1 := live_const h0 (view fs (rem s))
  refine ⟨_, ghost h1, fun x => x.1.2.2, fun x => x.1.1, ⟨(_, [], _), h2, rfl⟩, ghost_source h1, ghost_hom h1, rfl, rfl, ?_⟩
  intro x
  exact ⟨x.1.2.1, x.2.2, h1.obs x.2⟩

/-- **C146** Reading everything through the pile gives exactly the visible contents, and (where nothing is cut off) every hash in the pile, at whatever height, then has got
exactly the contents. -/
theorem stack_read_all {σ : Type} {S : Strm Byte σ} {rem : σ → List Byte} (h : IsSource S rem) {s : σ} (hs : S.state s ≠ .fail) (got : σ → List Byte) {fs : List (Filter H)} (hf : ∀ f ∈ fs, f.Ok)
    {fuel max : Nat} (hfuel : (rem s).length + 65537 < fuel) (hm : (rem s).length ≤ max) :
    ∃ s', readRemainder (stack fs (bare S s got)).S fuel (stack fs (bare S s got)).s max = some (view fs (rem s), s') ∧
      (view fs (rem s) = rem s → ∀ x ∈ (stack fs (bare S s got)).taps s', Fed x (rem s)) := by
  obtain ⟨R, h0, h2, h3⟩ := reads_stack (reads_bare h hs got) hf
  have h1 := live_const h0 (view fs (rem s))
  have hv : view fs (rem s) <+: rem s := h3 h2
  have hl := hv.length_le
  let t : { x : (stack fs (bare S s got)).σ × List Byte × List Byte // R x.1 x.2.1 x.2.2 ∧ x.2.1 ++ x.2.2 = view fs (rem s) } := ⟨(_, [], _), h2, rfl⟩
  obtain ⟨t', e1, e2⟩ := readRemainder_source (ghost_source h1) t max fuel (by show (view fs (rem s)).length + 65537 < fuel; omega)
  have e3 := readRemainder_hom (ghost_hom h1) fuel t max
  rw [e1, Option.map_some] at e3
  refine ⟨t'.1.1, ?_, ?_⟩
  · rw [e3]
    show some ((view fs (rem s)).take max, _) = _
    rw [List.take_of_length_le (by omega)]
  · intro he x hx
    obtain ⟨P, f1, f2, f3⟩ := h1.obs t'.2 x hx
    have e2 : t'.1.2.2 = (view fs (rem s)).drop max := e2
    rw [List.drop_of_length_le (by omega)] at e2
    have hC := t'.2.2
    rw [e2, List.append_nil] at hC
    rw [hC.trans he] at f2
    have : P = rem s := (List.IsPrefix.eq_of_length f3 (Nat.le_antisymm f3.length_le f2.length_le))
    rw [this] at f1
    exact f1

/-- **C146** Whatever a reader gets from a source of the visible contents, it gets it through the pile. -/
theorem stack_reader {α : Type} {rd : Reader α} (hn : rd.Natural) {Q : α → Prop} {σ : Type} {S : Strm Byte σ} {rem : σ → List Byte} (h : IsSource S rem) {s : σ} (hs : S.state s = .ok) (got : σ → List Byte)
    {fs : List (Filter H)} (hf : ∀ f ∈ fs, f.Ok) (hg : rd.Gets (view fs (rem s)) Q) :
    ∃ v s', rd (stack fs (bare S s got)).S (stack fs (bare S s got)).s = some (v, s') ∧ Q v := by
  obtain ⟨τ, T, left, φ, t, h1, h2, h3, h4, -⟩ := stack_is_source h (by rw [hs]; decide) got hf
  have hst : ∀ fs : List (Filter H), (stack fs (bare S s got)).S.state (stack fs (bare S s got)).s = .ok := by
    intro fs
    induction fs with
    | nil => exact hs
    | cons f fs ih => cases f <;> exact ih
  obtain ⟨v, t', g1, g2⟩ := hg h1 t (by rw [← h2.state, h3]; exact hst fs) h4
  have := hn h2 t
  rw [g1, h3] at this
  exact ⟨v, _, this, g2⟩

/-! ### Writing -/

/-- States in which a stream that accepted `G` accepts `c` more bytes, all of them, in any pieces, and has passed on everything after a flush. -/
structure Accepting {σ : Type} (S : Strm Byte σ) (done : σ → List Byte → Prop) (R : σ → List Byte → Nat → Prop) : Prop where
  write : ∀ {s G c}, R s G c → ∀ d, d.length ≤ c → (S.write s d).1 = d.length ∧ S.state (S.write s d).2 = .ok ∧ R (S.write s d).2 (G ++ d) (c - d.length)
  flush : ∀ {s G c}, R s G c → S.state (S.flush s) = .ok ∧ R (S.flush s) G c ∧ done (S.flush s) G


/-- At least `c` bytes may be written; after a flush `D` holds of what is in the stream at the bottom, the hashes, and what was written. -/
def WritesAs (D : List Byte → List (Tap H × H) → List Byte → Prop) (p : Pile H) (c : Nat) : Prop := ∃ R, Accepting p.S (fun s G => D (p.got s) (p.taps s) G) R ∧ R p.s [] c

abbrev Writes (g0 : List Byte) (p : Pile H) (c : Nat) : Prop := WritesAs (fun out taps G => out = g0 ++ G ∧ ∀ x ∈ taps, Fed x G) p c

/-- A stream that accepts everything, also when flushed. -/
structure Sinks {σ : Type} (S : Strm Byte σ) (got : σ → List Byte) : Prop extends Reliable S got where
  flush : ∀ s, S.state (S.flush s) = .ok ∧ got (S.flush s) = got s

theorem writes_bare {σ : Type} {S : Strm Byte σ} {got : σ → List Byte} (h : Sinks S got) (s : σ) (c : Nat) : Writes (H := H) (got s) (bare S s got) c := by
  refine ⟨fun x G _ => got x = got s ++ G, ⟨?_, ?_⟩, (List.append_nil _).symm⟩
  · intro x G c hx d _
    refine ⟨h.all x d, h.ok x d, ?_⟩
    have hx : got x = got s ++ G := hx
    exact (h.got (t := (x : σ)) d).trans (by rw [hx, List.append_assoc])
  · intro x G c hx
    have hx : got x = got s ++ G := hx
    have : got (S.flush x) = got s ++ G := (h.flush x).2.trans hx
    exact ⟨(h.flush x).1, this, this, fun y hy => by cases hy⟩

theorem writes_plain {D : List Byte → List (Tap H × H) → List Byte → Prop} {p : Pile H} {c : Nat} (h : WritesAs D p c) : WritesAs D (Filter.plain.on p) c := by
  obtain ⟨R, h, hs⟩ := h
  exact ⟨fun x G c => R x.1 G c, ⟨fun r => h.write r, fun r => h.flush r⟩, hs⟩

theorem writes_hasher {g0 : List Byte} {p : Pile H} {c : Nat} (t : Tap H) (h : Writes g0 p c) : Writes g0 ((Filter.hasher t).on p) c := by
  obtain ⟨R, h, hs⟩ := h
  refine ⟨fun x G c => R x.1.1 G c ∧ Fed (t, x.2) G, ⟨?_, ?_⟩, hs, fed_init t⟩
  · intro x G c r d hd
    obtain ⟨a, b, e⟩ := h.write r.1 d hd
    refine ⟨a, b, e, ?_⟩
    show Fed (t, t.upd x.2 (d.take (p.S.write x.1.1 d).1)) _
    rw [a, List.take_of_length_le (Nat.le_refl _)]
    exact fed_more r.2 d
  · intro x G c r
    obtain ⟨a, b, e1, e2⟩ := h.flush r.1
    refine ⟨a, ⟨b, r.2⟩, e1, ?_⟩
    intro y hy
    rcases List.mem_cons.1 hy with rfl | hy
    · exact r.2
    · exact e2 y hy

theorem writes_limit {D : List Byte → List (Tap H × H) → List Byte → Prop} {p : Pile H} {c r w : Nat} (hw : w ≤ fsizeMax) (hc : w = fsizeMax ∨ c ≤ w) (h : WritesAs D p c) : WritesAs D ((Filter.limit r w).on p) c := by
  obtain ⟨R, h, hs⟩ := h
  refine ⟨fun x G c => R x.src G c ∧ (x.wl = fsizeMax ∨ x.wl < fsizeMax ∧ c ≤ x.wl), ⟨?_, ?_⟩, hs, ?_⟩
  · intro x G c hr d hd
    obtain ⟨a, b, e⟩ := h.write hr.1 d hd
    rcases hr.2 with q | ⟨q1, q2⟩
    · have e0 : ((Filter.limit r w).on p).S.write x d = ((p.S.write x.src d).1, { x with src := (p.S.write x.src d).2, st := p.S.state (p.S.write x.src d).2 }) := by
        show limWrite p.S x d = _
        unfold limWrite
        rw [if_pos q]
        rfl
      rw [e0]
      exact ⟨a, b, e, Or.inl q⟩
    · have e0 : ((Filter.limit r w).on p).S.write x d = ((p.S.write x.src d).1, { x with src := (p.S.write x.src d).2, st := p.S.state (p.S.write x.src d).2, wl := x.wl - (p.S.write x.src d).1 }) := by
        show limWrite p.S x d = _
        unfold limWrite
        rw [if_neg (by omega), if_pos (by omega)]
        rfl
      rw [e0]
      refine ⟨a, b, e, Or.inr ⟨?_, ?_⟩⟩
      · show x.wl - (p.S.write x.src d).1 < _; omega
      · show c - d.length ≤ x.wl - (p.S.write x.src d).1
        rw [a]; omega
  · intro x G c r
    obtain ⟨a, b, e⟩ := h.flush r.1
    exact ⟨a, ⟨b, r.2⟩, e⟩
  · show w = _ ∨ w < _ ∧ c ≤ w
    omega

theorem writes_buffer {D : List Byte → List (Tap H × H) → List Byte → Prop} {p : Pile H} {c r w : Nat} (h : WritesAs D p c) : WritesAs D ((Filter.buffer r w).on p) c := by
  obtain ⟨R, h, hs⟩ := h
  have flushed : ∀ {b : Buf Byte p.σ} {G1 G : List Byte} {c : Nat}, R b.src G1 (c + b.wpend.length) → G = G1 ++ b.wpend → b.Inv w →
      (flushWrite p.S b).st = .ok ∧ R (flushWrite p.S b).src G c ∧ (flushWrite p.S b).wpend = [] ∧ (flushWrite p.S b).Inv w := by
    intro b G1 G c hR hG hi
    unfold flushWrite
    by_cases hz : b.wpend.length ≠ 0
    · rw [if_pos hz]
      obtain ⟨a1, a2, a3⟩ := h.write hR b.wpend (by omega)
      simp only []
      rw [if_pos a1]
      refine ⟨rfl, ?_, rfl, Nat.zero_le _, fun _ => rfl⟩
      rw [Nat.add_sub_cancel, ← hG] at a3
      exact a3
    · rw [if_neg hz]
      have hz := List.length_eq_zero_iff.1 (Decidable.not_not.1 hz)
      rw [hz, List.append_nil] at hG
      rw [hz] at hR
      exact ⟨rfl, by rw [hG]; exact hR, hz, hi⟩
  refine ⟨fun b G c => ∃ G1, R b.src G1 (c + b.wpend.length) ∧ G = G1 ++ b.wpend ∧ b.Inv w, ⟨?_, ?_⟩, [], hs, rfl, Nat.zero_le _, fun _ => rfl⟩
  · intro b G c hr d hd
    have key : ∀ b : Buf Byte p.σ, (∃ G1, R b.src G1 (c + b.wpend.length) ∧ G = G1 ++ b.wpend ∧ b.Inv w) → ∃ b', bufWrite p.S w b d = some (d.length, b') ∧ b'.st = .ok ∧
        ∃ G1, R b'.src G1 (c - d.length + b'.wpend.length) ∧ G ++ d = G1 ++ b'.wpend ∧ b'.Inv w := by
      clear hr b
      rintro b ⟨G1, hR, hG, hi⟩
      unfold bufWrite
      by_cases hd0 : d.length = 0
      · have hdn := List.length_eq_zero_iff.1 hd0
        subst hdn
        rw [if_pos List.length_nil]
        obtain ⟨f1, f2⟩ := flushed hR hG hi
        simp only []
        rw [f1, if_neg (by decide)]
        obtain ⟨f2, f3, f4⟩ := f2
        obtain ⟨a1, a2, a3⟩ := h.write f2 [] (Nat.zero_le _)
        refine ⟨_, rfl, a2, G, ?_, ?_, ?_⟩
        · show R _ G (c - 0 + (flushWrite p.S b).wpend.length)
          rw [f3, List.length_nil, Nat.sub_zero, Nat.add_zero]
          rw [List.append_nil, List.length_nil, Nat.sub_zero] at a3
          exact a3
        · show G ++ [] = G ++ (flushWrite p.S b).wpend
          rw [f3]
        · exact f4
      · rw [if_neg hd0, bufWriteLoop]
        by_cases h1 : d.length ≤ w - (b.whead + b.wpend.length)
        · rw [if_pos h1]
          refine ⟨_, rfl, rfl, G1, ?_, ?_, ?_, ?_⟩
          · show R b.src G1 (c - d.length + (b.wpend ++ d).length)
            rw [List.length_append, show c - d.length + (b.wpend.length + d.length) = c + b.wpend.length by omega]
            exact hR
          · show G ++ d = G1 ++ (b.wpend ++ d)
            rw [hG, List.append_assoc]
          · show b.whead + (b.wpend ++ d).length ≤ w
            have := hi.1
            rw [List.length_append]; omega
          · intro c
            have c : (b.wpend ++ d).length = 0 := c
            rw [List.length_append] at c
            omega
        · rw [if_neg h1]
          simp only []
          generalize hav : w - (b.whead + b.wpend.length) = av at *
          have hdl : (d.drop av).length = d.length - av := List.length_drop
          have htl : (d.take av).length = min av d.length := List.length_take
          have hG' : G ++ d = (G1 ++ (b.wpend ++ d.take av)) ++ d.drop av := by
            rw [hG, List.append_assoc, List.append_assoc, List.append_assoc, List.take_append_drop]
          by_cases h2 : (b.wpend ++ d.take av).length ≠ 0
          · obtain ⟨a1, a2, a3⟩ := h.write hR (b.wpend ++ d.take av) (by rw [List.length_append]; omega)
            rw [if_pos h2, if_pos a1]
            have hcap : c + b.wpend.length - (b.wpend ++ d.take av).length = c - d.length + (d.drop av).length := by
              rw [List.length_append]; omega
            rw [hcap] at a3
            by_cases h4 : (d.drop av).length > w
            · rw [if_pos h4]
              obtain ⟨b1, b2, b3⟩ := h.write a3 (d.drop av) (by omega)
              rw [b1, Nat.sub_self]
              refine ⟨_, rfl, b2, (G1 ++ (b.wpend ++ d.take av)) ++ d.drop av, ?_, ?_, Nat.zero_le _, fun _ => rfl⟩
              · rw [show c - d.length + (d.drop av).length - (d.drop av).length = c - d.length + 0 by omega] at b3
                exact b3
              · show G ++ d = _ ++ []
                rw [List.append_nil]; exact hG'
            · rw [if_neg h4, bufWriteLoop, if_pos (by simp only [List.length_nil]; omega)]
              refine ⟨_, rfl, rfl, _, a3, ?_, ?_, ?_⟩
              · exact hG'
              · show 0 + (d.drop av).length ≤ w; omega
              · intro _; rfl
          · rw [if_neg h2]
            have hw0 : b.wpend = [] ∧ d.take av = [] := by
              have := Decidable.not_not.1 h2
              rw [List.length_append] at this
              exact ⟨List.length_eq_zero_iff.1 (by omega), List.length_eq_zero_iff.1 (by omega)⟩
            have hav0 : av = 0 := by
              rw [List.length_append, htl] at h2
              omega
            have hh : b.whead = 0 := hi.2 (by rw [hw0.1]; rfl)
            have : w = 0 := by rw [hw0.1, hh, List.length_nil] at hav; omega
            rw [if_pos (by omega)]
            rw [hw0.1, List.length_nil, Nat.add_zero] at hR
            obtain ⟨b1, b2, b3⟩ := h.write hR (d.drop av) (by omega)
            rw [b1, Nat.sub_self]
            rw [hav0, List.drop_zero] at b3
            refine ⟨_, rfl, b2, G1 ++ d, ?_, ?_, ?_, ?_⟩
            · show R (p.S.write b.src (d.drop av)).2 (G1 ++ d) (c - d.length + (b.wpend ++ d.take av).length)
              rw [hw0.1, hw0.2, hav0]; exact b3
            · show G ++ d = G1 ++ d ++ (b.wpend ++ d.take av)
              rw [hw0.1, hw0.2, hG, hw0.1]; simp
            · show b.whead + (b.wpend ++ d.take av).length ≤ w
              rw [hh, hw0.1, hw0.2]; exact Nat.zero_le _
            · intro _; exact hh
    obtain ⟨b', e, e2, e3⟩ := key b hr
    have : ((Filter.buffer r w).on p).S.write b d = (d.length, b') := by
      show (bufWrite p.S w b d).getD _ = _
      rw [e]; rfl
    rw [this]
    exact ⟨rfl, e2, e3⟩
  · intro b G c hr
    obtain ⟨G1, hR, hG, hi⟩ := hr
    obtain ⟨f1, f2, f3, f4⟩ := flushed hR hG hi
    obtain ⟨a1, a2, a3⟩ := h.flush f2
    have e : ((Filter.buffer r w).on p).S.flush b = { flushWrite p.S b with src := p.S.flush (flushWrite p.S b).src, st := p.S.state (p.S.flush (flushWrite p.S b).src) } := by
      show bufFlush p.S b = _
      unfold bufFlush
      simp only []
      rw [if_pos f1]
    rw [e]
    refine ⟨a1, ⟨G, ?_, ?_, f4⟩, a3⟩
    · show R _ G (c + (flushWrite p.S b).wpend.length)
      rw [f3]; exact a2
    · show G = G ++ (flushWrite p.S b).wpend
      rw [f3, List.append_nil]

theorem writes_stack {g0 : List Byte} {p : Pile H} {c : Nat} (h : Writes g0 p c) : ∀ {fs : List (Filter H)}, (∀ f ∈ fs, f.Ok ∧ f.Fits c) → Writes g0 (stack fs p) c
  | [], _ => h
  | f :: fs, hf => by
    have ih := writes_stack h (fs := fs) (fun g hg => hf g (List.mem_cons_of_mem _ hg))
    cases f with
    | plain => exact writes_plain ih
    | hasher t => exact writes_hasher t ih
    | buffer r w => exact writes_buffer ih
    | limit r w => exact writes_limit (hf _ List.mem_cons_self).1.2 (hf _ List.mem_cons_self).2 ih

theorem accepting_run {σ : Type} {S : Strm Byte σ} {done : σ → List Byte → Prop} {R : σ → List Byte → Nat → Prop} (h : Accepting S done R) : ∀ (ds : List (List Byte)) {s : σ} {G : List Byte} {c : Nat}, R s G c → ds.flatten.length ≤ c →
    (S.run s (ds.map .write)).1 = ds.map (fun d => .write d.length .ok) ∧ R (S.run s (ds.map .write)).2 (G ++ ds.flatten) (c - ds.flatten.length)
  | [], s, G, c, hr, _ => ⟨rfl, by simpa [Strm.run] using hr⟩
  | d :: ds, s, G, c, hr, hc => by
    rw [List.flatten_cons, List.length_append] at hc
    obtain ⟨a, b, e⟩ := h.write hr d (by omega)
    obtain ⟨f, g⟩ := accepting_run h ds e (by omega)
    refine ⟨?_, ?_⟩
    · show Res.write (S.write s d).1 (S.state (S.write s d).2) :: (S.run (S.write s d).2 (ds.map .write)).1 = _
      rw [a, b, f]; rfl
    · show R (S.run (S.write s d).2 (ds.map .write)).2 _ _
      rw [List.append_assoc] at g
      rw [List.flatten_cons, List.length_append, Nat.add_comm d.length, ← Nat.sub_sub, Nat.sub_right_comm]
      exact g

/-- **C146** Through any pile of filters over a sink that accepts everything: as long as the limits allow for the whole of it, data written
in any pieces is accepted piece by piece and completely, and after a flush all of it, once and in order, has arrived at the
bottom and in every hash of the pile, at whatever height. -/
theorem stack_writes {σ : Type} {S : Strm Byte σ} {got : σ → List Byte} (h : Sinks S got) (s : σ) (ds : List (List Byte)) {fs : List (Filter H)} (hf : ∀ f ∈ fs, f.Ok ∧ f.Fits ds.flatten.length) :
    ((stack fs (bare S s got)).S.run (stack fs (bare S s got)).s (ds.map .write ++ [.flush])).1 = ds.map (fun d => .write d.length .ok) ++ [.unit .ok] ∧
    (stack fs (bare S s got)).got ((stack fs (bare S s got)).S.run (stack fs (bare S s got)).s (ds.map .write ++ [.flush])).2 = got s ++ ds.flatten ∧
    ∀ x ∈ (stack fs (bare S s got)).taps ((stack fs (bare S s got)).S.run (stack fs (bare S s got)).s (ds.map .write ++ [.flush])).2, Fed x ds.flatten := by
  obtain ⟨R, h1, h2⟩ := writes_stack (writes_bare (H := H) h s ds.flatten.length) hf
  obtain ⟨a, b⟩ := accepting_run h1 ds h2 (Nat.le_refl _)
  obtain ⟨e, -, g1, g2⟩ := h1.flush b
  rw [run_append]
  refine ⟨?_, g1, g2⟩
  rw [a]
  show _ ++ [Res.unit ((stack fs (bare S s got)).S.state _)] = _
  rw [e]

/-! ### The hashes of the library in a pile -/

/-- A CRC-32, MD5 or SHA-1 that got the bytes in whatever pieces gives the digest of the bytes (for the latter two: of less than 4 GiB). -/
theorem fed_digest (P : List Byte) : (∀ h, Fed (⟨Hash.CRC.hash, Hash.CRC.construct⟩, h) P → Hash.CRC.finalize h = Hash.CRC.crc32 P) ∧
    (P.length < 2 ^ 32 → ∀ g : List Byte, g.length = 64 →
      (∀ h, Fed (⟨Hash.hash Hash.MD5.hashBlock, ⟨0, 0, g, Hash.MD5.initState⟩⟩, h) P → Hash.MD5.finalize h = Hash.MD5.rfc1321 P) ∧
      (∀ h, Fed (⟨Hash.hash Hash.SHA1.hashBlock, ⟨0, 0, g, Hash.SHA1.initState⟩⟩, h) P → Hash.SHA1.finalize h = some (Hash.SHA1.fips180 P))) := by
  refine ⟨?_, ?_⟩
  · rintro h ⟨cs, rfl, e⟩
    have e : h = cs.foldl Hash.CRC.hash Hash.CRC.construct := e
    rw [e]
    exact (Hash.CRC.crc32_conforms cs).1
  · intro hl g hg
    have small : ∀ cs : List (List Byte), cs.flatten = P → ∀ d ∈ cs, d.length < 2 ^ 32 := by
      rintro cs rfl d hd
      obtain ⟨a, b, rfl⟩ := List.append_of_mem hd
      simp at hl
      omega
    refine ⟨?_, ?_⟩
    · rintro h ⟨cs, e0, e⟩
      have e : h = cs.foldl (Hash.hash Hash.MD5.hashBlock) ⟨0, 0, g, Hash.MD5.initState⟩ := e
      rw [e, ← e0]
      exact Hash.MD5.md5_conforms_partial g hg cs (small cs e0)
    · rintro h ⟨cs, e0, e⟩
      have e : h = cs.foldl (Hash.hash Hash.SHA1.hashBlock) ⟨0, 0, g, Hash.SHA1.initState⟩ := e
      rw [e, ← e0]
      exact Hash.SHA1.sha1_conforms_partial g hg cs (small cs e0)

/-- **C146** Written through one pile with CRC-32 filters at any heights, in any pieces, and read back through another (no limit cutting
anything off) from a source that has what arrived: the data is the same, and every CRC-32 filter of either pile says the CRC-32 of the data. -/
theorem stack_round_trip {σ τ : Type} {D : Strm Byte τ} {got : τ → List Byte} (hd : Sinks D got) (t : τ) (ht : got t = []) (ds : List (List Byte)) {fs gs : List (Filter Hash.CRC.Word)}
    (hf : ∀ f ∈ fs, f.Ok ∧ f.Fits ds.flatten.length) (hcrc : ∀ c ∈ hashers fs ++ hashers gs, c = ⟨Hash.CRC.hash, Hash.CRC.construct⟩)
    {S : Strm Byte σ} {rem : σ → List Byte} (h : IsSource S rem) {s : σ} (hs : S.state s ≠ .fail)
    (hrem : rem s = (stack fs (bare D t got)).got ((stack fs (bare D t got)).S.run (stack fs (bare D t got)).s (ds.map .write ++ [.flush])).2)
    (hg : ∀ f ∈ gs, f.Ok) (hv : view gs (rem s) = rem s) {fuel max : Nat} (hfuel : (rem s).length + 65537 < fuel) (hm : (rem s).length ≤ max) (got' : σ → List Byte) :
    ∃ s', readRemainder (stack gs (bare S s got')).S fuel (stack gs (bare S s got')).s max = some (ds.flatten, s') ∧
      (∀ x ∈ (stack gs (bare S s got')).taps s', Hash.CRC.finalize x.2 = Hash.CRC.crc32 ds.flatten) ∧
      (∀ x ∈ (stack fs (bare D t got)).taps ((stack fs (bare D t got)).S.run (stack fs (bare D t got)).s (ds.map .write ++ [.flush])).2, Hash.CRC.finalize x.2 = Hash.CRC.crc32 ds.flatten) := by
  obtain ⟨-, w2, w3⟩ := stack_writes (H := Hash.CRC.Word) hd t ds hf
  obtain ⟨s', r1, r2⟩ := stack_read_all (H := Hash.CRC.Word) h hs got' hg hfuel hm
  rw [ht, List.nil_append] at w2
  have hr : rem s = ds.flatten := hrem.trans w2
  rw [hv, hr] at r1
  have done : ∀ x : Tap Hash.CRC.Word × Hash.CRC.Word, x.1 = ⟨Hash.CRC.hash, Hash.CRC.construct⟩ → Fed x ds.flatten → Hash.CRC.finalize x.2 = Hash.CRC.crc32 ds.flatten := by
    rintro ⟨c, h⟩ rfl hx
    exact (fed_digest ds.flatten).1 h hx
  refine ⟨s', r1, ?_, ?_⟩
  · intro x hx
    refine done x (hcrc x.1 (List.mem_append_right _ ?_)) (by rw [← hr]; exact r2 hv x hx)
    rw [← stack_taps gs S s got' s']
    exact List.mem_map_of_mem hx
  · intro x hx
    refine done x (hcrc x.1 (List.mem_append_left _ ?_)) (w3 x hx)
    rw [← stack_taps fs D t got]
    exact List.mem_map_of_mem hx

/-! ### Examples -/

/-- A pipe whose flush leaves it in state ok. -/
def flushing (chunk : Nat) : Strm Byte (List Byte × List Byte × St) := { pipe chunk with flush := fun s => (s.1, s.2.1, .ok) }

theorem flushing_sinks (chunk : Nat) : Sinks (flushing chunk) (fun s => s.2.1) :=
  ⟨⟨⟨fun _ _ => Nat.le_refl _, fun t d => (pipe_reliable chunk).write t d⟩, fun _ _ => rfl, fun _ _ => rfl⟩, fun _ => ⟨rfl, rfl⟩⟩

/-- A buffer over a hash over a small buffer over a limit over a buffer without room over a sink. -/
def five : List (Filter (List Byte)) := [.buffer 4 4, .hasher ⟨fun h d => h ++ d, []⟩, .buffer 1 2, .limit 9 9, .buffer 0 0, .plain]

example : (∀ f ∈ five, f.Ok ∧ f.Fits 8) := by simp [five, Filter.Ok, Filter.Fits, fsizeMax]
example :
    let p := stack five (bare (flushing 3) ([], [], .ok) (fun s => s.2.1))
    let q := p.S.run p.s ([[1, 2, 3], [4, 5, 6, 7], [8]].map .write ++ [.flush])
    (p.got q.2, (p.taps q.2).map (·.2)) = ([1, 2, 3, 4, 5, 6, 7, 8], [[1, 2, 3, 4, 5, 6, 7, 8]]) := by decide +kernel
example :
    let p := stack five (bare (flushing 3) ([1, 2, 3, 4, 5, 6, 7, 8, 9, 10, 11], [], .ok) (fun s => s.2.1))
    let q := p.S.run p.s [.read 2, .read 1, .read 5, .read 7, .read 7, .read 7]
    (readOut q.1, (p.taps q.2).map (·.2)) = ([1, 2, 3, 4, 5, 6, 7, 8, 9], [[1, 2, 3, 4, 5, 6, 7, 8, 9]]) := by decide +kernel

/-- With less room than the data needs, a buffer above the limit says everything was accepted, and even the flush says ok: the limiter takes
what it may without an error, and `flush_write` (stream.hpp 1509-1524) reports the limiter's state, not that something was left in the buffer. Only the next flush fails. -/
theorem stack_flush_ok_with_data_left :
    let p := stack [(.buffer 4 4 : Filter (List Byte)), .limit 9 2] (bare (flushing 3) ([], [], .ok) (fun s => s.2.1))
    let q := p.S.run p.s [.write [1, 2, 3], .flush]
    q.1 = [.write 3 .ok, .unit .ok] ∧ p.got q.2 = [1, 2] ∧ (p.S.run q.2 [.flush]).1 = [.unit .fail] := by decide +kernel

end Verif.Stack
