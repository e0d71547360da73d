/-
What stands at the ends of piles and towers: stream.hpp `basic_sys` 2208-2332, `socket` 2359-2485, `sequential_stream` 2491-2572, `file` 2715-3213, `memory_file` 3218-4080, `fifo` 4085-4178.
-/
import Verif.Stream.Tower
import Verif.Stream.SaveLoad
import Verif.Stream.Fifo
import Verif.Stream.ComStream

namespace Verif.Ends
open Verif.Stream Verif.Stack Verif.Tower
variable {σ τ ω H δ ι : Type}

/-! ### Bottoms in general -/

/-- A stream takes `c` more bytes in the states of `inv`. -/
theorem takes_when {S : Strm Byte σ} {got : σ → List Byte} (inv : σ → Nat → Prop)
    (hw : ∀ x c, inv x c → ∀ d : List Byte, d.length ≤ c → (S.write x d).1 = d.length ∧ S.state (S.write x d).2 = .ok ∧ inv (S.write x d).2 (c - d.length) ∧ got (S.write x d).2 = got x ++ d)
    (hf : ∀ x c, inv x c → S.state (S.flush x) = .ok ∧ inv (S.flush x) c ∧ got (S.flush x) = got x)
    {s : σ} (hs : S.state s = .ok) {room : Nat → Prop} (h0 : ∀ n, room n → inv s n) : Takes (H := H) (got s) room (bare S s got) := by
  refine ⟨hs, fun n hn => ⟨fun x G c => inv x c ∧ got x = got s ++ G, ⟨?_, ?_⟩, h0 n hn, (List.append_nil _).symm⟩⟩
  · rintro x G c ⟨i, e⟩ d hd
    obtain ⟨a, b, j, k⟩ := hw x c i d hd
    exact ⟨a, b, j, k.trans (by rw [e, List.append_assoc])⟩
  · rintro x G c ⟨i, e⟩
    obtain ⟨a, b, k⟩ := hf x c i
    exact ⟨a, ⟨b, k.trans e⟩, k.trans e, rfl⟩

/-- A stream delivers what is left (`rem`) in the states of `inv`. -/
theorem reads_when {S : Strm Byte σ} {rem : σ → List Byte} (inv : σ → Prop)
    (hr : ∀ x, inv x → ∀ n, (S.read x n).1 = (rem x).take n ∧ rem (S.read x n).2 = (rem x).drop n ∧ inv (S.read x n).2 ∧ S.state (S.read x n).2 = if n ≠ 0 ∧ rem x = [] then .eof else .ok)
    {s : σ} (h0 : inv s) (hs : S.state s ≠ .fail) (got : σ → List Byte) : Reads (H := H) (rem s) (bare S s got) (rem s) := by
  have len : ∀ x, inv x → ∀ n, (rem x).take (S.read x n).1.length = (S.read x n).1 ∧ (rem x).drop (S.read x n).1.length = (rem x).drop n := by
    intro x hx n
    rw [(hr x hx n).1, List.length_take]
    rcases Nat.le_total n (rem x).length with c | c
    · rw [Nat.min_eq_left c]; exact ⟨rfl, rfl⟩
    · rw [Nat.min_eq_right c, List.take_of_length_le c, List.take_length, List.drop_length, List.drop_of_length_le c]; exact ⟨rfl, rfl⟩
  have st : ∀ x, inv x → ∀ n, S.state (S.read x n).2 ≠ .fail := by
    intro x hx n
    rw [(hr x hx n).2.2.2]
    split <;> exact fun c => nomatch c
  refine ⟨fun x C L => inv x ∧ S.state x ≠ .fail ∧ rem x = L ∧ C ++ L = rem s, ⟨?_, ?_, ?_, ?_, ?_, ?_, ?_, ?_⟩, ⟨h0, hs, rfl, rfl⟩, fun h => by rw [h.2.2.2]; exact List.prefix_refl _⟩
  · rintro x C L _ y hy; cases hy
  · rintro x C L ⟨-, h, -⟩; exact h
  · rintro x C L ⟨h, -, -⟩ n
    show (S.read x n).1.length ≤ n
    rw [(hr x h n).1, List.length_take]; exact Nat.min_le_left _ _
  · rintro x C L ⟨h, -, rfl, -⟩ n
    exact (len x h n).1.symm
  · rintro x C L ⟨h, -, rfl, e⟩ n
    obtain ⟨a, b⟩ := len x h n
    refine ⟨(hr x h n).2.2.1, st x h n, (hr x h n).2.1.trans b.symm, ?_⟩
    show (C ++ (S.read x n).1) ++ (rem x).drop (S.read x n).1.length = rem s
    rw [b, (hr x h n).1, List.append_assoc, List.take_append_drop, e]
  · rintro x C L ⟨h, -, rfl, -⟩ n hn hL
    refine ⟨?_, ?_⟩
    · show (S.read x n).1 ≠ []
      rw [(hr x h n).1]
      intro c
      rcases List.take_eq_nil_iff.1 c with c | c
      · exact hn c
      · exact hL c
    · show S.state (S.read x n).2 = .ok
      rw [(hr x h n).2.2.2, if_neg (fun c => hL c.2)]
  · rintro x C L ⟨h, -, rfl, -⟩ n hn hL
    show S.state (S.read x n).2 = .eof
    rw [(hr x h n).2.2.2, if_pos ⟨hn, hL⟩]
  · rintro x C L ⟨h, -, -, -⟩
    refine Or.inl ?_
    show S.state (S.read x 0).2 = .ok
    rw [(hr x h 0).2.2.2, if_neg (fun c => c.1 rfl)]

/-! ### Memory files -/

namespace Memory
open MemoryFile (MF Rel AFile Ok overwrite)

/-- `memory_file` as a stream: read 3551-3573, write 3661-3680 (`realloc` succeeds), close 3886-3899, flush of `basic` (132-135). An access outside of the block counts as failure; the theorems show there is none. -/
def strm : Strm Byte (MF Byte) where
  read m n := match m.read n with | none => ([], { m with st := .fail }) | some (d, m) => (d.map (·.getD 0), m)
  write m d := match m.write d true with | none => (0, { m with st := .fail }) | some r => r
  close m := m.close
  flush m := { m with st := .ok }
  state := MF.st

/-- What the file contains. -/
def contents (m : MF Byte) : List Byte := (m.mem.take m.size).map (·.getD 0)

/-- What is left to be read. -/
def left (m : MF Byte) : List Byte := (contents m).drop m.offset

theorem contents_ok {m : MF Byte} {b : List Byte} (h : Ok m b) : contents m = b := by
  unfold contents
  rw [h.contents, List.map_map]
  exact List.map_id b

theorem write_rel {m : MF Byte} {a : AFile Byte} (h : Rel m a) (hm : m.manage = true) (hin : a.pos ≤ a.bytes.length) (d : List Byte) (hn : a.pos + d.length < 2 ^ 61) :
    (strm.write m d).1 = d.length ∧ (strm.write m d).2.st = .ok ∧ (strm.write m d).2.manage = true ∧ Rel (strm.write m d).2 ⟨overwrite a.bytes a.pos d, a.pos + d.length⟩ := by
  obtain ⟨f', w1, w2, w3⟩ := MemoryFile.write_succeeds h d hm hin hn
  have e : strm.write m d = (d.length, f') := by
    show (match m.write d true with | none => (0, { m with st := .fail }) | some r => r) = _
    rw [w1]
  rw [e]
  refine ⟨rfl, w2, ?_, w3⟩
  unfold MF.write MF.put at w1
  generalize hg : (if m.reserved < MemoryFile.addW m.offset (d.map some).length then m.reserve (MemoryFile.addW m.offset (d.map some).length) false true else { m with st := .ok }) = g at w1
  have hgm : g.manage = true := by
    subst hg
    split
    · rw [(MemoryFile.reserve_spec _ _ _ _).2.1]; exact hm
    · exact hm
  dsimp only at w1
  rw [hg] at w1
  split at w1
  · simp only [Option.map_some, Option.some.injEq, Prod.mk.injEq] at w1
    rw [← w1.2]; exact hgm
  · rw [Option.map_map] at w1
    obtain ⟨y, -, e⟩ := Option.map_eq_some_iff.1 w1
    simp only [Function.comp, Prod.mk.injEq] at e
    rw [← e.2]; exact hgm

/-- A memory file that manages its memory, with the cursor at the end, takes bytes until the cursor is at 2^61. -/
theorem takes {m : MF Byte} {b : List Byte} (h : Ok m b) (hm : m.manage = true) (hp : m.offset = b.length) (hs : m.st = .ok) :
    Takes (H := H) b (fun n => b.length + n < 2 ^ 61) (bare strm m contents) := by
  have e := contents_ok h
  rw [← e]
  refine takes_when (fun x c => x.manage = true ∧ ∃ l : List Byte, Ok x l ∧ x.offset = l.length ∧ l.length + c < 2 ^ 61) ?_ ?_ hs (fun n hn => ⟨hm, b, h, hp, ?_⟩)
  · rintro x c ⟨k, l, o, p, q⟩ d hd
    obtain ⟨w1, w2, w3, w4⟩ := write_rel (a := ⟨l, l.length⟩) ⟨o, p⟩ k (Nat.le_refl _) d (by show l.length + d.length < _; omega)
    have e2 : overwrite l l.length d = l ++ d := by
      unfold overwrite
      rw [List.take_length, List.drop_of_length_le (by omega), List.append_nil]
    have o' : Ok (strm.write x d).2 (l ++ d) := by rw [← e2]; exact w4.ok
    refine ⟨w1, w2, ⟨w3, l ++ d, o', ?_, ?_⟩, ?_⟩
    · rw [List.length_append]; exact w4.pos
    · rw [List.length_append]; omega
    · rw [contents_ok o', contents_ok o]
  · rintro x c ⟨k, l, o, p, q⟩
    exact ⟨rfl, ⟨k, l, ⟨o.size_le, o.cap, o.off, o.contents⟩, p, q⟩, rfl⟩
  · rw [e] at hn; exact hn

theorem read_all {m : MF Byte} {b : List Byte} (h : Ok m b) (hin : m.offset ≤ b.length) (n : Nat) :
    (strm.read m n).1 = (b.drop m.offset).take n ∧ Ok (strm.read m n).2 b ∧ (strm.read m n).2.offset = min (m.offset + n) b.length ∧ (strm.read m n).2.st = if n ≠ 0 ∧ b.drop m.offset = [] then .eof else .ok := by
  have hl := h.len
  have hs := h.size_le
  have hcap := h.cap
  have hav : MemoryFile.subW m.size m.offset = m.size - m.offset := MemoryFile.subW_eq (by omega) (by omega)
  have slice : ∀ k, k ≤ m.size - m.offset → MemoryFile.rdMem m.mem m.offset k = some (((b.drop m.offset).take k).map some) := by
    intro k hk
    unfold MemoryFile.rdMem
    rw [if_pos (by omega)]
    congr 1
    rw [List.map_take, List.map_drop, ← h.contents, List.take_drop, List.take_drop, List.take_take, Nat.min_eq_left (by omega)]
  have back : ∀ l : List Byte, (l.map some).map (·.getD 0) = l := fun l => by rw [List.map_map]; exact List.map_id l
  have nil : b.drop m.offset = [] ↔ m.size - m.offset = 0 := by rw [List.drop_eq_nil_iff]; omega
  have ok : ∀ k, k ≤ m.size - m.offset → Ok ({ m with offset := MemoryFile.addW m.offset k, st := .ok } : MF Byte) b ∧ MemoryFile.addW m.offset k = m.offset + k := by
    intro k hk
    have : MemoryFile.addW m.offset k = m.offset + k := MemoryFile.addW_eq (by omega)
    exact ⟨⟨hs, hcap, by show MemoryFile.addW m.offset k < _; rw [this]; omega, h.contents⟩, this⟩
  by_cases h1 : n ≤ m.size - m.offset
  · have e : strm.read m n = ((b.drop m.offset).take n, { m with offset := MemoryFile.addW m.offset n, st := .ok }) := by
      show (match m.read n with | none => (([] : List Byte), { m with st := .fail }) | some (d, m) => (d.map (fun o => Option.getD o 0), m)) = _
      unfold MF.read
      simp only [hav]
      rw [if_pos h1, slice n h1]
      simp only [Option.map_some, back]
    rw [e]
    obtain ⟨a, c⟩ := ok n h1
    refine ⟨rfl, a, ?_, ?_⟩
    · show MemoryFile.addW m.offset n = _
      rw [c]; omega
    · rw [if_neg (fun q => by have := nil.1 q.2; have := q.1; omega)]
  · by_cases h2 : n ≠ 0 ∧ m.size - m.offset = 0
    · have e : strm.read m n = ([], { m with st := .eof }) := by
        show (match m.read n with | none => (([] : List Byte), { m with st := .fail }) | some (d, m) => (d.map (fun o => Option.getD o 0), m)) = _
        unfold MF.read
        simp only [hav]
        rw [if_neg h1, if_pos h2]
        rfl
      rw [e]
      refine ⟨?_, ⟨hs, hcap, h.off, h.contents⟩, ?_, ?_⟩
      · rw [nil.2 h2.2, List.take_nil]
      · show m.offset = _; omega
      · rw [if_pos ⟨h2.1, nil.2 h2.2⟩]
    · have e : strm.read m n = ((b.drop m.offset).take n, { m with offset := MemoryFile.addW m.offset (m.size - m.offset), st := .ok }) := by
        show (match m.read n with | none => (([] : List Byte), { m with st := .fail }) | some (d, m) => (d.map (fun o => Option.getD o 0), m)) = _
        unfold MF.read
        simp only [hav]
        rw [if_neg h1, if_neg h2, slice _ (Nat.le_refl _)]
        simp only [Option.map_some, back]
        rw [List.take_of_length_le (by rw [List.length_drop]; omega), List.take_of_length_le (by rw [List.length_drop]; omega)]
      rw [e]
      obtain ⟨a, c⟩ := ok _ (Nat.le_refl _)
      refine ⟨rfl, a, ?_, ?_⟩
      · show MemoryFile.addW m.offset _ = _
        rw [c]; omega
      · rw [if_neg (fun q => h2 ⟨q.1, nil.1 q.2⟩)]

/-- A memory file delivers its bytes from the cursor on. -/
theorem reads {m : MF Byte} {b : List Byte} (h : Ok m b) (hin : m.offset ≤ b.length) (hs : m.st ≠ .fail) : Reads (H := H) (b.drop m.offset) (bare strm m contents) (b.drop m.offset) := by
  have e : left m = b.drop m.offset := by unfold left; rw [contents_ok h]
  have key := reads_when (H := H) (S := strm) (rem := left) (fun x => Ok x b ∧ x.offset ≤ b.length) (fun x hx n => ?_) ⟨h, hin⟩ hs contents
  · rw [e] at key; exact key
  · obtain ⟨r1, r2, r3, r4⟩ := read_all hx.1 hx.2 n
    have ex : left x = b.drop x.offset := by unfold left; rw [contents_ok hx.1]
    rw [ex]
    refine ⟨r1, ?_, ⟨r2, by rw [r3]; exact Nat.min_le_right _ _⟩, r4⟩
    unfold left
    rw [contents_ok r2, r3, List.drop_drop]
    rcases Nat.le_total (x.offset + n) b.length with c | c
    · rw [Nat.min_eq_left c]
    · rw [Nat.min_eq_right c, List.drop_length, List.drop_of_length_le c]

end Memory

/-! ### Queues -/

namespace Queue
open Fifo (Q Inv)

/-- `fifo` as a stream: read 4104-4130, write 4132-4153 (the allocation succeeds), close 4155-4164, flush of `basic` (132-135). -/
def strm : Strm Byte (Q Byte) where
  read q n := match q.read n with | none => ([], { q with st := .fail }) | some (d, _, q) => (d, q)
  write q d := q.write d true
  close q := q.close
  flush q := { q with st := .ok }
  state := Q.st

/-- A queue takes everything. -/
theorem takes {q : Q Byte} (h : Inv q) (hs : q.st = .ok) : Takes (H := H) q.bytes (fun _ => True) (bare strm q Q.bytes) := by
  refine takes_when (fun x _ => Inv x) ?_ ?_ hs (fun _ _ => h)
  · intro x _ i d _
    obtain ⟨q', e, i', b⟩ := Fifo.step_spec i (.write d) true
    have e : (q'.st = .ok) ∧ strm.write x d = (d.length, q') := by
      have e := Option.some.inj e
      simp only [Prod.mk.injEq] at e
      obtain ⟨e1, e2⟩ := e
      have e2 : (x.write d true).2 = q' := e2
      refine ⟨?_, Prod.ext rfl e2⟩
      rw [← e2]; rfl
    rw [e.2]
    exact ⟨rfl, e.1, i', b⟩
  · intro x _ i
    exact ⟨rfl, ⟨i.first, i.none, i.size⟩, rfl⟩

/-- A queue delivers what is in it. -/
theorem reads {q : Q Byte} (h : Inv q) (hs : q.st ≠ .fail) : Reads (H := H) q.bytes (bare strm q Q.bytes) q.bytes := by
  refine reads_when (S := strm) (rem := Q.bytes) Inv (fun x hx n => ?_) h hs Q.bytes
  obtain ⟨q', e, i', b⟩ := Fifo.step_spec hx (.read n) true
  have e : (x.read n).map (fun r => ((⟨r.1, r.2.1, r.2.2.st, r.2.2.size⟩ : Fifo.Out Byte), r.2.2)) = some ((Fifo.specStep x.bytes (.read n) true).1, q') := e
  obtain ⟨⟨d, c, q2⟩, e1, e2⟩ := Option.map_eq_some_iff.1 e
  simp only [Prod.mk.injEq] at e2
  obtain ⟨e2, rfl⟩ := e2
  have er : strm.read x n = (d, q2) := by
    show (match x.read n with | none => (([] : List Byte), { x with st := .fail }) | some (d, _, q) => (d, q)) = _
    rw [e1]
  rw [er]
  exact ⟨congrArg Fifo.Out.data e2, b, i', congrArg Fifo.Out.st e2⟩

end Queue

/-! ### System streams, sockets -/

/-- `basic_sys` (and `socket`) as a stream: `sync` is `fsync` (2329); a socket has the flush of `basic` (132-135), `sync` is always true then. -/
def full (os : Os Byte ω) (block : Nat) (sync : ω → Bool × ω) : Strm Byte (ω × St) :=
  { sys os block with flush := fun s => ((sync s.1).2, if (sync s.1).1 then .ok else .fail) }

theorem full_sinks {os : Os Byte ω} (ho : OsLawful os) {got : ω → List Byte} (hs : OsSink os got) {block : Nat} (hb : 0 < block) {sync : ω → Bool × ω} (hy : ∀ w, (sync w).1 = true ∧ got (sync w).2 = got w) :
    Sinks (full os block sync) (fun s => got s.1) := by
  have h := sys_reliable ho hs hb
  refine ⟨⟨⟨h.le, h.write⟩, h.all, h.ok⟩, fun s => ⟨?_, (hy s.1).2⟩⟩
  show (if (sync s.1).1 then St.ok else .fail) = .ok
  rw [if_pos (hy s.1).1]

theorem full_source {os : Os Byte ω} (ho : OsLawful os) {rem : ω → List Byte} (hs : OsSource os rem) {block : Nat} (hb : 0 < block) (sync : ω → Bool × ω) : IsSource (full os block sync) (fun s => rem s.1) := by
  have h := sys_source ho hs hb
  exact ⟨h.split, h.le, h.more, h.eof, h.zero⟩

/-! ### ISequentialStream -/

/-- An object that takes bytes: at least one at a time, without errors. -/
theorem seq_sinks {com : Com Byte ω} (hl : ComLawful com) {got : ω → List Byte} (hs : OsSink com.os got) : Sinks (seqStream com) (fun s => got s.1) := by
  have hw : ∀ s d, ∃ w1, (seqStream com).write s d = (d.length, w1, .ok) ∧ got w1 = got s.1 ++ d := by
    intro s d
    have hne := seq_write_ends (com := com) (fun w d hd c => by
      obtain ⟨k, k1, -, k3⟩ := hs.some w d
      rw [show (com.os.write w d).1 = (com.write w d).1 from rfl, c] at k1
      exact k3 hd (Option.some.inj k1).symm) d.length (d.length + 1) d s.1 (by omega)
    obtain ⟨⟨c, w1, st⟩, hr⟩ := Option.ne_none_iff_exists'.1 hne
    obtain ⟨-, ⟨rfl, rfl, h3⟩ | ⟨-, w2, -, h3⟩⟩ := seq_write hl (fuel := d.length + 1) (data := d) hr
    · refine ⟨w1, ?_, h3.got hs⟩
      show (match seqWrite com (d.length + 1) s.1 d with | none => (0, s) | some (c, w, st) => (c, w, st)) = _
      unfold seqWrite
      rw [hr]
    · obtain ⟨k, k1, -⟩ := hs.some w2 ((d.drop c).take (min (d.length - c) ulongMax))
      rw [show com.os.write = com.write from rfl, h3] at k1
      cases k1
  refine ⟨⟨⟨?_, ?_⟩, ?_, ?_⟩, fun s => ⟨rfl, rfl⟩⟩
  · intro s d
    obtain ⟨w1, h1, h2⟩ := hw s d
    rw [h1]; exact Nat.le_refl _
  · intro s d
    obtain ⟨w1, h1, h2⟩ := hw s d
    rw [h1]
    show got w1 = got s.1 ++ d.take d.length
    rw [h2, List.take_length]
  · intro s d
    obtain ⟨w1, h1, h2⟩ := hw s d
    rw [h1]
  · intro s d
    obtain ⟨w1, h1, h2⟩ := hw s d
    rw [h1]; rfl

/-! ### Files on disk -/

namespace OnDisk
open Disk (F Ok left Ready)

/-- `file` as a stream, with the flush of `basic_sys` (2324-2331): `sync f` tells whether `fsync` succeeds. -/
def strm (sync : F → Bool) : Strm Byte F := { Disk.strm with flush := fun f => { f with st := if sync f then .ok else .fail } }

/-- A file that is open for writing, at its end, takes bytes until the position is at 2^63, if no transfer fails. -/
theorem takes {sync : F → Bool} (hy : ∀ f, sync f = true) {f : F} (hf : Ok f) (hs : none ∉ f.script) (hst : f.st = .ok) {h : Disk.H} (hh : f.h = some h) (hw : h.wr = true) (hp : h.pos = f.content.length) :
    Takes (H := H) f.content (fun n => f.content.length + n < 2 ^ 63) (bare (strm sync) f F.content) := by
  refine takes_when (fun x c => Ok x ∧ none ∉ x.script ∧ (∃ h, x.h = some h ∧ h.wr = true ∧ h.pos = x.content.length) ∧ x.content.length + c < 2 ^ 63) ?_ ?_ hst (fun n hn => ⟨hf, hs, ⟨h, hh, hw, hp⟩, hn⟩)
  · rintro x c ⟨o, s, ⟨h, hh, hw, hp⟩, hc⟩ d hd
    obtain ⟨w1, w2, w3, w4, w5, w6, w7⟩ := Disk.file_write o hh d
    obtain ⟨e1, e2⟩ := w7 s hw
    have e3 : Disk.patch x.content h.pos d = x.content ++ d := by
      unfold Disk.patch
      split
      · next c => rw [c, List.append_nil]
      · rw [hp, Nat.sub_self, List.replicate_zero, List.append_nil, List.take_length, List.drop_of_length_le (by omega), List.append_nil]
    rw [e1, List.take_of_length_le (Nat.le_refl _), e3] at w2
    rw [e1] at w4
    have e4 : (Disk.write x d).2.content = x.content ++ d := by
      rw [Disk.content_at w4]
      show ((Disk.write x d).2.fs h.name).getD [] = _
      rw [w2]; rfl
    refine ⟨e1, e2, ⟨?_, fun q => s (w5 _ q), ⟨_, w4, hw, ?_⟩, ?_⟩, e4⟩
    · intro g hg
      replace hg : (Disk.write x d).2.h = some g := hg
      rw [w4] at hg
      cases hg
      refine ⟨?_, ?_, ?_⟩
      · show (Disk.write x d).2.fs h.name ≠ none
        rw [w2]; exact fun q => nomatch q
      · show h.pos + d.length < 2 ^ 63
        omega
      · show (Disk.write x d).2.content.length < 2 ^ 63
        rw [e4, List.length_append]; omega
    · show h.pos + d.length = (Disk.write x d).2.content.length
      rw [e4, List.length_append, hp]
    · show (Disk.write x d).2.content.length + _ < _
      rw [e4, List.length_append]; omega
  · rintro x c ⟨o, s, hx, hc⟩
    refine ⟨?_, ⟨o, s, hx, hc⟩, rfl⟩
    show (if sync x then St.ok else .fail) = .ok
    rw [if_pos (hy x)]

/-- A file that is open for reading delivers its bytes from the position on, if no transfer fails. -/
theorem reads (sync : F → Bool) {f : F} (hf : Ready f) (hst : f.st ≠ .fail) : Reads (H := H) (left f) (bare (strm sync) f F.content) (left f) := by
  have h := reads_bare (H := H) Disk.disk_source (s := ⟨f, hf⟩) hst (fun x => x.1.content)
  obtain ⟨R, a, b, c⟩ := h
  refine ⟨fun x C L => ∃ hx : Ready x, R ⟨x, hx⟩ C L, ⟨?_, ?_, ?_, ?_, ?_, ?_, ?_, ?_⟩, ⟨hf, b⟩, fun ⟨_, r⟩ => c r⟩
  · rintro x C L ⟨hx, r⟩; exact a.obs r
  · rintro x C L ⟨hx, r⟩; exact a.nofail r
  · rintro x C L ⟨hx, r⟩ n; exact a.le r n
  · rintro x C L ⟨hx, r⟩ n; exact a.take r n
  · rintro x C L ⟨hx, r⟩ n; exact ⟨hx.read n, a.next r n⟩
  · rintro x C L ⟨hx, r⟩ n; exact a.more r n
  · rintro x C L ⟨hx, r⟩ n; exact a.eof r n
  · rintro x C L ⟨hx, r⟩; exact a.zero r

end OnDisk

/-! ### Specification: the ends there are -/

/-- Streams of the library at the bottom of a pile, ready to be written behind what they contain (`g0`), with the room they have: memory files that manage their memory and queues (allocation succeeds), files
open for writing with the position at the end (no transfer fails), system objects and sockets, and COM objects that take at least a byte at a time. -/
inductive WriteEnd : List Byte → (Nat → Prop) → Pile H → Prop
  | memory {m : MemoryFile.MF Byte} {b : List Byte} : MemoryFile.Ok m b → m.manage = true → m.offset = b.length → m.st = .ok → WriteEnd b (fun n => b.length + n < 2 ^ 61) (bare Memory.strm m Memory.contents)
  | queue {q : Fifo.Q Byte} : Fifo.Inv q → q.st = .ok → WriteEnd q.bytes (fun _ => True) (bare Queue.strm q Fifo.Q.bytes)
  | disk {sync : Disk.F → Bool} {f : Disk.F} {h : Disk.H} : (∀ f, sync f = true) → Disk.Ok f → none ∉ f.script → f.st = .ok → f.h = some h → h.wr = true → h.pos = f.content.length →
      WriteEnd f.content (fun n => f.content.length + n < 2 ^ 63) (bare (OnDisk.strm sync) f Disk.F.content)
  | sys {ω : Type} {os : Os Byte ω} {got : ω → List Byte} {block : Nat} {sync : ω → Bool × ω} {s : ω × St} : OsLawful os → OsSink os got → 0 < block → (∀ w, (sync w).1 = true ∧ got (sync w).2 = got w) → s.2 = .ok →
      WriteEnd (got s.1) (fun _ => True) (bare (full os block sync) s (fun s => got s.1))
  | com {ω : Type} {c : Com Byte ω} {got : ω → List Byte} {s : ω × St} : ComLawful c → OsSink c.os got → s.2 = .ok → WriteEnd (got s.1) (fun _ => True) (bare (seqStream c) s (fun s => got s.1))

/-- The same streams, ready to be read, with what they will deliver. -/
inductive ReadEnd : List Byte → Pile H → Prop
  | memory {m : MemoryFile.MF Byte} {b : List Byte} : MemoryFile.Ok m b → m.offset ≤ b.length → m.st = .ok → ReadEnd (b.drop m.offset) (bare Memory.strm m Memory.contents)
  | queue {q : Fifo.Q Byte} : Fifo.Inv q → q.st = .ok → ReadEnd q.bytes (bare Queue.strm q Fifo.Q.bytes)
  | disk {sync : Disk.F → Bool} {f : Disk.F} {h : Disk.H} : none ∉ f.script → f.st = .ok → f.h = some h → h.rd = true → ReadEnd (f.content.drop h.pos) (bare (OnDisk.strm sync) f Disk.F.content)
  | sys {ω : Type} {os : Os Byte ω} {rem : ω → List Byte} {block : Nat} {sync : ω → Bool × ω} {got : ω × St → List Byte} {s : ω × St} : OsLawful os → OsSource os rem → 0 < block → s.2 = .ok →
      ReadEnd (rem s.1) (bare (full os block sync) s got)
  | com {ω : Type} {c : Com Byte ω} {rem : ω → List Byte} {got : ω × St → List Byte} {s : ω × St} : ComLawful c → ComSource c rem → s.2 = .ok → ReadEnd (rem s.1) (bare (seqStream c) s got)

/-! ### Proofs -/

/-- **C159** Each of them takes what it has room for, in any pieces, and tells so. -/
theorem write_end {g0 : List Byte} {room : Nat → Prop} {d : Pile H} (h : WriteEnd g0 room d) : Takes g0 room d := by
  cases h with
  | memory a b c e => exact Memory.takes a b c e
  | queue a b => exact Queue.takes a b
  | disk a b c e f g i => exact OnDisk.takes a b c e f g i
  | sys a b c e f => exact takes_all (full_sinks a b c e) f
  | com a b c => exact takes_all (seq_sinks a b) c

/-- **C159** Each of them delivers what it has, in order, each byte once, and then reports the end. -/
theorem read_end {out : List Byte} {r : Pile H} (h : ReadEnd out r) : (∃ L0, Reads L0 r out) ∧ r.S.state r.s = .ok := by
  cases h with
  | memory a b c => exact ⟨⟨_, Memory.reads a b (by rw [c]; decide)⟩, c⟩
  | queue a b => exact ⟨⟨_, Queue.reads a (by rw [b]; decide)⟩, b⟩
  | @disk sync f h a b c e =>
    have := OnDisk.reads (H := H) sync ⟨⟨_, c, e⟩, a⟩ (by rw [b]; decide)
    have e2 : Disk.left f = f.content.drop h.pos := by unfold Disk.left; rw [c]
    rw [e2] at this
    exact ⟨⟨_, this⟩, b⟩
  | @sys ω os rem block sync got s a b c e => exact ⟨⟨_, reads_bare (s := s) (full_source a b c sync) (by show s.2 ≠ .fail; rw [e]; decide) got⟩, e⟩
  | @com ω c rem got s a b e => exact ⟨⟨_, reads_bare (s := s) (seq_source a b) (by show s.2 ≠ .fail; rw [e]; decide) got⟩, e⟩

/-- **C159** Values written through any tower of filters and compressions to any of the library's streams, and read through any other with as many decompressions from any of them that has what arrived, are the same
values: no exception is thrown, and both ends are in state ok. Missing: base64 below other layers, see `base64_below_loses`; on top of them, see `values_through_base64_towers_on_partial`. -/
theorem values_between_ends_partial {dz : Deflater Byte δ} {iz : Inflater Byte ι} {Comp : List Byte → List Byte → Prop} {run fin : δ → List Byte → List Byte → Prop} {full' : δ → Prop}
    {work : Bool → δ → List Byte → Nat} {reach : ι → List Byte → List Byte → Prop} (hz : DeflaterOk dz Comp run fin full' work) (hi : InflaterOk iz Comp reach)
    {room : Nat → Prop} {d : Pile H} (hd : WriteEnd [] room d) {vs : List Val} (hv : ∀ v ∈ vs, v.Ok) {ls : List (Layer H)} (hl : ∀ l ∈ ls, l.Binary)
    (hf : FitsIn Comp room ls (vs.flatMap wire).length) {gs : List (RLayer H)} (hg : ∀ g ∈ gs, g.Ok) (hn : unzips gs = zips ls) (hsh : Shown Comp gs (vs.flatMap wire)) {P : Pile H} (hP : P = tower dz ls d) :
    ∃ x, putAll P.S P.s vs = some x ∧ P.S.state (P.S.flush x) = .ok ∧
      ∀ {r : Pile H}, ReadEnd (P.got (P.S.flush x)) r → ∃ F, ∀ fuel, F ≤ fuel → ∀ Q : Pile H, Q = rtower iz fuel gs r → ∀ old buf : List Byte,
        ∃ y, getAll Q.S fuel old buf Q.s (vs.map Val.kind) = some (vs, y) ∧ Q.S.state y = .ok := by
  obtain ⟨x, a, b, c⟩ := values_through_towers_on_partial hz hi (write_end hd) hv hl hf hg hn hsh hP
  refine ⟨x, a, b, fun {r} hr => ?_⟩
  obtain ⟨⟨L0, h⟩, hs⟩ := read_end hr
  exact c r h hs

/-- **C159** The same with base64 on top of both towers. -/
theorem values_between_ends_base64_partial {dz : Deflater Byte δ} {iz : Inflater Byte ι} {Comp : List Byte → List Byte → Prop} {run fin : δ → List Byte → List Byte → Prop} {full' : δ → Prop}
    {work : Bool → δ → List Byte → Nat} {reach : ι → List Byte → List Byte → Prop} (hz : DeflaterOk dz Comp run fin full' work) (hi : InflaterOk iz Comp reach)
    {room : Nat → Prop} {d : Pile H} (hd : WriteEnd [] room d) {vs : List Val} (hv : ∀ v ∈ vs, v.Ok) {maxBlocks : Nat} {ls : List (Layer H)} (hl : ∀ l ∈ ls, l.Binary)
    (hf : FitsIn Comp room (.base64 maxBlocks :: ls) (vs.flatMap wire).length) {gs : List (RLayer H)} (hg : ∀ g ∈ gs, g.Ok) (hn : unzips gs = zips ls)
    (hsh : Shown Comp gs (B64Pipe.base64Text maxBlocks (vs.flatMap wire))) {P : Pile H} (hP : P = tower dz (.base64 maxBlocks :: ls) d) :
    ∃ x, putAll P.S P.s vs = some x ∧ P.S.state (P.S.flush x) = .ok ∧
      ∀ {r : Pile H}, ReadEnd (P.got (P.S.flush x)) r → ∃ F, ∀ fuel, F ≤ fuel → ∀ Q : Pile H, Q = rtower iz fuel gs r → ∀ old buf : List Byte,
        ∃ y, getAll (B64Pipe.reader Q.S fuel) fuel old buf (B64Pipe.readerOn Q.S Q.s) (vs.map Val.kind) = some (vs, y) ∧ (B64Pipe.reader Q.S fuel).state y = .ok := by
  obtain ⟨x, a, b, c⟩ := values_through_base64_towers_on_partial hz hi (write_end hd) hv hl hf hg hn hsh hP
  refine ⟨x, a, b, fun {r} hr => ?_⟩
  obtain ⟨⟨L0, h⟩, hs⟩ := read_end hr
  exact c r h hs

/-- **C159** A file opened in any mode for writing is such an end, if it can be opened: with the content that the mode says, behind it if it appends, and before it if there is none. -/
theorem opened_for_writing {f : Disk.F} {name mode : Nat} {rdTrunc : Bool} (hd : (Disk.Mode.of mode).disposition ≤ 4) (hw : (Disk.Mode.of mode).writing = true) {c : List Byte}
    (ho : Disk.Opened (Disk.Mode.of mode).disposition (f.fs name) = some c) (ha : (Disk.Mode.of mode).append = true ∨ c = []) (hl : ∀ c, f.fs name = some c → c.length < 2 ^ 63) (hs : none ∉ f.script)
    {sync : Disk.F → Bool} (hy : ∀ f, sync f = true) :
    WriteEnd (H := H) c (fun n => c.length + n < 2 ^ 63) (bare (OnDisk.strm sync) (Disk.openFile f name mode false rdTrunc).2 Disk.F.content) := by
  obtain ⟨-, h⟩ := Disk.file_open f name mode false rdTrunc hd (fun _ => Or.inl hw) hl
  rw [if_neg (by decide), ho] at h
  obtain ⟨h1, h2, -, h4⟩ := h
  have hc : (Disk.openFile f name mode false rdTrunc).2.content = c := by
    rw [Disk.content_at h4]
    show ((Disk.openFile f name mode false rdTrunc).2.fs name).getD [] = c
    rw [h2]; rfl
  have hlen : c.length < 2 ^ 63 := by
    have hdd : (Disk.Mode.of mode).disposition = 0 ∨ (Disk.Mode.of mode).disposition = 1 ∨ (Disk.Mode.of mode).disposition = 2 ∨ (Disk.Mode.of mode).disposition = 3 ∨ (Disk.Mode.of mode).disposition = 4 := by omega
    cases hx : f.fs name with
    | none =>
      rw [hx] at ho
      rcases hdd with h | h | h | h | h <;> rw [h] at ho <;> simp [Disk.Opened] at ho <;> subst ho <;> decide
    | some y =>
      have := hl y hx
      rw [hx] at ho
      rcases hdd with h | h | h | h | h <;> rw [h] at ho <;> simp [Disk.Opened] at ho <;> subst ho <;> first | exact this | decide
  have hp : (if (Disk.Mode.of mode).append = true then c.length else 0) = c.length := by
    rcases ha with e | e
    · rw [if_pos e]
    · rw [e]; simp
  have key := WriteEnd.disk (H := H) hy (f := (Disk.openFile f name mode false rdTrunc).2) (fun g hg => ?_) (fun q => hs (Disk.openFile_script f name mode false rdTrunc ▸ q)) h1 h4 hw (by rw [hc]; exact hp)
  · rw [hc] at key; exact key
  · rw [h4] at hg
    cases hg
    refine ⟨?_, ?_, by rw [hc]; exact hlen⟩
    · show (Disk.openFile f name mode false rdTrunc).2.fs name ≠ none
      rw [h2]; exact fun q => nomatch q
    · show (if (Disk.Mode.of mode).append = true then c.length else 0) < 2 ^ 63
      rw [hp]; exact hlen

/-- **C159** A file that is there, opened for reading only and not appending, is an end that delivers its content. -/
theorem opened_for_reading {f : Disk.F} {name mode : Nat} {rdTrunc : Bool} (hd : (Disk.Mode.of mode).disposition = 0 ∨ (Disk.Mode.of mode).disposition = 2) (hw : (Disk.Mode.of mode).writing = false)
    (ha : (Disk.Mode.of mode).append = false) {c : List Byte} (hc : f.fs name = some c) (hl : c.length < 2 ^ 63) (hs : none ∉ f.script) (sync : Disk.F → Bool) :
    ReadEnd (H := H) c (bare (OnDisk.strm sync) (Disk.openFile f name mode false rdTrunc).2 Disk.F.content) := by
  obtain ⟨-, h⟩ := Disk.file_open f name mode false rdTrunc (by omega) (fun q => by omega) (fun c' e => by rw [hc] at e; cases e; exact hl)
  have ho : Disk.Opened (Disk.Mode.of mode).disposition (f.fs name) = some c := by
    rw [hc]
    rcases hd with e | e <;> rw [e] <;> rfl
  rw [if_neg (by decide), ho, hw, ha] at h
  obtain ⟨h1, h2, -, h4⟩ := h
  have h5 : (Disk.openFile f name mode false rdTrunc).2.content = c := by
    rw [Disk.content_at h4]
    show ((Disk.openFile f name mode false rdTrunc).2.fs name).getD [] = c
    rw [h2]; rfl
  have key := ReadEnd.disk (H := H) (sync := sync) (fun q => hs (Disk.openFile_script f name mode false rdTrunc ▸ q)) h1 h4 (by simp)
  rw [h5] at key
  exact key

/-- (defect) The flush of `basic` makes the state ok whatever it was: after a write for which there was no memory, a memory file and a queue are in state fail, and after a flush ok, with nothing in them. -/
theorem flush_hides_failure : (∃ m, MemoryFile.MF.empty.write ([1, 2, 3] : List Byte) false = some (0, m) ∧ Memory.strm.state m = .fail ∧ Memory.strm.state (Memory.strm.flush m) = .ok ∧ Memory.contents (Memory.strm.flush m) = []) ∧
    (let q := (Fifo.Q.init.write ([1, 2, 3] : List Byte) false).2; Queue.strm.state q = .fail ∧ Queue.strm.state (Queue.strm.flush q) = .ok ∧ (Queue.strm.flush q).bytes = []) :=
  ⟨⟨_, rfl, by decide +kernel, by decide +kernel, by decide +kernel⟩, by decide +kernel, by decide +kernel, by decide +kernel⟩

/-! ### Examples -/

/-- Ends that are empty, with their room. -/
example : WriteEnd (H := H) [] (fun n => 0 + n < 2 ^ 61) (bare Memory.strm .empty Memory.contents) ∧ WriteEnd (H := H) [] (fun _ => True) (bare Queue.strm .init Fifo.Q.bytes) ∧
    WriteEnd (H := H) [] (fun _ => True) (bare (full demoOs 99 (fun w => (true, w))) (([], []), .ok) (fun s => s.1.2)) := by
  refine ⟨?_, ?_, ?_⟩
  · exact WriteEnd.memory (m := .empty) (b := []) MemoryFile.rel_empty.ok rfl rfl rfl
  · exact WriteEnd.queue (q := .init) ⟨(fun _ _ h => nomatch h), fun _ => rfl, rfl⟩ rfl
  · exact WriteEnd.sys (got := Prod.snd) (s := (([], []), .ok)) demo_os.1 demo_os.2.2 (by decide) (fun _ => ⟨rfl, rfl⟩) rfl

example : ReadEnd (H := H) [9, 8, 7] (bare Memory.strm (.over [9, 8, 7, 6] 3 false) Memory.contents) ∧ ReadEnd (H := H) [1, 2, 3] (bare (full demoOs 99 (fun w => (true, w))) (([1, 2, 3], []), .ok) (fun _ => [])) ∧
    ReadEnd (H := H) [1, 2, 3] (bare (seqStream demoCom) ([1, 2, 3], .ok) (fun _ => [])) :=
  ⟨ReadEnd.memory (m := .over [9, 8, 7, 6] 3 false) (b := [9, 8, 7]) (MemoryFile.rel_over [9, 8, 7, 6] 3 false (by decide) (by decide)).ok (by decide) rfl,
    ReadEnd.sys (rem := Prod.fst) (s := (([1, 2, 3], []), .ok)) demo_os.1 demo_os.2.1 (by decide) rfl, ReadEnd.com (rem := id) (s := ([1, 2, 3], .ok)) demo_com.1 demo_com.2 rfl⟩

/-- File 7 of five bytes, opened to be appended to (mode `open existing | writing | append`), and opened for reading; file 8 created. -/
example : WriteEnd (H := H) [1, 2, 3, 4, 5] (fun n => 5 + n < 2 ^ 63) (bare (OnDisk.strm fun _ => true) (Disk.openFile Disk.exDisk 7 (2 ||| 1 <<< 6) false false).2 Disk.F.content) ∧
    WriteEnd (H := H) [] (fun n => 0 + n < 2 ^ 63) (bare (OnDisk.strm fun _ => true) (Disk.openFile Disk.exDisk 8 (2 ||| 4 <<< 3) false false).2 Disk.F.content) ∧
    ReadEnd (H := H) [1, 2, 3, 4, 5] (bare (OnDisk.strm fun _ => true) (Disk.openFile Disk.exDisk 7 1 false false).2 Disk.F.content) := by
  have hl : ∀ n c, Disk.exDisk.fs n = some c → c.length < 2 ^ 63 := by
    intro n c h
    unfold Disk.exDisk at h
    simp only at h
    split at h
    · cases h; decide
    · cases h
  exact ⟨opened_for_writing (c := [1, 2, 3, 4, 5]) (by decide) (by decide) (by decide) (Or.inl (by decide)) (hl 7) (by decide) (fun _ => rfl),
    opened_for_writing (c := []) (by decide) (by decide) (by decide) (Or.inr rfl) (hl 8) (by decide) (fun _ => rfl),
    opened_for_reading (by decide) (by decide) (by decide) (c := [1, 2, 3, 4, 5]) (by decide) (by decide) (by decide) _⟩

example : WriteEnd (H := H) [5] (fun _ => True) (bare (seqStream demoCom) ([5], .ok) (fun s => s.1)) := by
  refine WriteEnd.com (got := id) (s := ([5], .ok)) demo_com.1 ⟨fun w d => ⟨min d.length 3, rfl, ?_, fun h c => ?_⟩⟩ rfl
  · show w ++ d.take 3 = w ++ d.take (min d.length 3)
    congr 1
    rcases Nat.le_total d.length 3 with h | h
    · rw [Nat.min_eq_left h, List.take_of_length_le h, List.take_length]
    · rw [Nat.min_eq_right h]
  · have := List.length_pos_iff.2 h
    omega

/-- The three values of Stack.lean fit into a memory file through the six layers of Tower.lean. -/
example : FitsIn demoComp (fun n => 0 + n < 2 ^ 61) (six' 75) (threeVals.flatMap wire).length := by
  rw [show (threeVals.flatMap wire).length = 18 by decide +kernel]
  have h1 : ∀ G c : List Byte, G.length ≤ 18 → demoComp c G → c.length ≤ 37 := fun G c hG hc => by rw [demo_bound hc]; omega
  have h2 : ∀ G c : List Byte, G.length ≤ 37 → demoComp c G → c.length ≤ 75 := fun G c hG hc => by rw [demo_bound hc]; omega
  exact ⟨trivial, trivial, by decide, 37, h1, trivial, trivial, by decide, 75, h2, ⟨by decide, by decide⟩, Or.inr (by decide), trivial, trivial, (show 0 + 75 < 2 ^ 61 by decide)⟩

/-- Three bytes through a hash and a buffer to a memory file, and two of them back from it. -/
example : (let P := stack [.hasher ⟨fun h d => h ++ d, []⟩, .buffer 2 2] (bare (H := List Byte) Memory.strm .empty Memory.contents); let x := P.S.flush (P.S.write P.s [7, 8, 9]).2; (P.got x, (P.taps x).map (·.2))) = ([7, 8, 9], [[7, 8, 9]]) ∧
    (Memory.strm.read (.over [7, 8, 9] 3 false) 2).1 = [7, 8] := by
  refine ⟨by decide +kernel, by decide +kernel⟩

end Verif.Ends
