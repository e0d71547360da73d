import Verif.Stream.MemoryData
/-
Copies of streams into a `memory_file`: proofs.
-/
namespace Verif.Stream.MemoryFile
open Verif.Stream

/-- The destination while bytes are copied into it: they count although the size has not been set. -/
def MF.virt (f : MF Byte) (dst : Nat) : MF Byte := ⟨f.mem, f.manage, dst, max f.size dst, .ok⟩

theorem overwrite_more {l d e : List Byte} {p : Nat} (h : p ≤ l.length) : overwrite (overwrite l p d) (p + d.length) e = overwrite l p (d ++ e) := by
  unfold overwrite
  have h1 : (l.take p ++ d).length = p + d.length := by rw [List.length_append, List.length_take]; omega
  rw [List.take_left' h1, List.length_append, List.drop_append, h1, List.drop_eq_nil_of_le (by omega), List.nil_append, List.drop_drop, List.append_assoc (l.take p) d e]
  congr 2
  omega

theorem overwrite_nil (l : List Byte) (p : Nat) : overwrite l p [] = l := by simp [overwrite]

theorem virt_write {g : MF Byte} {dst : Nat} {B d : List Byte} (h : Ok (g.virt dst) B) (hd : dst ≤ B.length) (hr : dst + d.length ≤ g.mem.length) :
    ∃ m, wrMem g.mem dst (d.map some) = some m ∧ m.length = g.mem.length ∧ Ok (({ g with mem := m } : MF Byte).virt (dst + d.length)) (overwrite B dst d) := by
  have hcap := h.cap
  have hoff := h.off
  have hm : (g.virt dst).mem = g.mem := rfl
  rw [hm] at hcap
  have hrel : Rel (g.virt dst) ⟨B, dst⟩ := ⟨h, rfl⟩
  have hput : (g.virt dst).put (d.map some) true = some (true, ({ g with mem := g.mem.take dst ++ d.map some ++ g.mem.drop (dst + d.length) } : MF Byte).virt (dst + d.length)) := by
    unfold MF.put
    have e1 : addW (g.virt dst).offset (d.map some).length = dst + d.length := by
      rw [List.length_map]
      show addW dst d.length = _
      exact addW_eq (by omega)
    simp only [e1]
    rw [if_neg (show ¬ (g.virt dst).reserved < dst + d.length from by show ¬ g.mem.length < _; omega), if_neg (by simp)]
    dsimp only
    unfold wrMem
    rw [List.length_map]
    rw [if_pos (show (g.virt dst).offset + d.length ≤ (g.virt dst).mem.length from hr), Option.map_some]
    have : (if (g.virt dst).size < dst + d.length then dst + d.length else (g.virt dst).size) = max g.size (dst + d.length) := by
      show (if max g.size dst < _ then _ else max g.size dst) = _
      split <;> omega
    rw [this]
    rfl
  refine ⟨g.mem.take dst ++ d.map some ++ g.mem.drop (dst + d.length), ?_, ?_, ?_⟩
  · unfold wrMem
    rw [List.length_map, if_pos hr]
  · rw [List.length_append, List.length_append, List.length_take, List.length_drop, List.length_map]; omega
  · rcases put_rel hrel d true (by omega) hd with ⟨f', e, -, -, q⟩ | ⟨f', e, -⟩
    · rw [hput] at e
      obtain ⟨-, rfl⟩ := Prod.mk.injEq .. ▸ Option.some.inj e
      exact q.ok
    · rw [hput] at e; cases e

theorem virt_reserve {g : MF Byte} {dst : Nat} {B : List Byte} (h : Ok (g.virt dst) B) {n : Nat} (hn : n < 2 ^ 63) (al : Bool) :
    Ok ((g.reserve n false al).virt dst) B ∧ (g.reserve n false al).size = g.size ∧ (g.reserve n false al).manage = g.manage ∧ (g.reserve n false al).offset = g.offset ∧
      ((g.reserve n false al).st = .ok → n ≤ (g.reserve n false al).mem.length) ∧ ((g.reserve n false al).st = .ok ∨ (g.reserve n false al).st = .fail) ∧ (g.manage = true → al = true → n < 2 ^ 61 → (g.reserve n false al).st = .ok) := by
  obtain ⟨r1, r2, r3, r4⟩ := reserve_ok h n false al (by omega) (fun c => nomatch c)
  have hsz : (g.virt dst).size = max g.size dst := rfl
  have hsl : max g.size dst ≤ g.mem.length := h.size_le
  have e1 : (g.reserve n false al).mem = ((g.virt dst).reserve n false al).mem ∧ (g.reserve n false al).st = ((g.virt dst).reserve n false al).st ∧ (g.reserve n false al).size = g.size := by
    unfold MF.reserve
    have ea : (g.virt dst).reserved = g.reserved := rfl
    have eb : (g.virt dst).manage = g.manage := rfl
    have ec : (g.virt dst).mem = g.mem := rfl
    rw [ea, eb, ec]
    split
    · exact ⟨rfl, rfl, rfl⟩
    · rename_i hc
      split
      · exact ⟨rfl, rfl, rfl⟩
      · simp only []
        split
        · exact ⟨rfl, rfl, rfl⟩
        · refine ⟨rfl, rfl, ?_⟩
          simp only [Bool.not_false, Bool.true_or, Bool.and_true, decide_eq_true_eq] at hc
          have hc : ¬ n ≤ g.mem.length := hc
          have := grown_ge (r := n) (by omega)
          exact if_neg (by omega)
  obtain ⟨e1, e2, e3⟩ := e1
  obtain ⟨s1, s2, -⟩ := reserve_spec g n false al
  have heq : (g.reserve n false al).virt dst = { (g.virt dst).reserve n false al with st := .ok } := by
    unfold MF.virt at *
    rw [e1, e3, s2]
    have a1 := (reserve_spec ⟨g.mem, g.manage, dst, max g.size dst, .ok⟩ n false al)
    rw [MF.mk.injEq]
    exact ⟨rfl, a1.2.1.symm, a1.1.symm, r2.symm, rfl⟩
  refine ⟨?_, e3, s2, s1, by rw [e1, e2]; exact r3, by rw [e2]; exact r4, ?_⟩
  · rw [heq]; exact ⟨r1.size_le, r1.cap, r1.off, r1.contents⟩
  · intro h1 h2 h3
    subst h2
    exact reserve_succeeds g n h1 h3

variable {σ : Type}

/-- The loop with an amount copies what the source has, up to the amount. -/
theorem mwsLoop_spec {S : Strm Byte σ} {rem : σ → List Byte} (h : IsSource S rem) : ∀ (fuel : Nat) (g : MF Byte) (dst copied : Nat) (s : σ) (n : Nat) (B : List Byte), Ok (g.virt dst) B → dst ≤ B.length → dst + n ≤ g.mem.length → n < fuel → g.st = .ok →
    ∃ g' s', mwsLoop S fuel g dst copied s n = some (g', dst + ((rem s).take n).length, copied + ((rem s).take n).length, s') ∧ Ok (g'.virt (dst + ((rem s).take n).length)) (overwrite B dst ((rem s).take n)) ∧
      rem s' = (rem s).drop n ∧ g'.st = .ok ∧ g'.manage = g.manage ∧ g'.size = g.size := by
  intro fuel
  induction fuel with
  | zero => intro g dst copied s n B _ _ _ hf; omega
  | succ fuel ih =>
    intro g dst copied s n B hv hd hr hf hst
    rw [mwsLoop]
    by_cases hn : n = 0
    · subst hn
      rw [if_pos rfl]
      simp only [List.take_zero, List.length_nil, Nat.add_zero, List.drop_zero, overwrite_nil]
      exact ⟨g, s, rfl, hv, rfl, hst, rfl, rfl⟩
    · rw [if_neg hn, if_neg (by omega)]
      dsimp only
      have hle := h.le s n
      obtain ⟨q1, q2⟩ := h.read_eq s n
      obtain ⟨m, w1, w2, w3⟩ := virt_write (d := (S.read s n).1) hv hd (by omega)
      rw [w1, Option.bind_some]
      have hol := overwrite_length B dst (S.read s n).1 hd
      by_cases hrem : rem s = []
      · have he := h.eof s n hn hrem
        have hnil : (S.read s n).1 = [] := by rw [q1, hrem]; simp
        have hm : m = g.mem := by
          have hl : dst ≤ g.mem.length := by omega
          rw [hnil] at w1
          unfold wrMem at w1
          rw [List.map_nil, List.length_nil, if_pos (by omega)] at w1
          have := Option.some.inj w1
          rw [← this]; simp
        rw [if_pos (by rw [he]; simp), hnil, he]
        refine ⟨{ g with mem := m }, (S.read s n).2, by simp [hrem], ?_, by rw [q2, hrem]; simp, hst, rfl, rfl⟩
        rw [hnil] at w3
        simpa [hrem] using w3
      · obtain ⟨hm1, hm2⟩ := h.more s n hn hrem
        rw [if_neg (by rw [hm2]; simp)]
        have hpos : 0 < (S.read s n).1.length := List.length_pos_iff.2 hm1
        obtain ⟨g', s', i1, i2, i3, i4, i5, i6⟩ := ih { g with mem := m } (dst + (S.read s n).1.length) (copied + (S.read s n).1.length) (S.read s n).2 (n - (S.read s n).1.length) (overwrite B dst (S.read s n).1) w3
          (by rw [hol]; omega) (by show _ ≤ m.length; rw [w2]; omega) (by omega) hst
        have key : (rem s).take n = (S.read s n).1 ++ (rem (S.read s n).2).take (n - (S.read s n).1.length) := by
          conv => lhs; rw [← h.split s n]
          rw [List.take_append, List.take_of_length_le hle]
        refine ⟨g', s', ?_, ?_, ?_, i4, i5, i6⟩
        · rw [i1, key, List.length_append]
          simp only [Option.some.injEq, Prod.mk.injEq, true_and, and_true]
          omega
        · rw [key, ← overwrite_more hd, List.length_append, ← Nat.add_assoc]; exact i2
        · rw [i3, q2, List.drop_drop]; congr 1; omega

/-- The loop to the end of the source: what it copied is a part of what was there, and all of it unless memory ran out. -/
theorem mwsAll_spec {S : Strm Byte σ} {rem : σ → List Byte} (h : IsSource S rem) (alloc : Nat → Bool) : ∀ (fuel : Nat) (g : MF Byte) (dst copied : Nat) (s : σ) (n : Nat) (B : List Byte), Ok (g.virt dst) B → dst ≤ B.length →
    (rem s).length + 65536 < n → dst + (rem s).length + 65536 < 2 ^ 61 → (rem s).length < fuel → g.st = .ok →
    ∃ g' s' d, mwsAll S alloc fuel g dst dst copied s n = some (g', dst + d.length, copied + d.length, s') ∧ d ++ rem s' = rem s ∧ Ok (g'.virt (dst + d.length)) (overwrite B dst d) ∧
      (g'.st = .ok ∨ g'.st = .fail) ∧ (g'.st = .ok → rem s' = []) ∧ (g.manage = true → (∀ x, alloc x = true) → g'.st = .ok) ∧ g'.manage = g.manage ∧ g'.size = g.size := by
  intro fuel
  induction fuel with
  | zero => intro g dst copied s n B _ _ _ _ hf; omega
  | succ fuel ih =>
    intro g dst copied s n B hv hd hn hs hf hst
    rw [mwsAll, if_neg (by omega), Nat.min_eq_right (by unfold blockSize; omega)]
    have hbs : blockSize = 65536 := rfl
    dsimp only
    rw [if_neg (by omega)]
    obtain ⟨r1, r2, r3, r4, r5, r6, r7⟩ := virt_reserve hv (n := dst + blockSize) (by omega) (alloc dst)
    by_cases hok : (g.reserve (dst + blockSize) false (alloc dst)).st = .ok
    · rw [if_neg (by simp [hok]), if_neg (by have := r5 hok; omega)]
      generalize g.reserve (dst + blockSize) false (alloc dst) = g1 at *
      have hle := h.le s blockSize
      obtain ⟨q1, q2⟩ := h.read_eq s blockSize
      have hroom := r5 hok
      obtain ⟨m, w1, w2, w3⟩ := virt_write (d := (S.read s blockSize).1) r1 hd (by omega)
      rw [w1, Option.bind_some]
      have hol := overwrite_length B dst (S.read s blockSize).1 hd
      by_cases hrem : rem s = []
      · have he := h.eof s blockSize (by decide) hrem
        have hnil : (S.read s blockSize).1 = [] := by rw [q1, hrem]; simp
        rw [if_pos (by rw [he]; simp), he]
        refine ⟨{ g1 with mem := m }, (S.read s blockSize).2, (S.read s blockSize).1, by simp, h.split s blockSize, w3, .inl hok, fun _ => by rw [q2, hrem]; simp, fun _ _ => hok, r3, r2⟩
      · obtain ⟨hm1, hm2⟩ := h.more s blockSize (by decide) hrem
        rw [if_neg (by rw [hm2]; simp)]
        have hpos : 0 < (S.read s blockSize).1.length := List.length_pos_iff.2 hm1
        have hlen : (rem (S.read s blockSize).2).length + (S.read s blockSize).1.length = (rem s).length := by
          have := congrArg List.length (h.split s blockSize)
          rw [List.length_append] at this; omega
        obtain ⟨g', s', d, i1, i2, i3, i4, i5, i6, i7, i8⟩ := ih { g1 with mem := m } (dst + (S.read s blockSize).1.length) (copied + (S.read s blockSize).1.length) (S.read s blockSize).2 (n - (S.read s blockSize).1.length) (overwrite B dst (S.read s blockSize).1) w3
          (by rw [hol]; omega) (by omega) (by omega) (by omega) hok
        refine ⟨g', s', (S.read s blockSize).1 ++ d, ?_, ?_, ?_, i4, i5, fun a b => i6 (by rw [← a]; exact r3) b, i7.trans r3, i8.trans r2⟩
        · rw [i1, List.length_append]
          simp only [Option.some.injEq, Prod.mk.injEq, true_and, and_true]
          omega
        · rw [List.append_assoc, i2]; exact h.split s blockSize
        · rw [← overwrite_more hd, List.length_append, ← Nat.add_assoc]; exact i3
    · rw [if_pos hok]
      refine ⟨_, s, [], rfl, rfl, by simpa [overwrite_nil] using r1, r6, fun c => absurd c hok, fun a b => absurd (r7 a (b _) (by omega)) hok, r3, r2⟩

theorem virt_done {g : MF Byte} {dst : Nat} {B : List Byte} (h : Ok (g.virt dst) B) : Rel ({ g with offset := dst, size := if g.size < dst then dst else g.size } : MF Byte) ⟨B, dst⟩ := by
  have : (if g.size < dst then dst else g.size) = max g.size dst := by split <;> omega
  rw [this]
  exact ⟨⟨h.size_le, h.cap, h.off, h.contents⟩, rfl⟩

theorem virt_start {f : MF Byte} {a : AFile Byte} (h : Rel f a) (hin : a.pos ≤ a.bytes.length) (st : St) : Ok (({ f with st := st } : MF Byte).virt f.offset) a.bytes := by
  have hl := h.ok.len
  have hp := h.pos
  have e : max f.size f.offset = f.size := by omega
  unfold MF.virt
  dsimp only
  rw [e]
  exact ⟨h.ok.size_le, h.ok.cap, h.ok.off, h.ok.contents⟩

/-- Copying up to an amount of bytes: they are what the source has, put at the cursor, which moves behind them; the source is read no further. -/
theorem write_stream_amount {S : Strm Byte σ} {rem : σ → List Byte} (h : IsSource S rem) {f : MF Byte} {a : AFile Byte} (hr : Rel f a) (hm : f.manage = true) (hin : a.pos ≤ a.bytes.length) {n : Nat} (hn : a.pos + n < 2 ^ 61) (s : σ) {fuel : Nat} (hf : n < fuel) :
    ∃ f' s', f.writeStream S (fun _ => true) fuel s (some n) = some (((rem s).take n).length, f', s') ∧ f'.st = .ok ∧ f'.manage = true ∧
      Rel f' ⟨overwrite a.bytes a.pos ((rem s).take n), a.pos + ((rem s).take n).length⟩ ∧ rem s' = (rem s).drop n := by
  have hp := hr.pos
  have hv := virt_start hr hin .ok
  obtain ⟨r1, r2, r3, r4, r5, r6, r7⟩ := virt_reserve hv (n := f.offset + n) (by omega) true
  have hok := r7 hm rfl (by omega)
  unfold MF.writeStream
  dsimp only
  rw [if_neg (by omega), if_neg (by simp [hok])]
  generalize (({ f with st := .ok } : MF Byte).reserve (f.offset + n) false true) = g at *
  have ho : g.offset = f.offset := r4
  rw [ho]
  obtain ⟨g', s', i1, i2, i3, i4, i5, i6⟩ := mwsLoop_spec h fuel g f.offset 0 s n a.bytes r1 (by omega) (r5 hok) hf hok
  rw [i1, Option.map_some, Nat.zero_add]
  refine ⟨_, s', rfl, i4, i5.trans (r3.trans hm), ?_, i3⟩
  have := virt_done i2
  rw [hp] at this ⊢
  exact this

/-- Copying to the end of the source. Whether or not memory runs out, what was copied is the beginning of what the source had, put at the cursor. -/
theorem write_stream_all {S : Strm Byte σ} {rem : σ → List Byte} (h : IsSource S rem) {f : MF Byte} {a : AFile Byte} (hr : Rel f a) (hin : a.pos ≤ a.bytes.length) (s : σ) (hn : a.pos + (rem s).length + 65536 < 2 ^ 61) (alloc : Nat → Bool) {fuel : Nat} (hf : (rem s).length < fuel) :
    ∃ f' s' d, f.writeStream S alloc fuel s none = some (d.length, f', s') ∧ d ++ rem s' = rem s ∧ Rel f' ⟨overwrite a.bytes a.pos d, a.pos + d.length⟩ ∧
      (f'.st = .ok → d = rem s) ∧ (f.manage = true → (∀ x, alloc x = true) → f'.st = .ok) ∧ f'.manage = f.manage := by
  have hp := hr.pos
  have hv := virt_start hr hin .ok
  unfold MF.writeStream
  dsimp only
  obtain ⟨g', s', d, i1, i2, i3, i4, i5, i6, i7, i8⟩ := mwsAll_spec h alloc fuel { f with st := .ok } f.offset 0 s (2 ^ 64 - 1) a.bytes hv (by omega) (by omega) (by omega) hf rfl
  rw [i1, Option.map_some, Nat.zero_add]
  refine ⟨_, s', d, rfl, i2, ?_, ?_, i6, i7⟩
  · have := virt_done i3
    rw [hp] at this ⊢
    exact this
  · intro c
    have := i5 c
    rw [this, List.append_nil] at i2
    exact i2

/-! ### Files of values -/

/-- `memory << value`, for numbers and strings. -/
def MF.putVal (check : Bool) (f : MF Byte) : Val → Option (MF Byte)
  | .num k v => f.writeNum check k v true
  | .str k cs => f.writeStr check k cs true
  | .mset _ _ => none

def MF.putAll (check : Bool) (f : MF Byte) : List Val → Option (MF Byte)
  | [] => some f
  | v :: l => (f.putVal check v).bind fun f => f.putAll check l

/-- `memory >> variable`; strings are not empty before. -/
def MF.getVal (check : Bool) (old : List Nat) (f : MF Byte) : Kind → Option (Val × MF Byte)
  | .num k => (f.readNum check k).map fun r => (.num k r.1, r.2)
  | .str k => (f.readStr check k old).map fun r => (.str k r.1, r.2)
  | .mset _ => none

def MF.getAll (check : Bool) (old : List Nat) (f : MF Byte) : List Kind → Option (List Val × MF Byte)
  | [] => some ([], f)
  | k :: l => (f.getVal check old k).bind fun r => (r.2.getAll check old l).map fun q => (r.1 :: q.1, q.2)

/-- Neither a number nor a string. -/
def Val.isMset : Val → Bool
  | .mset _ _ => true
  | _ => false

theorem putVal_ok {check : Bool} {f : MF Byte} {a : AFile Byte} (h : Rel f a) (hst : f.st = .ok) (hm : f.manage = true) (hin : a.pos ≤ a.bytes.length) {v : Val} (hv : v.Ok) (hs : Val.isMset v = false) (hn : a.pos + (wire v).length < 2 ^ 61) :
    ∃ f', f.putVal check v = some f' ∧ f'.st = .ok ∧ f'.manage = true ∧ Rel f' ⟨overwrite a.bytes a.pos (wire v), a.pos + (wire v).length⟩ := by
  have key : ∀ d : List Byte, a.pos + d.length < 2 ^ 61 → ∃ f', (f.write d true).map Prod.snd = some f' ∧ f'.st = .ok ∧ f'.manage = true ∧ Rel f' ⟨overwrite a.bytes a.pos d, a.pos + d.length⟩ := by
    intro d hd
    obtain ⟨f', w1, w2, w3⟩ := write_succeeds h d hm hin hd
    refine ⟨f', by rw [w1]; rfl, w2, ?_, w3⟩
    unfold MF.write MF.put at w1
    generalize hg : (if f.reserved < addW f.offset (d.map some).length then f.reserve (addW f.offset (d.map some).length) false true else { f with st := .ok }) = g at w1
    have hgm : g.manage = true := by
      subst hg
      split
      · rw [(reserve_spec _ _ _ _).2.1]; exact hm
      · exact hm
    dsimp only at w1
    rw [hg] at w1
    split at w1
    · simp only [Option.map_some, Option.some.injEq, Prod.mk.injEq] at w1
      rw [← w1.2]; exact hgm
    · rw [Option.map_map] at w1
      obtain ⟨m, -, e⟩ := Option.map_eq_some_iff.1 w1
      simp only [Function.comp, Prod.mk.injEq] at e
      rw [← e.2]; exact hgm
  cases v with
  | num k v =>
    show ∃ f', f.writeNum check k v true = some f' ∧ _
    rw [writeNum_eq hst]
    exact key _ hn
  | str k cs =>
    show ∃ f', f.writeStr check k cs true = some f' ∧ _
    rw [writeStr_eq hst k hv.2.2]
    exact key _ hn
  | mset k xs => cases hs

theorem putAll_ok {check : Bool} : ∀ {vs : List Val} {f : MF Byte} {a : AFile Byte}, Rel f a → f.st = .ok → f.manage = true → a.pos ≤ a.bytes.length → (∀ v ∈ vs, v.Ok ∧ Val.isMset v = false) → a.pos + (vs.flatMap wire).length < 2 ^ 61 →
    ∃ f', f.putAll check vs = some f' ∧ f'.st = .ok ∧ f'.manage = true ∧ Rel f' ⟨overwrite a.bytes a.pos (vs.flatMap wire), a.pos + (vs.flatMap wire).length⟩
  | [], f, a, h, hst, hm, hin, _, _ => ⟨f, rfl, hst, hm, by simpa [overwrite_nil] using h⟩
  | v :: vs, f, a, h, hst, hm, hin, hv, hn => by
    rw [List.flatMap_cons, List.length_append] at hn
    obtain ⟨f1, e1, e2, e3, e4⟩ := putVal_ok (check := check) h hst hm hin (hv v List.mem_cons_self).1 (hv v List.mem_cons_self).2 (by omega)
    have hol := overwrite_length a.bytes a.pos (wire v) hin
    obtain ⟨f2, g1, g2, g3, g4⟩ := putAll_ok (check := check) (vs := vs) e4 e2 e3 (by show a.pos + (wire v).length ≤ (overwrite _ _ _).length; rw [hol]; omega) (fun v h => hv v (List.mem_cons_of_mem _ h)) (by show a.pos + (wire v).length + _ < _; omega)
    refine ⟨f2, by rw [MF.putAll, e1]; exact g1, g2, g3, ?_⟩
    dsimp only at g4
    rw [overwrite_more hin] at g4
    rw [List.flatMap_cons, List.length_append, ← Nat.add_assoc]
    exact g4

theorem getAll_ok {check : Bool} {old : List Nat} {rest : List Byte} : ∀ {vs : List Val} {f : MF Byte} {a : AFile Byte}, Rel f a → f.st = .ok → (∀ v ∈ vs, v.Ok ∧ Val.isMset v = false) → a.bytes.drop a.pos = vs.flatMap wire ++ rest →
    ∃ f', f.getAll check old (vs.map Val.kind) = some (vs, f') ∧ f'.st = .ok ∧ Rel f' ⟨a.bytes, a.pos + (vs.flatMap wire).length⟩
  | [], f, a, h, hst, _, _ => ⟨f, rfl, hst, h⟩
  | v :: vs, f, a, h, hst, hv, hr => by
    have one : ∃ f', f.getVal check old v.kind = some (v, f') ∧ f'.st = .ok ∧ Rel f' ⟨a.bytes, a.pos + (wire v).length⟩ := by
      obtain ⟨hv1, hv2⟩ := hv v List.mem_cons_self
      rw [List.flatMap_cons, List.append_assoc] at hr
      cases v with
      | num k n =>
        obtain ⟨f', e1, e2, e3⟩ := readNum_there (check := check) h hst hv1.1 hv1.2 hr
        refine ⟨f', ?_, e2, ?_⟩
        · show (f.readNum check k).map _ = _
          rw [e1]; rfl
        · rw [show (wire (.num k n)).length = k from leEnc_length k n]; exact e3
      | str k cs =>
        obtain ⟨f', e1, e2, e3⟩ := readStr_there (check := check) (old := old) h hst hv1.1 hv1.2.1 hv1.2.2 hr
        refine ⟨f', ?_, e2, ?_⟩
        · show (f.readStr check k old).map _ = _
          rw [e1]; rfl
        · rw [show (wire (.str k cs)).length = 4 + k * cs.length from by show (leEnc 4 _ ++ _).length = _; rw [List.length_append, leEnc_length, flatMap_enc_length], ← Nat.add_assoc]; exact e3
      | mset k xs => cases hv2
    obtain ⟨f1, e1, e2, e3⟩ := one
    have hr2 : a.bytes.drop (a.pos + (wire v).length) = vs.flatMap wire ++ rest := by
      rw [← List.drop_drop, hr, List.flatMap_cons, List.append_assoc, List.drop_left]
    obtain ⟨f2, g1, g2, g3⟩ := getAll_ok (check := check) (old := old) (rest := rest) (vs := vs) e3 e2 (fun v h => hv v (List.mem_cons_of_mem _ h)) hr2
    refine ⟨f2, ?_, g2, ?_⟩
    · rw [List.map_cons, MF.getAll, e1, Option.bind_some, g1]; rfl
    · rw [List.flatMap_cons, List.length_append, ← Nat.add_assoc]; exact g3

/-- Numbers and strings written to a memory file are its bytes from the cursor on, in the format of every other stream (`wire`); read from there again they are the same. -/
theorem memory_values {check : Bool} {f : MF Byte} {a : AFile Byte} (h : Rel f a) (hst : f.st = .ok) (hm : f.manage = true) (hin : a.pos ≤ a.bytes.length) {vs : List Val} (hv : ∀ v ∈ vs, v.Ok ∧ Val.isMset v = false) (hn : a.pos + (vs.flatMap wire).length < 2 ^ 61) (old : List Nat) :
    ∃ f1 f2 f3, f.putAll check vs = some f1 ∧ Rel f1 ⟨overwrite a.bytes a.pos (vs.flatMap wire), a.pos + (vs.flatMap wire).length⟩ ∧ f1.seek a.pos .beg = some (some a.pos, f2) ∧
      f2.getAll check old (vs.map Val.kind) = some (vs, f3) ∧ f3.st = .ok ∧ Rel f3 ⟨overwrite a.bytes a.pos (vs.flatMap wire), a.pos + (vs.flatMap wire).length⟩ := by
  obtain ⟨f1, e1, e2, e3, e4⟩ := putAll_ok (check := check) h hst hm hin hv hn
  have hs : f1.seek (a.pos : Int) .beg = some (some a.pos, { f1 with offset := a.pos, st := .ok }) := by
    unfold MF.seek
    have et : f1.target (a.pos : Int) .beg = a.pos := rfl
    dsimp only
    rw [et, if_neg (by omega), if_neg (by omega), Int.toNat_natCast]
  have r2 : Rel ({ f1 with offset := a.pos, st := .ok } : MF Byte) ⟨overwrite a.bytes a.pos (vs.flatMap wire), a.pos⟩ := ⟨⟨e4.ok.size_le, e4.ok.cap, by show a.pos < _; omega, e4.ok.contents⟩, rfl⟩
  obtain ⟨f3, g1, g2, g3⟩ := getAll_ok (check := check) (old := old) (vs := vs) (rest := a.bytes.drop (a.pos + (vs.flatMap wire).length)) r2 rfl hv (by
    dsimp only
    unfold overwrite
    rw [List.append_assoc, List.drop_left' (by rw [List.length_take]; omega)])
  exact ⟨f1, _, f3, e1, e4, hs, g1, g2, g3⟩

/-! ### Loading and saving -/

theorem reserve_cap {f : MF Byte} (h : f.mem.length < 2 ^ 62) (n : Nat) (t al : Bool) : (f.reserve n t al).mem.length < 2 ^ 62 := by
  unfold MF.reserve
  split
  · exact h
  · split
    · exact h
    · simp only []
      split
      · exact h
      · rename_i hr
        simp only [Bool.not_eq_true', Bool.not_eq_false, Bool.and_eq_true, decide_eq_true_eq] at hr
        show (_ ++ _ : List (Option Byte)).length < _
        rw [List.length_append, List.length_take, List.length_replicate]
        omega

/-- A file loaded without failure is what the file had, from its beginning. -/
theorem load_spec {S : Strm Byte σ} {rem : σ → List Byte} (h : IsSource S rem) {f : MF Byte} {b : List Byte} (hf : Ok f b) (s : σ) (hs : S.state s = .ok) (size : Nat) (hn : (rem s).length + 65536 < 2 ^ 61) (alloc : Nat → Bool) {fuel : Nat} (hfu : (rem s).length < fuel) :
    ∃ f', f.load S alloc fuel s size = some f' ∧ (f'.st = .ok → Rel f' ⟨rem s, 0⟩) ∧ (f.manage = true → (∀ x, alloc x = true) → size < 2 ^ 61 → f'.st = .ok) := by
  unfold MF.load
  rw [if_neg (by simp [hs])]
  dsimp only
  by_cases hok : (f.reserve size true (alloc 0)).st = .ok
  · rw [if_neg (by simp [hok])]
    have hcap := reserve_cap hf.cap size true (alloc 0)
    have hman := (reserve_spec f size true (alloc 0)).2.1
    have hrel : Rel ({ f.reserve size true (alloc 0) with offset := 0, size := 0 } : MF Byte) ⟨[], 0⟩ := ⟨⟨Nat.zero_le _, hcap, by show 0 < _; omega, rfl⟩, rfl⟩
    obtain ⟨f', s', d, e1, e2, e3, e4, e5, e6⟩ := write_stream_all h hrel (Nat.le_refl _) s (by show 0 + _ + _ < _; omega) alloc hfu
    rw [e1, Option.map_some]
    by_cases hst : f'.st = .ok
    · rw [if_pos hst]
      refine ⟨_, rfl, fun _ => ?_, fun _ _ _ => hst⟩
      have hd := e4 hst
      subst hd
      have hov : overwrite ([] : List Byte) 0 (rem s) = rem s := by simp [overwrite]
      dsimp only at e3
      rw [hov] at e3
      exact ⟨⟨e3.ok.size_le, e3.ok.cap, by show 0 < _; omega, e3.ok.contents⟩, rfl⟩
    · rw [if_neg hst]
      exact ⟨_, rfl, fun c => absurd c hst, fun a b _ => e5 (hman.trans a) b⟩
  · rw [if_pos hok]
    refine ⟨_, rfl, fun c => absurd c hok, fun a b c => ?_⟩
    exfalso
    apply hok
    unfold MF.reserve
    split
    · rfl
    · rw [a, b]
      simp only [Bool.not_true, Bool.false_eq_true, if_false, Bool.true_and]
      rw [if_neg (by simp [grown]; omega)]

/-- What is saved is what the file has. -/
theorem save_spec {τ : Type} {D : Strm Byte τ} {got : τ → List Byte} (hd : Reliable D got) {f : MF Byte} {b : List Byte} (hf : Ok f b) {t : τ} (ht : D.state t = .ok) (trunc : τ → τ) :
    ∃ t', f.save D trunc t = some (f, trunc t') ∧ got t' = got t ++ b := by
  unfold MF.save
  rw [if_neg (by simp [ht]), peek_ok hf (by rw [hf.len]; omega), List.drop_zero, List.take_of_length_le (by rw [hf.len]; omega), Option.map_some]
  dsimp only
  rw [if_neg (by simp [hd.ok])]
  exact ⟨_, rfl, hd.got t b⟩

/-! ### Random access -/

/-- A number set within a memory file is got from there, and the rest of the file is as it was. -/
theorem set_get {f : MF Byte} {a : AFile Byte} (h : Rel f a) {off k v : Nat} (hin : off + k ≤ a.bytes.length) (hv : v < 256 ^ k) :
    ∃ f', f.set off k v = some f' ∧ f'.get off k = some v ∧ Rel f' ⟨overwrite a.bytes off (leEnc k v), a.pos⟩ ∧ f'.st = f.st := by
  have hl := h.ok.len
  have hsl := h.ok.size_le
  unfold MF.set wrMem
  rw [List.length_map, leEnc_length, if_pos (by omega), Option.map_some]
  have hov : (overwrite a.bytes off (leEnc k v)).length = a.bytes.length := by rw [overwrite_length _ _ _ (by omega), leEnc_length]; omega
  have hrel : Rel ({ f with mem := f.mem.take off ++ (leEnc k v).map some ++ f.mem.drop (off + k) } : MF Byte) ⟨overwrite a.bytes off (leEnc k v), a.pos⟩ := by
    have hml : (f.mem.take off ++ (leEnc k v).map some ++ f.mem.drop (off + k)).length = f.mem.length := by
      rw [List.length_append, List.length_append, List.length_take, List.length_drop, List.length_map, leEnc_length]; omega
    refine ⟨⟨?_, ?_, h.ok.off, ?_⟩, h.pos⟩
    · show f.size ≤ (_ : List _).length; rw [hml]; exact hsl
    · show (_ : List _).length < _; rw [hml]; exact h.ok.cap
    · show (f.mem.take off ++ (leEnc k v).map some ++ f.mem.drop (off + k)).take f.size = _
      have htl : (f.mem.take off ++ (leEnc k v).map some).length = off + k := by rw [List.length_append, List.length_take, List.length_map, leEnc_length]; omega
      unfold overwrite
      rw [List.map_append, List.map_append, List.take_append, htl, List.take_of_length_le (by omega), leEnc_length, List.map_drop, ← h.ok.contents, List.map_take, ← h.ok.contents, List.take_take, Nat.min_eq_left (by omega),
        List.take_drop, show off + k + (f.size - (off + k)) = f.size by omega]
  refine ⟨_, rfl, ?_, hrel, rfl⟩
  unfold MF.get
  rw [peek_ok hrel.ok (by show _ ≤ (overwrite _ _ _).length; rw [hov]; exact hin)]
  unfold overwrite
  rw [List.append_assoc, List.drop_left' (by rw [List.length_take]; omega), List.take_left' (leEnc_length k v), Option.map_some, leDec_enc k v hv]

/-- Not all of them: the assertion fails for the last number of a file. -/
theorem get_last_asserts {f : MF Byte} {a : AFile Byte} (h : Rel f a) {off k : Nat} (hin : off + k = a.bytes.length) : assertGet f off k = false := by
  have := h.ok.len
  unfold assertGet
  exact decide_eq_false (by omega)

/-- A string that is not all there leaves the variable as it was, with the text of before. -/
theorem readStr_stale : ∃ f', (MF.over [5, 0, 0, 0, 65, 66] 6 false).readStr true 1 [88, 89] = some ([88, 89], f') ∧ f'.st = .eof := ⟨_, rfl, rfl⟩

example : ∃ f1 f2 : MF Byte, (MF.empty : MF Byte).putAll true [.num 2 513, .str 1 [72, 105], .num 4 7] = some f1 ∧ f1.size = 12 ∧ ∃ p, f1.seek 0 .beg = some (p, f2) ∧
    (f2.getAll true [] [.num 2, .str 1, .num 4]).map (·.1) = some [.num 2 513, .str 1 [72, 105], .num 4 7] := by
  obtain ⟨f1, f2, f3, h1, h2, h3, h4, -⟩ := memory_values (check := true) (rel_empty (β := Byte)) rfl rfl (Nat.le_refl _) (vs := [.num 2 513, .str 1 [72, 105], .num 4 7]) (by simp [Val.Ok, Val.isMset]) (by decide) []
  refine ⟨f1, f2, h1, ?_, _, h3, ?_⟩
  · have := h2.ok.len
    rw [← this]; rfl
  · simp only [List.map_cons, List.map_nil, Val.kind] at h4; rw [h4]; rfl

end Verif.Stream.MemoryFile
