import Verif.Stream.SysStream
import Verif.Stream.Serialize
/-
Files on disk: `file` (include/stdex/stream.hpp 2715-3127, POSIX branch) on the file system. Reading and writing are those of `basic_sys`
(SysStream.lean). Regular files that nobody else changes.
-/
namespace Verif.Stream.Disk

/-! ### The system -/

/-- An open file: which, where in it, and what for. -/
structure H where
  name : Nat
  pos : Nat
  rd : Bool
  wr : Bool
  deriving DecidableEq

/-- The file system (contents by name), the file object (`m_h`, `m_state`), and what the system will do at the next transfers: fail, or transfer at most so many bytes;
when the list is used up, all that is asked for. -/
structure F where
  fs : Nat → Option (List Byte)
  h : Option H
  st : St
  script : List (Option Nat)

/-- The content of the open file. -/
def F.content (f : F) : List Byte := match f.h with | some h => (f.fs h.name).getD [] | none => []

/-- Writing `d` at `p`: a gap is filled with zeros (POSIX `write`). -/
def patch (c : List Byte) (p : Nat) (d : List Byte) : List Byte :=
  if d = [] then c else (c ++ List.replicate (p - c.length) 0).take p ++ d ++ c.drop (p + d.length)

def F.setFile (f : F) (n : Nat) (v : List Byte) : F := { f with fs := fun m => if m = n then some v else f.fs m }

/-- What a transfer of `d` is cut down to. -/
def cut (script : List (Option Nat)) (d : List Byte) : Option (List Byte) :=
  match script with
  | [] => some d
  | none :: _ => none
  | some c :: _ => some (d.take (c + 1))

/-- `::read` and `::write` of regular files: any number of bytes, but at least one if there are any. -/
def os : Os Byte F where
  read f n := match f.h with
    | none => (none, f)
    | some h =>
      if h.rd then
        match cut f.script ((f.content.drop h.pos).take n) with
        | none => (none, { f with script := f.script.tail })
        | some d => (some d, { f with h := some { h with pos := h.pos + d.length }, script := f.script.tail })
      else (none, f)
  write f d := match f.h with
    | none => (none, f)
    | some h =>
      if h.wr then
        match cut f.script d with
        | none => (none, { f with script := f.script.tail })
        | some d => (some d.length, { f.setFile h.name (patch f.content h.pos d) with h := some { h with pos := h.pos + d.length }, script := f.script.tail })
      else (none, f)

/-- Where an offset counts from: the beginning (`SEEK_SET` 0), the position (`SEEK_CUR` 1), the end (`SEEK_END` 2). -/
def base (f : F) (h : H) : Nat → Int
  | 0 => 0
  | 1 => h.pos
  | _ => f.content.length

/-- `lseek64`: `none` for an error. Offsets are 64-bit signed. -/
def lseek (f : F) (off : Int) (how : Nat) : Option Nat × F :=
  match f.h with
  | none => (none, f)
  | some h =>
    let r := base f h how + off
    if r < 0 ∨ 2 ^ 63 ≤ r then (none, f) else (some r.toNat, { f with h := some { h with pos := r.toNat } })

/-- The flags of `::open`. -/
structure Flags where
  rd : Bool
  wr : Bool
  creat : Bool
  excl : Bool
  trunc : Bool

/-- `::open` (POSIX); `deny` for any other reason to fail. `O_TRUNC` without writing is unspecified: `rdTrunc`. -/
def openSys (f : F) (name : Nat) (g : Flags) (deny rdTrunc : Bool) : F :=
  if deny then f
  else
    match f.fs name with
    | none => if g.creat then { f.setFile name [] with h := some ⟨name, 0, g.rd, g.wr⟩ } else f
    | some _ =>
      if g.creat ∧ g.excl then f
      else if g.trunc ∧ (g.wr ∨ rdTrunc) then { f.setFile name [] with h := some ⟨name, 0, g.rd, g.wr⟩ }
      else { f with h := some ⟨name, 0, g.rd, g.wr⟩ }

/-! ### Model -/

/-- `seek`, 2825-2844. -/
def seek (f : F) (off : Int) (how : Nat) : Nat × F :=
  match lseek f off how with
  | (some r, f) => (r, { f with st := .ok })
  | (none, f) => (2 ^ 64 - 1, { f with st := .fail })

/-- `tell`, 2846-2862. -/
def tell (f : F) : Nat :=
  match (lseek f 0 1).1 with
  | some r => r
  | none => 2 ^ 64 - 1

/-- The flags for a mode, 2783-2796; `none`: `std::invalid_argument`. `mode_for_reading` 1, `mode_for_writing` 2, dispositions (7 << 3). -/
def flagsOf (mode : Nat) : Option Flags :=
  let a := mode &&& (1 ||| 2)
  let rd := a ≠ 2 -- O_RDONLY is 0
  let wr := a = 2 ∨ a = 1 ||| 2
  let d := mode &&& (7 <<< 3)
  if d = 0 <<< 3 then some ⟨rd, wr, false, false, false⟩
  else if d = 1 <<< 3 then some ⟨rd, wr, false, false, true⟩
  else if d = 2 <<< 3 then some ⟨rd, wr, true, false, false⟩
  else if d = 3 <<< 3 then some ⟨rd, wr, true, true, false⟩
  else if d = 4 <<< 3 then some ⟨rd, wr, true, false, true⟩
  else none

/-- The end of `open`, 2804-2810. -/
def afterOpen (f : F) (mode : Nat) : F :=
  match f.h with
  | some _ =>
    let f := { f with st := .ok }
    if mode &&& (1 <<< 6) ≠ 0 then (seek f 0 2).2 else f
  | none => { f with st := .fail }

/-- `open`, 2746-2811; false: `std::invalid_argument`. An error of closing is not modelled (see Sys/Handles.lean). -/
def openFile (f : F) (name mode : Nat) (deny rdTrunc : Bool) : Bool × F :=
  let f := { f with h := none }
  match flagsOf mode with
  | none => (false, f)
  | some g => (true, afterOpen (openSys f name g deny rdTrunc) mode)

/-- `basic_sys::close`, 2313-2322. -/
def close (f : F) : F := { f with h := none, st := .ok }

/-- `basic_sys::read` and `write` on the file. -/
def read (f : F) (n : Nat) : List Byte × F :=
  match sysRead os (2 ^ 63 - 1) (n + 1) f n with
  | some (d, f, st) => (d, { f with st := st })
  | none => ([], f)

def write (f : F) (d : List Byte) : Nat × F :=
  match sysWrite os (2 ^ 63 - 1) (d.length + 1) f d with
  | some (c, f, st) => (c, { f with st := st })
  | none => (0, f)

/-- `size`, 2920-2938. -/
def size (f : F) : Nat × F :=
  match lseek f 0 1 with
  | (some orig, f) =>
    let r := lseek f 0 2
    let f := (lseek r.2 orig 0).2
    match r.1 with
    | some n => (n, f)
    | none => (2 ^ 64 - 1, f)
  | (none, f) => (2 ^ 64 - 1, f)

/-- `ftruncate64`: needs a file open for writing; `may` is false where the system fails for another reason. -/
def ftruncate (f : F) (n : Nat) (may : Bool) : Option F :=
  match f.h with
  | some h => if h.wr && may then some (f.setFile h.name ((f.content ++ List.replicate (n - f.content.length) 0).take n)) else none
  | none => none

/-- `truncate`, 2940-2955. -/
def truncate (f : F) (may : Bool) : F :=
  match lseek f 0 1 with
  | (some n, f) =>
    match ftruncate f n may with
    | some f => { f with st := .ok }
    | none => { f with st := .fail }
  | (none, f) => { f with st := .fail }

/-- `lock`, 2864-2889: (whether the system locked, file); `ok` is what `lockf64` says; `none`: `std::invalid_argument`. -/
def lock (f : F) (offset length : Nat) (ok : Bool) : Option (Bool × F) :=
  match lseek f 0 1 with
  | (some orig, f) =>
    if 2 ^ 63 ≤ offset then none
    else if 2 ^ 63 ≤ length then none
    else
      let r := lseek f offset 0
      let locked := r.1.isSome && ok
      let f := { r.2 with st := if locked then .ok else .fail }
      let f := (lseek f orig 0).2
      some (locked, { f with st := .ok }) -- 2884
  | (none, f) => some (false, { f with st := .fail })

/-- `unlock`, 2891-2918. -/
def unlock (f : F) (offset length : Nat) (ok : Bool) : Option (Bool × F) :=
  match lseek f 0 1 with
  | (some orig, f) =>
    if 2 ^ 63 ≤ offset then none
    else if 2 ^ 63 ≤ length then none
    else
      let r := lseek f offset 0
      if r.1.isSome && ok then some (true, { (lseek r.2 orig 0).2 with st := .ok })
      else some (false, { (lseek r.2 orig 0).2 with st := .fail })
  | (none, f) => some (false, { f with st := .fail })

/-- `basic_file::read_remainder`, 817-828; `none`: `std::length_error`, not caught. `limit` is `max_size()` of a vector. -/
def readRemainder (f : F) (max limit : Nat) : Option (List Byte × F) :=
  let s := size f
  let n := min max ((s.1 + (2 ^ 64 - tell s.2)) % 2 ^ 64)
  if limit < n then none else some (read s.2 n)

/-! ### Specification -/

/-- The meaning of a mode, from the comments of `mode_t` (2679-2694). -/
structure Mode where
  reading : Bool
  writing : Bool
  disposition : Nat
  append : Bool

def Mode.of (mode : Nat) : Mode := ⟨mode % 2 = 1, mode / 2 % 2 = 1, mode / 8 % 8, mode / 64 % 2 = 1⟩

/-- What a file is after opening, for a file that is there or not: `none` for failure. 0: open, fail if not exists; 1: truncate, fail if not exists; 2: open, create if not exists;
3: create, fail if exists; 4: create, truncate if exists. -/
def Opened : Nat → Option (List Byte) → Option (List Byte)
  | 0, x => x
  | 1, some _ => some []
  | 1, none => none
  | 2, some c => some c
  | 2, none => some []
  | 3, none => some []
  | 3, some _ => none
  | 4, _ => some []
  | _, _ => none

/-- The open file is there, its position and size are numbers of the system. -/
def Ok (f : F) : Prop := ∀ h, f.h = some h → f.fs h.name ≠ none ∧ h.pos < 2 ^ 63 ∧ f.content.length < 2 ^ 63

/-! ### Proofs: modes -/

theorem and_three (m : Nat) : m &&& 3 = 2 * (m / 2 % 2) + m % 2 := by
  have : m &&& 3 = m % 4 := Nat.and_two_pow_sub_one_eq_mod m 2
  omega

theorem and_56 (m : Nat) : m &&& 56 = 8 * (m / 8 % 8) := by
  have h1 : m / 8 % 8 = (m >>> 3) &&& 7 := by
    rw [Nat.shiftRight_eq_div_pow]
    exact (Nat.and_two_pow_sub_one_eq_mod (m / 2 ^ 3) 3).symm
  rw [h1]
  have h2 : 8 * ((m >>> 3) &&& 7) = ((m >>> 3) &&& 7) <<< 3 := by rw [Nat.shiftLeft_eq]; omega
  rw [h2]
  apply Nat.eq_of_testBit_eq
  intro i
  rw [Nat.testBit_and, Nat.testBit_shiftLeft, Nat.testBit_and, Nat.testBit_shiftRight]
  rw [show (56 : Nat) = 7 <<< 3 from rfl, Nat.testBit_shiftLeft]
  by_cases hi : i ≥ 3
  · rw [show 3 + (i - 3) = i by omega]
    simp [hi]
  · simp [hi]

theorem and_64 (m : Nat) : (m &&& 64 ≠ 0) ↔ m / 64 % 2 = 1 := by
  have h1 : m &&& 64 = 64 * (m / 64 % 2) := by
    have h1 : m / 64 % 2 = (m >>> 6) &&& 1 := by
      rw [Nat.shiftRight_eq_div_pow]
      exact (Nat.and_two_pow_sub_one_eq_mod (m / 2 ^ 6) 1).symm
    rw [h1]
    have h2 : 64 * ((m >>> 6) &&& 1) = ((m >>> 6) &&& 1) <<< 6 := by rw [Nat.shiftLeft_eq]; omega
    rw [h2]
    apply Nat.eq_of_testBit_eq
    intro i
    rw [Nat.testBit_and, Nat.testBit_shiftLeft, Nat.testBit_and, Nat.testBit_shiftRight]
    rw [show (64 : Nat) = 1 <<< 6 from rfl, Nat.testBit_shiftLeft]
    by_cases hi : i ≥ 6
    · rw [show 6 + (i - 6) = i by omega]
      simp [hi]
    · simp [hi]
  rw [h1]
  omega

theorem flagsOf_eq (m : Nat) : flagsOf m = if m / 8 % 8 ≤ 4 then
    some ⟨m % 2 = 1 ∨ m / 2 % 2 = 0, m / 2 % 2 = 1, 2 ≤ m / 8 % 8, m / 8 % 8 = 3, m / 8 % 8 = 1 ∨ m / 8 % 8 = 4⟩ else none := by
  unfold flagsOf
  simp only [show (1 ||| 2 : Nat) = 3 from rfl, show (7 <<< 3 : Nat) = 56 from rfl, show (0 <<< 3 : Nat) = 0 from rfl, show (1 <<< 3 : Nat) = 8 from rfl,
    show (2 <<< 3 : Nat) = 16 from rfl, show (3 <<< 3 : Nat) = 24 from rfl, show (4 <<< 3 : Nat) = 32 from rfl]
  rw [and_three, and_56]
  have hr : (decide (2 * (m / 2 % 2) + m % 2 ≠ 2)) = decide (m % 2 = 1 ∨ m / 2 % 2 = 0) := by
    apply Bool.eq_iff_iff.2; rw [decide_eq_true_eq, decide_eq_true_eq]; omega
  have hw : (decide (2 * (m / 2 % 2) + m % 2 = 2 ∨ 2 * (m / 2 % 2) + m % 2 = 3)) = decide (m / 2 % 2 = 1) := by
    apply Bool.eq_iff_iff.2; rw [decide_eq_true_eq, decide_eq_true_eq]; omega
  rw [hr, hw]
  have hlt : m / 8 % 8 < 8 := Nat.mod_lt _ (by decide)
  generalize m / 8 % 8 = d at hlt
  have : d = 0 ∨ d = 1 ∨ d = 2 ∨ d = 3 ∨ d = 4 ∨ d = 5 ∨ d = 6 ∨ d = 7 := by omega
  rcases this with h | h | h | h | h | h | h | h <;> subst h <;> simp

/-! ### Proofs: positions -/

theorem lseek_cur {f : F} (hf : Ok f) {h : H} (hh : f.h = some h) : lseek f 0 1 = (some h.pos, f) := by
  obtain ⟨-, h2, -⟩ := hf h hh
  unfold lseek
  rw [hh]
  simp only []
  have : (base f h 1 + 0).toNat = h.pos := by show ((h.pos : Int) + 0).toNat = _; omega
  rw [if_neg (by show ¬((h.pos : Int) + 0 < 0 ∨ 2 ^ 63 ≤ (h.pos : Int) + 0); omega), this]
  congr 1
  cases f
  simp only at hh
  rw [hh]

theorem lseek_end {f : F} (hf : Ok f) {h : H} (hh : f.h = some h) : lseek f 0 2 = (some f.content.length, { f with h := some { h with pos := f.content.length } }) := by
  obtain ⟨-, -, h3⟩ := hf h hh
  unfold lseek
  rw [hh]
  simp only []
  have : (base f h 2 + 0).toNat = f.content.length := by show ((f.content.length : Int) + 0).toNat = _; omega
  rw [if_neg (by show ¬((f.content.length : Int) + 0 < 0 ∨ 2 ^ 63 ≤ (f.content.length : Int) + 0); omega), this]

theorem lseek_set {f : F} {h : H} (hh : f.h = some h) {p : Nat} (hp : p < 2 ^ 63) : lseek f p 0 = (some p, { f with h := some { h with pos := p } }) := by
  unfold lseek
  rw [hh]
  simp only []
  have : (base f h 0 + (p : Int)).toNat = p := by show ((0 : Int) + (p : Int)).toNat = p; omega
  rw [if_neg (by show ¬((0 : Int) + (p : Int) < 0 ∨ 2 ^ 63 ≤ (0 : Int) + (p : Int)); omega), this]

theorem F.eta {f : F} {h : H} (hh : f.h = some h) : { f with h := some h } = f := by cases f; simp only at hh; rw [hh]

/-! ### Proofs: transfers -/

/-- What is common to all transfers: the same file, for the same. -/
theorem delivers {f g : F} {d : List Byte} (hd : OsDelivers os f d g) {h : H} (hh : f.h = some h) :
    g.fs = f.fs ∧ g.h = some { h with pos := h.pos + d.length } ∧ d = (f.content.drop h.pos).take d.length ∧ (d ≠ [] → h.rd = true) ∧ (∀ x ∈ g.script, x ∈ f.script) := by
  induction hd with
  | nil => exact ⟨rfl, by rw [hh]; simp, by simp, fun q => absurd rfl q, fun _ => id⟩
  | @more w1 w2 d e m hd hr he ih =>
    obtain ⟨i1, i2, i3, i4, i5⟩ := ih
    unfold os at hr
    simp only [] at hr
    rw [i2] at hr
    simp only [] at hr
    have hc : w1.content = f.content := by unfold F.content; rw [i2, hh, i1]
    by_cases hrd : h.rd = true
    · rw [if_pos hrd] at hr
      cases hcut : cut w1.script ((w1.content.drop (h.pos + d.length)).take m) with
      | none => rw [hcut] at hr; cases hr
      | some d' =>
        rw [hcut] at hr
        simp only [Prod.mk.injEq, Option.some.injEq] at hr
        obtain ⟨r1, r2⟩ := hr
        subst r1
        refine ⟨by rw [← r2]; exact i1, by rw [← r2]; simp only [List.length_append, Nat.add_assoc], ?_, fun _ => hrd, fun x hx => i5 x (by rw [← r2] at hx; exact List.mem_of_mem_tail hx)⟩
        rw [hc] at hcut
        have hpre : d' = (f.content.drop (h.pos + d.length)).take d'.length := by
          unfold cut at hcut
          split at hcut
          · cases hcut; rw [List.length_take]
            apply List.take_eq_take_iff.2; omega
          · cases hcut
          · cases hcut; rw [List.take_take, List.length_take]
            apply List.take_eq_take_iff.2; omega
        rw [List.length_append, List.take_add]
        conv => lhs; rw [i3, hpre]
        rw [List.drop_drop, ← i3, ← hpre]
    · rw [if_neg hrd] at hr; cases hr

/-- Writing in two pieces is writing once. -/
theorem patch_patch (c : List Byte) (p : Nat) (d e : List Byte) : patch (patch c p d) (p + d.length) e = patch c p (d ++ e) := by
  by_cases hd : d = []
  · subst hd
    simp [patch]
  by_cases he : e = []
  · subst he
    simp [patch]
  unfold patch
  rw [if_neg hd, if_neg he, if_neg (by simp [hd])]
  have hl : ((c ++ List.replicate (p - c.length) 0).take p).length = p := by
    rw [List.length_take, List.length_append, List.length_replicate]; omega
  generalize (c ++ List.replicate (p - c.length) 0).take p = u at hl
  have hlen : (u ++ d ++ c.drop (p + d.length)).length = p + d.length + (c.length - (p + d.length)) := by
    rw [List.length_append, List.length_append, List.length_drop, hl]
  have e1 : ((u ++ d ++ c.drop (p + d.length)) ++ List.replicate (p + d.length - (u ++ d ++ c.drop (p + d.length)).length) 0).take (p + d.length) = u ++ d := by
    rw [List.take_append_of_le_length (by omega), List.take_left' (by rw [List.length_append, hl])]
  rw [e1]
  have e2 : (u ++ d ++ c.drop (p + d.length)).drop (p + d.length + e.length) = c.drop (p + (d ++ e).length) := by
    rw [List.drop_append, List.length_append, hl, List.drop_drop]
    rw [List.drop_of_length_le (by rw [List.length_append, hl]; omega)]
    rw [List.length_append]
    simp only [List.nil_append]
    congr 1
    omega
  rw [e2]
  simp

theorem accepts {f g : F} {d : List Byte} (hd : OsAccepts os f d g) {h : H} (hh : f.h = some h) :
    (∀ m, m ≠ h.name → g.fs m = f.fs m) ∧ (f.fs h.name ≠ none → g.fs h.name = some (patch f.content h.pos d)) ∧ g.h = some { h with pos := h.pos + d.length } ∧ (d ≠ [] → h.wr = true) ∧ (∀ x ∈ g.script, x ∈ f.script) := by
  induction hd with
  | nil =>
    refine ⟨fun _ _ => rfl, fun q => ?_, by rw [hh]; simp, fun q => absurd rfl q, fun _ => id⟩
    unfold F.content patch
    rw [hh, if_pos rfl]
    simp only []
    cases hx : f.fs h.name with
    | none => exact absurd hx q
    | some c => rfl
  | @more w1 w2 d e k hd hr ih =>
    obtain ⟨i1, i2, i3, i4, i5⟩ := ih
    unfold os at hr
    simp only [] at hr
    rw [i3] at hr
    simp only [] at hr
    by_cases hwr : h.wr = true
    · rw [if_pos hwr] at hr
      cases hcut : cut w1.script e with
      | none => rw [hcut] at hr; cases hr
      | some d' =>
        rw [hcut] at hr
        simp only [Prod.mk.injEq, Option.some.injEq] at hr
        obtain ⟨r1, r2⟩ := hr
        have he : e.take k = d' := by
          unfold cut at hcut
          rw [← r1]
          split at hcut
          · cases hcut; exact List.take_of_length_le (Nat.le_refl _)
          · cases hcut
          · cases hcut
            rw [List.length_take, List.take_eq_take_iff]; omega
        rw [he]
        refine ⟨fun m hm => ?_, fun q => ?_, by rw [← r2]; simp only [List.length_append, Nat.add_assoc], fun _ => hwr, fun x hx => i5 x (by rw [← r2] at hx; exact List.mem_of_mem_tail hx)⟩
        · rw [← r2]
          show (if m = h.name then _ else w1.fs m) = _
          rw [if_neg hm]; exact i1 m hm
        · rw [← r2]
          show (if h.name = h.name then some (patch w1.content (h.pos + d.length) d') else _) = _
          rw [if_pos rfl]
          have hc : w1.content = patch f.content h.pos d := by
            have e0 : w1.content = (w1.fs h.name).getD [] := by unfold F.content; rw [i3]
            rw [e0, i2 q]; rfl
          rw [hc, patch_patch]
    · rw [if_neg hwr] at hr; cases hr

theorem os_lawful : OsLawful os := by
  refine ⟨fun f n d h => ?_, fun f d k h => ?_⟩
  · unfold os at h
    simp only [] at h
    split at h
    · cases h
    · split at h
      · next hh _ =>
        unfold cut at h
        split at h
        · cases h
        · next d' hc =>
          cases h
          split at hc
          · cases hc; rw [List.length_take]; omega
          · cases hc
          · cases hc; rw [List.length_take, List.length_take]; omega
      · cases h
  · unfold os at h
    simp only [] at h
    split at h
    · cases h
    · split at h
      · unfold cut at h
        split at h
        · cases h
        · next d' hc =>
          cases h
          split at hc
          · cases hc; exact Nat.le_refl _
          · cases hc
          · cases hc; rw [List.length_take]; omega
      · cases h

theorem os_write_pos (f : F) (d : List Byte) (hd : d ≠ []) : (os.write f d).1 ≠ some 0 := by
  intro h
  unfold os at h
  simp only [] at h
  split at h
  · cases h
  · split at h
    · unfold cut at h
      split at h
      · cases h
      · next d' hc =>
        simp only [Option.some.injEq, List.length_eq_zero_iff] at h
        subst h
        split at hc
        · cases hc; exact hd rfl
        · cases hc
        · simp only [Option.some.injEq] at hc
          cases d with
          | nil => exact hd rfl
          | cons x d => simp at hc
    · cases h

theorem content_at {f : F} {h : H} (hh : f.h = some h) : f.content = (f.fs h.name).getD [] := by unfold F.content; rw [hh]

theorem patch_length (c : List Byte) (p : Nat) (d : List Byte) (hd : d ≠ []) : (patch c p d).length = max c.length (p + d.length) := by
  unfold patch
  rw [if_neg hd]
  simp only [List.length_append, List.length_take, List.length_replicate, List.length_drop]
  omega

/-! ### Opening -/

/-- Every mode does what its comment says: which file is there afterwards with which content, where in it, and for what, or a failure that changes nothing; no other file is
touched. (A file opened neither for reading nor for writing is open for reading. Where a file is truncated that is not open for writing the system decides.) -/
theorem file_open (f : F) (name mode : Nat) (deny rdTrunc : Bool) (hd : (Mode.of mode).disposition ≤ 4) (ht : (Mode.of mode).disposition = 1 ∨ (Mode.of mode).disposition = 4 → (Mode.of mode).writing = true ∨ rdTrunc = true)
    (hs : ∀ c, f.fs name = some c → c.length < 2 ^ 63) :
    (openFile f name mode deny rdTrunc).1 = true ∧
    match (if deny then none else Opened (Mode.of mode).disposition (f.fs name)) with
    | none => (openFile f name mode deny rdTrunc).2.h = none ∧ (openFile f name mode deny rdTrunc).2.st = .fail ∧ (openFile f name mode deny rdTrunc).2.fs = f.fs
    | some c => (openFile f name mode deny rdTrunc).2.st = .ok ∧ (openFile f name mode deny rdTrunc).2.fs name = some c ∧ (∀ m, m ≠ name → (openFile f name mode deny rdTrunc).2.fs m = f.fs m) ∧
        (openFile f name mode deny rdTrunc).2.h = some ⟨name, if (Mode.of mode).append then c.length else 0, (Mode.of mode).reading || !(Mode.of mode).writing, (Mode.of mode).writing⟩ := by
  have hrd : decide (mode % 2 = 1 ∨ mode / 2 % 2 = 0) = ((Mode.of mode).reading || !(Mode.of mode).writing) := by
    unfold Mode.of
    simp only []
    have : mode / 2 % 2 = 0 ∨ mode / 2 % 2 = 1 := by omega
    rcases this with h | h <;> rw [h] <;> simp
  have hwr : decide (mode / 2 % 2 = 1) = (Mode.of mode).writing := rfl
  have hap : (mode &&& (1 <<< 6) ≠ 0) ↔ (Mode.of mode).append = true := by
    rw [show (1 <<< 6 : Nat) = 64 from rfl, and_64]; unfold Mode.of; simp
  have hdisp : (Mode.of mode).disposition = mode / 8 % 8 := rfl
  rw [hdisp] at hd ht
  unfold openFile
  simp only []
  rw [flagsOf_eq, if_pos hd, hrd, hwr, hdisp]
  simp only []
  generalize ((Mode.of mode).reading || !(Mode.of mode).writing) = rd
  generalize (Mode.of mode).writing = wr at ht
  -- what is left once the file is open with content `c`
  have fin : ∀ (g : F) (c : List Byte), g.fs name = some c → c.length < 2 ^ 63 → (∀ m, m ≠ name → g.fs m = f.fs m) → g.h = some ⟨name, 0, rd, wr⟩ → ∀ o, o = some c →
      True ∧ match o with
      | none => (afterOpen g mode).h = none ∧ (afterOpen g mode).st = .fail ∧ (afterOpen g mode).fs = f.fs
      | some c => (afterOpen g mode).st = .ok ∧ (afterOpen g mode).fs name = some c ∧ (∀ m, m ≠ name → (afterOpen g mode).fs m = f.fs m) ∧
        (afterOpen g mode).h = some ⟨name, if (Mode.of mode).append then c.length else 0, rd, wr⟩ := by
    intro g c hg hc ho hh o eo
    rw [eo]
    refine ⟨trivial, ?_⟩
    have hh' : ({ g with st := .ok } : F).h = some ⟨name, 0, rd, wr⟩ := hh
    have ea : afterOpen g mode = if mode &&& (1 <<< 6) ≠ 0 then (seek { g with st := .ok } 0 2).2 else { g with st := .ok } := by
      unfold afterOpen
      split
      · rfl
      · next e => rw [hh] at e; cases e
    rw [ea]
    simp only []
    by_cases ha : mode &&& (1 <<< 6) ≠ 0
    · rw [if_pos ha, if_pos (hap.1 ha)]
      have hcont : ({ g with st := .ok } : F).content = c := by rw [content_at hh']; show (g.fs name).getD [] = c; rw [hg]; rfl
      have hok : Ok { g with st := .ok } := by
        intro x hx
        rw [hh'] at hx
        cases hx
        refine ⟨?_, ?_, ?_⟩
        · show g.fs name ≠ none; rw [hg]; exact fun q => nomatch q
        · show (0 : Nat) < 2 ^ 63; decide
        · rw [hcont]; exact hc
      unfold seek
      rw [lseek_end hok hh', hcont]
      exact ⟨rfl, hg, ho, rfl⟩
    · rw [if_neg ha, if_neg (fun q => ha (hap.2 q))]
      exact ⟨rfl, hg, ho, hh⟩
  have bad : ∀ g : F, g.h = none → g.fs = f.fs → True ∧ (afterOpen g mode).h = none ∧ (afterOpen g mode).st = .fail ∧ (afterOpen g mode).fs = f.fs := by
    intro g hg hf
    have ea : afterOpen g mode = { g with st := .fail } := by
      unfold afterOpen
      split
      · next e => rw [hg] at e; cases e
      · rfl
    rw [ea]
    exact ⟨trivial, hg, rfl, hf⟩
  unfold openSys
  cases hdeny : deny with
  | true =>
    rw [if_pos rfl, if_pos rfl]
    exact bad { f with h := none } rfl rfl
  | false =>
    rw [if_neg (by decide), if_neg (by decide)]
    have hcase : mode / 8 % 8 = 0 ∨ mode / 8 % 8 = 1 ∨ mode / 8 % 8 = 2 ∨ mode / 8 % 8 = 3 ∨ mode / 8 % 8 = 4 := by omega
    have one : ∀ m, m ≠ name → (if m = name then some [] else f.fs m) = f.fs m := fun m hm => if_neg hm
    have z : ([] : List Byte).length < 2 ^ 63 := by decide
    cases hx : f.fs name with
    | none =>
      rcases hcase with h | h | h | h | h <;> rw [h] <;> simp only [Opened]
      · exact bad { f with h := none } rfl rfl
      · exact bad { f with h := none } rfl rfl
      · exact fin { ({ f with h := none } : F).setFile name [] with h := some ⟨name, 0, rd, wr⟩ } [] (if_pos rfl) z one rfl _ rfl
      · exact fin { ({ f with h := none } : F).setFile name [] with h := some ⟨name, 0, rd, wr⟩ } [] (if_pos rfl) z one rfl _ rfl
      · exact fin { ({ f with h := none } : F).setFile name [] with h := some ⟨name, 0, rd, wr⟩ } [] (if_pos rfl) z one rfl _ rfl
    | some c =>
      rcases hcase with h | h | h | h | h <;> rw [h] at ht <;> rw [h] <;> simp only [Opened]
      · exact fin { f with h := some ⟨name, 0, rd, wr⟩ } c hx (hs c hx) (fun _ _ => rfl) rfl _ rfl
      · rw [if_neg (by decide), if_pos ⟨rfl, ht (Or.inl rfl)⟩]
        exact fin { ({ f with h := none } : F).setFile name [] with h := some ⟨name, 0, rd, wr⟩ } [] (if_pos rfl) z one rfl _ rfl
      · exact fin { f with h := some ⟨name, 0, rd, wr⟩ } c hx (hs c hx) (fun _ _ => rfl) rfl _ rfl
      · exact bad { f with h := none } rfl rfl
      · rw [if_neg (by decide), if_pos ⟨rfl, ht (Or.inr rfl)⟩]
        exact fin { ({ f with h := none } : F).setFile name [] with h := some ⟨name, 0, rd, wr⟩ } [] (if_pos rfl) z one rfl _ rfl

/-- Other dispositions are refused. -/
theorem file_open_invalid (f : F) (name mode : Nat) (deny rdTrunc : Bool) (hd : 4 < (Mode.of mode).disposition) : openFile f name mode deny rdTrunc = (false, { f with h := none }) := by
  unfold openFile
  have : ¬ mode / 8 % 8 ≤ 4 := Nat.not_le.2 hd
  simp only []
  rw [flagsOf_eq, if_neg this]

/-! ### Reading and writing -/

theorem read_none {f g : F} {h : H} (hh : f.h = some h) (hr : h.rd = true) {n : Nat} (e : os.read f n = (none, g)) : none ∈ f.script ∧ g = { f with script := f.script.tail } := by
  unfold os at e
  simp only [] at e
  rw [hh] at e
  simp only [] at e
  rw [if_pos hr] at e
  unfold cut at e
  cases hs : f.script with
  | nil => rw [hs] at e; simp at e
  | cons x l =>
    rw [hs] at e
    cases x with
    | none => simp only [Prod.mk.injEq] at e; exact ⟨List.mem_cons_self, by rw [← e.2, hh]⟩
    | some c => simp at e

theorem read_empty {f g : F} {h : H} (hh : f.h = some h) (hr : h.rd = true) {n : Nat} (hn : 0 < n) (e : os.read f n = (some [], g)) : f.content.length ≤ h.pos ∧ g = { f with script := f.script.tail } := by
  unfold os at e
  simp only [] at e
  rw [hh] at e
  simp only [] at e
  rw [if_pos hr] at e
  have key : ∀ l : List Byte, cut f.script ((f.content.drop h.pos).take n) = some l → l = [] → f.content.length ≤ h.pos := by
    intro l hl hl0
    subst hl0
    have : (f.content.drop h.pos).take n = [] := by
      unfold cut at hl
      split at hl
      · simp only [Option.some.injEq] at hl; exact hl
      · cases hl
      · simp only [Option.some.injEq] at hl
        cases hq : (f.content.drop h.pos).take n with
        | nil => rfl
        | cons a b => rw [hq] at hl; simp at hl
    have hlen := congrArg List.length this
    rw [List.length_take, List.length_drop, List.length_nil] at hlen
    omega
  cases hc : cut f.script ((f.content.drop h.pos).take n) with
  | none => rw [hc] at e; simp at e
  | some l =>
    rw [hc] at e
    simp only [Prod.mk.injEq, Option.some.injEq] at e
    refine ⟨key l hc e.1, ?_⟩
    rw [← e.2, e.1]
    simp only [List.length_nil, Nat.add_zero]
    cases f
    simp only at hh
    rw [hh]

/-- Reading a file that is open for reading: what is read is what the file has at the position, the position is moved by it, and nothing else changes. It is all that was asked for
or all that there is, unless a transfer failed; at the end the state is that of the end. -/
theorem file_read {f : F} {h : H} (hh : f.h = some h) (hr : h.rd = true) (n : Nat) :
    (read f n).1 = (f.content.drop h.pos).take (read f n).1.length ∧ (read f n).1.length ≤ n ∧ (read f n).2.fs = f.fs ∧ (read f n).2.h = some { h with pos := h.pos + (read f n).1.length } ∧
    (∀ x ∈ (read f n).2.script, x ∈ f.script) ∧
    (none ∉ f.script → (read f n).1 = (f.content.drop h.pos).take n ∧ (read f n).2.st = if n ≠ 0 ∧ f.content.length ≤ h.pos then .eof else .ok) ∧
    ((read f n).1 ≠ [] → (read f n).2.st = .ok) := by
  obtain ⟨d, g, st, e, hle, hcase⟩ := sys_read os_lawful (block := 2 ^ 63 - 1) f (n := n) (fuel := n + 1) (Nat.lt_succ_self n)
  have er : read f n = (d, { g with st := st }) := by unfold read; rw [e]
  rw [er]
  simp only []
  rcases hcase with ⟨h1, h2, h3, h4⟩ | ⟨h1, w2, h2, h3⟩
  · obtain ⟨d1, d2, d3, d4, d5⟩ := delivers h4 hh
    refine ⟨d3, hle, d1, d2, d5, fun _ => ⟨by rw [d3, h1], ?_⟩, fun _ => h2⟩
    rw [h2, if_neg]
    rintro ⟨-, q⟩
    have := congrArg List.length d3
    rw [List.length_take, List.length_drop] at this
    omega
  · obtain ⟨d1, d2, d3, d4, d5⟩ := delivers h2 hh
    have hc : w2.content = f.content := by rw [content_at d2, content_at hh, d1]
    rcases h3 with ⟨h3, h4⟩ | ⟨h3, h4⟩
    · obtain ⟨k1, k2⟩ := read_none d2 hr h3
      refine ⟨d3, hle, ?_, ?_, ?_, fun q => absurd (d5 _ k1) q, fun q => by rw [h4, if_neg q]⟩
      · rw [k2]; exact d1
      · rw [k2]; exact d2
      · rw [k2]; exact fun x hx => d5 x (List.mem_of_mem_tail hx)
    · by_cases hn0 : n = 0
      · have hd0 : d = [] := List.length_eq_zero_iff.1 (by omega)
        subst hd0
        subst hn0
        have hg : g = { w2 with script := w2.script.tail } := by
          unfold os at h3
          simp only [] at h3
          rw [d2] at h3
          simp only [] at h3
          rw [if_pos hr] at h3
          have hcut : cut w2.script (List.take (min (0 - ([] : List Byte).length) (2 ^ 63 - 1)) (List.drop (h.pos + ([] : List Byte).length) w2.content)) = some [] ∨ cut w2.script (List.take (min (0 - ([] : List Byte).length) (2 ^ 63 - 1)) (List.drop (h.pos + ([] : List Byte).length) w2.content)) = none := by
            unfold cut
            simp only [List.length_nil, Nat.sub_self, Nat.zero_min, List.take_zero, List.take_nil]
            split
            · exact Or.inl rfl
            · exact Or.inr rfl
            · exact Or.inl rfl
          rcases hcut with q | q
          · rw [q] at h3
            simp only [Prod.mk.injEq] at h3
            rw [← h3.2]
            simp only [List.length_nil, Nat.add_zero]
            cases w2
            simp only [List.length_nil, Nat.add_zero] at d2
            simp only [d2]
          · rw [q] at h3; simp at h3
        refine ⟨d3, hle, ?_, ?_, ?_, fun _ => ⟨by simp, by rw [h4]; simp⟩, fun q => absurd rfl q⟩
        · rw [hg]; exact d1
        · rw [hg]; exact d2
        · rw [hg]; exact fun x hx => d5 x (List.mem_of_mem_tail hx)
      · have hlt : d.length < n := by rcases h1 with q | q; exact q; exact absurd q hn0
        obtain ⟨k1, k2⟩ := read_empty d2 hr (show 0 < min (n - d.length) (2 ^ 63 - 1) by omega) h3
        rw [hc] at k1
        simp only [] at k1
        refine ⟨d3, hle, ?_, ?_, ?_, fun _ => ⟨?_, ?_⟩, fun q => by rw [h4, if_neg (fun z => q z.1)]⟩
        · rw [k2]; exact d1
        · rw [k2]; exact d2
        · rw [k2]; exact fun x hx => d5 x (List.mem_of_mem_tail hx)
        · conv => lhs; rw [d3]
          have hlen := congrArg List.length d3
          rw [List.length_take, List.length_drop] at hlen
          apply List.take_eq_take_iff.2
          rw [List.length_drop]; omega
        · rw [h4]
          have hlen := congrArg List.length d3
          rw [List.length_take, List.length_drop] at hlen
          by_cases hd0 : d = []
          · subst hd0
            simp only [List.length_nil, Nat.add_zero] at k1
            rw [if_pos ⟨rfl, hn0⟩, if_pos ⟨hn0, k1⟩]
          · have := List.length_pos_iff.2 hd0
            rw [if_neg (fun q => hd0 q.1), if_neg (fun q => by have := q.2; omega)]

/-- Reading a file that is not open, or not for reading, fails and changes nothing. -/
theorem file_read_not {f : F} (hn : ∀ h, f.h = some h → h.rd = false) (n : Nat) : read f n = ([], { f with st := .fail }) := by
  have e : ∀ m, os.read f m = (none, f) := by
    intro m
    unfold os
    simp only []
    cases hh : f.h with
    | none => rfl
    | some h => simp only []; rw [if_neg (by rw [hn h hh]; decide)]
  unfold read sysRead sysReadLoop
  rw [e]
  simp

/-- Writing a file that is open for writing: the bytes written are in the file at the position, the position is moved by them; the rest of the file and all others are unchanged.
It is all, unless a transfer failed. -/
theorem file_write {f : F} (hf : Ok f) {h : H} (hh : f.h = some h) (d : List Byte) :
    (write f d).1 ≤ d.length ∧ (write f d).2.fs h.name = some (patch f.content h.pos (d.take (write f d).1)) ∧ (∀ m, m ≠ h.name → (write f d).2.fs m = f.fs m) ∧
    (write f d).2.h = some { h with pos := h.pos + (write f d).1 } ∧ (∀ x ∈ (write f d).2.script, x ∈ f.script) ∧
    (((write f d).1 = d.length ∧ (write f d).2.st = .ok) ∨ (write f d).2.st = .fail) ∧
    (none ∉ f.script → h.wr = true → (write f d).1 = d.length ∧ (write f d).2.st = .ok) := by
  have hex := (hf h hh).1
  cases e : sysWrite os (2 ^ 63 - 1) (d.length + 1) f d with
  | none => exact absurd e (sys_write_ends os_write_pos (by decide) _ _ _ _ (Nat.lt_succ_self _))
  | some r =>
    obtain ⟨c, g, st⟩ := r
    have er : write f d = (c, { g with st := st }) := by unfold write; rw [e]
    rw [er]
    simp only []
    obtain ⟨hc, hcase⟩ := sys_write os_lawful e
    rcases hcase with ⟨h1, h2, h3⟩ | ⟨h1, w2, h2, h3⟩
    · obtain ⟨a1, a2, a3, a4, a5⟩ := accepts h3 hh
      refine ⟨hc, ?_, a1, by rw [a3, h1], a5, Or.inl ⟨h1, h2⟩, fun _ _ => ⟨h1, h2⟩⟩
      rw [h1, List.take_of_length_le (Nat.le_refl _)]; exact a2 hex
    · obtain ⟨a1, a2, a3, a4, a5⟩ := accepts h2 hh
      have hlen : (d.take c).length = c := by rw [List.length_take]; omega
      rw [hlen] at a3
      have hw2 : ∀ x, os.write w2 x = (none, g) → (g.fs = w2.fs ∧ g.h = w2.h ∧ ∀ y ∈ g.script, y ∈ w2.script) ∧ (h.wr = true → none ∈ w2.script) := by
        intro x hx
        unfold os at hx
        simp only [] at hx
        rw [a3] at hx
        simp only [] at hx
        by_cases hwr : h.wr = true
        · rw [if_pos hwr] at hx
          unfold cut at hx
          cases hs : w2.script with
          | nil => rw [hs] at hx; simp at hx
          | cons y l =>
            rw [hs] at hx
            cases y with
            | none =>
              simp only [Prod.mk.injEq] at hx
              rw [← hx.2]
              exact ⟨⟨rfl, a3.symm, fun y hy => List.mem_cons_of_mem _ (by simpa [hs] using hy)⟩, fun _ => List.mem_cons_self⟩
            | some c => simp at hx
        · rw [if_neg hwr] at hx
          simp only [Prod.mk.injEq] at hx
          rw [← hx.2]
          exact ⟨⟨rfl, rfl, fun _ => id⟩, fun q => absurd q hwr⟩
      obtain ⟨⟨g1, g2, g3⟩, g4⟩ := hw2 _ h3
      refine ⟨hc, by rw [g1]; exact a2 hex, fun m hm => by rw [g1]; exact a1 m hm, by rw [g2]; exact a3, fun x hx => a5 x (g3 x hx), Or.inr h1, fun q1 q2 => absurd (a5 _ (g4 q2)) q1⟩

/-- Writing a file that is not open, or not for writing, fails and changes nothing. -/
theorem file_write_not {f : F} (hn : ∀ h, f.h = some h → h.wr = false) (d : List Byte) : write f d = (0, { f with st := .fail }) := by
  have e : ∀ m, os.write f m = (none, f) := by
    intro m
    unfold os
    simp only []
    cases hh : f.h with
    | none => rfl
    | some h => simp only []; rw [if_neg (by rw [hn h hh]; decide)]
  unfold write sysWrite sysWriteLoop
  rw [e]
  simp

/-! ### The rest -/

/-- Seeking: to any place that is a number of the system, also beyond the end; elsewhere it fails and the position stays. -/
theorem file_seek {f : F} {h : H} (hh : f.h = some h) (off : Int) (how : Nat) :
    (0 ≤ base f h how + off ∧ base f h how + off < 2 ^ 63 → ((seek f off how).1 : Int) = base f h how + off ∧ (seek f off how).2 = { f with h := some { h with pos := (seek f off how).1 }, st := .ok }) ∧
    (¬(0 ≤ base f h how + off ∧ base f h how + off < 2 ^ 63) → seek f off how = (2 ^ 64 - 1, { f with st := .fail })) := by
  refine ⟨fun hb => ?_, fun hb => ?_⟩
  · have e : lseek f off how = (some (base f h how + off).toNat, { f with h := some { h with pos := (base f h how + off).toNat } }) := by
      unfold lseek; rw [hh]; simp only []; rw [if_neg (by omega)]
    have e2 : seek f off how = ((base f h how + off).toNat, { f with h := some { h with pos := (base f h how + off).toNat }, st := .ok }) := by unfold seek; rw [e]
    rw [e2]
    exact ⟨by simp only []; omega, rfl⟩
  · have e : lseek f off how = (none, f) := by unfold lseek; rw [hh]; simp only []; rw [if_pos (by omega)]
    unfold seek; rw [e]

theorem file_tell {f : F} (hf : Ok f) {h : H} (hh : f.h = some h) : tell f = h.pos := by unfold tell; rw [lseek_cur hf hh]

/-- The size is that of the content, and the position stays. -/
theorem file_size {f : F} (hf : Ok f) {h : H} (hh : f.h = some h) : size f = (f.content.length, f) := by
  obtain ⟨h1, h2, h3⟩ := hf h hh
  unfold size
  rw [lseek_cur hf hh]
  simp only []
  rw [lseek_end hf hh]
  simp only []
  rw [lseek_set rfl h2]
  simp only []
  congr 1
  cases f; simp only at hh; rw [hh]

/-- Truncating: the file ends at the position, which stays; if that is behind the end, it is filled with zeros. -/
theorem file_truncate {f : F} (hf : Ok f) {h : H} (hh : f.h = some h) (may : Bool) :
    truncate f may = if h.wr && may then { f.setFile h.name (f.content.take h.pos ++ List.replicate (h.pos - f.content.length) 0) with st := .ok } else { f with st := .fail } := by
  unfold truncate
  rw [lseek_cur hf hh]
  simp only []
  unfold ftruncate
  rw [hh]
  simp only []
  by_cases hw : (h.wr && may) = true
  · rw [if_pos hw, if_pos hw]
    simp only []
    have : (f.content ++ List.replicate (h.pos - f.content.length) 0).take h.pos = f.content.take h.pos ++ List.replicate (h.pos - f.content.length) 0 := by
      rw [List.take_append, List.take_replicate]
      congr 2
      omega
    rw [this]
  · rw [if_neg hw, if_neg hw]

/-- Unlocking says whether the system unlocked; the position stays. -/
theorem file_unlock {f : F} (hf : Ok f) {h : H} (hh : f.h = some h) {offset length : Nat} (ho : offset < 2 ^ 63) (hl : length < 2 ^ 63) (ok : Bool) :
    unlock f offset length ok = some (ok, { f with st := if ok then .ok else .fail }) := by
  obtain ⟨h1, h2, h3⟩ := hf h hh
  unfold unlock
  rw [lseek_cur hf hh]
  simp only []
  rw [if_neg (by omega), if_neg (by omega), lseek_set hh ho]
  simp only [Option.isSome_some, Bool.true_and]
  rw [lseek_set rfl h2]
  have e : ({ f with h := some { h with pos := h.pos } } : F) = f := F.eta hh
  cases ok with
  | true => rw [if_pos rfl]; cases f; simp only at hh; rw [hh]; rfl
  | false => rw [if_neg (by decide)]; cases f; simp only at hh; rw [hh]; rfl

/-- Locking says that the system locked, where it did; the position stays. -/
theorem file_lock_partial {f : F} (hf : Ok f) {h : H} (hh : f.h = some h) {offset length : Nat} (ho : offset < 2 ^ 63) (hl : length < 2 ^ 63) :
    lock f offset length true = some (true, { f with st := .ok }) := by
  obtain ⟨h1, h2, h3⟩ := hf h hh
  unfold lock
  rw [lseek_cur hf hh]
  simp only []
  rw [if_neg (by omega), if_neg (by omega), lseek_set hh ho]
  simp only [Option.isSome_some, Bool.true_and]
  rw [lseek_set rfl h2]
  cases f; simp only at hh; rw [hh]

/-- Locking and unlocking reject a region whose offset or length does not fit; otherwise they are not rejected. -/
theorem file_lock_range {f : F} (hf : Ok f) {h : H} (hh : f.h = some h) (offset length : Nat) (ok : Bool) :
    (lock f offset length ok = none ↔ 2 ^ 63 ≤ offset ∨ 2 ^ 63 ≤ length) ∧ (unlock f offset length ok = none ↔ 2 ^ 63 ≤ offset ∨ 2 ^ 63 ≤ length) := by
  constructor
  · unfold lock
    rw [lseek_cur hf hh]
    simp only []
    by_cases ho : 2 ^ 63 ≤ offset
    · rw [if_pos ho]; simp [ho]
    · rw [if_neg ho]
      by_cases hl : 2 ^ 63 ≤ length
      · rw [if_pos hl]; simp [hl]
      · rw [if_neg hl]
        exact ⟨(fun q => by cases q), (fun q => by omega)⟩
  · unfold unlock
    rw [lseek_cur hf hh]
    simp only []
    by_cases ho : 2 ^ 63 ≤ offset
    · rw [if_pos ho]; simp [ho]
    · rw [if_neg ho]
      by_cases hl : 2 ^ 63 ≤ length
      · rw [if_pos hl]; simp [hl]
      · rw [if_neg hl]
        refine ⟨(fun q => ?_), (fun q => by omega)⟩
        split at q <;> cases q

/-- (defect) The state after locking is good also if the system did not lock. -/
theorem file_lock_silent {f : F} (hf : Ok f) {h : H} (hh : f.h = some h) {offset length : Nat} (ho : offset < 2 ^ 63) (hl : length < 2 ^ 63) :
    lock f offset length false = some (false, { f with st := .ok }) := by
  obtain ⟨h1, h2, h3⟩ := hf h hh
  unfold lock
  rw [lseek_cur hf hh]
  simp only []
  rw [if_neg (by omega), if_neg (by omega), lseek_set hh ho]
  simp only [Option.isSome_some, Bool.true_and]
  rw [lseek_set rfl h2]
  cases f; simp only at hh; rw [hh]

/-- The remainder of a file is all from the position to the end, or the first `max` bytes of it. -/
theorem file_remainder_partial {f : F} (hf : Ok f) {h : H} (hh : f.h = some h) (hr : h.rd = true) (hp : h.pos ≤ f.content.length) (hs : none ∉ f.script) (max limit : Nat) (hl : f.content.length ≤ limit) :
    ∃ g, readRemainder f max limit = some ((f.content.drop h.pos).take max, g) ∧ g.fs = f.fs := by
  obtain ⟨h1, h2, h3⟩ := hf h hh
  unfold readRemainder
  simp only []
  rw [file_size hf hh]
  simp only []
  rw [file_tell hf hh]
  have e : (f.content.length + (2 ^ 64 - h.pos)) % 2 ^ 64 = f.content.length - h.pos := by omega
  rw [e, if_neg (by omega)]
  have hr := file_read hh hr (min max (f.content.length - h.pos))
  obtain ⟨-, -, r3, -, -, r6, -⟩ := hr
  refine ⟨_, ?_, r3⟩
  congr 1
  refine Prod.ext ?_ rfl
  rw [(r6 hs).1]
  apply List.take_eq_take_iff.2
  rw [List.length_drop]; omega

/-- (defect) Behind the end it asks for nearly 2^64 bytes, and the exception of the vector is not caught. -/
theorem file_remainder_throws {f : F} (hf : Ok f) {h : H} (hh : f.h = some h) (hp : f.content.length < h.pos) {limit : Nat} (hl : limit < 2 ^ 63) : readRemainder f (2 ^ 64 - 1) limit = none := by
  obtain ⟨h1, h2, h3⟩ := hf h hh
  unfold readRemainder
  simp only []
  rw [file_size hf hh]
  simp only []
  rw [file_tell hf hh]
  rw [if_pos (by omega)]

/-! ### What is in the file, byte by byte; writing, going back and reading -/

/-- The bytes of a file after writing: those written where they were written, the old ones elsewhere, zeros in the gap. -/
theorem file_bytes (c : List Byte) (p : Nat) {d : List Byte} (hd : d ≠ []) (i : Nat) :
    (patch c p d)[i]? = if p ≤ i ∧ i < p + d.length then d[i - p]? else if i < c.length then c[i]? else if i < p then some 0 else none := by
  unfold patch
  rw [if_neg hd]
  have hl : ((c ++ List.replicate (p - c.length) 0).take p).length = p := by
    rw [List.length_take, List.length_append, List.length_replicate]; omega
  rw [List.append_assoc]
  by_cases h1 : i < p
  · rw [List.getElem?_append_left (by omega), if_neg (by omega), List.getElem?_take_of_lt h1]
    by_cases h2 : i < c.length
    · rw [List.getElem?_append_left h2, if_pos h2]
    · rw [List.getElem?_append_right (by omega), if_neg h2, if_pos h1, List.getElem?_replicate, if_pos (by omega)]
  · rw [List.getElem?_append_right (by omega), hl]
    by_cases h2 : i < p + d.length
    · rw [List.getElem?_append_left (by omega), if_pos ⟨by omega, h2⟩]
    · rw [List.getElem?_append_right (by omega), if_neg (fun q => h2 q.2), List.getElem?_drop, show p + d.length + (i - p - d.length) = i by omega]
      by_cases h3 : i < c.length
      · rw [if_pos h3]
      · rw [if_neg h3, if_neg h1, List.getElem?_eq_none (by omega)]

theorem patch_read (c : List Byte) (p : Nat) (d : List Byte) : ((patch c p d).drop p).take d.length = d := by
  by_cases hd : d = []
  · subst hd; simp
  · unfold patch
    rw [if_neg hd]
    have hl : ((c ++ List.replicate (p - c.length) 0).take p).length = p := by
      rw [List.length_take, List.length_append, List.length_replicate]; omega
    rw [List.append_assoc, List.drop_append_of_le_length (by omega), List.drop_of_length_le (by omega)]
    simp

/-- What was written is read back: write, seek back to where it was written, read; whatever pieces the system transfers. -/
theorem file_round_trip {f : F} (hf : Ok f) {h : H} (hh : f.h = some h) (hr : h.rd = true) (hw : h.wr = true) (hs : none ∉ f.script) (d : List Byte) :
    (read (seek (write f d).2 h.pos 0).2 d.length).1 = d := by
  obtain ⟨-, w2, -, w4, w5, -, w7⟩ := file_write hf hh d
  obtain ⟨e1, e2⟩ := w7 hs hw
  rw [e1] at w2 w4
  rw [List.take_of_length_le (Nat.le_refl _)] at w2
  have hp := (hf h hh).2.1
  have hk := (file_seek w4 h.pos 0).1 ⟨by show (0 : Int) ≤ 0 + (h.pos : Int); omega, by show (0 : Int) + (h.pos : Int) < 2 ^ 63; omega⟩
  obtain ⟨k1, k2⟩ := hk
  have k1 : (seek (write f d).2 h.pos 0).1 = h.pos := by
    have : base (write f d).2 { h with pos := h.pos + d.length } 0 = 0 := rfl
    rw [this] at k1; omega
  rw [k1] at k2
  rw [k2]
  have hfin := (file_read (f := { (write f d).2 with h := some { h with pos := h.pos }, st := .ok }) rfl hr d.length)
  obtain ⟨-, -, -, -, -, r6, -⟩ := hfin
  rw [(r6 (fun q => hs (w5 _ q))).1]
  have hc : ({ (write f d).2 with h := some { h with pos := h.pos }, st := .ok } : F).content = patch f.content h.pos d := by
    show ((write f d).2.fs h.name).getD [] = _
    rw [w2]; rfl
  rw [hc]
  exact patch_read _ _ _

/-! ### Dates -/

/-- `set_mtime`, 3050-3068, and `set_atime`, 3033-3048, give the system (`futimens`) whole seconds; a date is `ticks` of the clock since the epoch. -/
def setTime (ticks : Int) : Int := ticks

/-- `mtime`, `atime`, 2990-3016: `from_time_t` of the seconds of the system; `perSec` ticks of the clock make a second. -/
def getTime (perSec sec : Int) : Int := sec * perSec

/-- (defect) The date that is read back is the date set times the ticks of a second: for the nanoseconds of the usual system clock any date but the epoch is changed. -/
theorem file_date_scaled (perSec ticks : Int) : getTime perSec (setTime ticks) = perSec * ticks := Int.mul_comm _ _

theorem file_date_wrong {perSec ticks : Int} (hp : 1 < perSec) (ht : ticks ≠ 0) : getTime perSec (setTime ticks) ≠ ticks := by
  rw [file_date_scaled]
  intro h
  have : (perSec - 1) * ticks = 0 := by rw [Int.sub_mul, Int.one_mul]; omega
  rcases Int.mul_eq_zero.1 this with q | q
  · omega
  · exact ht q

/-! ### An example: five bytes, opened for reading and writing at the end; the system transfers one byte, then two, then all -/

def exFs : F := ⟨fun n => if n = 7 then some [1, 2, 3, 4, 5] else none, none, .ok, [some 0, some 1]⟩

example : (Mode.of (3 ||| (2 <<< 3) ||| (1 <<< 6))).disposition = 2 ∧ (Mode.of (3 ||| (2 <<< 3) ||| (1 <<< 6))).writing = true ∧ 4 < (Mode.of (5 <<< 3)).disposition := by decide

def exF : F := (openFile exFs 7 (3 ||| (2 <<< 3) ||| (1 <<< 6)) false false).2

example : exF.h = some ⟨7, 5, true, true⟩ := by decide +kernel

theorem exF_ok : Ok exF := by
  intro h hh
  have : exF.h = some ⟨7, 5, true, true⟩ := by decide +kernel
  rw [this] at hh
  cases hh
  refine ⟨?_, by decide, ?_⟩
  · decide +kernel
  · have : exF.content = [1, 2, 3, 4, 5] := by decide +kernel
    rw [this]; decide

example : none ∉ exF.script := by decide +kernel
example : (write exF [6, 7, 8, 9]).1 = 4 ∧ (write exF [6, 7, 8, 9]).2.content = [1, 2, 3, 4, 5, 6, 7, 8, 9] := by decide +kernel
example : (read (seek (write exF [6, 7, 8, 9]).2 5 0).2 4).1 = [6, 7, 8, 9] := by decide +kernel
example : (read (seek exF (-2) 1).2 4).1 = [4, 5] ∧ (read exF 4).2.st = .eof := by decide +kernel
example : (seek exF (-6) 1).2.st = .fail ∧ tell (seek exF 3 2).2 = 8 := by decide +kernel
example : (truncate (seek exF 2 0).2 true).content = [1, 2] ∧ (size (seek exF 2 0).2).1 = 5 := by decide +kernel
example : (readRemainder (seek exF 2 0).2 100 (2 ^ 63 - 1)).map (·.1) = some [3, 4, 5] ∧ (readRemainder (seek exF 3 2).2 (2 ^ 64 - 1) (2 ^ 63 - 1)).isNone = true := by decide +kernel
example : patch [1, 2] 4 [9] = [1, 2, 0, 0, 9] := by decide

end Verif.Stream.Disk
