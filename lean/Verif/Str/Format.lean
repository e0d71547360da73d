/-
Formatting into strings of any length, include/stdex/string.hpp 2633-2885 and include/stdex/chrono.hpp 415-485, on POSIX systems.
-/
namespace Verif.Format

/-! ### The C library -/

inductive Errno where
  | overflow | inval | ilseq | other
  deriving DecidableEq, Repr

/-- What formatting yields: the text, or an error after some text. -/
structure Fmt where
  text : List Nat
  err : Option Errno

/-- The C library's part. `junk`: what is left in a buffer of a given size after an error, and behind the terminator. -/
structure Lib where
  junk : Nat → List Nat
  size : ∀ n, (junk n).length = n

/-- `::vsnprintf_l` (C17 7.21.6.12): the length of the whole text is returned, what does not fit is left out, `errno` is not touched.
`::vswprintf_l` (C17 7.29.2.7, POSIX): a text that does not fit is an error, with `errno` `EOVERFLOW`. Both: a length that is not an `int` is such an error.
Modelled for string.hpp 2633-2655, which pass a copy of the arguments. -/
def Lib.printf (lib : Lib) (wide : Bool) (f : Fmt) (errno : Errno) (cap : Nat) : Int × Errno × List Nat :=
  if wide = true ∧ cap ≤ f.text.length then (-1, .overflow, lib.junk cap)
  else
    match f.err with
    | some e => (-1, e, lib.junk cap)
    | none =>
      if 2147483648 ≤ f.text.length then (-1, .overflow, lib.junk cap)
      else (f.text.length, errno, f.text.take (cap - 1) ++ [0] ++ (lib.junk cap).drop ((f.text.take (cap - 1)).length + 1))

/-- `strftime_l`, `wcsftime_l` (C17 7.27.3.5), string.hpp 2804-2820: 0 if the text with its terminator does not fit, and the buffer is unspecified. -/
def Lib.ftime (lib : Lib) (text : List Nat) (cap : Nat) : Nat × List Nat :=
  if text.length < cap then (text.length, text ++ [0] ++ (lib.junk cap).drop (text.length + 1)) else (0, lib.junk cap)

/-! ### Model -/

/-- What a call ends with: a value, or an exception. -/
inductive Out where
  | ok (n : Nat)
  | invalid -- std::invalid_argument("invalid vsnprintf arguments")
  | encoding -- std::runtime_error("encoding error")
  | failed -- std::runtime_error("failed to format string")
  | length -- std::length_error of the string, or of the product
  deriving DecidableEq, Repr

/-- The loop of `vappendf`, 2698-2713; `limit` is `max_size()`. The capacity is never 0: the test is there for the termination of the model only. Capacities
stay below twice `max_size()` and do not wrap. -/
def vappendfLoop (lib : Lib) (wide : Bool) (f : Fmt) (limit : Nat) (pre : List Nat) (errno : Errno) (cap : Nat) (cur : List Nat) : List Nat × Out :=
  match errno with
  | .overflow =>
    if h : limit < pre.length + cap ∨ cap = 0 then (cur, .length)
    else
      let r := lib.printf wide f errno cap
      if 0 ≤ r.1 ∧ r.1.toNat ≤ cap then (pre ++ r.2.2.take r.1.toNat, .ok r.1.toNat)
      else vappendfLoop lib wide f limit pre r.2.1 (2 * cap) (pre ++ r.2.2)
  | .inval => (cur, .invalid)
  | .ilseq => (cur, .encoding)
  | .other => (cur, .failed)
termination_by limit + 1 - cap
decreasing_by omega

/-- `vappendf`, 2668-2716; `appendf`, 2727-2735. `n` is `_countof(buf)`; the string afterwards, also if an exception is thrown. -/
def vappendf (lib : Lib) (wide : Bool) (n : Nat) (limit : Nat) (str : List Nat) (f : Fmt) (errno : Errno) : List Nat × Out :=
  let r := lib.printf wide f errno n
  if 0 ≤ r.1 ∧ r.1.toNat ≤ n then (str ++ r.2.2.take r.1.toNat, .ok r.1.toNat)
  else vappendfLoop lib wide f limit str r.2.1 (2 * n) str

/-- `vsprintf`, `sprintf` with a string, 2745-2766: it is cleared; those returning a string, 2777-2801, begin with an empty one. -/
def vsprintf (lib : Lib) (wide : Bool) (n : Nat) (limit : Nat) (_str : List Nat) (f : Fmt) (errno : Errno) : List Nat × Out := vappendf lib wide n limit [] f errno

/-- The loop of `strcatftime`, 2844-2852: the terminator is written to the one of the string. -/
def strcatftimeLoop (lib : Lib) (text : List Nat) (limit : Nat) (pre : List Nat) (cap : Nat) (cur : List Nat) : List Nat × Out :=
  if h : limit < pre.length + cap ∨ cap = 0 then (cur, .length)
  else
    let r := lib.ftime text (cap + 1)
    if r.1 ≠ 0 then (pre ++ r.2.take r.1, .ok r.1)
    else strcatftimeLoop lib text limit pre (2 * cap) (pre ++ r.2.take cap)
termination_by limit + 1 - cap
decreasing_by omega

/-- `strcatftime`, 2831-2853. -/
def strcatftime (lib : Lib) (n : Nat) (limit : Nat) (str text : List Nat) : List Nat × Out :=
  let r := lib.ftime text n
  if r.1 ≠ 0 then (str ++ r.2.take r.1, .ok r.1) else strcatftimeLoop lib text limit str (2 * n) str

/-- `strftime` of strings, 2863-2885. -/
def strftime (lib : Lib) (n : Nat) (limit : Nat) (_str text : List Nat) : List Nat × Out := strcatftime lib n limit [] text

/-- The loop of `aosn_timestamp::to_str`, chrono.hpp 432-445, 465-478; `limit` is the greatest block there is memory for. -/
def toStrLoop (lib : Lib) (text : List Nat) (limit : Nat) (num : Nat) : List Nat × Out :=
  if h : limit < num ∨ num = 0 then ([], .length)
  else
    let r := lib.ftime text num
    if r.1 ≠ 0 then (r.2.take r.1, .ok r.1) else toStrLoop lib text limit (2 * num)
termination_by limit + 1 - num
decreasing_by omega

/-- `aosn_timestamp::to_str`, chrono.hpp 415-479. -/
def toStr (lib : Lib) (n : Nat) (limit : Nat) (text : List Nat) : List Nat × Out :=
  let r := lib.ftime text n
  if r.1 ≠ 0 then (r.2.take r.1, .ok r.1) else toStrLoop lib text limit (2 * n)

/-! ### Specification -/

/-- The exception an error is reported by. -/
def Reports : Errno → Out → Prop
  | .inval, o => o = .invalid
  | .ilseq, o => o = .encoding
  | .other, o => o = .failed
  | .overflow, o => o = .length

/-! ### Proofs -/

theorem max_le {a b c : Nat} (h : max a b ≤ c) : a ≤ c ∧ b ≤ c := ⟨by omega, by omega⟩

theorem printf_fits (lib : Lib) (wide : Bool) {f : Fmt} (he : f.err = none) (hl : f.text.length < 2147483648) (errno : Errno) {cap : Nat} (hc : f.text.length < cap) :
    (lib.printf wide f errno cap).1 = f.text.length ∧ (lib.printf wide f errno cap).2.2.take f.text.length = f.text := by
  unfold Lib.printf
  rw [if_neg (by omega), he]
  simp only []
  rw [if_neg (by omega)]
  refine ⟨rfl, ?_⟩
  simp only []
  rw [List.take_of_length_le (show f.text.length ≤ cap - 1 by omega), List.append_assoc, List.take_left']
  rfl

theorem printf_wide (lib : Lib) {f : Fmt} (errno : Errno) {cap : Nat} (hc : cap ≤ f.text.length) : lib.printf true f errno cap = (-1, .overflow, lib.junk cap) := by
  unfold Lib.printf
  rw [if_pos ⟨rfl, hc⟩]

theorem loop_wide (lib : Lib) {f : Fmt} (he : f.err = none) (hl : f.text.length < 2147483648) (limit : Nat) (pre : List Nat) :
    ∀ (d cap : Nat) (cur : List Nat), f.text.length - cap ≤ d → 0 < cap → pre.length + max cap (2 * f.text.length) ≤ limit → vappendfLoop lib true f limit pre .overflow cap cur = (pre ++ f.text, .ok f.text.length) := by
  intro d
  induction d with
  | zero =>
    intro cap cur hd hc hm
    have hm := max_le (show max cap (2 * f.text.length) ≤ limit - pre.length by omega)
    rw [vappendfLoop]
    rw [dif_neg (by omega)]
    by_cases h : f.text.length < cap
    · obtain ⟨h1, h2⟩ := printf_fits lib true he hl .overflow h
      simp only []
      rw [h1, if_pos ⟨by omega, by omega⟩]
      simp only [Int.toNat_natCast]
      rw [h2]
    · have e : cap = f.text.length := by omega
      simp only []
      rw [printf_wide lib .overflow (by omega)]
      simp only []
      rw [if_neg (fun q => by have := q.1; omega)]
      rw [vappendfLoop]
      simp only []
      rw [dif_neg (by omega)]
      obtain ⟨h1, h2⟩ := printf_fits lib true he hl .overflow (show f.text.length < 2 * cap by omega)
      rw [h1, if_pos ⟨by omega, by omega⟩]
      simp only [Int.toNat_natCast]
      rw [h2]
  | succ d ih =>
    intro cap cur hd hc hm
    by_cases h : f.text.length - cap ≤ d
    · exact ih cap cur h hc hm
    · have hm' := max_le (show max cap (2 * f.text.length) ≤ limit - pre.length by omega)
      rw [vappendfLoop]
      simp only []
      rw [dif_neg (by omega)]
      rw [printf_wide lib .overflow (by omega)]
      simp only []
      rw [if_neg (fun q => by have := q.1; omega)]
      exact ih _ _ (by omega) (by omega) (by omega)

/-- Whatever happens, what the string had is still its beginning. -/
theorem loop_prefix (lib : Lib) (wide : Bool) (f : Fmt) (limit : Nat) (pre : List Nat) : ∀ (errno : Errno) (cap : Nat) (cur : List Nat), pre <+: cur → pre <+: (vappendfLoop lib wide f limit pre errno cap cur).1 := by
  intro errno cap
  induction h : limit + 1 - cap using Nat.strongRecOn generalizing errno cap with
  | _ d ih =>
    intro cur hp
    cases errno with
    | overflow =>
      rw [vappendfLoop]
      simp only []
      split
      · exact hp
      · split
        · exact List.prefix_append _ _
        · exact ih (limit + 1 - 2 * cap) (by omega) _ _ rfl _ (List.prefix_append _ _)
    | _ => rw [vappendfLoop]; exact hp

theorem ftime_fits (lib : Lib) {text : List Nat} {cap : Nat} (h : text.length < cap) : (lib.ftime text cap).1 = text.length ∧ (lib.ftime text cap).2.take text.length = text := by
  unfold Lib.ftime
  rw [if_pos h]
  refine ⟨rfl, ?_⟩
  simp only []
  rw [List.append_assoc, List.take_left']
  rfl

theorem ftime_not (lib : Lib) {text : List Nat} {cap : Nat} (h : cap ≤ text.length) : lib.ftime text cap = (0, lib.junk cap) := by
  unfold Lib.ftime
  rw [if_neg (by omega)]

theorem ftime_empty (lib : Lib) (cap : Nat) : (lib.ftime [] cap).1 = 0 := by
  unfold Lib.ftime
  split <;> rfl

theorem catLoop (lib : Lib) {text : List Nat} (hn : text ≠ []) (limit : Nat) (pre : List Nat) :
    ∀ (d cap : Nat) (cur : List Nat), text.length - cap ≤ d → 0 < cap → pre.length + max cap (2 * text.length) ≤ limit → strcatftimeLoop lib text limit pre cap cur = (pre ++ text, .ok text.length) := by
  have h0 := List.length_pos_iff.2 hn
  intro d
  induction d with
  | zero =>
    intro cap cur hd hc hm
    have hm := max_le (show max cap (2 * text.length) ≤ limit - pre.length by omega)
    rw [strcatftimeLoop]
    rw [dif_neg (by omega)]
    obtain ⟨h1, h2⟩ := ftime_fits lib (show text.length < cap + 1 by omega)
    simp only []
    rw [h1, if_pos (by omega), h2]
  | succ d ih =>
    intro cap cur hd hc hm
    by_cases h : text.length - cap ≤ d
    · exact ih cap cur h hc hm
    · have hm' := max_le (show max cap (2 * text.length) ≤ limit - pre.length by omega)
      rw [strcatftimeLoop]
      simp only []
      rw [dif_neg (by omega), ftime_not lib (by omega)]
      simp only []
      rw [if_neg (by omega)]
      exact ih _ _ (by omega) (by omega) (by omega)

theorem catLoop_empty (lib : Lib) (limit : Nat) (pre : List Nat) : ∀ (cap : Nat) (cur : List Nat), pre <+: cur → (strcatftimeLoop lib [] limit pre cap cur).2 = .length ∧ pre <+: (strcatftimeLoop lib [] limit pre cap cur).1 := by
  intro cap
  induction h : limit + 1 - cap using Nat.strongRecOn generalizing cap with
  | _ d ih =>
    intro cur hp
    rw [strcatftimeLoop]
    split
    · exact ⟨rfl, hp⟩
    · simp only []
      rw [if_neg (by rw [ftime_empty]; exact fun q => q rfl)]
      exact ih (limit + 1 - 2 * cap) (by omega) _ rfl _ (List.prefix_append _ _)

theorem strLoop (lib : Lib) {text : List Nat} (hn : text ≠ []) (limit : Nat) :
    ∀ (d num : Nat), text.length + 1 - num ≤ d → 0 < num → max num (2 * text.length) ≤ limit → toStrLoop lib text limit num = (text, .ok text.length) := by
  have h0 := List.length_pos_iff.2 hn
  intro d
  induction d with
  | zero =>
    intro num hd hc hm
    have hm := max_le hm
    rw [toStrLoop]
    rw [dif_neg (by omega)]
    obtain ⟨h1, h2⟩ := ftime_fits lib (show text.length < num by omega)
    simp only []
    rw [h1, if_pos (by omega), h2]
  | succ d ih =>
    intro num hd hc hm
    by_cases h : text.length + 1 - num ≤ d
    · exact ih num h hc hm
    · have hm' := max_le hm
      rw [toStrLoop]
      simp only []
      rw [dif_neg (by omega), ftime_not lib (by omega)]
      simp only []
      rw [if_neg (by omega)]
      exact ih _ (by omega) (by omega) (by omega)

theorem strLoop_empty (lib : Lib) (limit : Nat) : ∀ (num : Nat), toStrLoop lib [] limit num = ([], .length) := by
  intro num
  induction h : limit + 1 - num using Nat.strongRecOn generalizing num with
  | _ d ih =>
    rw [toStrLoop]
    split
    · rfl
    · simp only []
      rw [if_neg (by rw [ftime_empty]; exact fun q => q rfl)]
      exact ih (limit + 1 - 2 * num) (by omega) _ rfl

/-! ### Properties -/

/-- Wide characters: the whole text is appended, whatever its length, as long as the string may get that long. -/
theorem append_wide (lib : Lib) {n limit : Nat} (hn : 0 < n) (str : List Nat) {f : Fmt} (he : f.err = none) (hl : f.text.length < 2147483648)
    (hm : str.length + max (2 * n) (2 * f.text.length) ≤ limit) (errno : Errno) : vappendf lib true n limit str f errno = (str ++ f.text, .ok f.text.length) := by
  unfold vappendf
  by_cases h : f.text.length < n
  · obtain ⟨h1, h2⟩ := printf_fits lib true he hl errno h
    simp only []
    rw [h1, if_pos ⟨by omega, by omega⟩]
    simp only [Int.toNat_natCast]
    rw [h2]
  · simp only []
    rw [printf_wide lib errno (by omega)]
    simp only []
    rw [if_neg (fun q => by have := q.1; omega)]
    exact loop_wide lib he hl limit str _ _ _ (Nat.le_refl _) (by omega) (by omega)

/-- Narrow characters: a text that is shorter than the buffer is appended whole. -/
theorem append_narrow_partial (lib : Lib) {n : Nat} (limit : Nat) (str : List Nat) {f : Fmt} (he : f.err = none) (hl : f.text.length < 2147483648) (hc : f.text.length < n) (errno : Errno) :
    vappendf lib false n limit str f errno = (str ++ f.text, .ok f.text.length) := by
  unfold vappendf
  obtain ⟨h1, h2⟩ := printf_fits lib false he hl errno hc
  simp only []
  rw [h1, if_pos ⟨by omega, by omega⟩]
  simp only [Int.toNat_natCast]
  rw [h2]

/-- An error of formatting is reported by its exception, for narrow characters at once, with the string unchanged. -/
theorem append_error (lib : Lib) (n limit : Nat) (str : List Nat) {f : Fmt} {e : Errno} (he : f.err = some e) (ho : e ≠ .overflow) (errno : Errno) :
    (vappendf lib false n limit str f errno).1 = str ∧ Reports e (vappendf lib false n limit str f errno).2 := by
  have h : lib.printf false f errno n = (-1, e, lib.junk n) := by
    unfold Lib.printf
    rw [if_neg (fun q => nomatch q.1), he]
  unfold vappendf
  simp only []
  rw [h]
  simp only []
  rw [if_neg (fun q => by have := q.1; omega)]
  cases e with
  | overflow => exact absurd rfl ho
  | inval => rw [vappendfLoop]; exact ⟨rfl, rfl⟩
  | ilseq => rw [vappendfLoop]; exact ⟨rfl, rfl⟩
  | other => rw [vappendfLoop]; exact ⟨rfl, rfl⟩

theorem loop_error (lib : Lib) {f : Fmt} {e : Errno} (he : f.err = some e) (limit : Nat) (pre : List Nat) : ∀ (en : Errno) (cap : Nat) (cur : List Nat), en = .overflow ∨ en = e →
    (vappendfLoop lib true f limit pre en cap cur).2 = .length ∨ Reports e (vappendfLoop lib true f limit pre en cap cur).2 := by
  intro en cap
  induction h : limit + 1 - cap using Nat.strongRecOn generalizing en cap with
  | _ d ih =>
    intro cur hp
    have ov : (vappendfLoop lib true f limit pre .overflow cap cur).2 = .length ∨ Reports e (vappendfLoop lib true f limit pre .overflow cap cur).2 := by
      rw [vappendfLoop]
      simp only []
      split
      · exact Or.inl rfl
      · have hr : (lib.printf true f .overflow cap).1 = -1 ∧ ((lib.printf true f .overflow cap).2.1 = .overflow ∨ (lib.printf true f .overflow cap).2.1 = e) := by
          unfold Lib.printf
          rw [he]
          split
          · exact ⟨rfl, Or.inl rfl⟩
          · exact ⟨rfl, Or.inr rfl⟩
        rw [if_neg (fun q => by have := q.1; omega)]
        exact ih (limit + 1 - 2 * cap) (by omega) _ _ rfl _ hr.2
    rcases hp with hp | hp
    · rw [hp]; exact ov
    · rw [hp]
      cases e with
      | overflow => exact ov
      | inval => rw [vappendfLoop]; exact Or.inr rfl
      | ilseq => rw [vappendfLoop]; exact Or.inr rfl
      | other => rw [vappendfLoop]; exact Or.inr rfl

/-- Wide characters: an error of formatting is always reported by an exception, its own or that the string gets too long. -/
theorem append_error_wide (lib : Lib) (n limit : Nat) (str : List Nat) {f : Fmt} {e : Errno} (he : f.err = some e) (errno : Errno) :
    (vappendf lib true n limit str f errno).2 = .length ∨ Reports e (vappendf lib true n limit str f errno).2 := by
  have hr : (lib.printf true f errno n).1 = -1 ∧ ((lib.printf true f errno n).2.1 = .overflow ∨ (lib.printf true f errno n).2.1 = e) := by
    unfold Lib.printf
    rw [he]
    split
    · exact ⟨rfl, Or.inl rfl⟩
    · exact ⟨rfl, Or.inr rfl⟩
  unfold vappendf
  simp only []
  rw [if_neg (fun q => by have := q.1; omega)]
  exact loop_error lib he limit str _ _ _ hr.2

/-- Whatever happens, the string begins with what it had. -/
theorem append_keeps (lib : Lib) (wide : Bool) (n limit : Nat) (str : List Nat) (f : Fmt) (errno : Errno) : str <+: (vappendf lib wide n limit str f errno).1 := by
  unfold vappendf
  simp only []
  split
  · exact List.prefix_append _ _
  · exact loop_prefix _ _ _ _ _ _ _ _ (List.prefix_refl _)

/-- `sprintf` into a string: the text alone, whatever the string had. -/
theorem sprintf_wide (lib : Lib) {n limit : Nat} (hn : 0 < n) (str : List Nat) {f : Fmt} (he : f.err = none) (hl : f.text.length < 2147483648)
    (hm : max (2 * n) (2 * f.text.length) ≤ limit) (errno : Errno) : vsprintf lib true n limit str f errno = (f.text, .ok f.text.length) :=
  append_wide lib hn [] he hl (by simpa using hm) errno

/-- Dates: the whole text is appended, whatever its length, unless it is empty. -/
theorem ftime_appends_partial (lib : Lib) {n limit : Nat} (hn : 0 < n) (str : List Nat) {text : List Nat} (h : text ≠ []) (hm : str.length + max (2 * n) (2 * text.length) ≤ limit) :
    strcatftime lib n limit str text = (str ++ text, .ok text.length) := by
  unfold strcatftime
  have h0 := List.length_pos_iff.2 h
  by_cases hc : text.length < n
  · obtain ⟨h1, h2⟩ := ftime_fits lib hc
    simp only []
    rw [h1, if_pos (by omega), h2]
  · simp only []
    rw [ftime_not lib (by omega)]
    simp only []
    rw [if_neg (by omega)]
    exact catLoop lib h limit str _ _ _ (Nat.le_refl _) (by omega) hm

/-- The same of timestamps written as text. -/
theorem to_str_partial (lib : Lib) {n limit : Nat} (hn : 0 < n) {text : List Nat} (h : text ≠ []) (hm : max (2 * n) (2 * text.length) ≤ limit) : toStr lib n limit text = (text, .ok text.length) := by
  unfold toStr
  have h0 := List.length_pos_iff.2 h
  by_cases hc : text.length < n
  · obtain ⟨h1, h2⟩ := ftime_fits lib hc
    simp only []
    rw [h1, if_pos (by omega), h2]
  · simp only []
    rw [ftime_not lib (by omega)]
    simp only []
    rw [if_neg (by omega)]
    exact strLoop lib h limit _ _ (Nat.le_refl _) (by omega) hm

/-- A library that leaves 7s. -/
def sevens : Lib := ⟨fun n => List.replicate n 7, fun n => List.length_replicate ..⟩

example : vappendf sevens true 2 100 [1, 2] ⟨[65, 66, 67, 68, 69, 70, 71, 72, 73], none⟩ .other = ([1, 2, 65, 66, 67, 68, 69, 70, 71, 72, 73], .ok 9) :=
  append_wide sevens (by decide) [1, 2] rfl (by decide) (by decide) .other

example : vappendf sevens false 1024 100 [1, 2] ⟨[65, 66, 67], none⟩ .other = ([1, 2, 65, 66, 67], .ok 3) :=
  append_narrow_partial sevens 100 [1, 2] rfl (by decide) (by decide) .other

example : strcatftime sevens 2 100 [1] [65, 66, 67, 68, 69, 70, 71, 72, 73] = ([1, 65, 66, 67, 68, 69, 70, 71, 72, 73], .ok 9) :=
  ftime_appends_partial sevens (by decide) [1] (by decide) (by decide)

example : toStr sevens 2 100 [65, 66, 67, 68, 69, 70, 71, 72, 73] = ([65, 66, 67, 68, 69, 70, 71, 72, 73], .ok 9) :=
  to_str_partial sevens (by decide) (by decide) (by decide)

/-! ### Defects -/

/-- (defect) A narrow text just as long as the buffer loses its last character to the terminator. -/
theorem narrow_exact (lib : Lib) {n : Nat} (hn : 0 < n) (limit : Nat) (str : List Nat) {f : Fmt} (he : f.err = none) (hl : f.text.length < 2147483648) (hc : f.text.length = n) (errno : Errno) :
    vappendf lib false n limit str f errno = (str ++ (f.text.take (n - 1) ++ [0]), .ok n) := by
  have h : lib.printf false f errno n = ((f.text.length : Int), errno, f.text.take (n - 1) ++ [0] ++ (lib.junk n).drop ((f.text.take (n - 1)).length + 1)) := by
    unfold Lib.printf
    rw [if_neg (fun q => nomatch q.1), he]
    simp only []
    rw [if_neg (by omega)]
  unfold vappendf
  simp only []
  rw [h]
  simp only [Int.toNat_natCast]
  rw [if_pos ⟨by omega, by omega⟩, hc, List.take_left']
  simp only [List.length_append, List.length_take, List.length_cons, List.length_nil]
  omega

/-- (defect) A longer narrow text is refused, with the string unchanged, since `vsnprintf` does not set `errno` when it leaves out text: the exception is the one of whatever
error happened before. -/
theorem narrow_long (lib : Lib) {n : Nat} (limit : Nat) (str : List Nat) {f : Fmt} (he : f.err = none) (hl : f.text.length < 2147483648) (hc : n < f.text.length) {errno : Errno} (hs : errno ≠ .overflow) :
    (vappendf lib false n limit str f errno).1 = str ∧ Reports errno (vappendf lib false n limit str f errno).2 := by
  have h : (lib.printf false f errno n).1 = f.text.length ∧ (lib.printf false f errno n).2.1 = errno := by
    unfold Lib.printf
    rw [if_neg (fun q => nomatch q.1), he]
    simp only []
    rw [if_neg (by omega)]
    exact ⟨rfl, rfl⟩
  unfold vappendf
  simp only []
  rw [h.1, h.2, if_neg (by rw [Int.toNat_natCast]; omega)]
  cases errno with
  | overflow => exact absurd rfl hs
  | inval => rw [vappendfLoop]; exact ⟨rfl, rfl⟩
  | ilseq => rw [vappendfLoop]; exact ⟨rfl, rfl⟩
  | other => rw [vappendfLoop]; exact ⟨rfl, rfl⟩

/-- (defect) A date whose text is empty (`%p` in locales without a.m. and p.m.) is never done: memory is taken until there is none. -/
theorem ftime_empty_fails (lib : Lib) (n limit : Nat) (str : List Nat) : (strcatftime lib n limit str []).2 = .length ∧ toStr lib n limit [] = ([], .length) := by
  refine ⟨?_, ?_⟩
  · unfold strcatftime
    simp only []
    rw [if_neg (by rw [ftime_empty]; exact fun q => q rfl)]
    exact (catLoop_empty lib limit str _ _ (List.prefix_refl _)).1
  · unfold toStr
    simp only []
    rw [if_neg (by rw [ftime_empty]; exact fun q => q rfl)]
    exact strLoop_empty lib limit _

/-- (defect) A wide text with an error behind the first buffer leaves rubbish in the string. -/
theorem wide_error_rubbish (lib : Lib) : (vappendf lib true 2 100 [1] ⟨[65, 65, 65], some .ilseq⟩ .other) = ([1] ++ lib.junk 4, .encoding) := by
  unfold vappendf
  simp only []
  rw [printf_wide lib .other (by decide)]
  simp only []
  rw [if_neg (by decide), vappendfLoop]
  simp only []
  rw [dif_neg (by decide)]
  have h : lib.printf true ⟨[65, 65, 65], some .ilseq⟩ .overflow (2 * 2) = (-1, .ilseq, lib.junk 4) := by
    unfold Lib.printf
    rw [if_neg (by decide)]
  rw [h]
  simp only []
  rw [if_neg (by decide), vappendfLoop]

end Verif.Format
