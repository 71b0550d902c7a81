import Verif.Basic
import Mathlib.Data.Rat.Floor
import Mathlib.Data.Int.Log
import Mathlib.Tactic.Linarith
import Mathlib.Tactic.NormNum
import Mathlib.Tactic.Ring
import Mathlib.Tactic.Positivity
import Mathlib.Tactic.FieldSimp
/-!
# Version numbers of packages (C111)

`provide(name, version)` and `require(name, version)` take a version as a number (`1.02`) or as a text
(`"1.2.3"`); `require` shows it again as a text (`verStr`).  Between the two it is a `double`.

Doubles are modelled as rational numbers together with an arbitrary rounding function `fl`, applied to the
exact result of every operation.  All that is assumed about `fl` is `Rounds`: the relative error is at most
2^-50.  IEEE binary64 has 2^-53 when rounding to nearest and 2^-52 when rounding any other way (no number that
occurs here is subnormal), so the theorems hold for every rounding mode.
-/
namespace Verif.Pkg

/-- What is assumed of the arithmetic on doubles. -/
def Rounds (fl : ℚ → ℚ) : Prop := ∀ x : ℚ, 0 ≤ x → |fl x - x| ≤ x / 2 ^ 50

/-- The unsigned integer `n` of `jsi_VersionNormalize`: `(uint)(0.5+ver*10000.0)`.
src/jsiCmds.c:873.  The conversion cuts the fraction off; values from 2^32 on, where C leaves the conversion
undefined, do not come from any version below 100. -/
def units (fl : ℚ → ℚ) (ver : ℚ) : Nat := ⌊fl (1 / 2 + fl (ver * 10000))⌋₊

/-- `jsi_VersionNormalize` without its text.  src/jsiCmds.c:871-883. -/
def normal (fl : ℚ → ℚ) (ver : ℚ) : ℚ := fl ((units fl ver : ℚ) / 10000)

/-- The decimal numeral `%u` prints.  C library. -/
def decN (n : Nat) : List UInt8 := if h : n < 10 then [UInt8.ofNat (48 + n)] else decN (n / 10) ++ [UInt8.ofNat (48 + n % 10)]

/-- Three numbers with points between them: `snprintf(obuf, osiz, "%u.%u.%u", …)`. src/jsiCmds.c:880.
(The buffer, 200 bytes in `jsi_PkgDumpInfo`, is always large enough.) -/
def dotted (a b c : Nat) : List UInt8 := decN a ++ 46 :: (decN b ++ 46 :: decN c)

/-- The text `jsi_VersionNormalize` makes of a version.  src/jsiCmds.c:874-881. -/
def verStr (fl : ℚ → ℚ) (ver : ℚ) : List UInt8 :=
  dotted (units fl (normal fl ver) / 10000)
    ((units fl (normal fl ver) - units fl (normal fl ver) / 10000 * 10000) / 100)
    ((units fl (normal fl ver) - units fl (normal fl ver) / 10000 * 10000)
      - (units fl (normal fl ver) - units fl (normal fl ver) / 10000 * 10000) / 100 * 100)

/-- `isdigit`. -/
def isDigit (c : UInt8) : Bool := decide (48 ≤ c.toNat) && decide (c.toNat ≤ 57)

/-- The value of a row of digits. -/
def val (s : List UInt8) : Nat := s.foldl (fun a c => a * 10 + (c.toNat - 48)) 0

/-- `%u` of `sscanf`: the digits read, as glibc stores them on a 64 bit machine (`strtoul`, which stops at
2^64-1, cut to 32 bits), and the rest of the text.  No digit is a failure.  Blanks and signs, which `%u`
also takes, are not in the text (src/jsiCmds.c:864). -/
def scanU (s : List UInt8) : Option (Nat × List UInt8) :=
  if (s.takeWhile isDigit).isEmpty then none
  else some (min (val (s.takeWhile isDigit)) (2 ^ 64 - 1) % 2 ^ 32, s.dropWhile isDigit)

/-- The `.` in the format and the `%u` after it: 0 (the initial value) when one of them fails. -/
def scanDot (s : List UInt8) : Option (Nat × List UInt8) :=
  match s with
  | 46 :: r => scanU r
  | _ => none

/-- `sscanf(vstr, "%u.%u.%u", v, v+1, v+2)`: the three numbers, `none` when not even the first is there.
src/jsiCmds.c:865. -/
def scan3 (s : List UInt8) : Option (Nat × Nat × Nat) :=
  match scanU s with
  | none => none
  | some (a, r) =>
    match scanDot r with
    | none => some (a, 0, 0)
    | some (b, r') =>
      match scanDot r' with
      | none => some (a, b, 0)
      | some (c, _) => some (a, b, c)

/-- Only digits and points, src/jsiCmds.c:864. -/
def verChars (s : List UInt8) : Bool := s.all fun c => isDigit c || c == 46

/-- The number made of the three parts, src/jsiCmds.c:867. -/
def combine (fl : ℚ → ℚ) (a b c : Nat) : ℚ := fl (fl ((a : ℚ) + fl ((b : ℚ) / 100)) + fl ((c : ℚ) / 10000))

/-- `jsi_GetVerFromVal` for a text.  src/jsiCmds.c:860-868. -/
def getVerText (fl : ℚ → ℚ) (s : List UInt8) : Option ℚ :=
  if verChars s then
    match scan3 s with
    | none => none
    | some (a, b, c) => if a ≥ 100 ∨ b ≥ 100 ∨ c ≥ 100 then none else some (normal fl (combine fl a b c))
  else none

/-- `jsi_GetVerFromVal` for a number.  src/jsiCmds.c:854-859.  (Negative numbers, infinities and NaN, all
refused there, are not among the rationals ≥ 0.) -/
def getVerNum (provide : Bool) (n : ℚ) : Option ℚ :=
  if n < 0 ∨ (provide = true ∧ n = 0) ∨ n ≥ 100 then none else some n

/-! ## Specification -/

/-- A numeral: at least one digit, and its value. -/
def Numeral (d : List UInt8) (n : Nat) : Prop := d ≠ [] ∧ (∀ c ∈ d, isDigit c = true) ∧ val d = n

/-- The text is the version `a.b.c`; `.c` or `.b.c` may be left out when 0. -/
def Version (t : List UInt8) (a b c : Nat) : Prop :=
  ∃ da, Numeral da a ∧ ((t = da ∧ b = 0 ∧ c = 0) ∨
    ∃ db, Numeral db b ∧ ((t = da ++ 46 :: db ∧ c = 0) ∨ ∃ dc, Numeral dc c ∧ t = da ++ 46 :: (db ++ 46 :: dc)))

/-- `a.b.c` is an earlier version than `a'.b'.c'`. -/
def Earlier (a b c a' b' c' : Nat) : Prop := a < a' ∨ (a = a' ∧ (b < b' ∨ (b = b' ∧ c < c')))

/-! ## Arithmetic -/

theorem near {fl : ℚ → ℚ} (hf : Rounds fl) {x : ℚ} (h0 : 0 ≤ x) : x - x / 2 ^ 50 ≤ fl x ∧ fl x ≤ x + x / 2 ^ 50 := by
  have := abs_le.mp (hf x h0)
  constructor <;> linarith [this.1, this.2]

/-- A number close enough to `k/10000` is counted as `k`. -/
theorem units_of_near {fl : ℚ → ℚ} (hf : Rounds fl) {y : ℚ} {k : Nat} (hk : k ≤ 1000000)
    (h1 : (k : ℚ) / 10000 - 1 / 100000 ≤ y) (h2 : y ≤ (k : ℚ) / 10000 + 1 / 100000) (h0 : 0 ≤ y) : units fl y = k := by
  have hk' : (k : ℚ) ≤ 1000000 := by exact_mod_cast hk
  have hk0 : (0 : ℚ) ≤ k := by positivity
  have ha := near hf (x := y * 10000) (by positivity)
  have hb0 : 0 ≤ fl (y * 10000) := by
    have : y * 10000 / 2 ^ 50 ≤ y * 10000 := by
      have : (0:ℚ) ≤ y * 10000 := by positivity
      norm_num; linarith
    linarith [ha.1]
  have hb := near hf (x := 1 / 2 + fl (y * 10000)) (by linarith)
  norm_num at ha hb
  unfold units
  rw [Nat.floor_eq_iff (by norm_num; linarith [hb.1])]
  norm_num
  constructor <;> linarith [ha.1, ha.2, hb.1, hb.2]

/-- `fl (k/10000)` is close to `k/10000`. -/
theorem fl_units {fl : ℚ → ℚ} (hf : Rounds fl) {k : Nat} (hk : k ≤ 1000000) :
    (k : ℚ) / 10000 - 1 / 100000 ≤ fl ((k : ℚ) / 10000) ∧ fl ((k : ℚ) / 10000) ≤ (k : ℚ) / 10000 + 1 / 100000 ∧ 0 ≤ fl ((k : ℚ) / 10000) := by
  have hk' : (k : ℚ) ≤ 1000000 := by exact_mod_cast hk
  have hk0 : (0 : ℚ) ≤ k := by positivity
  have ha := near hf (x := (k : ℚ) / 10000) (by positivity)
  norm_num at ha
  refine ⟨by linarith [ha.1], by linarith [ha.2], by linarith [ha.1]⟩

theorem units_fl {fl : ℚ → ℚ} (hf : Rounds fl) {k : Nat} (hk : k ≤ 1000000) : units fl (fl ((k : ℚ) / 10000)) = k := by
  have h := fl_units hf hk
  exact units_of_near hf hk h.1 h.2.1 h.2.2

theorem fl_lt {fl : ℚ → ℚ} (hf : Rounds fl) {k l : Nat} (hk : k ≤ 1000000) (hl : l ≤ 1000000) :
    fl ((k : ℚ) / 10000) < fl ((l : ℚ) / 10000) ↔ k < l := by
  have hlt : ∀ {k l : Nat}, k ≤ 1000000 → l ≤ 1000000 → k < l → fl ((k : ℚ) / 10000) < fl ((l : ℚ) / 10000) := by
    intro k l hk hl h
    have hk' : (k : ℚ) + 1 ≤ l := by exact_mod_cast h
    have h1 := fl_units hf hk
    have h2 := fl_units hf hl
    linarith [h1.2.1, h2.1]
  constructor
  · intro h
    rcases Nat.lt_trichotomy k l with h' | h' | h'
    · exact h'
    · subst h'; exact absurd h (lt_irrefl _)
    · exact absurd (hlt hl hk h') (not_lt.mpr (le_of_lt h))
  · exact hlt hk hl

theorem combine_units {fl : ℚ → ℚ} (hf : Rounds fl) {a b c : Nat} (ha : a < 100) (hb : b < 100) (hc : c < 100) :
    units fl (combine fl a b c) = a * 10000 + b * 100 + c := by
  have ha' : (a : ℚ) ≤ 99 := by exact_mod_cast (by omega : a ≤ 99)
  have hb' : (b : ℚ) ≤ 99 := by exact_mod_cast (by omega : b ≤ 99)
  have hc' : (c : ℚ) ≤ 99 := by exact_mod_cast (by omega : c ≤ 99)
  have ha0 : (0 : ℚ) ≤ a := by positivity
  have hb0 : (0 : ℚ) ≤ b := by positivity
  have hc0 : (0 : ℚ) ≤ c := by positivity
  have e1 := near hf (x := (b : ℚ) / 100) (by positivity)
  norm_num at e1
  have e1p : 0 ≤ fl ((b : ℚ) / 100) := by linarith [e1.1]
  have e2 := near hf (x := (a : ℚ) + fl ((b : ℚ) / 100)) (by linarith)
  norm_num at e2
  have e3 := near hf (x := (c : ℚ) / 10000) (by positivity)
  norm_num at e3
  have e3p : 0 ≤ fl ((c : ℚ) / 10000) := by linarith [e3.1]
  have e2p : 0 ≤ fl ((a : ℚ) + fl ((b : ℚ) / 100)) := by linarith [e2.1]
  have e4 := near hf (x := fl ((a : ℚ) + fl ((b : ℚ) / 100)) + fl ((c : ℚ) / 10000)) (by linarith)
  norm_num at e4
  apply units_of_near hf (by omega)
  · unfold combine; push_cast; linarith [e1.1, e2.1, e3.1, e4.1, e1.2, e2.2, e3.2]
  · unfold combine; push_cast; linarith [e1.1, e2.1, e3.1, e4.2, e1.2, e2.2, e3.2]
  · unfold combine; linarith [e4.1]

/-! ## Texts -/

theorem isDigit_iff (c : UInt8) : isDigit c = true ↔ 48 ≤ c.toNat ∧ c.toNat ≤ 57 := by simp [isDigit]

theorem digit_ofNat {n : Nat} (h : n < 10) : isDigit (UInt8.ofNat (48 + n)) = true ∧ (UInt8.ofNat (48 + n)).toNat - 48 = n := by
  have : (UInt8.ofNat (48 + n)).toNat = 48 + n := by simp [UInt8.toNat_ofNat']; omega
  rw [isDigit_iff, this]; omega

theorem val_snoc (s : List UInt8) (c : UInt8) : val (s ++ [c]) = val s * 10 + (c.toNat - 48) := by simp [val]

theorem numeral_decN (n : Nat) : Numeral (decN n) n := by
  induction n using Nat.strongRecOn with
  | _ n ih =>
    unfold decN
    by_cases h : n < 10
    · rw [dif_pos h]
      have hd := digit_ofNat h
      refine ⟨by simp, by simpa using hd.1, ?_⟩
      show 0 * 10 + _ = n
      rw [hd.2]; omega
    · rw [dif_neg h]
      have hd := digit_ofNat (n := n % 10) (by omega)
      have i := ih (n / 10) (by omega)
      refine ⟨by simp, ?_, ?_⟩
      · intro c hc
        rcases List.mem_append.mp hc with h' | h'
        · exact i.2.1 c h'
        · rw [List.mem_singleton.mp h']; exact hd.1
      · rw [val_snoc, i.2.2, hd.2]; omega

/-- What may follow a numeral. -/
def Stops (r : List UInt8) : Prop := r = [] ∨ ∃ r', r = 46 :: r'

theorem takeWhile_numeral {d : List UInt8} (h : ∀ c ∈ d, isDigit c = true) {r : List UInt8} (hr : Stops r) :
    (d ++ r).takeWhile isDigit = d ∧ (d ++ r).dropWhile isDigit = r := by
  induction d with
  | nil =>
    rcases hr with hr | ⟨r', hr⟩ <;> subst hr
    · simp
    · simp [List.takeWhile, List.dropWhile, isDigit]
  | cons c d ih =>
    have i := ih (fun x hx => h x (List.mem_cons_of_mem _ hx))
    have hc := h c List.mem_cons_self
    simp only [List.cons_append, List.takeWhile_cons, List.dropWhile_cons, hc, if_true, i.1, i.2]
    simp

theorem scanU_numeral {d : List UInt8} {n : Nat} (h : Numeral d n) (hn : n < 2 ^ 32) {r : List UInt8} (hr : Stops r) :
    scanU (d ++ r) = some (n, r) := by
  have t := takeWhile_numeral h.2.1 hr
  unfold scanU
  rw [t.1, t.2, h.2.2]
  have : d.isEmpty = false := by
    cases d with
    | nil => exact absurd rfl h.1
    | cons _ _ => rfl
  rw [this]
  have : min n (2 ^ 64 - 1) % 2 ^ 32 = n := by
    rw [Nat.min_eq_left (by omega), Nat.mod_eq_of_lt hn]
  rw [this]; simp

theorem verChars_numeral {d : List UInt8} {n : Nat} (h : Numeral d n) : verChars d = true := by
  unfold verChars
  rw [List.all_eq_true]
  intro c hc
  simp [h.2.1 c hc]

theorem verChars_append (a b : List UInt8) : verChars (a ++ b) = (verChars a && verChars b) := by simp [verChars]

theorem verChars_dot (b : List UInt8) : verChars (46 :: b) = verChars b := by simp [verChars]

theorem scan3_version {t : List UInt8} {a b c : Nat} (h : Version t a b c) (ha : a < 2 ^ 32) (hb : b < 2 ^ 32) (hc : c < 2 ^ 32) :
    verChars t = true ∧ scan3 t = some (a, b, c) := by
  obtain ⟨da, na, h | ⟨db, nb, h | ⟨dc, nc, h⟩⟩⟩ := h
  · obtain ⟨rfl, rfl, rfl⟩ := h
    refine ⟨verChars_numeral na, ?_⟩
    have := scanU_numeral na ha (r := []) (Or.inl rfl)
    rw [List.append_nil] at this
    simp [scan3, this, scanDot]
  · obtain ⟨rfl, rfl⟩ := h
    refine ⟨by rw [verChars_append, verChars_dot, verChars_numeral na, verChars_numeral nb]; rfl, ?_⟩
    have := scanU_numeral na ha (r := 46 :: db) (Or.inr ⟨_, rfl⟩)
    have h2 := scanU_numeral nb hb (r := []) (Or.inl rfl)
    rw [List.append_nil] at h2
    simp [scan3, this, scanDot, h2]
  · subst h
    refine ⟨by rw [verChars_append, verChars_dot, verChars_append, verChars_dot, verChars_numeral na, verChars_numeral nb, verChars_numeral nc]; rfl, ?_⟩
    have := scanU_numeral na ha (r := 46 :: (db ++ 46 :: dc)) (Or.inr ⟨_, rfl⟩)
    have h2 := scanU_numeral nb hb (r := 46 :: dc) (Or.inr ⟨_, rfl⟩)
    have h3 := scanU_numeral nc hc (r := []) (Or.inl rfl)
    rw [List.append_nil] at h3
    simp [scan3, this, scanDot, h2, h3]

theorem getVerText_version {fl : ℚ → ℚ} (hf : Rounds fl) {t : List UInt8} {a b c : Nat} (h : Version t a b c)
    (ha : a < 100) (hb : b < 100) (hc : c < 100) :
    getVerText fl t = some (fl (((a * 10000 + b * 100 + c : Nat) : ℚ) / 10000)) := by
  have s := scan3_version h (by omega) (by omega) (by omega)
  unfold getVerText
  rw [s.1, s.2]
  have : ¬ (a ≥ 100 ∨ b ≥ 100 ∨ c ≥ 100) := by omega
  simp only [if_true, this, if_false, normal, combine_units hf ha hb hc]

theorem verStr_fl {fl : ℚ → ℚ} (hf : Rounds fl) {a b c : Nat} (ha : a < 100) (hb : b < 100) (hc : c < 100) :
    verStr fl (fl (((a * 10000 + b * 100 + c : Nat) : ℚ) / 10000)) = dotted a b c := by
  have hk : a * 10000 + b * 100 + c ≤ 1000000 := by omega
  have e : units fl (normal fl (fl (((a * 10000 + b * 100 + c : Nat) : ℚ) / 10000))) = a * 10000 + b * 100 + c := by
    unfold normal
    rw [units_fl hf hk, units_fl hf hk]
  unfold verStr
  rw [e]
  congr 1 <;> omega

theorem version_dotted (a b c : Nat) : Version (dotted a b c) a b c :=
  ⟨_, numeral_decN a, Or.inr ⟨_, numeral_decN b, Or.inr ⟨_, numeral_decN c, rfl⟩⟩⟩

/-! ## C111 -/

/-- **C111** A version text `a.b.c` with every part below 100 is accepted, and is shown as the same version:
`require('x','1.2.3').verStr` is `1.2.3`. -/
theorem C111_shown_as_given_partial {fl : ℚ → ℚ} (hf : Rounds fl) {t : List UInt8} {a b c : Nat} (h : Version t a b c)
    (ha : a < 100) (hb : b < 100) (hc : c < 100) :
    ∃ v, getVerText fl t = some v ∧ verStr fl v = dotted a b c :=
  ⟨_, getVerText_version hf h ha hb hc, verStr_fl hf ha hb hc⟩

/-- **C111** Comparing the numbers two version texts stand for, with `<` on doubles, is comparing the versions
part by part. -/
theorem C111_order_partial {fl : ℚ → ℚ} (hf : Rounds fl) {t t' : List UInt8} {a b c a' b' c' : Nat} (h : Version t a b c) (h' : Version t' a' b' c')
    (ha : a < 100) (hb : b < 100) (hc : c < 100) (ha' : a' < 100) (hb' : b' < 100) (hc' : c' < 100) :
    ∃ v v', getVerText fl t = some v ∧ getVerText fl t' = some v' ∧ (v < v' ↔ Earlier a b c a' b' c') := by
  refine ⟨_, _, getVerText_version hf h ha hb hc, getVerText_version hf h' ha' hb' hc', ?_⟩
  rw [fl_lt hf (by omega) (by omega)]
  unfold Earlier
  omega

/-- **C111** … and two texts stand for the same number exactly if they are the same version. -/
theorem C111_same_partial {fl : ℚ → ℚ} (hf : Rounds fl) {t t' : List UInt8} {a b c a' b' c' : Nat} (h : Version t a b c) (h' : Version t' a' b' c')
    (ha : a < 100) (hb : b < 100) (hc : c < 100) (ha' : a' < 100) (hb' : b' < 100) (hc' : c' < 100) :
    getVerText fl t = getVerText fl t' ↔ a = a' ∧ b = b' ∧ c = c' := by
  obtain ⟨v, v', e, e', o⟩ := C111_order_partial hf h h' ha hb hc ha' hb' hc'
  obtain ⟨w', w, f', f, o'⟩ := C111_order_partial hf h' h ha' hb' hc' ha hb hc
  rw [e] at f; rw [e'] at f'
  obtain rfl := Option.some.inj f
  obtain rfl := Option.some.inj f'
  rw [e, e']
  constructor
  · intro hv
    have hv := Option.some.inj hv
    subst hv
    have n1 : ¬ Earlier a b c a' b' c' := fun q => lt_irrefl _ (o.mpr q)
    have n2 : ¬ Earlier a' b' c' a b c := fun q => lt_irrefl _ (o'.mpr q)
    unfold Earlier at n1 n2
    omega
  · rintro ⟨rfl, rfl, rfl⟩
    have := (getVerText_version hf h ha hb hc).symm.trans e
    have h2 := (getVerText_version hf h' ha hb hc).symm.trans e'
    rw [← this, ← h2]

/-- **C111** Whatever text is accepted, the text shown for it is a version with parts below 100 and is
accepted as the same number: `require('x', verStr)` asks for what `verStr` shows. -/
theorem C111_shown_text_is_accepted {fl : ℚ → ℚ} (hf : Rounds fl) {t : List UInt8} {v : ℚ} (h : getVerText fl t = some v) :
    ∃ a b c, a < 100 ∧ b < 100 ∧ c < 100 ∧ verStr fl v = dotted a b c ∧ getVerText fl (verStr fl v) = some v := by
  unfold getVerText at h
  split at h
  · split at h
    · cases h
    · rename_i a b c _
      split at h
      · cases h
      · rename_i hl
        have ha : a < 100 := by omega
        have hb : b < 100 := by omega
        have hc : c < 100 := by omega
        have hv := Option.some.inj h
        unfold normal at hv
        rw [combine_units hf ha hb hc] at hv
        subst hv
        refine ⟨a, b, c, ha, hb, hc, verStr_fl hf ha hb hc, ?_⟩
        rw [verStr_fl hf ha hb hc, getVerText_version hf (version_dotted a b c) ha hb hc]
  · cases h

/-- **C111** A number is taken as a version exactly when it is at least 0 and below 100 (and for `provide` not 0),
and then as it is. -/
theorem C111_number_range (provide : Bool) (n v : ℚ) :
    getVerNum provide n = some v ↔ v = n ∧ 0 ≤ n ∧ n < 100 ∧ (provide = true → 0 < n) := by
  unfold getVerNum
  constructor
  · intro h
    split at h
    · cases h
    · rename_i hc
      have hv := Option.some.inj h
      have h0 : 0 ≤ n := not_lt.mp fun x => hc (Or.inl x)
      refine ⟨hv.symm, h0, not_le.mp fun x => hc (Or.inr (Or.inr x)), fun hp => lt_of_le_of_ne h0 fun x => hc (Or.inr (Or.inl ⟨hp, x.symm⟩))⟩
  · rintro ⟨rfl, h0, h1, h2⟩
    rw [if_neg]
    rintro (x | ⟨hp, x⟩ | x)
    · exact absurd x (not_lt.mpr h0)
    · exact absurd (h2 hp) (by rw [x]; exact lt_irrefl 0)
    · exact absurd x (not_le.mpr h1)

/-- **C111** A version given as a number below 99.9999 is normalised to one that is shown as `a.b.c` with parts
below 100, and that text stands for the same version. -/
theorem C111_number_partial {fl : ℚ → ℚ} (hf : Rounds fl) {n : ℚ} (h0 : 0 ≤ n) (hn : n ≤ 999999 / 10000) :
    ∃ a b c, a < 100 ∧ b < 100 ∧ c < 100 ∧ verStr fl (normal fl n) = dotted a b c ∧ getVerText fl (dotted a b c) = some (normal fl n) := by
  have hk : units fl n < 1000000 := by
    have ha := near hf (x := n * 10000) (by positivity)
    norm_num at ha
    have hb0 : 0 ≤ fl (n * 10000) := by linarith [ha.1]
    have hb := near hf (x := 1 / 2 + fl (n * 10000)) (by linarith)
    norm_num at hb
    unfold units
    rw [Nat.floor_lt (by norm_num; linarith [hb.1])]
    norm_num
    linarith [ha.2, hb.2]
  have ha : units fl n / 10000 < 100 := by omega
  have hb : units fl n % 10000 / 100 < 100 := by omega
  have hc : units fl n % 100 < 100 := by omega
  have e : units fl n / 10000 * 10000 + units fl n % 10000 / 100 * 100 + units fl n % 100 = units fl n := by omega
  refine ⟨_, _, _, ha, hb, hc, ?_, ?_⟩
  · have := verStr_fl hf ha hb hc
    rw [e] at this
    exact this
  · rw [getVerText_version hf (version_dotted _ _ _) ha hb hc, e]; rfl

/-- Exact arithmetic is within the assumption… -/
theorem rounds_id : Rounds id := by
  intro x hx
  simp only [id, sub_self, abs_zero]
  positivity

/-- … and so is cutting the significand off after 52 bits. -/
def cut (x : ℚ) : ℚ := if x ≤ 0 then 0 else (⌊x / (2 : ℚ) ^ (Int.log 2 x - 52)⌋ : ℚ) * (2 : ℚ) ^ (Int.log 2 x - 52)

theorem rounds_cut : Rounds cut := by
  intro x hx
  unfold cut
  split
  · have : x = 0 := le_antisymm ‹_› hx
    subst this; simp
  · rename_i hx'
    have hx' : 0 < x := lt_of_not_ge hx'
    have hu : (0 : ℚ) < (2 : ℚ) ^ (Int.log 2 x - 52) := zpow_pos (by norm_num) _
    generalize hU : (2 : ℚ) ^ (Int.log 2 x - 52) = u at hu
    have hl : (2 : ℚ) ^ Int.log 2 x ≤ x := by exact_mod_cast Int.zpow_log_le_self (b := 2) (by norm_num) hx'
    have hu2 : u ≤ x / 2 ^ 52 := by
      rw [← hU, zpow_sub₀ (by norm_num)]
      have : (2 : ℚ) ^ (52 : ℤ) = 2 ^ 52 := by norm_cast
      rw [this]
      exact div_le_div_of_nonneg_right hl (by positivity)
    have f1 := Int.floor_le (x / u)
    have f2 := Int.lt_floor_add_one (x / u)
    have g1 : (⌊x / u⌋ : ℚ) * u ≤ x := by
      have := mul_le_mul_of_nonneg_right f1 (le_of_lt hu)
      rwa [div_mul_cancel₀ _ (ne_of_gt hu)] at this
    have g2 : x < (⌊x / u⌋ : ℚ) * u + u := by
      have := mul_lt_mul_of_pos_right f2 hu
      rw [div_mul_cancel₀ _ (ne_of_gt hu)] at this
      linarith
    rw [abs_le]
    norm_num at hu2 ⊢
    constructor <;> linarith

/-- The hypotheses are met: `1.2.10` is later than `1.2.9`, as numbers too, although as texts it is not. -/
example : ∃ v v', getVerText cut (asc "1.2.9") = some v ∧ getVerText cut (asc "1.2.10") = some v' ∧ v < v' := by
  have h1 : Version (asc "1.2.9") 1 2 9 :=
    ⟨asc "1", by refine ⟨?_, ?_, ?_⟩ <;> decide, Or.inr ⟨asc "2", by refine ⟨?_, ?_, ?_⟩ <;> decide, Or.inr ⟨asc "9", by refine ⟨?_, ?_, ?_⟩ <;> decide, by decide⟩⟩⟩
  have h2 : Version (asc "1.2.10") 1 2 10 :=
    ⟨asc "1", by refine ⟨?_, ?_, ?_⟩ <;> decide, Or.inr ⟨asc "2", by refine ⟨?_, ?_, ?_⟩ <;> decide, Or.inr ⟨asc "10", by refine ⟨?_, ?_, ?_⟩ <;> decide, by decide⟩⟩⟩
  obtain ⟨v, v', e, e', o⟩ := C111_order_partial rounds_cut h1 h2 (by omega) (by omega) (by omega) (by omega) (by omega) (by omega)
  exact ⟨v, v', e, e', o.mpr (by unfold Earlier; omega)⟩

/-- `1.2` is `1.2.0`. -/
example : Version (asc "1.2") 1 2 0 :=
  ⟨asc "1", by refine ⟨?_, ?_, ?_⟩ <;> decide, Or.inr ⟨asc "2", by refine ⟨?_, ?_, ?_⟩ <;> decide, Or.inl ⟨by decide, rfl⟩⟩⟩

/-- **C111 refuted** Texts that are not versions are accepted: everything after the third number is ignored,
and so is everything after two points in a row. -/
theorem C111_junk_refuted (fl : ℚ → ℚ) :
    getVerText fl (asc "1.2.3.4.5") = getVerText fl (asc "1.2.3") ∧ getVerText fl (asc "2..9") = getVerText fl (asc "2") ∧
    (getVerText fl (asc "2..9")).isSome := by
  refine ⟨?_, ?_, ?_⟩
  · have e1 : scan3 (asc "1.2.3.4.5") = some (1, 2, 3) := by decide +kernel
    have e2 : scan3 (asc "1.2.3") = some (1, 2, 3) := by decide +kernel
    have c1 : verChars (asc "1.2.3.4.5") = true := by decide +kernel
    have c2 : verChars (asc "1.2.3") = true := by decide +kernel
    unfold getVerText; rw [e1, e2, c1, c2]
  · have e1 : scan3 (asc "2..9") = some (2, 0, 0) := by decide +kernel
    have e2 : scan3 (asc "2") = some (2, 0, 0) := by decide +kernel
    have c1 : verChars (asc "2..9") = true := by decide +kernel
    have c2 : verChars (asc "2") = true := by decide +kernel
    unfold getVerText; rw [e1, e2, c1, c2]
  · have e1 : scan3 (asc "2..9") = some (2, 0, 0) := by decide +kernel
    have c1 : verChars (asc "2..9") = true := by decide +kernel
    unfold getVerText; rw [e1, c1]; simp

/-- **C111 refuted** A number too large for 32 bits wraps around: version 4294967297 is taken for version 1. -/
theorem C111_wraps_refuted (fl : ℚ → ℚ) :
    getVerText fl (asc "4294967297") = getVerText fl (asc "1") ∧ (getVerText fl (asc "4294967297")).isSome := by
  have e1 : scan3 (asc "4294967297") = some (1, 0, 0) := by decide +kernel
  have e2 : scan3 (asc "1") = some (1, 0, 0) := by decide +kernel
  have c1 : verChars (asc "4294967297") = true := by decide +kernel
  have c2 : verChars (asc "1") = true := by decide +kernel
  constructor
  · unfold getVerText; rw [e1, e2, c1, c2]
  · unfold getVerText; rw [e1, c1]; simp

/-- **C111 refuted** A number accepted as a version can be shown as a text that is not: 99.99999 is below 100
and is accepted, is rounded to 100, shown as `100.0.0`, and `100.0.0` is refused. -/
theorem C111_hundred_refuted {fl : ℚ → ℚ} (hf : Rounds fl) :
    getVerNum true (9999999 / 100000) = some (9999999 / 100000) ∧ verStr fl (normal fl (9999999 / 100000)) = asc "100.0.0" ∧
    getVerText fl (asc "100.0.0") = none := by
  refine ⟨?_, ?_, ?_⟩
  · unfold getVerNum
    rw [if_neg]
    norm_num
  · have e : units fl (9999999 / 100000) = 1000000 := by
      apply units_of_near hf (le_refl _) <;> norm_num
    have e2 : units fl (normal fl (normal fl (9999999 / 100000))) = 1000000 := by
      have : normal fl (9999999 / 100000) = fl (((1000000 : Nat) : ℚ) / 10000) := by unfold normal; rw [e]
      rw [this]
      unfold normal
      rw [units_fl hf (le_refl _), units_fl hf (le_refl _)]
    unfold verStr
    rw [e2]
    decide +kernel
  · have e1 : scan3 (asc "100.0.0") = some (100, 0, 0) := by decide +kernel
    have c1 : verChars (asc "100.0.0") = true := by decide +kernel
    unfold getVerText; rw [e1, c1]; simp

end Verif.Pkg
