import Verif.Number.Props

/-! C162 `toString(radix)` against `parseInt`, C163 `parseInt`, C164 `isInteger` and its companions. -/

namespace Verif.Number

open Verif Verif.Value

/-! ### `strtoll` -/

/-- The first character, if any, is not a digit of base `b`. -/
def Ends (b : Nat) (r : List UInt8) : Prop := ∀ c t, r = c :: t → digVal b c = none

/-- The value of a run of digits in base `b`: the last one counts 1, the one before it `b`, and so on. -/
def baseVal (b : Nat) : List Nat → Nat
  | [] => 0
  | v :: vs => v * b ^ vs.length + baseVal b vs

/-- `ds` are digits of base `b` with values `vs`. -/
def DigitsOf (b : Nat) (ds : List UInt8) (vs : List Nat) : Prop := ds.map (digVal b) = vs.map some

theorem readDigits_run {b : Nat} {r : List UInt8} (hr : Ends b r) : ∀ (ds : List UInt8) (vs : List Nat) (acc : Nat),
    DigitsOf b ds vs → readDigits b acc (ds ++ r) = acc * b ^ vs.length + baseVal b vs := by
  intro ds
  induction ds with
  | nil =>
    intro vs acc h
    have : vs = [] := by
      cases vs with
      | nil => rfl
      | cons a t => cases h
    subst this
    cases r with
    | nil => simp [readDigits, baseVal]
    | cons c t => simp [readDigits, baseVal, hr c t rfl]
  | cons c ds ih =>
    intro vs acc h
    cases vs with
    | nil => cases h
    | cons v vs =>
      unfold DigitsOf at h
      rw [List.map_cons, List.map_cons, List.cons.injEq] at h
      rw [List.cons_append, readDigits, h.1]
      simp only []
      rw [ih vs _ h.2, baseVal, List.length_cons, pow_succ]
      ring

theorem digVal_x (b : Nat) (hb : b ≤ 33) : digVal b 120 = none ∧ digVal b 88 = none := by
  unfold digVal; simp; omega

/-- No `0x` or `0X` at the beginning. -/
def NoHex (s : List UInt8) : Prop := ∀ c t, s = 48 :: c :: t → isX c = false

theorem readMag_run {b : Nat} (hb : 2 ≤ b) {s : List UInt8} (h : NoHex s) : readMag b s = readDigits b 0 s := by
  unfold readMag
  split
  · rename_i x t
    have := h x t rfl
    rw [this]
    have hd : digVal b 48 = some 0 := by unfold digVal; simp; omega
    rw [if_neg (by simp), if_neg (by omega)]
    conv => rhs; rw [readDigits, hd]
    simp
  · rw [if_neg (by omega)]

/-- A sign: nothing, `+` or `-`. -/
inductive Sign : List UInt8 → Int → Prop
  | none : Sign [] 1
  | plus : Sign [43] 1
  | minus : Sign [45] (-1)

theorem digVal_mono {b : Nat} (hb : b ≤ 36) {c : UInt8} {v : Nat} (h : digVal b c = some v) : digVal 36 c = some v := by
  unfold digVal at *
  simp only [] at *
  generalize (if 48 ≤ c ∧ c ≤ 57 then c.toNat - 48 else if 97 ≤ c ∧ c ≤ 122 then c.toNat - 87
    else if 65 ≤ c ∧ c ≤ 90 then c.toNat - 55 else 99) = w at *
  split at h
  · rename_i hw
    rw [if_pos (by omega)]; exact h
  · cases h

theorem digit_notsign {b : Nat} (hb : b ≤ 36) {c : UInt8} {v : Nat} (h : digVal b c = some v) :
    c ≠ 43 ∧ c ≠ 45 ∧ isSpace c = false := by
  have key : ∀ c : UInt8, digVal 36 c ≠ none → c ≠ 43 ∧ c ≠ 45 ∧ isSpace c = false := by
    intro c
    have : ∀ k < 256, digVal 36 (UInt8.ofNat k) ≠ none → UInt8.ofNat k ≠ 43 ∧ UInt8.ofNat k ≠ 45 ∧ isSpace (UInt8.ofNat k) = false := by
      decide +kernel
    have h2 := this c.toNat c.toNat_lt
    simpa using h2
  apply key
  rw [digVal_mono hb h]; simp

theorem dropWhile_blanks (bl s : List UInt8) (hb : ∀ c ∈ bl, isSpace c = true) (hs : ∀ c t, s = c :: t → isSpace c = false) :
    (bl ++ s).dropWhile isSpace = s := (Fmt.takeWhile_run (p := isSpace) bl s hb hs).2

theorem strtoll_run {b : Nat} (hb2 : 2 ≤ b) (hb : b ≤ 36) {bl sg ds r : List UInt8} {vs : List Nat} {σ : Int}
    (hbl : ∀ c ∈ bl, isSpace c = true) (hsg : Sign sg σ) (hd : DigitsOf b ds vs) (hne : ds ≠ []) (hr : Ends b r)
    (hx : NoHex (ds ++ r)) : strtoll b (bl ++ (sg ++ (ds ++ r))) = clamp (σ * baseVal b vs) := by
  have hrun := readDigits_run hr ds vs 0 hd
  have hmag := readMag_run hb2 hx
  rw [hrun] at hmag
  have hmag' : readMag b (ds ++ r) = baseVal b vs := by rw [hmag]; omega
  obtain ⟨c, ds', rfl⟩ : ∃ c ds', ds = c :: ds' := by
    cases ds with
    | nil => exact absurd rfl hne
    | cons c t => exact ⟨c, t, rfl⟩
  have hc : ∃ v, digVal b c = some v := by
    cases vs with
    | nil => cases hd
    | cons v vs =>
      unfold DigitsOf at hd
      rw [List.map_cons, List.map_cons, List.cons.injEq] at hd
      exact ⟨v, hd.1⟩
  obtain ⟨v, hv⟩ := hc
  obtain ⟨n1, n2, n3⟩ := digit_notsign hb hv
  have hdrop := dropWhile_blanks bl (sg ++ (c :: ds' ++ r)) hbl (by
    intro c' t e
    cases hsg with
    | none => rw [List.nil_append, List.cons_append] at e; cases e; exact n3
    | plus => cases e; decide
    | minus => cases e; decide)
  unfold strtoll
  rw [hdrop]
  cases hsg with
  | none =>
    rw [List.nil_append]
    generalize hs : c :: ds' ++ r = s at *
    split
    · cases hs; exact absurd rfl n2
    · cases hs; exact absurd rfl n1
    · rw [hmag']; congr 1; omega
  | plus => simp only [List.cons_append, List.nil_append] at hmag' ⊢; rw [hmag']; congr 1; omega
  | minus => simp only [List.cons_append, List.nil_append] at hmag' ⊢; rw [hmag']; congr 1; omega

theorem wideBack_small (k : Int) (h : k.natAbs ≤ 2 ^ 53) : wideBack (ofInt k) = whole k := by
  rw [ofInt_double k (isDouble_small k h)]
  unfold wideBack
  have : isNaN (whole k) = false := rfl
  rw [this, toWide_whole k (by omega), ofInt_double k (isDouble_small k h)]
  rfl

theorem clamp_small (k : Int) (h : k.natAbs ≤ 2 ^ 53) : clamp k = k := by
  unfold clamp
  rw [if_neg (by omega), if_neg (by omega)]

theorem sign_small {sg : List UInt8} {σ : Int} (h : Sign sg σ) (n : Nat) (hn : n ≤ 2 ^ 53) : (σ * (n : Int)).natAbs ≤ 2 ^ 53 := by
  cases h <;> omega

/-! ### C163: `parseInt` -/

theorem parseInt_some (s : List UInt8) (b : Int) (h : ∀ t, s ≠ 48 :: 120 :: t) (h1 : 2 ≤ b) (h2 : b ≤ 36) :
    parseInt (.str s) (some b) = some (wideBack (ofInt (strtoll b.toNat s))) := by
  have hn : ¬ (b < 2 ∨ 36 < b) := by omega
  rcases s with _ | ⟨c, _ | ⟨d, t⟩⟩
  · simp only [parseInt, parseIntStr, hn, if_false]
  · simp only [parseInt, parseIntStr, hn, if_false]
  · by_cases hc : c = 48 ∧ d = 120
    · exact absurd (by rw [hc.1, hc.2]) (h t)
    · have : parseInt (.str (c :: d :: t)) (some b) =
          if b < 2 ∨ 36 < b then none else some (wideBack (ofInt (strtoll b.toNat (c :: d :: t)))) := by
        show parseIntStr _ _ = _
        unfold parseIntStr
        split
        · rename_i heq; exact absurd ⟨(List.cons.inj heq).1, (List.cons.inj (List.cons.inj heq).2).1⟩ hc
        · rename_i heq; cases heq
        · rename_i heq _ _; cases heq
        · rename_i heq _; cases heq; rfl
      rw [this, if_neg hn]

theorem parseInt_none (s : List UInt8) (h : ∀ t, s ≠ 48 :: t) :
    parseInt (.str s) none = some (wideBack (toNumberInt s)) := by
  cases s with
  | nil => rfl
  | cons c t =>
    have hc : c ≠ 48 := fun e => h t (by rw [e])
    show parseIntStr _ _ = _
    unfold parseIntStr
    split
    · rename_i heq; exact absurd (List.cons.inj heq).1 hc
    · rename_i heq _ _ ; first | exact absurd (List.cons.inj heq).1 hc | (rename_i h2 _; exact absurd (List.cons.inj h2).1 hc) | (rename_i h2; exact absurd (List.cons.inj h2).1 hc)
    · rfl
    · rename_i heq _; cases heq

/-- A blank: space, tab, line feed, vertical tab, form feed, carriage return. -/
def Blank (c : UInt8) : Prop := c ∈ [(32 : UInt8), 9, 10, 11, 12, 13]

theorem blank_space {c : UInt8} (h : Blank c) : isSpace c = true := by
  unfold Blank at h
  simp at h
  rcases h with rfl | rfl | rfl | rfl | rfl | rfl <;> decide

/-- **C163** (with a base): blanks, a sign, digits of the base, and then anything that is not a digit: the value of the digits, with
the sign, as long as it does not exceed 2^53 and the text has no `0x`. -/
theorem C163_parseInt_base_partial {b : Nat} (hb2 : 2 ≤ b) (hb : b ≤ 36) {bl sg ds r : List UInt8} {vs : List Nat} {σ : Int}
    (hbl0 : ∀ c ∈ bl, Blank c) (hsg : Sign sg σ) (hd : DigitsOf b ds vs) (hne : ds ≠ []) (hr : Ends b r)
    (hx : NoHex (ds ++ r)) (hv : baseVal b vs ≤ 2 ^ 53) :
    parseInt (.str (bl ++ (sg ++ (ds ++ r)))) (some b) = some (whole (σ * baseVal b vs)) := by
  have hbl : ∀ c ∈ bl, isSpace c = true := fun c hc => blank_space (hbl0 c hc)
  have hs := strtoll_run hb2 hb hbl hsg hd hne hr hx
  have hsm := sign_small hsg _ hv
  rw [clamp_small _ hsm] at hs
  have h0x : ∀ t, bl ++ (sg ++ (ds ++ r)) ≠ 48 :: 120 :: t := by
    intro t e
    cases bl with
    | cons c bl =>
      rw [List.cons_append] at e
      have e1 := (List.cons.inj e).1
      have := hbl c (by simp)
      rw [e1] at this
      exact absurd this (by decide)
    | nil =>
      cases hsg with
      | none => exact absurd (hx 120 t e) (by decide)
      | plus => cases e
      | minus => cases e
  rw [parseInt_some _ _ h0x (by omega) (by omega), Int.toNat_natCast, hs, wideBack_small _ hsm]

/-- `"  -7F!"` in base 16. -/
example : (∀ c ∈ asc "  ", Blank c) ∧ Sign (asc "-") (-1) ∧ DigitsOf 16 (asc "7F") [7, 15] ∧ Ends 16 (asc "!") ∧
    NoHex (asc "7F" ++ asc "!") ∧ baseVal 16 [7, 15] = 127 := by
  refine ⟨by unfold Blank; decide, .minus, by unfold DigitsOf; decide, ?_, ?_, by decide⟩
  · intro c t h; cases h; decide
  · intro c t h; cases h

theorem toNumberInt_run {ds r : List UInt8} {vs : List Nat} (hd : DigitsOf 10 ds vs) (hr : Ends 10 r)
    (c : UInt8) (t : List UInt8) (hc : ds = c :: t) (h1 : 49 ≤ c ∧ c ≤ 57) (hv : baseVal 10 vs ≤ 2 ^ 53) :
    toNumberInt (ds ++ r) = whole (baseVal 10 vs) := by
  have hne0 : c ≠ 48 := by intro e; subst e; exact absurd h1.1 (by decide)
  have hx : NoHex (ds ++ r) := by
    intro c' t' e
    rw [hc, List.cons_append] at e
    exact absurd (List.cons.inj e).1 hne0
  have h0 : strtoll 0 (ds ++ r) = strtoll 10 (ds ++ r) := by
    subst hc
    have n : c ≠ 43 ∧ c ≠ 45 ∧ isSpace c = false := by
      have : digVal 10 c ≠ none := by
        cases vs with
        | nil => cases hd
        | cons v vs =>
          unfold DigitsOf at hd
          rw [List.map_cons, List.map_cons, List.cons.injEq] at hd
          rw [hd.1]; simp
      cases hdv : digVal 10 c with
      | none => exact absurd hdv this
      | some v => exact digit_notsign (by decide) hdv
    unfold strtoll
    rw [List.cons_append]
    have : (c :: (t ++ r)).dropWhile isSpace = c :: (t ++ r) := by rw [List.dropWhile_cons, n.2.2]; simp
    rw [this]
    have hm : readMag 0 (c :: (t ++ r)) = readMag 10 (c :: (t ++ r)) := by
      generalize t ++ r = u
      unfold readMag
      split
      · rename_i e; exact absurd (List.cons.inj e).1 hne0
      · rfl
    generalize t ++ r = u at *
    split
    · rename_i e; exact absurd (List.cons.inj e).1 n.2.1
    · rename_i e; exact absurd (List.cons.inj e).1 n.1
    · rw [hm]
  have hs := strtoll_run (b := 10) (by decide) (by decide) (bl := []) (sg := []) (σ := 1) (by intro c h; cases h) .none hd
    (by rw [hc]; simp) hr hx
  rw [List.nil_append, List.nil_append, Int.one_mul, clamp_small _ (by omega)] at hs
  have hisd : Fmt.isDig c = true := by
    unfold Fmt.isDig
    have : (48 : UInt8) ≤ c := by
      have := h1.1
      rw [UInt8.le_iff_toNat_le] at this ⊢
      exact Nat.le_trans (by decide) this
    simp [this, h1.2]
  unfold toNumberInt
  rw [hc, List.cons_append]
  simp only [hisd, if_true]
  rw [← List.cons_append, ← hc, h0, hs]
  have := wideBack_small (baseVal 10 vs : Int) (by omega)
  have e2 : isNaN (ofInt (baseVal 10 vs : Int)) = false := by
    rw [ofInt_double _ (isDouble_small _ (by omega))]; rfl
  unfold wideBack at this
  rw [e2, if_neg (by simp)] at this
  exact this

/-- **C163** (without a base): decimal digits that do not begin with 0, then anything that is not a digit. -/
theorem C163_parseInt_plain_partial {ds r : List UInt8} {vs : List Nat} (hd : DigitsOf 10 ds vs) (hr : Ends 10 r)
    (c : UInt8) (t : List UInt8) (hc : ds = c :: t) (h1 : 49 ≤ c ∧ c ≤ 57) (hv : baseVal 10 vs ≤ 2 ^ 53) :
    parseInt (.str (ds ++ r)) none = some (whole (baseVal 10 vs)) := by
  have hn := toNumberInt_run hd hr c t hc h1 hv
  have hne0 : c ≠ 48 := by intro e; subst e; exact absurd h1.1 (by decide)
  have h2 : wideBack (whole (baseVal 10 vs)) = whole (baseVal 10 vs) := by
    have := wideBack_small (baseVal 10 vs : Int) (by omega)
    rw [ofInt_double _ (isDouble_small _ (by omega))] at this
    exact this
  have h48 : ∀ u, ds ++ r ≠ 48 :: u := by
    intro u e
    rw [hc, List.cons_append] at e
    exact hne0 (List.cons.inj e).1
  rw [parseInt_none _ h48, hn, h2]

example : DigitsOf 10 (asc "42") [4, 2] ∧ Ends 10 (asc "px") ∧ baseVal 10 [4, 2] = 42 := by
  refine ⟨by unfold DigitsOf; decide, ?_, by decide⟩
  intro c t h; cases h; decide

/-- **C163** (numbers): the argument may be a number; below 2^63 it loses its fraction. -/
theorem C163_number (m : Int) (h : m.natAbs / one ≤ 2 ^ 53) :
    parseInt (.num (.fin m)) none = some (whole (if m < 0 then -((m.natAbs / one : Nat) : Int) else (m.natAbs / one : Nat))) := by
  have e : toWide (.fin m) = (if m < 0 then -((m.natAbs / one : Nat) : Int) else (m.natAbs / one : Nat)) := by
    unfold toWide
    simp only []
    rw [if_pos (by omega)]
  have hs : (toWide (.fin m)).natAbs ≤ 2 ^ 53 := by
    rw [e]
    generalize m.natAbs / one = x at *
    split <;> omega
  unfold parseInt wideBack
  have : isNaN (.fin m) = false := rfl
  simp only [this]
  rw [if_neg (by simp), ofInt_double _ (isDouble_small _ hs), e]

/-- **C163** refuted: a negative number needs a base. -/
theorem C163_negative_refuted : parseInt (.str (asc "-5")) none = some .nan ∧
    parseInt (.str (asc "-5")) (some 10) = some (whole (-5)) := by decide +kernel

/-- **C163** refuted: so does a number after a blank. -/
theorem C163_blank_refuted : parseInt (.str (asc " 5")) none = some .nan ∧
    parseInt (.str (asc " 5")) (some 10) = some (whole 5) := by decide +kernel

/-- **C163** refuted: the default base is said to be 10 (src/jsiCmds.c 5200), but a leading 0 makes the text octal. -/
theorem C163_octal_refuted : parseInt (.str (asc "016")) none = some (whole 14) ∧
    parseInt (.str (asc "09")) none = some (whole 0) ∧ parseInt (.str (asc "016")) (some 10) = some (whole 16) := by decide +kernel

/-- **C163** refuted: with a base, a text without any digit is 0, not NaN. -/
theorem C163_garbage_refuted : parseInt (.str (asc "xyz")) (some 10) = some (whole 0) ∧
    parseInt (.str (asc "")) (some 10) = some (whole 0) := by decide +kernel

/-- **C163** refuted: too large a number becomes the least one: `parseInt("9999999999999999999", 10)` is -9223372036854775808,
and so are 1e20 and Infinity. -/
theorem C163_large_refuted : parseInt (.str (asc "9999999999999999999")) (some 10) = some (whole (-9223372036854775808)) ∧
    parseInt (.num (whole (10 ^ 20))) none = some (whole (-9223372036854775808)) ∧
    parseInt (.num (.inf false)) none = some (whole (-9223372036854775808)) := by decide +kernel

/-! ### C164 -/

/-- **C164**: NaN and only NaN is NaN; the finite numbers and only they are finite. -/
theorem C164_nan_finite (n : Num) : (isNaN n = true ↔ n = .nan) ∧ (isFinite n = true ↔ ∃ m, n = .fin m) := by
  cases n with
  | nan => simp [isNaN, isFinite]
  | inf b => cases b <;> simp [isNaN, isFinite, numEq, negate]
  | fin m => simp [isNaN, isFinite, numEq, negate]

theorem ofInt_whole (k : Int) (m : Int) (h : ofInt k = .fin m) : ∃ j : Int, m = j * one := by
  have key : ∀ n : Nat, ∃ j : Nat, roundNat (n * one) = j * one := by
    intro n
    by_cases hn : n < 2 ^ 53
    · exact ⟨n, by unfold one; exact Opt.roundNat_exact _ _ hn⟩
    · rw [← roundRat_one]
      unfold roundRat
      rw [Nat.div_one]
      have h1 : 2 ^ 1127 ≤ n * one := by
        have e : 2 ^ 1127 = 2 ^ 53 * one := by unfold one; rw [← Nat.pow_add]
        rw [e]; exact Nat.mul_le_mul_right _ (by omega)
      have h0 : n * one ≠ 0 := by
        have : 0 < n * one := Nat.mul_pos (by omega) one_pos
        omega
      have h2 : 1127 ≤ log2 (n * one) := (Nat.le_log2 h0).2 h1
      generalize log2 (n * one) = l at *
      refine ⟨roundDiv (n * one) (1 * 2 ^ (l - 52)) * 2 ^ (l - 52 - 1074), ?_⟩
      have e : 2 ^ (l - 52) = 2 ^ (l - 52 - 1074) * one := by
        unfold one; rw [← Nat.pow_add, show l - 52 - 1074 + 1074 = l - 52 from by omega]
      rw [Nat.mul_assoc, ← e]
  obtain ⟨j, hj⟩ := key k.natAbs
  unfold ofInt roundNum at h
  rw [whole_natAbs, hj] at h
  split at h
  · cases h
  · cases h
    split
    · exact ⟨-j, by push_cast; ring⟩
    · exact ⟨j, by push_cast; ring⟩

/-- **C164** (`isInteger`): what it accepts is whole; and every whole number below 2^63 is accepted. -/
theorem C164_isInteger_partial (n : Num) : (isInteger n = true → ∃ k, n = whole k) ∧
    (∀ k : Int, n = whole k → IsDouble n → k.natAbs < 2 ^ 63 → isInteger n = true) := by
  refine ⟨?_, ?_⟩
  · intro h
    have h2 := (numText_integer n h).2
    cases n with
    | nan => unfold ofInt roundNum at h2; split at h2 <;> cases h2
    | inf b =>
      unfold isInteger at h
      rw [if_neg (by simp [cNormal])] at h
      cases h
    | fin m =>
      obtain ⟨j, hj⟩ := ofInt_whole _ m h2
      exact ⟨j, by rw [hj]; rfl⟩
  · intro k hk hd hs
    subst hk
    exact isInteger_whole k hs hd

example : IsDouble (whole (-77)) ∧ (-77 : Int).natAbs < 2 ^ 63 := ⟨isDouble_small _ (by decide), by decide⟩

/-- **C164** (`isInteger`) refuted for the large numbers: 2^70 is whole. -/
theorem C164_isInteger_refuted : IsDouble (whole (2 ^ 70)) ∧ isInteger (whole (2 ^ 70)) = false := by
  refine ⟨⟨?_, by unfold limit; decide +kernel⟩, by decide +kernel⟩
  rw [whole_natAbs]
  have e : (2 ^ 70 : Int).natAbs * one = 1 * 2 ^ 1144 := by
    have : (2 ^ 70 : Int).natAbs = 2 ^ 70 := by decide
    rw [this, Nat.one_mul]; unfold one; rw [← Nat.pow_add]
  rw [e]; exact Opt.roundNat_exact 1 1144 (by decide)

/-- **C164** (`isSafeInteger`): the whole numbers up to 2^53 - 1, and nothing else. -/
theorem C164_isSafeInteger (n : Num) : isSafeInteger n = true ↔ ∃ k : Int, k.natAbs ≤ 2 ^ 53 - 1 ∧ n = whole k := by
  unfold isSafeInteger
  rw [Bool.and_eq_true]
  constructor
  · rintro ⟨h1, h2⟩
    obtain ⟨k, hk⟩ := (C164_isInteger_partial n).1 h1
    subst hk
    refine ⟨k, ?_, rfl⟩
    unfold absLe53 whole at h2
    simp only [whole_natAbs, decide_eq_true_eq] at h2
    have h3 : k.natAbs ≤ 9007199254740991 := Nat.le_of_mul_le_mul_right h2 one_pos
    omega
  · rintro ⟨k, hk, rfl⟩
    refine ⟨isInteger_whole k (by omega) (isDouble_small k (by omega)), ?_⟩
    unfold absLe53 whole
    simp only [whole_natAbs, decide_eq_true_eq]
    have h3 : k.natAbs ≤ 9007199254740991 := by omega
    exact Nat.mul_le_mul_right _ h3

/-! ### C162: `toString(radix)` and `parseInt` -/

theorem toU64_nat (n : Nat) (h : n ≤ 2 ^ 53) : toU64 (n : Int) = n := by
  unfold toU64; omega

theorem dv_eq (b : Nat) (c : UInt8) : digVal b c = Fmt.digVal b c := rfl

theorem rd_eq (b : Nat) (s : List UInt8) : ∀ acc, readDigits b acc s = Fmt.readDigits b acc s := by
  induction s with
  | nil => intro acc; rfl
  | cons c t ih =>
    intro acc
    rw [readDigits, Fmt.readDigits, dv_eq]
    cases Fmt.digVal b c with
    | none => rfl
    | some v => exact ih _

/-- The values of the digits of a number. -/
theorem digits_values {b : Nat} (hb : b = 8 ∨ b = 10 ∨ b = 16) (n : Nat) : ∃ vs, DigitsOf b (Fmt.digits b false n) vs := by
  have h2 : 2 ≤ b := by omega
  induction n using Nat.strongRecOn with
  | _ n ih =>
    by_cases h : n < b
    · rw [Fmt.digits_lt h]
      exact ⟨[n], by unfold DigitsOf; simp only [List.map_cons, List.map_nil, dv_eq, Fmt.digVal_ok hb false h]⟩
    · rw [Fmt.digits_ge h2 (by omega)]
      obtain ⟨vs, hv⟩ := ih (n / b) (Nat.div_lt_self (by omega) (by omega))
      refine ⟨vs ++ [n % b], ?_⟩
      unfold DigitsOf at *
      rw [List.map_append, List.map_append, hv]
      simp only [List.map_cons, List.map_nil, dv_eq, Fmt.digVal_ok hb false (Nat.mod_lt n (by omega))]

theorem digits_baseVal {b : Nat} (hb : b = 8 ∨ b = 10 ∨ b = 16) (n : Nat) (vs : List Nat)
    (h : DigitsOf b (Fmt.digits b false n) vs) : baseVal b vs = n := by
  have h1 := readDigits_run (b := b) (r := []) (by intro c t e; cases e) _ vs 0 h
  have h2 := Fmt.readDigits_digits hb false n []
  rw [rd_eq, h2] at h1
  simp only [Fmt.readDigits] at h1
  omega

theorem digits_noHex {b : Nat} (hb : b = 8 ∨ b = 10 ∨ b = 16) (n : Nat) : NoHex (Fmt.digits b false n ++ []) := by
  intro c t e
  rw [List.append_nil] at e
  obtain ⟨vs, hv⟩ := digits_values hb n
  have hm : c ∈ Fmt.digits b false n := by rw [e]; simp
  have : ∃ v, digVal b c = some v := by
    have h1 : digVal b c ∈ (Fmt.digits b false n).map (digVal b) := List.mem_map_of_mem hm
    rw [hv] at h1
    obtain ⟨v, _, hv⟩ := List.mem_map.1 h1
    exact ⟨v, hv.symm⟩
  obtain ⟨v, hv⟩ := this
  unfold isX
  by_contra hc
  rw [Bool.not_eq_false, Bool.or_eq_true, beq_iff_eq, beq_iff_eq] at hc
  have hx := digVal_x b (by omega)
  rcases hc with rfl | hc
  · rw [hx.1] at hv; cases hv
  · rw [hc, hx.2] at hv; cases hv

/-- **C162**: a whole number from 0 to 2^53 printed in base 8, 10 or 16 is read back by `parseInt` in that base. -/
theorem C162_radix_round_trip_partial {b : Nat} (hb : b = 8 ∨ b = 10 ∨ b = 16) (n : Nat) (hn : n ≤ 2 ^ 53) :
    ∃ t, toStringCmd (whole n) (some b) = some t ∧ parseInt (.str t) (some b) = some (whole n) := by
  refine ⟨Fmt.digits b false n, ?_, ?_⟩
  · unfold toStringCmd
    simp only []
    rw [if_neg (by omega), toWide_whole _ (by omega), toU64_nat n hn, Fmt.showInt_nonneg]
    rcases hb with rfl | rfl | rfl <;> simp
  · obtain ⟨vs, hv⟩ := digits_values hb n
    have hbv := digits_baseVal hb n vs hv
    have := C163_parseInt_base_partial (b := b) (by omega) (by omega) (bl := []) (sg := []) (r := []) (σ := 1)
      (by intro c h; cases h) .none hv (Fmt.digits_ne_nil _ _ _) (by intro c t e; cases e) (digits_noHex hb n) (by omega)
    rw [hbv, Int.one_mul, List.append_nil] at this
    exact this

/-- **C162** (base 10, negative numbers). -/
theorem C162_decimal_round_trip_partial (k : Int) (h : k.natAbs ≤ 2 ^ 53) :
    ∃ t, toStringCmd (whole k) (some 10) = some t ∧ parseInt (.str t) (some 10) = some (whole k) := by
  by_cases hk : 0 ≤ k
  · obtain ⟨n, rfl⟩ := Int.eq_ofNat_of_zero_le hk
    exact C162_radix_round_trip_partial (b := 10) (by omega) n (by simpa using h)
  · refine ⟨Fmt.showInt k, ?_, ?_⟩
    · unfold toStringCmd
      simp only []
      rw [if_neg (by omega), if_neg (by omega), if_neg (by omega), if_pos trivial, toWide_whole _ (by omega)]
    · have hb : (10 : Nat) = 8 ∨ (10 : Nat) = 10 ∨ (10 : Nat) = 16 := by omega
      obtain ⟨vs, hv⟩ := digits_values hb k.natAbs
      have hbv := digits_baseVal hb k.natAbs vs hv
      have := C163_parseInt_base_partial (b := 10) (by omega) (by omega) (bl := []) (sg := [45]) (r := []) (σ := -1)
        (by intro c h; cases h) .minus hv (Fmt.digits_ne_nil _ _ _) (by intro c t e; cases e) (digits_noHex hb k.natAbs) (by omega)
      have e : -1 * (k.natAbs : Int) = k := by omega
      rw [hbv, e, List.append_nil] at this
      unfold Fmt.showInt
      rw [if_pos (by omega)]
      exact this

/-- **C162** refuted for negative numbers in base 16 or 8: the two's complement of 64 bits is printed, which reads back as the least
number. -/
theorem C162_negative_refuted : ∃ t, toStringCmd (whole (-1)) (some 16) = some t ∧ t = asc "ffffffffffffffff" ∧
    parseInt (.str t) (some 16) = some (whole (-9223372036854775808)) := by
  refine ⟨asc "ffffffffffffffff", ?_, rfl, by decide +kernel⟩
  decide +kernel

/-- **C162** refuted for the other bases: `(5).toString(2)` is `5`. -/
theorem C162_base_refuted : toStringCmd (whole 5) (some 2) = some (asc "5") ∧ parseInt (.str (asc "5")) (some 2) = some (whole 0) := by
  decide +kernel

/-- **C162** refuted for fractions: `(1.5).toString()` is `1.5`, but naming the default base 10 gives `1`. -/
theorem C162_fraction_refuted : toStringCmd (.fin (3 * 2 ^ 1073)) (some 10) = some (asc "1") ∧
    isInteger (.fin (3 * 2 ^ 1073)) = false := by decide +kernel

end Verif.Number
