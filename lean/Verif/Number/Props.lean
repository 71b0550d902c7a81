import Verif.Number.Text

/-!
C161 a number as text and back, C162 `toString(radix)` and `parseInt`, C163 `parseInt`, C164 `isInteger` and its
companions, C165 `toFixed` and `toPrecision`.
-/

namespace Verif.Number

open Verif Verif.Value

/-! ### Specification -/

/-- `fin m` is a binary64 number: 53 significant bits, below 2^1024. -/
def IsDouble : Num → Prop
  | .fin m => roundNat m.natAbs = m.natAbs ∧ m.natAbs < limit
  | _ => True

/-- The whole number `k` as `double`. -/
def whole (k : Int) : Num := .fin (k * one)

/-- The decimal `D * 10^q` is at least 2^-1022, the least normal number. -/
def NotTiny (D : Nat) (q : Int) : Prop := 2 ^ 52 * 10 ^ (-q).toNat ≤ D * 10 ^ q.toNat * one

/-! ### C161: a number as text and back -/

theorem whole_natAbs (k : Int) : (k * one : Int).natAbs = k.natAbs * one := by
  rw [Int.natAbs_mul]; simp

theorem toWide_whole (k : Int) (h : k.natAbs < 2 ^ 63) : toWide (whole k) = k := by
  unfold toWide whole
  simp only [whole_natAbs, Nat.mul_div_cancel _ one_pos]
  rw [if_pos h]
  have hone : (0 : Int) < one := by exact_mod_cast one_pos
  by_cases hk : k < 0
  · rw [if_pos (Int.mul_neg_of_neg_of_pos hk hone)]; omega
  · rw [if_neg (not_lt.2 (Int.mul_nonneg (by omega) hone.le))]; omega

theorem ofInt_double (k : Int) (h : IsDouble (whole k)) : ofInt k = whole k := by
  obtain ⟨h1, h2⟩ := h
  unfold ofInt whole roundNum
  rw [h1, if_neg (by omega)]
  congr 1
  split <;> omega

theorem isDouble_small (k : Int) (h : k.natAbs ≤ 2 ^ 53) : IsDouble (whole k) := by
  unfold IsDouble whole
  simp only [whole_natAbs]
  have h3 : k.natAbs * one < limit := by
    have : 2 ^ 53 * one < limit := by unfold one limit; decide +kernel
    have : k.natAbs * one ≤ 2 ^ 53 * one := Nat.mul_le_mul_right _ h
    omega
  refine ⟨?_, h3⟩
  rcases Nat.lt_or_ge k.natAbs (2 ^ 53) with h1 | h1
  · unfold one; exact Opt.roundNat_exact _ _ h1
  · have e : k.natAbs = 2 ^ 53 := by omega
    rw [e]
    have e2 : 2 ^ 53 * one = 1 * 2 ^ 1127 := by unfold one; rw [Nat.one_mul, ← Nat.pow_add]
    rw [e2]; exact Opt.roundNat_exact 1 1127 (by decide)

theorem isInteger_whole (k : Int) (h : k.natAbs < 2 ^ 63) (hd : IsDouble (whole k)) : isInteger (whole k) = true := by
  unfold isInteger
  rw [toWide_whole k h, ofInt_double k hd]
  have h1 : numEq (whole k) (whole k) = true := by simp [numEq, whole]
  rw [h1]
  by_cases hk : k = 0
  · subst hk; simp [whole, numEq]
  · have : cNormal (whole k) = true := by
      unfold cNormal whole
      simp only [whole_natAbs, decide_eq_true_eq]
      have h1 : 2 ^ 52 ≤ one := by unfold one; decide +kernel
      exact Nat.le_trans h1 (Nat.le_mul_of_pos_left _ (by omega))
    rw [this]; rfl

theorem numEq_true {a b : Num} (h : numEq a b = true) : a = b := by
  unfold numEq at h
  split at h
  · cases h
  · cases h
  · simpa using h

theorem numText_integer (n : Num) (h : isInteger n = true) : numText n = Fmt.showInt (toWide n) ∧ ofInt (toWide n) = n := by
  refine ⟨by unfold numText; rw [if_pos h], ?_⟩
  unfold isInteger at h
  split at h
  · exact numEq_true h
  · have e := numEq_true h
    subst e
    decide +kernel

theorem round_trip_integer (n : Num) (h : isInteger n = true) : toNumber (numText n) = n := by
  obtain ⟨h1, h2⟩ := numText_integer n h
  rw [h1, toNumber_showInt, h2]

/-- **C161** (whole numbers): a whole number below 2^63 prints all its digits, with its sign, and the text reads back as the same
number. -/
theorem C161_whole_numbers (k : Int) (h : k.natAbs < 2 ^ 63) (hd : IsDouble (whole k)) :
    numText (whole k) = Fmt.showInt k ∧ toNumber (numText (whole k)) = whole k := by
  have hi := isInteger_whole k h hd
  refine ⟨?_, round_trip_integer _ hi⟩
  rw [(numText_integer _ hi).1, toWide_whole k h]

example : (-1234567890123 : Int).natAbs < 2 ^ 63 ∧ IsDouble (whole (-1234567890123)) :=
  ⟨by decide, isDouble_small _ (by decide)⟩

/-- **C161** (NaN and the infinities). -/
theorem C161_special : toNumber (numText .nan) = .nan ∧ toNumber (numText (.inf false)) = .inf false ∧
    toNumber (numText (.inf true)) = .inf true := by decide +kernel

theorem roundDiv_ge (a d : Nat) : a / d ≤ roundDiv a d := by
  unfold roundDiv; split
  · omega
  · split <;> omega

theorem roundRat_normal (a b : Nat) (hb : 0 < b) (h : 2 ^ 52 ≤ a / b) : 2 ^ 52 ≤ roundRat a b := by
  unfold roundRat
  have h1 := roundDiv_ge a (b * 2 ^ (log2 (a / b) - 52))
  have h52 : 52 ≤ log2 (a / b) := (Nat.le_log2 (by omega)).2 h
  have h2 : 2 ^ log2 (a / b) ≤ a / b := Nat.log2_self_le (by omega)
  rw [← Nat.div_div_eq_div_mul] at h1
  have h3 : 2 ^ 52 ≤ a / b / 2 ^ (log2 (a / b) - 52) := by
    rw [Nat.le_div_iff_mul_le (Nat.pow_pos (by decide)), ← Nat.pow_add]
    have : 52 + (log2 (a / b) - 52) = log2 (a / b) := by omega
    rw [this]; exact h2
  exact Nat.le_trans (Nat.le_trans h3 h1) (Nat.le_mul_of_pos_right _ (Nat.pow_pos (by decide)))

theorem normalise (D : Nat) (h0 : 0 < D) (h : D < 10 ^ 15) : ∃ j, 10 ^ 14 ≤ D * 10 ^ j ∧ D * 10 ^ j < 10 ^ 15 := by
  obtain ⟨h1, h2⟩ := ilog10_spec D h0
  have hl : ilog10 D < 15 := (Nat.pow_lt_pow_iff_right (by decide : 1 < 10)).1 (lt_of_le_of_lt h1 h)
  refine ⟨14 - ilog10 D, ?_, ?_⟩
  · have : 10 ^ 14 = 10 ^ ilog10 D * 10 ^ (14 - ilog10 D) := by rw [← Nat.pow_add]; congr 1; omega
    rw [this]; exact Nat.mul_le_mul_right _ h1
  · have : 10 ^ 15 = 10 ^ (ilog10 D + 1) * 10 ^ (14 - ilog10 D) := by rw [← Nat.pow_add]; congr 1; omega
    rw [this]; exact Nat.mul_lt_mul_of_pos_right h2 (Nat.pow_pos (by decide))

theorem notTiny_zeros (D : Nat) (q : Int) (j : Nat) (h : NotTiny D q) : NotTiny (D * 10 ^ j) (q - j) := by
  unfold NotTiny at *
  have e : 10 ^ j * (10 ^ (q - j).toNat * 10 ^ (-q).toNat) = 10 ^ q.toNat * 10 ^ (-(q - j)).toNat := by
    rw [← pow_add, ← pow_add, ← pow_add]
    congr 1; omega
  have hp : 0 < 10 ^ (-q).toNat := Nat.pow_pos (by decide)
  apply Nat.le_of_mul_le_mul_right _ hp
  have h2 := Nat.mul_le_mul_right (10 ^ (-(q - j)).toNat) h
  calc 2 ^ 52 * 10 ^ (-(q - j)).toNat * 10 ^ (-q).toNat = 2 ^ 52 * 10 ^ (-q).toNat * 10 ^ (-(q - j)).toNat := by ring
    _ ≤ D * 10 ^ q.toNat * one * 10 ^ (-(q - j)).toNat := h2
    _ = D * one * (10 ^ q.toNat * 10 ^ (-(q - j)).toNat) := by ring
    _ = _ := by rw [← e]; ring

theorem notTiny_div {D : Nat} {q : Int} (h : NotTiny D q) : 2 ^ 52 ≤ D * 10 ^ q.toNat * one / 10 ^ (-q).toNat :=
  (Nat.le_div_iff_mul_le (Nat.pow_pos (by decide))).2 h

/-- The text without its sign. -/
def unsigned (s : List UInt8) : List UInt8 :=
  match s with
  | 45 :: t => t
  | s => s

theorem fmtG_sci (m : Int) (D : Nat) (x : Int) (h : sci15 m.natAbs = (D, x)) :
    fmtG m = (if m < 0 then [45] else []) ++ layout (Fmt.digits 10 false D) x := by
  unfold fmtG
  rw [h]

theorem sign_natAbs (neg : Bool) (m : Nat) : (if neg then -(m : Int) else (m : Int)).natAbs = m := by
  cases neg
  · rw [if_neg (by simp)]; exact Int.natAbs_natCast m
  · rw [if_pos rfl, Int.natAbs_neg]; exact Int.natAbs_natCast m

theorem sign_neg (neg : Bool) (m : Nat) (h : 0 < m) : ((if neg then -(m : Int) else (m : Int)) < 0) ↔ neg = true := by
  cases neg
  · rw [if_neg (by simp)]; simp
  · rw [if_pos rfl]; simp; omega

theorem fmtG_value (neg : Bool) (D : Nat) (q : Int) (h0 : 0 < D) (hD : D < 10 ^ 15) (hn : NotTiny D q) :
    ∃ t, fmtG (if neg then -(decMag D q : Int) else (decMag D q : Int)) = (if neg then [45] else []) ++ t ∧
      ∃ j : Nat, HasValue t (D * 10 ^ j) (q - j) := by
  obtain ⟨j, h1, h2⟩ := normalise D h0 hD
  have hn' := notTiny_div (notTiny_zeros D q j hn)
  have hs := sci15_decMag (D * 10 ^ j) (q - j) h1 h2 hn'
  rw [decMag_zeros] at hs
  have hpos : 2 ^ 52 ≤ decMag D q := roundRat_normal _ _ (Nat.pow_pos (by decide)) (notTiny_div hn)
  have hp : 0 < decMag D q := Nat.lt_of_lt_of_le (by decide) hpos
  have hv := layout_value (D * 10 ^ j) (q - j + 14) (digits15 _ h1 h2)
  generalize decMag D q = m at *
  refine ⟨layout (Fmt.digits 10 false (D * 10 ^ j)) (q - j + 14), ?_, j, ?_⟩
  · have := fmtG_sci (if neg then -(m : Int) else (m : Int)) (D * 10 ^ j) (q - j + 14) (by rw [sign_natAbs]; exact hs)
    rw [this]
    simp only [sign_neg neg m hp]
  · have e : q - j + 14 - 14 = q - (j : Int) := by omega
    rw [e] at hv
    exact hv

theorem decMag_cNormal (neg : Bool) (D : Nat) (q : Int) (hn : NotTiny D q) :
    isNormal (.fin (if neg then -(decMag D q : Int) else (decMag D q : Int))) = true := by
  have hpos : 2 ^ 52 ≤ decMag D q := roundRat_normal _ _ (Nat.pow_pos (by decide)) (notTiny_div hn)
  unfold isNormal cNormal
  rw [Bool.or_eq_true]
  exact Or.inr (decide_eq_true (by rw [sign_natAbs]; exact hpos))

/-- **C161** (fifteen digits): a number that is written with at most fifteen significant digits - the `double` nearest
to `±D * 10^q`, D below 10^15, not smaller than the least normal number - prints a text that reads back as the same number. -/
theorem C161_fifteen_digits (neg : Bool) (D : Nat) (q : Int) (h0 : 0 < D) (hD : D < 10 ^ 15) (hn : NotTiny D q) :
    toNumber (numText (decNum neg D q)) = decNum neg D q := by
  by_cases hl : limit ≤ decMag D q
  · have e : decNum neg D q = .inf neg := by unfold decNum; rw [if_pos hl]
    rw [e]
    cases neg
    · exact C161_special.2.1
    · exact C161_special.2.2
  · have e : decNum neg D q = .fin (if neg then -(decMag D q : Int) else (decMag D q : Int)) := by
      unfold decNum; rw [if_neg hl]
    by_cases hi : isInteger (decNum neg D q) = true
    · exact round_trip_integer _ hi
    · obtain ⟨t, h1, j, h2⟩ := fmtG_value neg D q h0 hD hn
      have e2 : numText (decNum neg D q) = fmtG (if neg then -(decMag D q : Int) else (decMag D q : Int)) := by
        unfold numText
        rw [if_neg hi, e, if_pos (decMag_cNormal neg D q hn)]
      rw [e2, h1]
      have e3 : ∀ b, decNum b (D * 10 ^ j) (q - j) = decNum b D q := by
        intro b; unfold decNum; rw [decMag_zeros]
      cases neg with
      | false => simp only [Bool.false_eq_true, if_false, List.nil_append]; rw [toNumber_plain h2, e3]
      | true => simp only [if_true, List.cons_append, List.nil_append]; rw [toNumber_minus h2, e3]

/-- **C161** (as written): when such a number is not whole, the text has exactly the value that was written: its digits, read as one
number `D'` with the point `q'` places to the right, are `D * 10^q`. -/
theorem C161_prints_as_written (neg : Bool) (D : Nat) (q : Int) (h0 : 0 < D) (hD : D < 10 ^ 15) (hn : NotTiny D q)
    (hf : decMag D q < limit) (hi : isInteger (decNum neg D q) = false) :
    ∃ t, numText (decNum neg D q) = (if neg then [45] else []) ++ t ∧
      ∃ D' q', readUDec t = some (D', q') ∧ (D' : ℚ) * 10 ^ q' = D * 10 ^ q := by
  have e : decNum neg D q = .fin (if neg then -(decMag D q : Int) else (decMag D q : Int)) := by
    unfold decNum; rw [if_neg (by omega)]
  obtain ⟨t, h1, j, D', q', k, h2, h3, h4⟩ := fmtG_value neg D q h0 hD hn
  have e2 : numText (decNum neg D q) = fmtG (if neg then -(decMag D q : Int) else (decMag D q : Int)) := by
    unfold numText
    rw [hi, e, if_neg (by simp), if_pos (decMag_cNormal neg D q hn)]
  refine ⟨t, by rw [e2, h1], D', q', h2, ?_⟩
  have h5 : (D : ℚ) * 10 ^ j = D' * 10 ^ k := by exact_mod_cast h3
  have hj : (10 : ℚ) ^ j ≠ 0 := by positivity
  rw [h4, zpow_add₀ (by norm_num), zpow_sub₀ (by norm_num), zpow_natCast, zpow_natCast]
  field_simp
  rw [← h5]; ring

end Verif.Number
