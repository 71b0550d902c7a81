import Verif.Number.Props

/-! C161: where the text of a number does not read back. -/

namespace Verif.Number

open Verif Verif.Value

/-- 0.3 is such a number, and is not whole. -/
example : NotTiny 3 (-1) ∧ decMag 3 (-1) < limit ∧ isInteger (decNum false 3 (-1)) = false := by
  refine ⟨by unfold NotTiny one; decide +kernel, by unfold limit; decide +kernel, by decide +kernel⟩

theorem three_tenths : decNum false 3 (-1) = .fin (5404319552844595 * 2 ^ 1020) := by decide +kernel

theorem sci_q (k D : Nat) (h1 : 10 ^ 14 ≤ D) (h2 : D < 10 ^ 15) (hk : 0 < k)
    (h : |(k : ℚ) / 2 ^ 54 - D * (10 : ℚ) ^ (-15 : ℤ)| ≤ D * (10 : ℚ) ^ (-15 : ℤ) / 2251799813685248) :
    sci15 (k * 2 ^ 1020) = (D, -1) := by
  have h3 := sci15_near (k * 2 ^ 1020) D (-15) h1 h2 (Nat.mul_pos hk (Nat.pow_pos (by decide)))
  have e : ((k * 2 ^ 1020 : Nat) : ℚ) / one = k / 2 ^ 54 := by
    have e1 : one = 2 ^ 1020 * 2 ^ 54 := by unfold one; rw [← Nat.pow_add]
    rw [e1]
    have hp : ((2 ^ 1020 : Nat) : ℚ) ≠ 0 := by
      have : 0 < 2 ^ 1020 := Nat.pow_pos (by decide)
      exact_mod_cast this.ne'
    rw [Nat.cast_mul, Nat.cast_mul]
    generalize ((2 ^ 1020 : Nat) : ℚ) = W at *
    push_cast
    field_simp
    norm_num
  rw [e] at h3
  exact h3 h

theorem sci_a : sci15 (5404319552844595 * 2 ^ 1020) = (300000000000000, -1) := by
  apply sci_q _ _ (by decide) (by decide) (by decide)
  rw [abs_le]
  constructor <;> norm_num

theorem sci_b : sci15 (5404319552844596 * 2 ^ 1020) = (300000000000000, -1) := by
  apply sci_q _ _ (by decide) (by decide) (by decide)
  rw [abs_le]
  constructor <;> norm_num

theorem text_of (k : Nat) (h1 : isInteger (.fin ((k * 2 ^ 1020 : Nat) : Int)) = false)
    (h2 : isNormal (.fin ((k * 2 ^ 1020 : Nat) : Int)) = true) (h3 : sci15 (k * 2 ^ 1020) = (300000000000000, -1)) :
    numText (.fin ((k * 2 ^ 1020 : Nat) : Int)) = layout (Fmt.digits 10 false 300000000000000) (-1) := by
  have h4 := fmtG_sci ((k * 2 ^ 1020 : Nat) : Int) 300000000000000 (-1) (by rw [Int.natAbs_natCast]; exact h3)
  unfold numText
  rw [h1, h2, if_neg (by simp), if_pos rfl]
  show fmtG ((k * 2 ^ 1020 : Nat) : Int) = _
  generalize k * 2 ^ 1020 = m at *
  rw [h4, if_neg (by omega)]
  rfl

/-- **C161** refuted in general: only 15 significant digits are printed, so the sum 0.1 + 0.2 (the binary64 number after 0.3)
prints as 0.3 and reads back as another number. -/
theorem C161_refuted : ∃ a b : Num, IsDouble a ∧ IsDouble b ∧ numEq a b = false ∧ numText a = numText b ∧
    toNumber (numText b) = a := by
  have ta := text_of 5404319552844595 (by decide +kernel) (by decide +kernel) sci_a
  have tb := text_of 5404319552844596 (by decide +kernel) (by decide +kernel) sci_b
  have h := C161_fifteen_digits false 3 (-1) (by decide) (by decide) (by unfold NotTiny one; decide +kernel)
  rw [three_tenths] at h
  refine ⟨.fin ((5404319552844595 * 2 ^ 1020 : Nat) : Int), .fin ((5404319552844596 * 2 ^ 1020 : Nat) : Int), ?_, ?_, ?_, ?_, ?_⟩
  · exact ⟨Opt.roundNat_exact 5404319552844595 1020 (by decide), by unfold limit; decide +kernel⟩
  · exact ⟨Opt.roundNat_exact 5404319552844596 1020 (by decide), by unfold limit; decide +kernel⟩
  · decide +kernel
  · rw [ta, tb]
  · rw [tb, ← ta]
    have e : ((5404319552844595 * 2 ^ 1020 : Nat) : Int) = 5404319552844595 * 2 ^ 1020 := by decide +kernel
    rw [e]; exact h

/-- **C161** refuted for the numbers below 2^-1022 (5e-324, for instance): their text is `undefined`. -/
theorem C161_subnormal_refuted (m : Int) (h0 : m ≠ 0) (h : m.natAbs < 2 ^ 52) :
    numText (.fin m) = asc "undefined" ∧ toNumber (numText (.fin m)) = .nan := by
  have hc : cNormal (.fin m) = false := by unfold cNormal; simp; omega
  have h1 : numEq (.fin m) (.fin 0) = false := by simp [numEq, h0]
  have e : numText (.fin m) = asc "undefined" := by
    unfold numText isInteger isNormal
    rw [hc, h1]
    rfl
  exact ⟨e, by rw [e]; decide +kernel⟩

example : (-5 : Int) ≠ 0 ∧ (-5 : Int).natAbs < 2 ^ 52 := by decide

end Verif.Number
