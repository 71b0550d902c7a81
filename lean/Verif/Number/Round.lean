import Verif.Number.Model
import Verif.Fmt.Props
import Verif.Opt.Restore
import Mathlib.Data.Rat.Floor
import Mathlib.Tactic.Linarith
import Mathlib.Tactic.NormNum
import Mathlib.Tactic.Ring
import Mathlib.Tactic.Positivity
import Mathlib.Tactic.FieldSimp

/-! The arithmetic behind the conversions: rounding quotients, 53 bits against 15 digits. -/

namespace Verif.Number

open Verif Verif.Value

theorem roundDiv_nat (a d : Nat) (hd : 0 < d) :
    2 * (roundDiv a d * d) ≤ 2 * a + d ∧ 2 * a ≤ 2 * (roundDiv a d * d) + d := by
  have h1 := Nat.div_add_mod a d
  have h2 := Nat.mod_lt a hd
  unfold roundDiv
  generalize a / d = q at *
  generalize a % d = r at *
  subst h1
  have hc : d * q = q * d := Nat.mul_comm _ _
  split
  · constructor <;> nlinarith
  · split
    · constructor <;> nlinarith
    · have : q % 2 < 2 := Nat.mod_lt _ (by decide)
      generalize q % 2 = t at *
      have ht : t = 0 ∨ t = 1 := by omega
      rcases ht with rfl | rfl
      · constructor <;> nlinarith
      · constructor <;> nlinarith

theorem roundDiv_err (a d : Nat) (hd : 0 < d) : |(roundDiv a d : ℚ) - (a : ℚ) / d| ≤ 1 / 2 := by
  obtain ⟨h1, h2⟩ := roundDiv_nat a d hd
  have hd' : (0 : ℚ) < d := by exact_mod_cast hd
  have e1 : (2 : ℚ) * (roundDiv a d * d) ≤ 2 * a + d := by exact_mod_cast h1
  have e2 : (2 : ℚ) * a ≤ 2 * (roundDiv a d * d) + d := by exact_mod_cast h2
  have e : (a : ℚ) = a / d * d := by field_simp
  generalize (a : ℚ) / d = x at *
  rw [e] at e1 e2
  rw [abs_le]
  constructor <;> nlinarith

theorem roundDiv_eq (a d D : Nat) (hd : 0 < d) (h : |(a : ℚ) / d - D| < 1 / 2) : roundDiv a d = D := by
  have h1 := roundDiv_err a d hd
  rw [abs_le] at h1
  rw [abs_lt] at h
  have h2 : ((roundDiv a d : ℤ) : ℚ) < ((D : ℤ) : ℚ) + 1 := by push_cast; linarith
  have h3 : ((D : ℤ) : ℚ) < ((roundDiv a d : ℤ) : ℚ) + 1 := by push_cast; linarith
  have h2' : (roundDiv a d : ℤ) < (D : ℤ) + 1 := by exact_mod_cast h2
  have h3' : (D : ℤ) < (roundDiv a d : ℤ) + 1 := by exact_mod_cast h3
  omega

theorem roundDiv_scale (a d c : Nat) (hc : 0 < c) : roundDiv (a * c) (d * c) = roundDiv a d := by
  unfold roundDiv
  rw [Nat.mul_div_mul_right _ _ hc, Nat.mul_mod_mul_right]
  have e : 2 * (a % d * c) = 2 * (a % d) * c := by ring
  rw [e]
  simp only [Nat.mul_lt_mul_right hc]

theorem roundRat_scale (a b c : Nat) (hc : 0 < c) : roundRat (a * c) (b * c) = roundRat a b := by
  unfold roundRat
  rw [Nat.mul_div_mul_right _ _ hc]
  have e : b * c * 2 ^ (log2 (a / b) - 52) = b * 2 ^ (log2 (a / b) - 52) * c := by ring
  rw [e, roundDiv_scale _ _ _ hc]

theorem roundRat_one (a : Nat) : roundRat a 1 = roundNat a := by
  unfold roundRat roundNat roundDiv
  simp only [Nat.div_one, Nat.one_mul]
  by_cases h : a < 2 ^ 53
  · rw [if_pos h]
    have : log2 a - 52 = 0 := by
      unfold log2
      by_cases h0 : a = 0
      · subst h0; simp
      · have := (Nat.log2_lt h0).2 h
        omega
    rw [this]
    simp [Nat.mod_one]
  · rw [if_neg h]
    split
    · rfl
    · split
      · rfl
      · have : a / 2 ^ (log2 a - 52) % 2 = 0 ∨ a / 2 ^ (log2 a - 52) % 2 = 1 := by omega
        rcases this with e | e <;> rw [e] <;> simp

/-- The value of a decimal does not depend on how it is written: a zero more. -/
theorem decMag_zeros (D : Nat) (q : Int) (j : Nat) : decMag (D * 10 ^ j) (q - j) = decMag D q := by
  have key : ∀ (A B A' B' : Nat), 0 < B → 0 < B' → A * B' = A' * B → roundRat A B = roundRat A' B' := by
    intro A B A' B' h1 h2 h
    rw [← roundRat_scale A B B' h2, ← roundRat_scale A' B' B h1, h, Nat.mul_comm B B']
  unfold decMag
  apply key _ _ _ _ (by positivity) (by positivity)
  have e : 10 ^ j * (10 ^ (q - j).toNat * 10 ^ (-q).toNat) = 10 ^ q.toNat * 10 ^ (-(q - j)).toNat := by
    rw [← pow_add, ← pow_add, ← pow_add]
    congr 1; omega
  calc D * 10 ^ j * 10 ^ (q - ↑j).toNat * one * 10 ^ (-q).toNat
      = D * one * (10 ^ j * (10 ^ (q - j).toNat * 10 ^ (-q).toNat)) := by ring
    _ = _ := by rw [e]; ring

theorem one_pos : 0 < one := by unfold one; positivity

/-- The exact value of the quotient of `decMag`. -/
theorem dec_rat (D : Nat) (q : Int) :
    ((D * 10 ^ q.toNat * one : Nat) : ℚ) / ((10 ^ (-q).toNat : Nat) : ℚ) = D * (10 : ℚ) ^ q * one := by
  push_cast
  rcases le_total 0 q with h | h
  · have e2 : (-q).toNat = 0 := by omega
    obtain ⟨n, rfl⟩ := Int.eq_ofNat_of_zero_le h
    rw [e2]; simp
  · have e1 : q.toNat = 0 := by omega
    obtain ⟨n, hn⟩ := Int.eq_ofNat_of_zero_le (show 0 ≤ -q by omega)
    have hq : q = -(n : ℤ) := by omega
    subst hq
    rw [e1]
    simp
    field_simp

/-- 53 bits: the relative error of rounding in the normal range is at most 2^-53. -/
theorem roundRat_err (a b : Nat) (hb : 0 < b) (h : 2 ^ 52 ≤ a / b) :
    |(roundRat a b : ℚ) - (a : ℚ) / b| ≤ (a : ℚ) / b / 2 ^ 53 := by
  unfold roundRat
  generalize hs : log2 (a / b) - 52 = s
  have hpos : 0 < b * 2 ^ s := by first | positivity | exact zpow_pos (by norm_num) _
  have h1 := roundDiv_err a (b * 2 ^ s) hpos
  have h52 : 52 ≤ log2 (a / b) := by
    unfold log2
    exact (Nat.le_log2 (by omega)).2 h
  have h2 : 2 ^ (s + 52) ≤ a / b := by
    have : s + 52 = log2 (a / b) := by omega
    rw [this]; exact Nat.log2_self_le (by omega)
  have h3 : 2 ^ (s + 52) * b ≤ a := (Nat.le_div_iff_mul_le hb).1 h2
  have hb' : (0 : ℚ) < b := by exact_mod_cast hb
  have h4 : (2 : ℚ) ^ (s + 52) * b ≤ a := by exact_mod_cast h3
  have h5 : (2 : ℚ) ^ s * 2 ^ 52 ≤ (a : ℚ) / b := by
    rw [le_div_iff₀ hb', ← pow_add]; exact h4
  have hs' : (0 : ℚ) < 2 ^ s := by first | positivity | exact zpow_pos (by norm_num) _
  have e : (a : ℚ) / ((b * 2 ^ s : Nat) : ℚ) * 2 ^ s = a / b := by
    push_cast; field_simp
  push_cast at h1 e ⊢
  rw [abs_le] at h1 ⊢
  generalize (a : ℚ) / b = v at *
  generalize (a : ℚ) / (b * 2 ^ s) = x at *
  generalize (roundDiv a (b * 2 ^ s) : ℚ) = y at *
  generalize (2 : ℚ) ^ s = t at *
  subst e
  have h6 : t / 2 ≤ x * t / 2 ^ 53 := by
    rw [le_div_iff₀ (by positivity)]
    nlinarith
  constructor <;> nlinarith

theorem ilog10_spec (n : Nat) (hn : 0 < n) : 10 ^ ilog10 n ≤ n ∧ n < 10 ^ (ilog10 n + 1) := by
  unfold ilog10
  induction n using Nat.strongRecOn with
  | _ n ih =>
    by_cases h : n < 10
    · rw [Fmt.digits_lt h]; simp; omega
    · rw [Fmt.digits_ge (by omega) (by omega)]
      have h1 := ih (n / 10) (by omega) (by omega)
      have hl : 0 < (Fmt.digits 10 false (n / 10)).length := List.length_pos_of_ne_nil (Fmt.digits_ne_nil _ _ _)
      rw [List.length_append, List.length_singleton]
      generalize (Fmt.digits 10 false (n / 10)).length = l at *
      obtain ⟨k, rfl⟩ : ∃ k, l = k + 1 := ⟨l - 1, by omega⟩
      simp only [Nat.add_sub_cancel] at h1 ⊢
      rw [pow_succ (n := k), pow_succ (n := k + 1)]
      omega

theorem ilog10_unique (n k : Nat) (h1 : 10 ^ k ≤ n) (h2 : n < 10 ^ (k + 1)) : ilog10 n = k := by
  have hp : 0 < n := lt_of_lt_of_le (by positivity) h1
  obtain ⟨h3, h4⟩ := ilog10_spec n hp
  have a1 := (Nat.pow_lt_pow_iff_right (by decide : 1 < 10)).1 (lt_of_le_of_lt h1 h4)
  have a2 := (Nat.pow_lt_pow_iff_right (by decide : 1 < 10)).1 (lt_of_le_of_lt h3 h2)
  omega

theorem ten_lt {a b : Int} (h : (10 : ℚ) ^ a < 10 ^ b) : a < b := (zpow_lt_zpow_iff_right₀ (by norm_num)).1 h

theorem scale_pos : 0 < scale := by unfold scale; positivity

theorem scale_q : (scale : ℚ) = 10 ^ (400 : ℤ) := by unfold scale; norm_cast

/-- The range of a value rounded from a number of 15 digits. -/
theorem near15 (D y T : ℚ) (hT : 0 < T) (h1 : 100000000000000 ≤ D) (h2 : D ≤ 999999999999999)
    (he : |y - D * T| ≤ D * T / 2251799813685248) : T * 10000000000000 < y ∧ y < T * 1000000000000000 := by
  rw [abs_le] at he
  have e : D * T / 2251799813685248 = T * (D / 2251799813685248) := by ring
  rw [e] at he
  have a1 : D / 2251799813685248 < 1 / 2 := by rw [div_lt_iff₀ (by norm_num)]; linarith
  constructor <;> nlinarith

theorem near_same (D w : ℚ) (T : ℚ) (hT : 0 < T) (h2 : D ≤ 999999999999999)
    (he : |w * T - D * T| ≤ D * T / 2251799813685248) : |w - D| < 1 / 2 := by
  have e : w * T - D * T = (w - D) * T := by ring
  rw [e, abs_mul, abs_of_pos hT] at he
  have e2 : D * T / 2251799813685248 = (D / 2251799813685248) * T := by ring
  rw [e2] at he
  have := le_of_mul_le_mul_right he hT
  have a1 : D / 2251799813685248 < 1 / 2 := by rw [div_lt_iff₀ (by norm_num)]; linarith
  linarith

theorem near_edge (D w : ℚ) (T : ℚ) (hT : 0 < T) (h1 : 100000000000000 ≤ D) (h2 : D ≤ 999999999999999)
    (he : |w * T - D * (10 * T)| ≤ D * (10 * T) / 2251799813685248) (hw : w * T < T * 1000000000000000) :
    D < 100000000000001 ∧ (D = 100000000000000 → |w - 1000000000000000| < 1 / 2) := by
  have e : w * T - D * (10 * T) = (w - 10 * D) * T := by ring
  rw [e, abs_mul, abs_of_pos hT] at he
  have e2 : D * (10 * T) / 2251799813685248 = (10 * D / 2251799813685248) * T := by ring
  rw [e2] at he
  have h3 := le_of_mul_le_mul_right he hT
  have h4 : w < 1000000000000000 := by nlinarith
  rw [abs_le] at h3
  have a1 : 10 * D / 2251799813685248 < 5 := by rw [div_lt_iff₀ (by norm_num)]; linarith
  refine ⟨by linarith, ?_⟩
  intro hd
  subst hd
  norm_num at h3
  rw [abs_lt]; constructor <;> linarith

/-- Fifteen digits survive 53 bits: what `%.15g` prints of the `double` nearest to `D * 10^q`. -/
theorem sci15_near (m D : Nat) (q : Int) (h1 : 10 ^ 14 ≤ D) (h2 : D < 10 ^ 15) (hmpos : 0 < m)
    (hy1 : |(m : ℚ) / one - D * (10 : ℚ) ^ q| ≤ D * (10 : ℚ) ^ q / 2251799813685248) : sci15 m = (D, q + 14) := by
  have hone : (0 : ℚ) < one := by exact_mod_cast one_pos
  have hT : (0 : ℚ) < 10 ^ q := by first | positivity | exact zpow_pos (by norm_num) _
  have hD1 : (100000000000000 : ℚ) ≤ D := by
    have : ((10 ^ 14 : Nat) : ℚ) ≤ D := by exact_mod_cast h1
    norm_num at this; exact_mod_cast this
  have hD2 : (D : ℚ) ≤ 999999999999999 := by
    have : D ≤ 999999999999999 := by omega
    exact_mod_cast this
  obtain ⟨y, hy⟩ : ∃ y : ℚ, y = (m : ℚ) / one := ⟨_, rfl⟩
  have hm : (m : ℚ) = y * one := by rw [hy]; field_simp
  rw [← hy] at hy1
  obtain ⟨u2, u1⟩ := near15 _ _ _ hT hD1 hD2 hy1
  have hs := scale_pos
  have hbig2 : 10 ^ 14 ≤ m * scale / one := by
    rw [Nat.le_div_iff_mul_le one_pos]
    have h0 : 10 ^ 14 * one ≤ scale := by unfold one scale; decide +kernel
    exact Nat.le_trans h0 (Nat.le_mul_of_pos_left _ hmpos)
  have hq0 : 0 < m * scale / one := by omega
  obtain ⟨L1, L2⟩ := ilog10_spec _ hq0
  unfold sci15
  simp only []
  generalize hL : ilog10 (m * scale / one) = L at *
  have hL14 : 14 ≤ L := by
    by_contra hc
    have : 10 ^ (L + 1) ≤ 10 ^ 14 := Nat.pow_le_pow_right (by decide) (by omega)
    omega
  have L1' : 10 ^ L * one ≤ m * scale := (Nat.le_div_iff_mul_le one_pos).1 L1
  have L2' : m * scale < 10 ^ (L + 1) * one := (Nat.div_lt_iff_lt_mul one_pos).1 L2
  have z1 : (10 : ℚ) ^ ((L : Int) - 400) ≤ y := by
    have h : (10 : ℚ) ^ L * one ≤ m * scale := by exact_mod_cast L1'
    rw [zpow_sub₀ (by norm_num), div_le_iff₀ (zpow_pos (by norm_num) _), ← scale_q, zpow_natCast]
    have e : (m : ℚ) * scale = y * scale * one := by rw [hm]; ring
    rw [e] at h
    exact le_of_mul_le_mul_right h hone
  have z2 : y < (10 : ℚ) ^ ((L : Int) + 1 - 400) := by
    have h : (m : ℚ) * scale < (10 : ℚ) ^ (L + 1) * one := by exact_mod_cast L2'
    rw [zpow_sub₀ (by norm_num), lt_div_iff₀ (zpow_pos (by norm_num) _), ← scale_q]
    have e : (m : ℚ) * scale = y * scale * one := by rw [hm]; ring
    rw [e] at h
    exact_mod_cast lt_of_mul_lt_mul_right h hone.le
  have e15 : (10 : ℚ) ^ (q + 15) = 10 ^ q * 1000000000000000 := by rw [zpow_add₀ (by norm_num)]; norm_num
  have e13 : (10 : ℚ) ^ (q + 13) = 10 ^ q * 10000000000000 := by rw [zpow_add₀ (by norm_num)]; norm_num
  rw [← e15] at u1
  rw [← e13] at u2
  have k1 := ten_lt (lt_of_le_of_lt z1 u1)
  have k2 := ten_lt (lt_trans u2 z2)
  have hden : 0 < one * 10 ^ (L - 14) := Nat.mul_pos one_pos (by positivity)
  have hx : ((m * scale : Nat) : ℚ) / ((one * 10 ^ (L - 14) : Nat) : ℚ) = y / (10 : ℚ) ^ ((L : Int) - 414) := by
    have e : ((L : Int) - 414) = ((L - 14 : Nat) : Int) - 400 := by omega
    rw [e, zpow_sub₀ (by norm_num), ← scale_q]
    push_cast
    rw [hm, zpow_natCast]
    field_simp
  have cases : (L : Int) = q + 414 ∨ (L : Int) = q + 413 := by omega
  rcases cases with c | c
  · have hr : roundDiv (m * scale) (one * 10 ^ (L - 14)) = D := by
      apply roundDiv_eq _ _ _ hden
      have e : (L : Int) - 414 = q := by omega
      rw [hx, e]
      have hyq : y / 10 ^ q * 10 ^ q = y := by field_simp
      exact near_same D (y / 10 ^ q) (10 ^ q) hT hD2 (by rw [hyq]; exact hy1)
    rw [hr, if_neg (by omega), c]
    rw [show q + 414 - 400 = q + 14 from by omega]
  · have hyq : y / 10 ^ (q - 1) * 10 ^ (q - 1) = y := by field_simp
    have hT1 : (10 : ℚ) ^ q = 10 * 10 ^ (q - 1) := by
      rw [zpow_sub₀ (by norm_num)]; ring
    have hT2 : (0 : ℚ) < 10 ^ (q - 1) := by first | positivity | exact zpow_pos (by norm_num) _
    have hz : y < 10 ^ (q - 1) * 1000000000000000 := by
      have e : (L : Int) + 1 - 400 = (q - 1) + 15 := by omega
      rw [e, zpow_add₀ (by norm_num)] at z2
      norm_num at z2 ⊢; exact z2
    obtain ⟨d1, d2⟩ := near_edge D (y / 10 ^ (q - 1)) (10 ^ (q - 1)) hT2 hD1 hD2 (by rw [hyq, ← hT1]; exact hy1)
      (by rw [hyq]; exact hz)
    have hDe : D = 100000000000000 := by
      have : D < 100000000000001 := by exact_mod_cast d1
      omega
    have hr : roundDiv (m * scale) (one * 10 ^ (L - 14)) = 1000000000000000 := by
      apply roundDiv_eq _ _ _ hden
      have e : (L : Int) - 414 = q - 1 := by omega
      rw [hx, e]
      exact_mod_cast d2 (by rw [hDe]; norm_num)
    rw [hr, if_pos rfl, hDe, c]
    rw [show q + 413 + 1 - 400 = q + 14 from by omega]

theorem sci15_decMag (D : Nat) (q : Int) (h1 : 10 ^ 14 ≤ D) (h2 : D < 10 ^ 15)
    (hn : 2 ^ 52 ≤ D * 10 ^ q.toNat * one / 10 ^ (-q).toNat) : sci15 (decMag D q) = (D, q + 14) := by
  have he := roundRat_err (D * 10 ^ q.toNat * one) (10 ^ (-q).toNat) (Nat.pow_pos (by decide)) hn
  rw [dec_rat] at he
  change |(decMag D q : ℚ) - _| ≤ _ at he
  generalize decMag D q = m at *
  have hone : (0 : ℚ) < one := by exact_mod_cast one_pos
  have hT : (0 : ℚ) < 10 ^ q := by first | positivity | exact zpow_pos (by norm_num) _
  have hD : (0 : ℚ) < D := by
    have : 0 < D := by omega
    exact_mod_cast this
  have e : (m : ℚ) - D * 10 ^ q * one = ((m : ℚ) / one - D * 10 ^ q) * one := by field_simp
  have e2 : (D : ℚ) * 10 ^ q * one / 2 ^ 53 = (D * 10 ^ q / 9007199254740992) * one := by norm_num; ring
  rw [e, e2, abs_mul, abs_of_pos hone] at he
  have hy0 := le_of_mul_le_mul_right he hone
  have hy : |(m : ℚ) / one - D * 10 ^ q| ≤ D * 10 ^ q / 2251799813685248 := by
    refine le_trans hy0 ?_
    have hV : (0 : ℚ) < D * 10 ^ q := mul_pos hD hT
    generalize (D : ℚ) * 10 ^ q = V at *
    rw [div_le_div_iff₀ (by norm_num) (by norm_num)]
    linarith
  apply sci15_near m D q h1 h2 _ hy
  rw [abs_le] at hy
  have hV : (0 : ℚ) < D * 10 ^ q := by first | positivity | exact zpow_pos (by norm_num) _
  have : (0 : ℚ) < (m : ℚ) / one := by
    generalize (D : ℚ) * 10 ^ q = V at *
    have : V / 2251799813685248 < V := by rw [div_lt_iff₀ (by norm_num)]; linarith
    linarith
  have hm : (0 : ℚ) < m := by
    rcases Nat.eq_zero_or_pos m with h0 | h0
    · subst h0; simp at this
    · exact_mod_cast h0
  exact_mod_cast hm

end Verif.Number
