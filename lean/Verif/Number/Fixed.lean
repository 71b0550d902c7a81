import Verif.Number.Parse

/-! C165 `toFixed` and `toPrecision`. -/

namespace Verif.Number

open Verif Verif.Value

theorem padded_length (p n : Nat) (hp : p ≠ 0) (h : n < 10 ^ p) : (padded p n).length = p := by
  unfold padded
  obtain ⟨k, rfl⟩ : ∃ k, p = k + 1 := ⟨p - 1, by omega⟩
  have := Fmt.digits_length 10 false (by decide) k n h
  rw [List.length_append, List.length_replicate]
  omega

theorem padded_val (p n : Nat) : Fmt.val10 (padded p n) = n := by
  unfold padded
  rw [val10_append, val10_zeros, Fmt.val10_digits]; omega

theorem padded_dig (p n : Nat) : AllDig (padded p n) := (allDig_zeros _).append (allDig_digits n)

/-- The text of `%.*f` without the sign. -/
def fixedText (p N : Nat) : List UInt8 :=
  Fmt.digits 10 false (N / 10 ^ p) ++ (if p = 0 then [] else 46 :: padded p (N % 10 ^ p))

theorem fixed_read (p N : Nat) : readUDec (fixedText p N) = some (N, -(p : Int)) := by
  unfold fixedText
  by_cases hp : p = 0
  · subst hp
    rw [if_pos rfl, List.append_nil]
    obtain ⟨D', q', k, h1, h2, h3⟩ := hasValue_digits (N / 10 ^ 0)
    have hw := Fmt.takeWhile_run (p := Fmt.isDig) (Fmt.digits 10 false (N / 10 ^ 0)) [] (allDig_digits _) (by intro c t h; cases h)
    rw [List.append_nil] at hw
    unfold readUDec
    rw [hw.1, hw.2]
    simp only [splitFrac, readExp]
    rw [if_neg (fun h => Fmt.digits_ne_nil _ _ _ h.1), List.append_nil, Fmt.val10_digits]
    simp
  · rw [if_neg hp]
    have hw := Fmt.takeWhile_run (p := Fmt.isDig) (Fmt.digits 10 false (N / 10 ^ p)) (46 :: padded p (N % 10 ^ p)) (allDig_digits _)
      (by intro c t h; cases h; decide)
    have hw2 := Fmt.takeWhile_run (p := Fmt.isDig) (padded p (N % 10 ^ p)) [] (padded_dig _ _) (by intro c t h; cases h)
    rw [List.append_nil] at hw2
    have hlt : N % 10 ^ p < 10 ^ p := Nat.mod_lt _ (Nat.pow_pos (by decide))
    unfold readUDec
    rw [hw.1, hw.2]
    simp only [splitFrac, hw2.1, hw2.2, readExp]
    rw [if_neg (fun h => Fmt.digits_ne_nil _ _ _ h.1), val10_append, padded_val, Fmt.val10_digits, padded_length p _ hp hlt,
      Nat.div_add_mod']
    simp

theorem digits_short (n k : Nat) (h : n ≤ 10 ^ k) : (Fmt.digits 10 false n).length ≤ k + 1 := by
  apply Fmt.digits_length 10 false (by decide)
  have : 10 ^ k < 10 ^ (k + 1) := Nat.pow_lt_pow_right (by decide) (by omega)
  omega

theorem fixedText_length (p N k : Nat) (h : N ≤ 10 ^ k * 10 ^ p) : (fixedText p N).length ≤ k + p + 2 := by
  unfold fixedText
  have h1 : N / 10 ^ p ≤ 10 ^ k := by
    have := Nat.div_le_div_right (c := 10 ^ p) h
    rwa [Nat.mul_div_cancel _ (Nat.pow_pos (by decide))] at this
  have h2 := digits_short _ k h1
  have hlt : N % 10 ^ p < 10 ^ p := Nat.mod_lt _ (Nat.pow_pos (by decide))
  rw [List.length_append]
  split
  · simp; omega
  · rename_i hp
    rw [List.length_cons, padded_length p _ hp hlt]; omega

theorem roundDiv_le (a d c : Nat) (hd : 0 < d) (h : a ≤ c * d) : roundDiv a d ≤ c := by
  have h1 := (roundDiv_nat a d hd).1
  by_contra hc
  have h2 : (c + 1) * d ≤ roundDiv a d * d := Nat.mul_le_mul_right _ (by omega)
  rw [Nat.add_mul] at h2
  omega

theorem fmtF_fin (p : Nat) (m : Int) : fmtF p (.fin m) =
    (if m < 0 then [45] else []) ++ fixedText p (roundDiv (m.natAbs * 10 ^ p) one) := by
  unfold fmtF fixedText
  simp only [List.append_assoc]

/-- **C165** (`toFixed`): a number below 10^k in magnitude, k + p ≤ 97, is printed with exactly `p` digits after the point, and the
decimal printed is one nearest to it: it differs by at most half a unit in the last place. -/
theorem C165_toFixed_partial (m : Int) (p k : Nat) (hm : m.natAbs ≤ 10 ^ k * one) (hk : k + p ≤ 97) :
    ∃ (t : List UInt8) (N : Nat), toFixed (.fin m) p = (if m < 0 then [45] else []) ++ t ∧ readUDec t = some (N, -(p : Int)) ∧
      |(N : ℚ) / 10 ^ p - (m.natAbs : ℚ) / one| ≤ 1 / 2 / 10 ^ p := by
  refine ⟨fixedText p (roundDiv (m.natAbs * 10 ^ p) one), roundDiv (m.natAbs * 10 ^ p) one, ?_, fixed_read _ _, ?_⟩
  · unfold toFixed
    rw [Int.toNat_natCast, fmtF_fin]
    have hN : roundDiv (m.natAbs * 10 ^ p) one ≤ 10 ^ k * 10 ^ p := by
      apply roundDiv_le _ _ _ one_pos
      calc m.natAbs * 10 ^ p ≤ 10 ^ k * one * 10 ^ p := Nat.mul_le_mul_right _ hm
        _ = 10 ^ k * 10 ^ p * one := by ring
    have hl := fixedText_length p _ k hN
    apply List.take_of_length_le
    generalize fixedText p (roundDiv (m.natAbs * 10 ^ p) one) = u at *
    rw [List.length_append]
    split
    · simp; omega
    · simp; omega
  · have h := roundDiv_err (m.natAbs * 10 ^ p) one one_pos
    generalize roundDiv (m.natAbs * 10 ^ p) one = N at *
    have hone : (0 : ℚ) < one := by exact_mod_cast one_pos
    have hp : (0 : ℚ) < 10 ^ p := by positivity
    have e : (N : ℚ) - ((m.natAbs * 10 ^ p : Nat) : ℚ) / one = ((N : ℚ) / 10 ^ p - (m.natAbs : ℚ) / one) * 10 ^ p := by
      push_cast; field_simp
    rw [e, abs_mul, abs_of_pos hp] at h
    rw [le_div_iff₀ hp]
    exact h

/-- -1234.5 with 2 places. -/
example : (-(2469 * 2 ^ 1073) : Int).natAbs ≤ 10 ^ 4 * one ∧ 4 + 2 ≤ 97 := by
  refine ⟨by unfold one; decide +kernel, by decide⟩

theorem val10_lt (s : List UInt8) : AllDig s → Fmt.val10 s < 10 ^ s.length := by
  induction s with
  | nil => intro _; decide
  | cons c s ih =>
    intro h
    rw [← List.singleton_append, val10_append, List.length_append, List.length_singleton, Nat.pow_add]
    have h1 := ih (fun c hc => h c (List.mem_cons_of_mem _ hc))
    have h2 := h c (by simp)
    have h3 : Fmt.val10 [c] ≤ 9 := by
      unfold Fmt.isDig at h2
      simp at h2
      have := UInt8.le_iff_toNat_le.1 h2.2
      show 0 * 10 + (c.toNat - 48) ≤ 9
      have e : (57 : UInt8).toNat = 57 := rfl
      omega
    have h4 := Nat.mul_le_mul_right (10 ^ s.length) h3
    omega

/-- **C165** (`toFixed`) refuted for the large numbers: the text is never longer than 100 characters, so the digits of a number from
10^101 on are cut, and what is left is the text of a number below 10^100. -/
theorem C165_toFixed_refuted (m : Nat) (_h : 10 ^ 101 * one ≤ m) :
    ∃ N, readUDec (toFixed (.fin (m : Int)) 0) = some (N, 0) ∧ N < 10 ^ 100 := by
  have e : toFixed (.fin (m : Int)) 0 = (Fmt.digits 10 false (roundDiv (m * 10 ^ 0) one / 10 ^ 0)).take 100 := by
    unfold toFixed
    rw [Int.toNat_zero, fmtF_fin, if_neg (by omega), Int.natAbs_natCast]
    unfold fixedText
    rw [if_pos rfl, List.append_nil, List.nil_append]
  rw [e]
  generalize roundDiv (m * 10 ^ 0) one / 10 ^ 0 = M
  have hd : AllDig ((Fmt.digits 10 false M).take 100) := fun c hc => allDig_digits M c (List.mem_of_mem_take hc)
  have hne : (Fmt.digits 10 false M).take 100 ≠ [] := by
    intro h0
    have := congrArg List.length h0
    have h1 := List.length_pos_of_ne_nil (Fmt.digits_ne_nil 10 false M)
    rw [List.length_take, List.length_nil] at this
    omega
  have hl : ((Fmt.digits 10 false M).take 100).length ≤ 100 := by rw [List.length_take]; omega
  generalize (Fmt.digits 10 false M).take 100 = t at *
  have hw := Fmt.takeWhile_run (p := Fmt.isDig) t [] hd (by intro c t h; cases h)
  rw [List.append_nil] at hw
  refine ⟨Fmt.val10 t, ?_, ?_⟩
  · unfold readUDec
    rw [hw.1, hw.2]
    simp only [splitFrac, readExp, List.append_nil]
    rw [if_neg (fun h => hne h.1)]
    rfl
  · exact Nat.lt_of_lt_of_le (val10_lt t hd) (Nat.pow_le_pow_right (by decide) hl)

/-- **C165** (`toPrecision`) refuted: the text is cut, not rounded - 1.7890625 with two digits is 1.7 - and the digits before the
point are cut like the others: 12345.5 with two digits is 123. -/
theorem C165_toPrecision_refuted : toPrecision (.fin (229 * 2 ^ 1067)) 2 = some (asc "1.7") ∧
    toPrecision (.fin (24691 * 2 ^ 1073)) 2 = some (asc "123") := by decide +kernel

end Verif.Number
