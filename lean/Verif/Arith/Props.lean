import Verif.Arith.Model
import Verif.Number.Parse

/-!
C166 `&`, `|`, `^`; C167 `~` and the shifts; C168 `++` and `--`; C169 `%`, `Math.min`, `Math.max`, `Math.round`, `Math.pow`.
-/

namespace Verif.Arith

open Verif Verif.Value Verif.Number

/-! ### Specification -/

/-- Bit `i` of a whole number in two's complement, of any width. -/
def bit (k : Int) (i : Nat) : Bool := decide (k / 2 ^ i % 2 = 1)

/-- The range of 32 bits. -/
def In32 (k : Int) : Prop := -2 ^ 31 ≤ k ∧ k < 2 ^ 31

/-- `r` is the number of 32 bits that has the bits `f` of those of `a` and `b` - what ECMAScript makes of a bitwise operator. -/
def Bitwise (f : Bool → Bool → Bool) (a b r : Int) : Prop := In32 r ∧ ∀ i < 32, bit r i = f (bit a i) (bit b i)

/-- `r` is `k` reduced to 32 bits. -/
def Reduced (k r : Int) : Prop := In32 r ∧ ∃ q : Int, k = r + q * 2 ^ 32

/-! ### C166 -/

theorem ediv_mod_pow (k : Int) (i : Nat) (hi : i < 64) : (k % 2 ^ 64) / 2 ^ i % 2 = k / 2 ^ i % 2 := by
  have h1 : k = k % 2 ^ 64 + (2 * (2 ^ (63 - i) * (k / 2 ^ 64))) * 2 ^ i := by
    have e : (2 : Int) ^ 64 = 2 * 2 ^ (63 - i) * 2 ^ i := by
      have : (64 : Nat) = 1 + (63 - i) + i := by omega
      conv => lhs; rw [this, pow_add, pow_add, pow_one]
    have h := Int.emod_add_mul_ediv k (2 ^ 64)
    calc k = k % 2 ^ 64 + 2 ^ 64 * (k / 2 ^ 64) := h.symm
      _ = k % 2 ^ 64 + (2 * 2 ^ (63 - i) * 2 ^ i) * (k / 2 ^ 64) := by rw [← e]
      _ = _ := by ring
  have h2 : k / 2 ^ i = k % 2 ^ 64 / 2 ^ i + 2 * (2 ^ (63 - i) * (k / 2 ^ 64)) := by
    conv => lhs; rw [h1]
    exact Int.add_mul_ediv_right _ _ (by positivity)
  rw [h2, Int.add_mul_emod_self_left]

/-- A whole number in 64 bits. -/
def pat (k : Int) : Nat := (k % 2 ^ 64).toNat

theorem pat_bit (k : Int) (i : Nat) (hi : i < 64) : (pat k).testBit i = bit k i := by
  unfold pat bit
  rw [Nat.testBit_eq_decide_div_mod_eq, ← ediv_mod_pow k i hi]
  have h0 : 0 ≤ k % 2 ^ 64 := Int.emod_nonneg _ (by decide)
  obtain ⟨n, hn⟩ := Int.eq_ofNat_of_zero_le h0
  rw [hn, Int.toNat_natCast]
  congr 1
  apply propext
  constructor
  · intro h; exact_mod_cast h
  · intro h; exact_mod_cast h

theorem pat_lt (k : Int) : pat k < 2 ^ 64 := by
  unfold pat
  have := Int.emod_lt_of_pos k (show (0 : Int) < 2 ^ 64 by decide)
  omega

theorem pat_high (k : Int) (i : Nat) (hi : 64 ≤ i) : (pat k).testBit i = false :=
  Nat.testBit_lt_two_pow (Nat.lt_of_lt_of_le (pat_lt k) (Nat.pow_le_pow_right (by decide) hi))

theorem bit_pos (k : Int) (h : 0 ≤ k) (h2 : k < 2 ^ 31) (i : Nat) (hi : 31 ≤ i) : bit k i = false := by
  unfold bit
  have : (2 : Int) ^ 31 ≤ 2 ^ i := pow_le_pow_right₀ (by norm_num) hi
  rw [Int.ediv_eq_zero_of_lt h (by omega)]; rfl

theorem bit_neg (k : Int) (h : k < 0) (h2 : -2 ^ 31 ≤ k) (i : Nat) (hi : 31 ≤ i) : bit k i = true := by
  unfold bit
  have h3 : (2 : Int) ^ 31 ≤ 2 ^ i := pow_le_pow_right₀ (by norm_num) hi
  have h4 : k / 2 ^ i = -1 := by
    rw [Int.ediv_eq_iff_of_pos (by positivity)]
    generalize (2 : Int) ^ i = p at *
    constructor <;> omega
  rw [h4]; rfl

theorem toUWide_whole (k : Int) (h : In32 k) : toUWide (whole k) = pat k := by
  obtain ⟨h1, h2⟩ := h
  have hone : (0 : Int) < one := by exact_mod_cast Number.one_pos
  have hlt : ¬ (2 ^ 63 * (one : Int) ≤ k * one) := by
    intro h
    have := Int.le_of_mul_le_mul_right h hone
    omega
  have e := toWide_whole k (by omega)
  unfold whole at *
  unfold toUWide pat
  simp only []
  rw [if_neg hlt, e]

theorem natBit_int (n i : Nat) : bit (n : Int) i = n.testBit i := by
  unfold bit
  rw [Nat.testBit_eq_decide_div_mod_eq]
  congr 1
  apply propext
  constructor
  · intro h; exact_mod_cast h
  · intro h; exact_mod_cast h

theorem bitOp_ok (f : Nat → Nat → Nat) (g : Bool → Bool → Bool) (hg : g false false = false)
    (hf : ∀ x y i, (f x y).testBit i = g (x.testBit i) (y.testBit i)) (a b : Int) (ha : In32 a) (hb : In32 b)
    (hs : ∀ i, 31 ≤ i → g (bit a i) (bit b i) = false) (strict : Bool) :
    ∃ r, bitOp f strict (whole a) (whole b) = some (whole r) ∧ Bitwise g a b r := by
  have hlt : f (pat a) (pat b) < 2 ^ 31 := by
    apply Nat.lt_pow_two_of_testBit
    intro i hi
    rw [hf]
    by_cases h64 : i < 64
    · rw [pat_bit a i h64, pat_bit b i h64]; exact hs i hi
    · rw [pat_high a i (by omega), pat_high b i (by omega)]; exact hg
  refine ⟨(f (pat a) (pat b) : Nat), ?_, ⟨by omega, by omega⟩, ?_⟩
  · unfold bitOp chk2
    rw [if_pos (Or.inr ⟨rfl, rfl⟩), toUWide_whole a ha, toUWide_whole b hb, ofInt_double _ (isDouble_small _ (by omega))]
  · intro i hi
    rw [natBit_int, hf, pat_bit a i (by omega), pat_bit b i (by omega)]

theorem bit_sign (k : Int) (h : In32 k) (i : Nat) (hi : 31 ≤ i) : bit k i = decide (k < 0) := by
  by_cases hk : k < 0
  · rw [bit_neg k hk h.1 i hi, decide_eq_true hk]
  · rw [bit_pos k (by omega) h.2 i hi, decide_eq_false hk]

/-- **C166** (`&`): on whole numbers of 32 bits, not both negative. -/
theorem C166_and_partial (strict : Bool) (a b : Int) (ha : In32 a) (hb : In32 b) (h : 0 ≤ a ∨ 0 ≤ b) :
    ∃ r, opAnd strict (whole a) (whole b) = some (whole r) ∧ Bitwise (· && ·) a b r := by
  apply bitOp_ok _ _ rfl (fun x y i => Nat.testBit_and x y i) a b ha hb
  intro i hi
  rw [bit_sign a ha i hi, bit_sign b hb i hi]
  by_cases h1 : a < 0
  · have : ¬ b < 0 := by omega
    simp [this]
  · simp [h1]

/-- **C166** (`|`): on whole numbers from 0 to 2^31 - 1. -/
theorem C166_or_partial (strict : Bool) (a b : Int) (ha : In32 a) (hb : In32 b) (h : 0 ≤ a ∧ 0 ≤ b) :
    ∃ r, opOr strict (whole a) (whole b) = some (whole r) ∧ Bitwise (· || ·) a b r := by
  apply bitOp_ok _ _ rfl (fun x y i => Nat.testBit_or x y i) a b ha hb
  intro i hi
  rw [bit_sign a ha i hi, bit_sign b hb i hi]
  have h1 : ¬ a < 0 := by omega
  have h2 : ¬ b < 0 := by omega
  simp [h1, h2]

/-- **C166** (`^`): on whole numbers of 32 bits of the same sign. -/
theorem C166_xor_partial (strict : Bool) (a b : Int) (ha : In32 a) (hb : In32 b) (h : a < 0 ↔ b < 0) :
    ∃ r, opXor strict (whole a) (whole b) = some (whole r) ∧ Bitwise (fun x y => x ^^ y) a b r := by
  apply bitOp_ok _ _ rfl (fun x y i => Nat.testBit_xor x y i) a b ha hb
  intro i hi
  rw [bit_sign a ha i hi, bit_sign b hb i hi]
  by_cases h1 : a < 0
  · simp [h1, h.1 h1]
  · have h2 : ¬ b < 0 := fun h2 => h1 (h.2 h2)
    simp [h1, h2]

example : In32 (-6) ∧ In32 1000 ∧ (0 ≤ (-6 : Int) ∨ 0 ≤ (1000 : Int)) := by unfold In32; decide

/-- **C166** refuted: the operators work on 64 unsigned bits, so `-1 | 0`, `-1 & -2` and `-1 ^ 0` are numbers about 2^64. -/
theorem C166_refuted : opOr true (whole (-1)) (whole 0) = some (whole (2 ^ 64)) ∧
    opAnd true (whole (-1)) (whole (-2)) = some (whole (2 ^ 64)) ∧ opXor true (whole (-1)) (whole 0) = some (whole (2 ^ 64)) ∧
    (∃ r, In32 r ∧ Bitwise (· || ·) (-1) 0 r ∧ r = -1) := by
  refine ⟨by decide +kernel, by decide +kernel, by decide +kernel, -1, by unfold In32; decide, ⟨by unfold In32; decide, ?_⟩, rfl⟩
  decide

/-- **C166** refuted: numbers from 2^31 on are not reduced: `2147483648 | 0` is 2147483648, not -2147483648. -/
theorem C166_large_refuted : opOr true (whole (2 ^ 31)) (whole 0) = some (whole (2 ^ 31)) ∧ Reduced (2 ^ 31) (-2 ^ 31) := by
  refine ⟨by decide +kernel, by unfold In32; decide, 1, by decide⟩

/-! ### C167 -/

theorem toInt_whole32 (k : Int) (h : k.natAbs < 2 ^ 31) : toInt (whole k) = k := by
  unfold toInt whole
  simp only [whole_natAbs, Nat.mul_div_cancel _ Number.one_pos]
  rw [if_pos (show k.natAbs < 2147483648 by omega)]
  have hone : (0 : Int) < one := by exact_mod_cast Number.one_pos
  by_cases hk : k < 0
  · rw [if_pos (Int.mul_neg_of_neg_of_pos hk hone)]; omega
  · rw [if_neg (not_lt.2 (Int.mul_nonneg (by omega) hone.le))]; omega

theorem toInt_in32 (k : Int) (h : In32 k) : toInt (whole k) = k := by
  obtain ⟨h1, h2⟩ := h
  by_cases hk : k = -2 ^ 31
  · subst hk; decide +kernel
  · exact toInt_whole32 k (by omega)

theorem whole_normal (k : Int) : isNormal (whole k) = true := by
  unfold isNormal
  by_cases hk : k = 0
  · subst hk; simp [whole, numEq]
  · have : cNormal (whole k) = true := by
      unfold cNormal whole
      simp only [whole_natAbs, decide_eq_true_eq]
      have h1 : 2 ^ 52 ≤ one := by unfold one; decide +kernel
      exact Nat.le_trans h1 (Nat.le_mul_of_pos_left _ (by omega))
    rw [this, Bool.or_true]

theorem toO_whole (k : Int) (h : k.natAbs ≤ 2 ^ 53) : toO (whole k) = whole k := by
  unfold toO
  rw [if_pos (whole_normal k), toWide_whole k (by omega), ofInt_double k (isDouble_small k h)]

theorem in32_small {k : Int} (h : In32 k) : k.natAbs ≤ 2 ^ 53 := by unfold In32 at h; omega

/-- **C167** (`~`): on whole numbers of 32 bits every bit is turned. -/
theorem C167_not_partial (strict : Bool) (a : Int) (ha : In32 a) :
    ∃ r, opNot strict (whole a) = some (whole r) ∧ In32 r ∧ ∀ i < 32, bit r i = !bit a i := by
  refine ⟨-a - 1, ?_, ?_, ?_⟩
  · unfold opNot
    rw [toO_whole a (in32_small ha), if_pos (show strict = false ∨ isNaN (whole a) = false from Or.inr rfl), toInt_in32 a ha, ofInt_double _ (isDouble_small _ (by unfold In32 at ha; omega))]
  · unfold In32 at *; omega
  · intro i _
    unfold bit
    have hp : (0 : Int) < 2 ^ i := by positivity
    have e : (-a - 1) / 2 ^ i = -(a / 2 ^ i) - 1 := by
      generalize (2 : Int) ^ i = p at *
      have h1 := Int.emod_add_mul_ediv a p
      have h2 := Int.emod_nonneg a (ne_of_gt hp)
      have h3 := Int.emod_lt_of_pos a hp
      rw [Int.ediv_eq_iff_of_pos hp]
      generalize a / p = q at *
      generalize a % p = r at *
      constructor <;> nlinarith
    rw [e]
    have : a / 2 ^ i % 2 = 0 ∨ a / 2 ^ i % 2 = 1 := by omega
    generalize a / 2 ^ i = q at *
    rcases this with h | h
    · have : (-q - 1) % 2 = 1 := by omega
      rw [this, h]; decide
    · have : (-q - 1) % 2 = 0 := by omega
      rw [this, h]; decide

theorem shiftCount_whole (s : Int) (h : s.natAbs ≤ 2 ^ 53) : shiftCount (whole s) = (s % 32).toNat := by
  unfold shiftCount
  rw [toO_whole s h, toWide_whole s (by omega)]

theorem int32_reduced (k : Int) : Reduced k (int32 k) := by
  unfold int32 Reduced In32
  refine ⟨by omega, (k + 2 ^ 31) / 2 ^ 32, by omega⟩

/-- **C167** (`<<`): a whole number of 32 bits is multiplied by 2^(s mod 32), in 32 bits. -/
theorem C167_shl_partial (a s : Int) (ha : In32 a) (hs : s.natAbs ≤ 2 ^ 53) :
    ∃ r, opShl (whole a) (whole s) = whole r ∧ Reduced (a * 2 ^ (s % 32).toNat) r := by
  refine ⟨int32 (a * 2 ^ (s % 32).toNat), ?_, int32_reduced _⟩
  unfold opShl
  rw [shiftCount_whole s hs, toO_whole a (in32_small ha), toInt_in32 a ha]
  apply ofInt_double
  apply isDouble_small
  have := (int32_reduced (a * 2 ^ (s % 32).toNat)).1
  exact in32_small this

/-- **C167** (`>>`): the number is divided by 2^(s mod 32), rounding down. -/
theorem C167_shr_partial (a s : Int) (ha : In32 a) (hs : s.natAbs ≤ 2 ^ 53) :
    opShr (whole a) (whole s) = whole (a / 2 ^ (s % 32).toNat) := by
  unfold opShr
  rw [shiftCount_whole s hs, toO_whole a (in32_small ha), toInt_in32 a ha]
  apply ofInt_double
  apply isDouble_small
  have hp : (0 : Int) < 2 ^ (s % 32).toNat := by positivity
  generalize (2 : Int) ^ (s % 32).toNat = p at *
  have h1 := Int.natAbs_ediv_le_natAbs a p
  have := in32_small ha
  omega

/-- **C167** (`>>>`): the pattern of 32 bits is divided by 2^(s mod 32). -/
theorem C167_ushr_partial (a s : Int) (ha : In32 a) (hs : s.natAbs ≤ 2 ^ 53) :
    opUshr (whole a) (whole s) = whole ((if a < 0 then a + 2 ^ 32 else a) / 2 ^ (s % 32).toNat) := by
  unfold opUshr
  have e : a % 2 ^ 32 = (if a < 0 then a + 2 ^ 32 else a) := by
    unfold In32 at ha; split <;> omega
  rw [shiftCount_whole s hs, toO_whole a (in32_small ha), toInt_in32 a ha, e]
  apply ofInt_double
  apply isDouble_small
  have hp : (0 : Int) < 2 ^ (s % 32).toNat := by positivity
  generalize (2 : Int) ^ (s % 32).toNat = p at *
  have h1 := Int.natAbs_ediv_le_natAbs (if a < 0 then a + 2 ^ 32 else a) p
  have h2 : (if a < 0 then a + 2 ^ 32 else a).natAbs ≤ 2 ^ 53 := by unfold In32 at ha; split <;> omega
  omega

example : In32 (-2147483648) ∧ (33 : Int).natAbs ≤ 2 ^ 53 := by unfold In32; decide

/-- **C167** refuted: a number that does not fit 32 bits is not reduced but becomes -2^31: `4294967295 >> 0` should be -1,
`4294967295 >>> 0` should be 4294967295. -/
theorem C167_refuted : opShr (whole 4294967295) (whole 0) = whole (-2147483648) ∧
    opUshr (whole 4294967295) (whole 0) = whole 2147483648 ∧ Reduced 4294967295 (-1) := by
  refine ⟨by decide +kernel, by decide +kernel, by unfold In32; decide, 1, by decide⟩

/-! ### C168 -/

theorem sub_whole (a b : Int) (h : (a - b).natAbs ≤ 2 ^ 53) : sub (whole a) (whole b) = whole (a - b) := by
  have e : sub (whole a) (whole b) = ofInt (a - b) := by
    unfold sub whole ofInt
    simp only []
    rw [Int.sub_mul]
  rw [e, ofInt_double _ (isDouble_small _ h)]

theorem negate_whole (a : Int) : negate (whole a) = whole (-a) := by
  unfold negate whole
  simp only []
  rw [Int.neg_mul]

/-- **C168**: on a variable with a whole number below 2^53 in magnitude, `++` adds one, `--` subtracts one; the expression has the new value
when the operator stands before the variable and the old value when it stands behind. -/
theorem C168_inc_partial (inc post : Bool) (k : Int) (h : k.natAbs < 2 ^ 53) :
    opInc inc post (whole k) = (whole (if inc then k + 1 else k - 1), if post then whole k else whole (if inc then k + 1 else k - 1)) := by
  cases inc
  · have e : add (whole k) (whole (-1)) = whole (k - 1) := by
      unfold add
      rw [negate_whole, sub_whole _ _ (by omega), show k - -(-1) = k - 1 from by omega]
    have e2 : sub (whole (k - 1)) (whole (-1)) = whole k := by
      rw [sub_whole _ _ (by omega), show k - 1 - -1 = k from by omega]
    unfold opInc
    simp only [Bool.false_eq_true, if_false]
    show (add (whole k) (whole (-1)), if post then sub (add (whole k) (whole (-1))) (whole (-1)) else add (whole k) (whole (-1))) = _
    rw [e, e2]
  · have e : add (whole k) (whole 1) = whole (k + 1) := by
      unfold add
      rw [negate_whole, sub_whole _ _ (by omega), show k - -1 = k + 1 from by omega]
    have e2 : sub (whole (k + 1)) (whole 1) = whole k := by
      rw [sub_whole _ _ (by omega), show k + 1 - 1 = k from by omega]
    unfold opInc
    simp only [if_true]
    show (add (whole k) (whole 1), if post then sub (add (whole k) (whole 1)) (whole 1) else add (whole k) (whole 1)) = _
    rw [e, e2]

example : (-17 : Int).natAbs < 2 ^ 53 := by decide

/-- 0.1 -/
def tenth : Num := .fin (3602879701896397 * 2 ^ 1019)

/-- **C168** refuted: `x++` gives (x+1)-1, which is not x for 0.1 (it is 0.10000000000000009) nor for 2^53. -/
theorem C168_refuted : decNum false 1 (-1) = tenth ∧ (opInc true true tenth).2 ≠ tenth ∧
    (opInc true true (whole (2 ^ 53))).2 = whole (2 ^ 53 - 1) := by decide +kernel

/-! ### C169 -/

/-- **C169** (`%`): for finite numbers, the divisor not zero: the remainder is exact, smaller than the divisor, and has the sign of the
dividend. -/
theorem C169_remainder (strict : Bool) (a b : Int) (hb : b ≠ 0) :
    ∃ r q : Int, opMod strict (.fin a) (.fin b) = some (.fin r) ∧ a = q * b + r ∧ r.natAbs < b.natAbs ∧ (0 ≤ a → 0 ≤ r) ∧ (a ≤ 0 → r ≤ 0) := by
  refine ⟨Int.tmod a b, Int.tdiv a b, ?_, ?_, ?_, ?_, ?_⟩
  · unfold opMod chk2 fmod
    rw [if_pos (Or.inr ⟨rfl, rfl⟩)]
    simp only []
    rw [if_neg hb]
  · have := Int.tmod_add_mul_tdiv a b
    rw [Int.mul_comm, Int.add_comm]; exact this.symm
  · rw [Int.natAbs_tmod]
    exact Nat.mod_lt _ (by omega)
  · intro h; exact Int.tmod_nonneg b h
  · intro h
    have := Int.tmod_nonneg b (show 0 ≤ -a by omega)
    rw [Int.neg_tmod] at this
    omega

example : (-7 : Int) ≠ 0 := by decide

theorem numLt_trans' {a b c : Num} (h1 : numLt a b = false) (h2 : numLt b c = false) (hb : b ≠ .nan) : numLt a c = false := by
  cases a <;> cases b <;> cases c <;> simp_all [numLt] <;> first | omega | skip
  all_goals (rename_i x y; cases x <;> cases y <;> simp_all)

theorem numLt_irrefl (a : Num) : numLt a a = false := by
  cases a with
  | nan => rfl
  | inf b => cases b <;> rfl
  | fin m => simp [numLt]

theorem numLt_asymm {a b : Num} (h : numLt a b = true) : numLt b a = false := by
  cases a <;> cases b <;> simp_all [numLt]
  · omega

theorem minLoop_spec (l : List Num) : ∀ n, n ≠ .nan → (∀ x ∈ l, x ≠ .nan) →
    minLoop n l ∈ n :: l ∧ ∀ x ∈ n :: l, numLt x (minLoop n l) = false := by
  induction l with
  | nil => intro n _ _; exact ⟨by simp [minLoop], by intro x hx; simp at hx; subst hx; exact numLt_irrefl _⟩
  | cons y l ih =>
    intro n hn hl
    have hy := hl y (by simp)
    unfold minLoop
    by_cases h : numLt n y = true
    · rw [if_pos h]
      obtain ⟨i1, i2⟩ := ih n hn (fun x hx => hl x (by simp [hx]))
      refine ⟨by simp at i1 ⊢; tauto, ?_⟩
      intro x hx
      simp at hx
      rcases hx with rfl | rfl | hx
      · exact i2 _ (by simp)
      · exact numLt_trans' (numLt_asymm h) (i2 n (by simp)) hn
      · exact i2 x (by simp [hx])
    · rw [if_neg h]
      have h' : numLt n y = false := by simpa using h
      obtain ⟨i1, i2⟩ := ih y hy (fun x hx => hl x (by simp [hx]))
      refine ⟨by simp at i1 ⊢; tauto, ?_⟩
      intro x hx
      simp at hx
      rcases hx with rfl | rfl | hx
      · exact numLt_trans' h' (i2 y (by simp)) hy
      · exact i2 _ (by simp)
      · exact i2 x (by simp [hx])

theorem maxLoop_spec (l : List Num) : ∀ n, n ≠ .nan → (∀ x ∈ l, x ≠ .nan) →
    maxLoop n l ∈ n :: l ∧ ∀ x ∈ n :: l, numLt (maxLoop n l) x = false := by
  induction l with
  | nil => intro n _ _; exact ⟨by simp [maxLoop], by intro x hx; simp at hx; subst hx; exact numLt_irrefl _⟩
  | cons y l ih =>
    intro n hn hl
    have hy := hl y (by simp)
    unfold maxLoop
    by_cases h : numLt y n = true
    · rw [if_pos h]
      obtain ⟨i1, i2⟩ := ih n hn (fun x hx => hl x (by simp [hx]))
      refine ⟨by simp at i1 ⊢; tauto, ?_⟩
      intro x hx
      simp at hx
      rcases hx with rfl | rfl | hx
      · exact i2 _ (by simp)
      · exact numLt_trans' (i2 n (by simp)) (numLt_asymm h) hn
      · exact i2 x (by simp [hx])
    · rw [if_neg h]
      have h' : numLt y n = false := by simpa using h
      obtain ⟨i1, i2⟩ := ih y hy (fun x hx => hl x (by simp [hx]))
      refine ⟨by simp at i1 ⊢; tauto, ?_⟩
      intro x hx
      simp at hx
      rcases hx with rfl | rfl | hx
      · exact numLt_trans' (i2 y (by simp)) h' hy
      · exact i2 _ (by simp)
      · exact i2 x (by simp [hx])

/-- **C169** (`Math.min`, `Math.max`): without NaN among the arguments, the result is one of them and none is smaller (larger). -/
theorem C169_min_max_partial (l : List Num) (hne : l ≠ []) (h : ∀ x ∈ l, x ≠ .nan) :
    (∃ r ∈ l, mathMin l = some r ∧ ∀ x ∈ l, numLt x r = false) ∧ (∃ r ∈ l, mathMax l = some r ∧ ∀ x ∈ l, numLt r x = false) := by
  cases l with
  | nil => exact absurd rfl hne
  | cons n l =>
    have h1 := minLoop_spec l n (h n (by simp)) (fun x hx => h x (by simp [hx]))
    have h2 := maxLoop_spec l n (h n (by simp)) (fun x hx => h x (by simp [hx]))
    exact ⟨⟨_, h1.1, rfl, h1.2⟩, ⟨_, h2.1, rfl, h2.2⟩⟩

example : [whole 3, .inf true, tenth] ≠ [] ∧ ∀ x ∈ [whole 3, .inf true, tenth], x ≠ Num.nan := by
  refine ⟨by simp, ?_⟩
  intro x hx; simp at hx
  rcases hx with rfl | rfl | rfl <;> simp [whole, tenth]

/-- **C169** refuted with NaN: the answer depends on the order of the arguments. -/
theorem C169_nan_refuted : mathMax [.nan, whole 1] = some (whole 1) ∧ mathMax [whole 1, .nan] = some .nan ∧
    mathMin [.nan, whole 1] = some (whole 1) := by decide +kernel

theorem round_near (o n : Nat) (ho : 0 < o) (m : Int) (hn : n = (2 * m.natAbs + o) / (2 * o)) :
    2 * (((if m < 0 then -1 else 1) * (n : Int)) * o - m).natAbs ≤ o ∧
    (0 ≤ m → 2 * m < (2 * ((if m < 0 then -1 else 1) * (n : Int)) + 1) * o) := by
  have h1 : n * (2 * o) ≤ 2 * m.natAbs + o := by rw [hn]; exact Nat.div_mul_le_self _ _
  have h2 : 2 * m.natAbs + o < (n + 1) * (2 * o) := by
    rw [hn, Nat.mul_comm ((2 * m.natAbs + o) / (2 * o) + 1)]; exact Nat.lt_mul_div_succ _ (by omega)
  have h1' : (n : Int) * (2 * o) ≤ 2 * m.natAbs + o := by exact_mod_cast h1
  have h2' : 2 * (m.natAbs : Int) + o < (n + 1) * (2 * o) := by exact_mod_cast h2
  have e2 : (n : Int) * (2 * o) = 2 * ((n : Int) * o) := by ring
  have e3 : ((n : Int) + 1) * (2 * o) = 2 * ((n : Int) * o) + 2 * o := by ring
  rw [e2] at h1'
  rw [e3] at h2'
  by_cases hm : m < 0
  · rw [if_pos hm]
    have e4 : -1 * (n : Int) * o = -((n : Int) * o) := by ring
    rw [e4]
    generalize (n : Int) * o = p at *
    exact ⟨by omega, fun h => by omega⟩
  · rw [if_neg hm]
    have e4 : 1 * (n : Int) * o = (n : Int) * o := by ring
    have e5 : (2 * (1 * (n : Int)) + 1) * o = 2 * ((n : Int) * o) + o := by ring
    rw [e4, e5]
    generalize (n : Int) * o = p at *
    exact ⟨by omega, fun h => by omega⟩

/-- **C169** (`Math.round`): a whole number nearest to the argument; a half that is not negative goes up. -/
theorem C169_round_partial (m : Int) : ∃ k : Int, mathRound (.fin m) = whole k ∧ 2 * (k * one - m).natAbs ≤ one ∧
    (0 ≤ m → 2 * m < (2 * k + 1) * one) :=
  ⟨_, rfl, round_near one _ Number.one_pos m rfl⟩

theorem floor_near (o : Nat) (ho : 0 < o) (m : Int) : m / o * o ≤ m ∧ m < (m / o + 1) * o := by
  have ho' : (0 : Int) < o := by exact_mod_cast ho
  refine ⟨Int.ediv_mul_le _ (ne_of_gt ho'), ?_⟩
  have := Int.lt_ediv_add_one_mul_self m ho'
  exact this

/-- **C169** (`Math.floor`, `Math.ceil`): the greatest whole number that is not above, the least that is not below. -/
theorem C169_floor_ceil (m : Int) :
    (∃ k : Int, mathFloor (.fin m) = whole k ∧ k * one ≤ m ∧ m < (k + 1) * one) ∧
    (∃ k : Int, mathCeil (.fin m) = whole k ∧ m ≤ k * one ∧ (k - 1) * one < m) := by
  refine ⟨⟨_, rfl, floor_near one Number.one_pos m⟩, ⟨_, rfl, ?_⟩⟩
  have h := floor_near one Number.one_pos (-m)
  generalize one = o at *
  generalize -m / (o : Int) = q at *
  constructor <;> nlinarith [h.1, h.2]

/-- -2.5 -/
def minusTwoHalf : Num := .fin (-5 * 2 ^ 1073)

/-- **C169** refuted: `Math.round(-2.5)` is -3 (a negative half goes away from zero; ECMAScript: -2), and an overflow of
`Math.pow` is NaN (ECMAScript: Infinity). -/
theorem C169_round_refuted : decNum true 25 (-1) = minusTwoHalf ∧ mathRound minusTwoHalf = whole (-3) ∧
    mfunc2 (.inf false) = .nan := by decide +kernel

end Verif.Arith
