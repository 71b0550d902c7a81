import Verif.Crc.Model
import Verif.Crc.Spec

namespace Verif.Crc
open Spec

/-- One clock with a zero message bit. -/
def z (r : BitVec 32) : BitVec 32 := clock r false

theorem z_xor (a b : BitVec 32) : z (a ^^^ b) = z a ^^^ z b := by
  unfold z clock
  simp only [BitVec.getLsbD_xor]
  have hs : (a ^^^ b) >>> 1 = (a >>> 1) ^^^ (b >>> 1) := by
    ext i hi; simp
  cases a.getLsbD 0 <;> cases b.getLsbD 0 <;> simp [hs]
  · rw [BitVec.xor_assoc]
  · rw [BitVec.xor_assoc, BitVec.xor_assoc, BitVec.xor_comm poly]
  · rw [BitVec.xor_assoc, BitVec.xor_comm poly, BitVec.xor_assoc (b >>> 1), BitVec.xor_self,
      BitVec.xor_zero]

/-- Clocking a message bit is xoring it into bit 0 and clocking a zero. -/
theorem clock_eq (r : BitVec 32) (b : Bool) : clock r b = z (r ^^^ (if b then 1#32 else 0#32)) := by
  rw [z_xor]
  cases b
  · simp [z, clock]
  · have : z 1#32 = poly := by decide
    simp only [if_true, this]
    unfold z clock
    cases h : r.getLsbD 0 <;> simp [h, BitVec.xor_assoc]

/-- Shifting the zero bits out costs nothing. -/
theorem z_even (h : BitVec 32) (he : h.getLsbD 0 = false) : z h = h >>> 1 := by
  unfold z clock
  rw [he]; rfl

theorem low4 : ∀ i : Fin 16, z (z (z (z (BitVec.ofNat 32 i.val)))) = tab (BitVec.ofNat 32 i.val) := by
  decide

/-- The nibble table does four clocks at once. -/
theorem four (r : BitVec 32) : z (z (z (z r))) = (r >>> 4) ^^^ tab (r &&& 0xF#32) := by
  have hsplit : r = ((r >>> 4) <<< 4) ^^^ (r &&& 0xF#32) := by
    ext i hi
    simp only [BitVec.getElem_xor, BitVec.getElem_shiftLeft, BitVec.getElem_and]
    by_cases h : i < 4
    · have : (0xF#32)[i] = true := by
        have : ∀ i : Fin 4, (0xF#32).getLsbD i.val = true := by decide
        have := this ⟨i, h⟩
        simpa [BitVec.getLsbD_eq_getElem hi] using this
      simp [h, this]
    · have : (0xF#32)[i] = false := by
        have : ∀ i : Fin 32, 4 ≤ i.val → (0xF#32).getLsbD i.val = false := by decide
        have := this ⟨i, hi⟩ (by simp; omega)
        simpa [BitVec.getLsbD_eq_getElem hi] using this
      have h4 : 4 + (i - 4) = i := by omega
      simp [h, this, h4, BitVec.getLsbD_eq_getElem hi]
  have hlow : (r &&& 0xF#32) = BitVec.ofNat 32 ((r &&& 0xF#32).toNat) := by simp
  have hlt : (r &&& 0xF#32).toNat < 16 := by
    rw [BitVec.toNat_and]
    exact Nat.lt_of_le_of_lt Nat.and_le_right (by decide)
  have hl := low4 ⟨_, hlt⟩
  rw [← hlow] at hl
  have hh : z (z (z (z ((r >>> 4) <<< 4)))) = r >>> 4 := by
    have e1 : z ((r >>> 4) <<< 4) = (r >>> 4) <<< 3 := by
      rw [z_even _ (by simp)]
      ext i hi
      simp only [BitVec.getElem_ushiftRight, BitVec.getLsbD_shiftLeft, BitVec.getElem_shiftLeft]
      by_cases h1 : 1 + i < 32
      · by_cases h : i < 3
        · have : 1 + i < 4 := by omega
          simp [h, this]
        · have h2 : ¬ 1 + i < 4 := by omega
          have h3 : 4 + (1 + i - 4) = 4 + (i - 3) := by omega
          simp [h, h1, h2]
          try first | (congr 1; omega) | rw [h3]
      · have h : ¬ i < 3 := by omega
        simp [h1, h]
        have : i = 31 := by omega
        subst this
        apply BitVec.getLsbD_of_ge; omega
    have e2 : z ((r >>> 4) <<< 3) = (r >>> 4) <<< 2 := by
      rw [z_even _ (by simp)]
      ext i hi
      simp only [BitVec.getElem_ushiftRight, BitVec.getLsbD_shiftLeft, BitVec.getElem_shiftLeft]
      by_cases h1 : 1 + i < 32
      · by_cases h : i < 2
        · have : 1 + i < 3 := by omega
          simp [h, this]
        · have h2 : ¬ 1 + i < 3 := by omega
          simp [h, h1, h2]
          try (congr 1; omega)
      · have h : ¬ i < 2 := by omega
        simp [h1, h]
        have : i = 31 := by omega
        subst this
        apply BitVec.getLsbD_of_ge; omega
    have e3 : z ((r >>> 4) <<< 2) = (r >>> 4) <<< 1 := by
      rw [z_even _ (by simp)]
      ext i hi
      simp only [BitVec.getElem_ushiftRight, BitVec.getLsbD_shiftLeft, BitVec.getElem_shiftLeft]
      by_cases h1 : 1 + i < 32
      · by_cases h : i < 1
        · have : 1 + i < 2 := by omega
          simp [h, this]
        · have h2 : ¬ 1 + i < 2 := by omega
          simp [h, h1, h2]
          try (congr 1; omega)
      · have h : ¬ i < 1 := by omega
        simp [h1, h]
        have : i = 31 := by omega
        subst this
        apply BitVec.getLsbD_of_ge; omega
    have e4 : z ((r >>> 4) <<< 1) = r >>> 4 := by
      rw [z_even _ (by simp)]
      ext i hi
      simp only [BitVec.getElem_ushiftRight, BitVec.getLsbD_shiftLeft]
      by_cases h1 : 1 + i < 32
      · simp [h1]
      · simp [h1]
        apply BitVec.getLsbD_of_ge; omega
    rw [e1, e2, e3, e4]
  calc z (z (z (z r))) = z (z (z (z (((r >>> 4) <<< 4) ^^^ (r &&& 0xF#32))))) := by rw [← hsplit]
    _ = _ := by simp only [z_xor, hl, hh]

/-- Clocking four bits is xoring the nibble they form and clocking four zeros. -/
theorem four_bits (r : BitVec 32) (b0 b1 b2 b3 : Bool) :
    clock (clock (clock (clock r b0) b1) b2) b3 =
      z (z (z (z (r ^^^ ((if b0 then 1#32 else 0#32) ^^^ (if b1 then 2#32 else 0#32) ^^^
        (if b2 then 4#32 else 0#32) ^^^ (if b3 then 8#32 else 0#32)))))) := by
  have h1 : z (if b1 then 2#32 else 0#32) = if b1 then 1#32 else 0#32 := by cases b1 <;> decide
  have h2 : z (z (if b2 then 4#32 else 0#32)) = if b2 then 1#32 else 0#32 := by cases b2 <;> decide
  have h3 : z (z (z (if b3 then 8#32 else 0#32))) = if b3 then 1#32 else 0#32 := by
    cases b3 <;> decide
  simp only [clock_eq, z_xor]
  rw [h1, h2, h3]
  simp only [BitVec.xor_assoc]

theorem tab_idx (c n : BitVec 32) (hn : n &&& 0xF#32 = n) :
    (c >>> 4) ^^^ tab ((c &&& 0xF#32) ^^^ n) = z (z (z (z (c ^^^ n)))) := by
  rw [four]
  have h1 : (c ^^^ n) >>> 4 = (c >>> 4) ^^^ (n >>> 4) := by ext i hi; simp
  have h2 : n >>> 4 = 0#32 := by
    rw [← hn]
    have : ∀ x : BitVec 32, (x &&& 0xF#32) >>> 4 = 0#32 := by
      intro x
      apply BitVec.eq_of_toNat_eq
      simp only [BitVec.toNat_ushiftRight, BitVec.toNat_and, BitVec.toNat_ofNat, Nat.zero_mod,
        Nat.shiftRight_eq_div_pow]
      have : x.toNat &&& (15 % 2 ^ 32) ≤ 15 := Nat.and_le_right
      omega
    exact this n
  have h3 : (c ^^^ n) &&& 0xF#32 = (c &&& 0xF#32) ^^^ n := by
    conv => rhs; rw [← hn]
    ext i hi
    simp only [BitVec.getElem_and, BitVec.getElem_xor]
    cases c[i] <;> cases n[i] <;> cases (0xF#32)[i] <;> rfl
  rw [h1, h2, h3, BitVec.xor_zero]

/-- The nibbles of a byte, as the numbers their bits form. -/
theorem nibbles : ∀ b : Fin 256,
    let bb : BitVec 32 := (BitVec.ofNat 8 b.val).setWidth 32
    let bit := fun i => (BitVec.ofNat 8 b.val).toNat.testBit i
    (bb &&& 0xF#32) = ((if bit 0 then 1#32 else 0#32) ^^^ (if bit 1 then 2#32 else 0#32) ^^^
        (if bit 2 then 4#32 else 0#32) ^^^ (if bit 3 then 8#32 else 0#32)) ∧
    (bb >>> 4) = ((if bit 4 then 1#32 else 0#32) ^^^ (if bit 5 then 2#32 else 0#32) ^^^
        (if bit 6 then 4#32 else 0#32) ^^^ (if bit 7 then 8#32 else 0#32)) := by
  decide +kernel

theorem hi_nibble : ∀ b : Fin 256,
    ((BitVec.ofNat 8 b.val).setWidth 32 >>> 4) &&& 0xF#32 = (BitVec.ofNat 8 b.val).setWidth 32 >>> 4 := by
  decide +kernel

theorem byteStep_eq (r : BitVec 32) (b : UInt8) : byteStep r b = (bits b).foldl clock r := by
  have hb : b.toBitVec = BitVec.ofNat 8 b.toNat := by simp
  have hn := nibbles ⟨b.toNat, b.toNat_lt⟩
  have hh := hi_nibble ⟨b.toNat, b.toNat_lt⟩
  simp only [← hb] at hn hh
  unfold byteStep
  simp only []
  rw [tab_idx _ (b.toBitVec.setWidth 32 &&& 0xF#32) (by
      rw [BitVec.and_assoc]; congr 1), tab_idx _ _ hh, hn.1, hn.2]
  rw [← four_bits, ← four_bits]
  rfl

/-- **C03** (first half).  `Jsi_Crc32` is the bit-serial CRC-32 continued from `crc`. -/
theorem C03_crc32_is_bit_serial (crc : BitVec 32) (buf : List UInt8) :
    crc32 crc (some buf) = Spec.crc32 crc buf := by
  unfold crc32 Spec.crc32
  simp only []
  congr 1
  generalize (~~~crc) = r
  induction buf generalizing r with
  | nil => rfl
  | cons b t ih => simp [byteStep_eq, List.foldl_append, ih]

/-- **C03** (second half).  A CRC can be computed piecewise. -/
theorem C03_crc32_incremental (crc : BitVec 32) (a b : List UInt8) :
    crc32 (crc32 crc (some a)) (some b) = crc32 crc (some (a ++ b)) := by
  simp [crc32, List.foldl_append]

-- Tests: the standard check value, and that the claim is about non-trivial data.
example : crc32 0 (some (asc "123456789")) = 0xCBF43926#32 := by decide +kernel
example : crc32 (crc32 0 (some (asc "1234"))) (some (asc "56789")) = 0xCBF43926#32 := by decide +kernel

end Verif.Crc
