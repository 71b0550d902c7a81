import Verif.Crypto.Sha1Model
import Verif.Crypto.Sha1Spec
import Verif.Crypto.Sha256Props

namespace Verif.Crypto.Sha1
open Spec (beWord wordBytes)
open Sha256 (rotr rotr_bv be32_eq foldl_hom shl_or)

/-- Words as bit vectors. -/
def S.bv (s : S) : List (BitVec 32) :=
  [s.a.toBitVec, s.b.toBitVec, s.c.toBitVec, s.d.toBitVec, s.e.toBitVec]

theorem rotl_bv (x : UInt32) (n : Nat) (h0 : 0 < n) (h : n < 32) :
    (rotl x (UInt32.ofNat n)).toBitVec = x.toBitVec.rotateLeft n := by
  rw [BitVec.rotateLeft_def]
  unfold rotl
  rw [Nat.mod_eq_of_lt h]
  have e1 : (UInt32.ofNat n).toBitVec = BitVec.ofNat 32 n := rfl
  have a1 : ((UInt32.ofNat n).toBitVec % 32#32) = BitVec.ofNat 32 n := by
    rw [e1]; apply BitVec.eq_of_toNat_eq; simp [BitVec.toNat_umod]; omega
  have a2 : ((32 - UInt32.ofNat n).toBitVec % 32#32) = BitVec.ofNat 32 (32 - n) := by
    have : (32 - UInt32.ofNat n).toBitVec = 32#32 - BitVec.ofNat 32 n := rfl
    rw [this]; apply BitVec.eq_of_toNat_eq
    simp only [BitVec.toNat_umod, BitVec.toNat_sub, BitVec.toNat_ofNat, Nat.reducePow,
      Nat.reduceMod]
    omega
  have s1 : (x <<< UInt32.ofNat n).toBitVec = x.toBitVec <<< (BitVec.ofNat 32 n) := by
    rw [← a1]; rfl
  have s2 : (x >>> (32 - UInt32.ofNat n)).toBitVec = x.toBitVec >>> (BitVec.ofNat 32 (32-n)) := by
    rw [← a2]; rfl
  rw [show ((x <<< UInt32.ofNat n) ||| (x >>> (32 - UInt32.ofNat n))).toBitVec
    = (x <<< UInt32.ofNat n).toBitVec ||| (x >>> (32 - UInt32.ofNat n)).toBitVec from rfl, s1, s2]
  rw [BitVec.ushiftRight_eq', BitVec.shiftLeft_eq']
  have t1 : (BitVec.ofNat 32 n).toNat = n := by simp; omega
  have t2 : (BitVec.ofNat 32 (32-n)).toNat = 32 - n := by simp; omega
  rw [t1, t2]

theorem addWord_bv (b0 b1 b2 b3 : UInt8) :
    ((b0.toUInt32 <<< 24) + (b1.toUInt32 <<< 16) + (b2.toUInt32 <<< 8) +
      b3.toUInt32).toBitVec = beWord b0 b1 b2 b3 := by
  apply BitVec.eq_of_toNat_eq
  have h0 := b0.toNat_lt
  have h1 := b1.toNat_lt
  have h2 := b2.toNat_lt
  have h3 := b3.toNat_lt
  have sh : ∀ (b : UInt8) (n : UInt32) (m : Nat), n.toNat = m → m ≤ 24 →
      (b.toUInt32 <<< n).toNat = b.toNat * 2^m := by
    intro b n m hn hm
    have hb := b.toNat_lt
    rw [UInt32.toNat_shiftLeft, hn, UInt8.toNat_toUInt32, Nat.mod_eq_of_lt (by omega : m < 32),
      Nat.shiftLeft_eq, Nat.mod_eq_of_lt]
    have : 2^m ≤ 2^24 := Nat.pow_le_pow_right (by decide) hm
    calc b.toNat * 2^m ≤ 255 * 2^24 := Nat.mul_le_mul (by omega) this
      _ < 2^32 := by decide
  rw [UInt32.toNat_toBitVec, UInt32.toNat_add, UInt32.toNat_add, UInt32.toNat_add,
    sh b0 24 24 rfl (by decide), sh b1 16 16 rfl (by decide), sh b2 8 8 rfl (by decide),
    UInt8.toNat_toUInt32]
  unfold beWord
  rw [BitVec.toNat_ofNat]
  simp only [Nat.reducePow] at *
  omega

theorem iv_bv : iv.bv = Spec.Sha1.H0 := by decide +kernel

theorem sched_len (d : List UInt8) (n : Nat) : (sched d n).length = 16 + n := by
  induction n with
  | zero => rfl
  | succ n ih => simp [sched, ih]; omega

theorem sched_bv (d : List UInt8) (n i : Nat) (h : i < 16 + n) :
    ((sched d n).getD i 0).toBitVec = Spec.Sha1.W d i := by
  induction n generalizing i with
  | zero =>
    have hi : i < 16 := by omega
    rw [Spec.Sha1.W, if_pos hi, ← addWord_bv]
    have : (sched d 0).getD i 0 = word d i := by
      simp [sched, List.getD_eq_getElem?_getD, hi]
    rw [this]; rfl
  | succ n ih =>
    by_cases hi : i < 16 + n
    · rw [← ih i hi]
      have := sched_len d n
      simp only [sched]
      rw [List.getD_eq_getElem?_getD, List.getElem?_append_left (by omega),
        ← List.getD_eq_getElem?_getD]
    · have hi' : i = 16 + n := by omega
      subst hi'
      rw [Spec.Sha1.W, if_neg (by omega), ← ih _ (by omega), ← ih _ (by omega), ← ih _ (by omega),
        ← ih _ (by omega)]
      have := rotl_bv ((sched d n).getD (16+n-3) 0 ^^^ (sched d n).getD (16+n-8) 0 ^^^
        (sched d n).getD (16+n-14) 0 ^^^ (sched d n).getD (16+n-16) 0) 1 (by decide) (by decide)
      rw [show ((sched d n).getD (16+n-3) 0 ^^^ (sched d n).getD (16+n-8) 0 ^^^
        (sched d n).getD (16+n-14) 0 ^^^ (sched d n).getD (16+n-16) 0).toBitVec =
        ((sched d n).getD (16+n-3) 0).toBitVec ^^^ ((sched d n).getD (16+n-8) 0).toBitVec ^^^
        ((sched d n).getD (16+n-14) 0).toBitVec ^^^ ((sched d n).getD (16+n-16) 0).toBitVec
        from rfl] at this
      rw [← this]
      simp only [sched]
      rw [List.getD_eq_getElem?_getD, List.getElem?_append_right (by rw [sched_len]; omega),
        sched_len]
      simp [rotl]

theorem K0 (t : Nat) (h : t < 20) : Spec.Sha1.K t = 0x5a827999#32 := by
  have : (if t < 20 then 2 else if t < 40 then 3 else if t < 60 then 5 else 10) = 2 := by
    simp [h]
  unfold Spec.Sha1.K; rw [this]; decide +kernel
theorem K1 (t : Nat) (h : ¬ t < 20) (h' : t < 40) : Spec.Sha1.K t = 0x6ed9eba1#32 := by
  have : (if t < 20 then 2 else if t < 40 then 3 else if t < 60 then 5 else 10) = 3 := by
    simp [h, h']
  unfold Spec.Sha1.K; rw [this]; decide +kernel
theorem K2 (t : Nat) (h : ¬ t < 20) (h1 : ¬ t < 40) (h' : t < 60) :
    Spec.Sha1.K t = 0x8f1bbcdc#32 := by
  have : (if t < 20 then 2 else if t < 40 then 3 else if t < 60 then 5 else 10) = 5 := by
    simp [h, h1, h']
  unfold Spec.Sha1.K; rw [this]; decide +kernel
theorem K3 (t : Nat) (h : ¬ t < 20) (h1 : ¬ t < 40) (h' : ¬ t < 60) :
    Spec.Sha1.K t = 0xca62c1d6#32 := by
  have : (if t < 20 then 2 else if t < 40 then 3 else if t < 60 then 5 else 10) = 10 := by
    simp [h, h1, h']
  unfold Spec.Sha1.K; rw [this]; decide +kernel

theorem rnd_bv (M : List UInt8) (s : S) (t : Nat) (m : List UInt32)
    (hm : (m.getD t 0).toBitVec = Spec.Sha1.W M t) :
    (rnd m s t).bv = Spec.Sha1.step M s.bv t := by
  have r5 := rotl_bv s.a 5 (by decide) (by decide)
  have r30 := rotl_bv s.b 30 (by decide) (by decide)
  simp only [S.bv, Spec.Sha1.step, ← hm, ← r5, ← r30, Spec.Sha1.f, rnd]
  by_cases h1 : t < 20
  · simp only [h1, if_true, K0 t h1]; rfl
  by_cases h2 : t < 40
  · simp only [h1, h2, if_true, if_false, K1 t h1 h2]; rfl
  by_cases h3 : t < 60
  · simp only [h1, h2, h3, if_true, if_false, K2 t h1 h2 h3]; rfl
  · simp only [h1, h2, h3, if_false, K3 t h1 h2 h3]; rfl

theorem transform_bv (s : S) (M : List UInt8) :
    (transform s M).bv = Spec.Sha1.compress s.bv M := by
  unfold Spec.Sha1.compress
  rw [← foldl_hom (rnd (sched M 64)) (Spec.Sha1.step M)
    S.bv (List.range 80) (fun a c hc => rnd_bv M a c _
      (sched_bv M 64 c (by have := List.mem_range.mp hc; omega)))]
  simp only [transform, S.bv, List.zipWith_cons_cons, List.zipWith_nil_right, UInt32.toBitVec_add,
    BitVec.add_comm]

theorem out_eq (s : S) : out s = s.bv.flatMap wordBytes := by
  simp [out, S.bv, be32_eq]

/-- **C09.** For every message of less than 2^61 bytes and whatever the uninitialised buffer
contained, the digest is FIPS 180-4 SHA-1. -/
theorem C09_sha1_is_fips180 (junk msg : List UInt8) (hj : junk.length = 64)
    (hm : 8 * msg.length < 2^64) : digest junk msg = Spec.Sha1.sha1 msg := by
  unfold digest Spec.Sha1.sha1
  rw [stream transform iv junk msg hj hm, out_eq]
  congr 1
  unfold Spec.iterate
  rw [foldl_hom transform Spec.Sha1.compress S.bv _ (fun a c _ => transform_bv a c), iv_bv]

/-- The digest depends only on the bytes fed, not on how they are split into calls. -/
theorem C09_chunking (c : Ctx S) (a b : List UInt8) :
    update transform (update transform c a) b = update transform c (a ++ b) :=
  update_append _ _ _ _

/-- Sanity check of the specification: SHA-1("abc"). -/
example : Spec.Sha1.sha1 (asc "abc") = [0xa9,0x99,0x3e,0x36,0x47,0x06,0x81,0x6a,0xba,0x3e,0x25,0x71,
    0x78,0x50,0xc2,0x6c,0x9c,0xd0,0xd8,0x9d] := by
  rw [← C09_sha1_is_fips180 (List.replicate 64 0) (asc "abc") rfl (by decide)]
  decide +kernel

end Verif.Crypto.Sha1
