import Verif.Crypto.MDProofs
import Verif.Crypto.Sha256Model
import Verif.Crypto.Sha256Spec

namespace Verif.Crypto.Sha256
open Spec (beWord wordBytes)

/-- Words as bit vectors. -/
def S.bv (s : S) : List (BitVec 32) :=
  [s.a.toBitVec, s.b.toBitVec, s.c.toBitVec, s.d.toBitVec, s.e.toBitVec, s.f.toBitVec,
   s.g.toBitVec, s.h.toBitVec]

theorem rotr_bv (x : UInt32) (n : Nat) (h0 : 0 < n) (h : n < 32) :
    (rotr x (UInt32.ofNat n)).toBitVec = x.toBitVec.rotateRight n := by
  rw [BitVec.rotateRight_def]
  unfold rotr
  rw [Nat.mod_eq_of_lt h]
  have e1 : (UInt32.ofNat n).toBitVec = BitVec.ofNat 32 n := rfl
  have a1 : ((UInt32.ofNat n).toBitVec % 32#32) = BitVec.ofNat 32 n := by
    rw [e1]; apply BitVec.eq_of_toNat_eq; simp [BitVec.toNat_umod]; omega
  have a2 : ((32 - UInt32.ofNat n).toBitVec % 32#32) = BitVec.ofNat 32 (32 - n) := by
    have : (32 - UInt32.ofNat n).toBitVec = 32#32 - BitVec.ofNat 32 n := rfl
    rw [this]; apply BitVec.eq_of_toNat_eq
    simp only [BitVec.toNat_umod, BitVec.toNat_sub, BitVec.toNat_ofNat, Nat.reducePow, Nat.reduceMod]
    omega
  have s1 : (x >>> UInt32.ofNat n).toBitVec = x.toBitVec >>> (BitVec.ofNat 32 n) := by
    rw [← a1]; rfl
  have s2 : (x <<< (32 - UInt32.ofNat n)).toBitVec = x.toBitVec <<< (BitVec.ofNat 32 (32-n)) := by
    rw [← a2]; rfl
  rw [show ((x >>> UInt32.ofNat n) ||| (x <<< (32 - UInt32.ofNat n))).toBitVec
    = (x >>> UInt32.ofNat n).toBitVec ||| (x <<< (32 - UInt32.ofNat n)).toBitVec from rfl, s1, s2]
  rw [BitVec.ushiftRight_eq', BitVec.shiftLeft_eq']
  have t1 : (BitVec.ofNat 32 n).toNat = n := by simp; omega
  have t2 : (BitVec.ofNat 32 (32-n)).toNat = 32 - n := by simp; omega
  rw [t1, t2]

theorem shl_or (a x k : Nat) (h : x < 2^k) : (a <<< k) ||| x = a * 2^k + x := by
  rw [← Nat.shiftLeft_add_eq_or_of_lt h, Nat.shiftLeft_eq]

theorem beWord_bv (b0 b1 b2 b3 : UInt8) :
    ((b0.toUInt32 <<< 24) ||| (b1.toUInt32 <<< 16) ||| (b2.toUInt32 <<< 8) |||
      b3.toUInt32).toBitVec = beWord b0 b1 b2 b3 := by
  apply BitVec.eq_of_toNat_eq
  have h0 := b0.toNat_lt
  have h1 := b1.toNat_lt
  have h2 := b2.toNat_lt
  have h3 := b3.toNat_lt
  have sh : ∀ (b : UInt8) (n : UInt32) (m : Nat), n.toNat = m → m ≤ 24 →
      (b.toUInt32 <<< n).toNat = b.toNat <<< m := by
    intro b n m hn hm
    have hb := b.toNat_lt
    rw [UInt32.toNat_shiftLeft, hn, UInt8.toNat_toUInt32, Nat.mod_eq_of_lt (by omega : m < 32),
      Nat.shiftLeft_eq, Nat.mod_eq_of_lt]
    have : 2^m ≤ 2^24 := Nat.pow_le_pow_right (by decide) hm
    calc b.toNat * 2^m ≤ 255 * 2^24 := Nat.mul_le_mul (by omega) this
      _ < 2^32 := by decide
  rw [UInt32.toNat_toBitVec, UInt32.toNat_or, UInt32.toNat_or, UInt32.toNat_or,
    sh b0 24 24 rfl (by decide), sh b1 16 16 rfl (by decide), sh b2 8 8 rfl (by decide),
    UInt8.toNat_toUInt32]
  rw [Nat.or_assoc, Nat.or_assoc, shl_or _ _ 8 (by omega), shl_or _ _ 16 (by omega),
    shl_or _ _ 24 (by omega)]
  unfold beWord
  rw [BitVec.toNat_ofNat]
  simp only [Nat.reducePow] at *
  omega

theorem be32_eq (w : UInt32) : be32 w = wordBytes w.toBitVec := by
  have key : ∀ (n : UInt32) (m : Nat), n.toNat = m → m < 32 →
      (w >>> n &&& 0xff).toUInt8 = UInt8.ofNat (w.toNat / 2^m) := by
    intro n m hn hm
    apply UInt8.toNat_inj.mp
    rw [UInt32.toNat_toUInt8, UInt32.toNat_and, UInt32.toNat_shiftRight, hn, Nat.mod_eq_of_lt hm,
      Nat.shiftRight_eq_div_pow, show (0xff : UInt32).toNat = 2^8 - 1 from rfl,
      Nat.and_two_pow_sub_one_eq_mod, UInt8.toNat_ofNat', Nat.mod_mod]
  have k0 : (w &&& 0xff).toUInt8 = UInt8.ofNat (w.toNat / 1) := by
    have := key 0 0 rfl (by decide)
    simpa using this
  have k1 := key 8 8 rfl (by decide)
  have k2 := key 16 16 rfl (by decide)
  have k3 := key 24 24 rfl (by decide)
  unfold be32 wordBytes
  rw [k0, k1, k2, k3]
  rfl

theorem sig0_bv (x : UInt32) : (sig0 x).toBitVec = Spec.Sha256.sigma0 x.toBitVec := by
  have a := rotr_bv x 7 (by decide) (by decide)
  have b := rotr_bv x 18 (by decide) (by decide)
  unfold Spec.Sha256.sigma0
  rw [← a, ← b]; rfl
theorem sig1_bv (x : UInt32) : (sig1 x).toBitVec = Spec.Sha256.sigma1 x.toBitVec := by
  have a := rotr_bv x 17 (by decide) (by decide)
  have b := rotr_bv x 19 (by decide) (by decide)
  unfold Spec.Sha256.sigma1
  rw [← a, ← b]; rfl
theorem ep0_bv (x : UInt32) : (ep0 x).toBitVec = Spec.Sha256.Sigma0 x.toBitVec := by
  have a := rotr_bv x 2 (by decide) (by decide)
  have b := rotr_bv x 13 (by decide) (by decide)
  have c := rotr_bv x 22 (by decide) (by decide)
  unfold Spec.Sha256.Sigma0
  rw [← a, ← b, ← c]; rfl
theorem ep1_bv (x : UInt32) : (ep1 x).toBitVec = Spec.Sha256.Sigma1 x.toBitVec := by
  have a := rotr_bv x 6 (by decide) (by decide)
  have b := rotr_bv x 11 (by decide) (by decide)
  have c := rotr_bv x 25 (by decide) (by decide)
  unfold Spec.Sha256.Sigma1
  rw [← a, ← b, ← c]; rfl

theorem k_bv : ∀ t : Fin 64, (k.getD t.1 0).toBitVec = Spec.Sha256.K t.1 := by decide +kernel
theorem iv_bv : iv.bv = Spec.Sha256.H0 := by decide +kernel

theorem sched_len (d : List UInt8) (n : Nat) : (sched d n).length = 16 + n := by
  induction n with
  | zero => rfl
  | succ n ih => simp [sched, ih]; omega

theorem sched_bv (d : List UInt8) (n i : Nat) (h : i < 16 + n) :
    ((sched d n).getD i 0).toBitVec = Spec.Sha256.W d i := by
  induction n generalizing i with
  | zero =>
    have hi : i < 16 := by omega
    rw [Spec.Sha256.W, if_pos hi, ← beWord_bv]
    have : (sched d 0).getD i 0 = word d i := by
      simp [sched, List.getD_eq_getElem?_getD, hi]
    rw [this]; rfl
  | succ n ih =>
    by_cases hi : i < 16 + n
    · rw [← ih i hi]
      have := sched_len d n
      simp only [sched]
      rw [List.getD_eq_getElem?_getD, List.getElem?_append_left (by omega),
        ← List.getD_eq_getElem?_getD]
    · have hi' : i = 16 + n := by omega
      subst hi'
      rw [Spec.Sha256.W, if_neg (by omega), ← ih _ (by omega), ← ih _ (by omega), ← ih _ (by omega),
        ← ih _ (by omega), ← sig1_bv, ← sig0_bv]
      simp only [sched]
      rw [List.getD_eq_getElem?_getD, List.getElem?_append_right (by rw [sched_len]; omega),
        sched_len]
      simp

theorem round_bv (M : List UInt8) (s : S) (t : Nat) (ki mi : UInt32)
    (hk : ki.toBitVec = Spec.Sha256.K t) (hm : mi.toBitVec = Spec.Sha256.W M t) :
    (round s ki mi).bv = Spec.Sha256.step M s.bv t := by
  simp only [S.bv, Spec.Sha256.step, ← hk, ← hm, ← ep0_bv, ← ep1_bv]
  rfl

theorem foldl_hom {α β γ : Type} (f : α → γ → α) (g : β → γ → β) (φ : α → β) (l : List γ)
    (h : ∀ a, ∀ c ∈ l, φ (f a c) = g (φ a) c) (a : α) : φ (l.foldl f a) = l.foldl g (φ a) := by
  induction l generalizing a with
  | nil => rfl
  | cons c l ih =>
    rw [List.foldl_cons, List.foldl_cons, ih (fun a c hc => h a c (by simp [hc])),
      h a c (by simp)]

/-- One block: the C transform is the FIPS compression function. -/
theorem transform_bv (s : S) (M : List UInt8) :
    (transform s M).bv = Spec.Sha256.compress s.bv M := by
  unfold Spec.Sha256.compress
  rw [← foldl_hom (fun s i => round s (k.getD i 0) ((sched M 48).getD i 0)) (Spec.Sha256.step M)
    S.bv (List.range 64) (fun a c hc => round_bv M a c _ _
      (k_bv ⟨c, List.mem_range.mp hc⟩) (sched_bv M 48 c (by have := List.mem_range.mp hc; omega)))]
  simp only [transform, S.bv, List.zipWith_cons_cons, List.zipWith_nil_right, UInt32.toBitVec_add,
    BitVec.add_comm]

theorem out_eq (s : S) : out s = s.bv.flatMap wordBytes := by
  simp [out, S.bv, be32_eq]

/-- **C08.** For every message (of less than 2^61 bytes, FIPS's own bound) and whatever the
uninitialised buffer contained, the digest is FIPS 180-4 SHA-256. -/
theorem C08_sha256_is_fips180 (junk msg : List UInt8) (hj : junk.length = 64)
    (hm : 8 * msg.length < 2^64) : digest junk msg = Spec.Sha256.sha256 msg := by
  unfold digest Spec.Sha256.sha256
  rw [stream transform iv junk msg hj hm, out_eq]
  congr 1
  unfold Spec.iterate
  rw [foldl_hom transform Spec.Sha256.compress S.bv _ (fun a c _ => transform_bv a c), iv_bv]

/-- Feeding the message in two calls gives the same context as one call: the digest depends only on
the bytes, not on the chunking. -/
theorem C08_chunking (c : Ctx S) (a b : List UInt8) :
    update transform (update transform c a) b = update transform c (a ++ b) :=
  update_append _ _ _ _

/-- The digest has 32 bytes. -/
theorem C08_length (junk msg : List UInt8) : (digest junk msg).length = 32 := by
  simp [digest, out, be32]

/-- Non-vacuity and a sanity check of the specification: SHA-256("abc") and SHA-256(""). -/
example : Spec.Sha256.sha256 (asc "abc") = [0xba,0x78,0x16,0xbf,0x8f,0x01,0xcf,0xea,0x41,0x41,0x40,
    0xde,0x5d,0xae,0x22,0x23,0xb0,0x03,0x61,0xa3,0x96,0x17,0x7a,0x9c,0xb4,0x10,0xff,0x61,0xf2,0x00,
    0x15,0xad] := by
  rw [← C08_sha256_is_fips180 (List.replicate 64 0) (asc "abc") rfl (by decide)]
  decide +kernel

end Verif.Crypto.Sha256
