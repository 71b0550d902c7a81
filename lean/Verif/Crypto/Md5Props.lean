import Verif.Crypto.MDProofs
import Verif.Crypto.Md5Model
import Verif.Crypto.Md5Spec
import Verif.Crypto.Sha1Props

namespace Verif.Crypto.Md5
open Sha256 (foldl_hom shl_or)
open Spec.Md5 (wordBytes)
open Spec (blocks pad padZeros le64 iterate)

def S.bv (s : S) : List (BitVec 32) := [s.a.toBitVec, s.b.toBitVec, s.c.toBitVec, s.d.toBitVec]

/-- The registers in the order of their roles at a step of role `r`. -/
def view (r : Nat) (s : S) : List (BitVec 32) :=
  match r with
  | 0 => [s.a.toBitVec, s.b.toBitVec, s.c.toBitVec, s.d.toBitVec]
  | 1 => [s.d.toBitVec, s.a.toBitVec, s.b.toBitVec, s.c.toBitVec]
  | 2 => [s.c.toBitVec, s.d.toBitVec, s.a.toBitVec, s.b.toBitVec]
  | _ => [s.b.toBitVec, s.c.toBitVec, s.d.toBitVec, s.a.toBitVec]

theorem f1_bv (x y z : BitVec 32) :
    (z ^^^ (x &&& (y ^^^ z))) = (x &&& y) ||| (~~~x &&& z) := by
  ext i h
  simp only [BitVec.getElem_xor, BitVec.getElem_and, BitVec.getElem_or, BitVec.getElem_not]
  cases x[i] <;> cases y[i] <;> cases z[i] <;> rfl

theorem f2_bv (x y z : BitVec 32) :
    (y ^^^ (z &&& (x ^^^ y))) = (x &&& z) ||| (y &&& ~~~z) := by
  ext i h
  simp only [BitVec.getElem_xor, BitVec.getElem_and, BitVec.getElem_or, BitVec.getElem_not]
  cases x[i] <;> cases y[i] <;> cases z[i] <;> rfl

theorem fn_bv (t : Nat) (h : t < 64) (x y z : UInt32) :
    (fn (t / 16 + 1) x y z).toBitVec = Spec.Md5.aux t x.toBitVec y.toBitVec z.toBitVec := by
  unfold Spec.Md5.aux
  by_cases h1 : t < 16
  · have : t / 16 + 1 = 1 := by omega
    rw [this]; simp only [h1, if_true]; rw [← f1_bv]; rfl
  by_cases h2 : t < 32
  · have : t / 16 + 1 = 2 := by omega
    rw [this]; simp only [h1, h2, if_true, if_false]; rw [← f2_bv]; rfl
  by_cases h3 : t < 48
  · have : t / 16 + 1 = 3 := by omega
    rw [this]; simp only [h1, h2, h3, if_true, if_false]; rfl
  · have : t / 16 + 1 = 4 := by omega
    rw [this]; simp only [h1, h2, h3, if_false]; rfl

theorem steps_eq : steps = (List.range 64).map fun t => (t / 16 + 1, t % 4, Spec.Md5.idx t,
    UInt32.ofBitVec (Spec.Md5.T (t+1)), UInt32.ofNat (Spec.Md5.shift t)) := by decide +kernel
theorem shift_rng : ∀ t : Fin 64, 0 < Spec.Md5.shift t.1 ∧ Spec.Md5.shift t.1 < 32 := by
  decide +kernel

/-- The C table of steps is the RFC's. -/
theorem table : ∀ t : Fin 64, ∃ k s, steps[t.1]? = some (t.1 / 16 + 1, t.1 % 4, Spec.Md5.idx t.1, k, s) ∧
    k.toBitVec = Spec.Md5.T (t.1 + 1) ∧ s = UInt32.ofNat (Spec.Md5.shift t.1) ∧
    0 < Spec.Md5.shift t.1 ∧ Spec.Md5.shift t.1 < 32 := by
  intro t
  refine ⟨UInt32.ofBitVec (Spec.Md5.T (t.1+1)), UInt32.ofNat (Spec.Md5.shift t.1), ?_, rfl, rfl,
    shift_rng t⟩
  rw [steps_eq]
  simp

theorem leWord_bv (M : List UInt8) (i : Nat) : (leWord M i).toBitVec = Spec.Md5.X M i := by
  unfold leWord Spec.Md5.X
  generalize M.getD (4*i) 0 = b3
  generalize M.getD (4*i+1) 0 = b2
  generalize M.getD (4*i+2) 0 = b1
  generalize M.getD (4*i+3) 0 = b0
  have := Sha256.beWord_bv b0 b1 b2 b3
  have e : b3.toUInt32 ||| (b2.toUInt32 <<< 8) ||| (b1.toUInt32 <<< 16) ||| (b0.toUInt32 <<< 24) =
    (b0.toUInt32 <<< 24) ||| (b1.toUInt32 <<< 16) ||| (b2.toUInt32 <<< 8) ||| b3.toUInt32 := by
    generalize b3.toUInt32 = w3
    generalize b2.toUInt32 <<< 8 = w2
    generalize b1.toUInt32 <<< 16 = w1
    generalize b0.toUInt32 <<< 24 = w0
    rw [UInt32.or_comm (w3 ||| w2 ||| w1) w0, UInt32.or_comm (w3 ||| w2) w1, UInt32.or_comm w3 w2,
      UInt32.or_assoc (w0 ||| w1), UInt32.or_assoc]
  rw [e, this]
  unfold Spec.beWord
  congr 1; omega

theorem stepw_bv (M : List UInt8) (t : Nat) (h : t < 64) (w x y z k s : UInt32)
    (hk : k.toBitVec = Spec.Md5.T (t+1)) (hs : s = UInt32.ofNat (Spec.Md5.shift t))
    (h0 : 0 < Spec.Md5.shift t) (h32 : Spec.Md5.shift t < 32) :
    (stepw (t/16+1) w x y z (leWord M (Spec.Md5.idx t) + k) s).toBitVec =
      x.toBitVec + (w.toBitVec + Spec.Md5.aux t x.toBitVec y.toBitVec z.toBitVec +
        Spec.Md5.X M (Spec.Md5.idx t) + Spec.Md5.T (t+1)).rotateLeft (Spec.Md5.shift t) := by
  subst hs
  rw [← fn_bv t h, ← leWord_bv, ← hk]
  have := Sha1.rotl_bv (w + (fn (t/16+1) x y z + (leWord M (Spec.Md5.idx t) + k)))
    (Spec.Md5.shift t) h0 h32
  unfold stepw
  simp only
  rw [UInt32.toBitVec_add]
  have e : ∀ v : UInt32, ((v <<< UInt32.ofNat (Spec.Md5.shift t)) |||
    (v >>> (32 - UInt32.ofNat (Spec.Md5.shift t)))) = Sha1.rotl v (UInt32.ofNat (Spec.Md5.shift t)) :=
    fun _ => rfl
  rw [e, this, BitVec.add_comm]
  congr 2
  simp only [UInt32.toBitVec_add, BitVec.add_assoc]

theorem step_bv (M : List UInt8) (s : S) (t : Nat) (h : t < 64) (r) (hr : steps[t]? = some r) :
    view ((t + 1) % 4) (step (leWord M) s r) = Spec.Md5.step M (view (t % 4) s) t := by
  obtain ⟨k, sh, e, hk, hs, h0, h32⟩ := table ⟨t, h⟩
  simp only at e hk hs h0 h32
  rw [e] at hr
  cases hr
  have key := fun w x y z => stepw_bv M t h w x y z k sh hk hs h0 h32
  have hm : t % 4 = 0 ∨ t % 4 = 1 ∨ t % 4 = 2 ∨ t % 4 = 3 := by omega
  rcases hm with hm | hm | hm | hm
  · rw [show (t+1) % 4 = 1 by omega, hm]
    simp [step, view, Spec.Md5.step, key]
  · rw [show (t+1) % 4 = 2 by omega, hm]
    simp [step, view, Spec.Md5.step, key]
  · rw [show (t+1) % 4 = 3 by omega, hm]
    simp [step, view, Spec.Md5.step, key]
  · rw [show (t+1) % 4 = 0 by omega, hm]
    simp [step, view, Spec.Md5.step, key]

theorem steps_len : steps.length = 64 := by decide +kernel

theorem fold_bv (M : List UInt8) (s : S) (n : Nat) (h : n ≤ 64) :
    view (n % 4) ((steps.take n).foldl (step (leWord M)) s) =
      (List.range n).foldl (Spec.Md5.step M) s.bv := by
  induction n with
  | zero => rfl
  | succ n ih =>
    have hn : n < steps.length := by rw [steps_len]; omega
    rw [List.range_succ, List.foldl_append, ← ih (by omega), List.take_succ,
      List.foldl_append]
    have e : steps[n]? = some steps[n] := by simp [hn]
    rw [e]
    simp only [Option.toList_some, List.foldl_cons, List.foldl_nil]
    exact step_bv M _ n (by omega) _ e

theorem transform_bv (s : S) (M : List UInt8) : (transform s M).bv = Spec.Md5.compress s.bv M := by
  have := fold_bv M s 64 (by omega)
  rw [List.take_of_length_le (by rw [steps_len]; omega)] at this
  unfold Spec.Md5.compress
  rw [← this]
  simp [transform, S.bv, view]

theorem leBytes_eq (w : UInt32) : leBytes w = wordBytes w.toBitVec := by
  have key : ∀ (n : UInt32) (m : Nat), n.toNat = m → m < 32 →
      (w >>> n).toUInt8 = UInt8.ofNat (w.toNat / 2^m) := by
    intro n m hn hm
    apply UInt8.toNat_inj.mp
    rw [UInt32.toNat_toUInt8, UInt32.toNat_shiftRight, hn, Nat.mod_eq_of_lt hm,
      Nat.shiftRight_eq_div_pow, UInt8.toNat_ofNat']
  have k0 : w.toUInt8 = UInt8.ofNat (w.toNat / 1) := by
    have := key 0 0 rfl (by decide)
    simpa using this
  unfold leBytes wordBytes
  rw [k0, key 8 8 rfl (by decide), key 16 16 rfl (by decide), key 24 24 rfl (by decide)]
  rfl

/-! ### Buffering -/

structure Inv (iv : S) (m : List UInt8) (c : Ctx) : Prop where
  len : c.inb.length = 64
  buf : c.inb.take (m.length % 64) = tail m
  bits : (c.bits0.toNat + 2^32 * c.bits1.toNat) % 2^64 = 8 * m.length % 2^64
  st : c.buf = (blocks (full m)).foldl transform iv

theorem memcpy_len (d : List UInt8) (i : Nat) (s : List UInt8) (h : i + s.length ≤ d.length) :
    (memcpy d i s).length = d.length := by
  simp [memcpy]; omega

theorem bulk_eq (iv : S) (d : List UInt8) (hd : d.length = 64) (s m : List UInt8)
    (hm : m.length % 64 = 0) (b : S) (hb : b = (blocks (full m)).foldl transform iv) :
    (bulk b d s).1 = (blocks (full (m ++ s))).foldl transform iv ∧
    (bulk b d s).2.length = 64 ∧ (bulk b d s).2.take ((m ++ s).length % 64) = tail (m ++ s) := by
  have hfm : full m = m := by unfold full; rw [List.take_of_length_le]; omega
  induction hn : s.length using Nat.strongRecOn generalizing s m b d with
  | _ n ih =>
    rw [bulk]
    by_cases h : 64 ≤ s.length
    · simp only [h, dif_pos]
      have hl : (s.take 64).length = 64 := by simp; omega
      have hmc : memcpy d 0 (s.take 64) = s.take 64 := by
        simp only [memcpy, List.take_zero, List.nil_append, hl]
        rw [List.drop_eq_nil_of_le (by omega), List.append_nil]
      rw [hmc]
      have hm' : (m ++ s.take 64).length % 64 = 0 := by rw [List.length_append, hl]; omega
      have hfm' : full (m ++ s.take 64) = m ++ s.take 64 := by
        unfold full; rw [List.take_of_length_le]; omega
      have := ih (s.drop 64).length (by simp; omega) (s.take 64) hl (s.drop 64) (m ++ s.take 64) hm'
        (transform b (s.take 64)) (by
          rw [hfm', blocks_append (m.length / 64) m _ (by omega), hb, hfm, List.foldl_append]
          have hb1 := blocks_cons (b := s.take 64) (r := []) hl
          rw [List.append_nil, blocks_short (l := []) (by simp)] at hb1
          rw [hb1]; rfl) hfm' rfl
      rw [List.append_assoc, List.take_append_drop] at this
      exact this
    · simp only [h, dif_neg, not_false_eq_true]
      have hdiv : (m ++ s).length / 64 = m.length / 64 := by simp; omega
      have hmod : (m ++ s).length % 64 = s.length := by simp; omega
      have hfull : full (m ++ s) = full m := by
        unfold full; rw [hdiv, List.take_append_of_le_length (by omega)]
      have htail : tail (m ++ s) = s := by
        unfold tail; rw [hdiv, show 64 * (m.length/64) = m.length by omega]; simp
      refine ⟨by rw [hfull, hb], by rw [memcpy_len _ _ _ (by omega)]; exact hd, ?_⟩
      rw [hmod, htail]
      simp [memcpy]

theorem bits_add (b0 b1 len : UInt32) (n : Nat) (hn : n < 2^32) (hlen : len = UInt32.ofNat n) (v : Nat)
    (h : (b0.toNat + 2^32 * b1.toNat) % 2^64 = v % 2^64) :
    ((b0 + (len <<< 3)).toNat + 2^32 * (((if b0 + (len <<< 3) < b0 then b1 + 1 else b1) +
      (len >>> 29)).toNat)) % 2^64 = (v + 8 * n) % 2^64 := by
  have h0 := b0.toNat_lt
  have h1 := b1.toNat_lt
  have hl : len.toNat = n := by rw [hlen, UInt32.toNat_ofNat']; omega
  have e1 : (len <<< 3).toNat = 8 * n % 2^32 := by
    rw [UInt32.toNat_shiftLeft, hl, show (3:UInt32).toNat % 32 = 3 from rfl, Nat.shiftLeft_eq]
    omega
  have e2 : (len >>> 29).toNat = n / 2^29 := by
    rw [UInt32.toNat_shiftRight, hl, show (29:UInt32).toNat % 32 = 29 from rfl,
      Nat.shiftRight_eq_div_pow]
  have e3 : (b0 + (len <<< 3)).toNat = (b0.toNat + 8 * n % 2^32) % 2^32 := by
    rw [UInt32.toNat_add, e1]
  rw [e3, UInt32.toNat_add _ (len >>> 29), e2]
  have e4 : (b0 + (len <<< 3) < b0) ↔ ((b0.toNat + 8 * n % 2^32) % 2^32 < b0.toNat) := by
    rw [UInt32.lt_iff_toNat_lt, e3]
  by_cases hc : b0 + (len <<< 3) < b0
  · rw [if_pos hc, UInt32.toNat_add, show (1:UInt32).toNat = 1 from rfl]
    have := e4.mp hc
    simp only [Nat.reducePow] at *
    omega
  · rw [if_neg hc]
    have : ¬ ((b0.toNat + 8 * n % 2^32) % 2^32 < b0.toNat) := fun h => hc (e4.mpr h)
    simp only [Nat.reducePow] at *
    omega

theorem tbits (b0 b1 : UInt32) (m : List UInt8)
    (h : (b0.toNat + 2^32 * b1.toNat) % 2^64 = 8 * m.length % 2^64) :
    ((b0 >>> 3) &&& 0x3f).toNat = m.length % 64 := by
  have h0 := b0.toNat_lt
  rw [UInt32.toNat_and, UInt32.toNat_shiftRight, show (3:UInt32).toNat % 32 = 3 from rfl,
    Nat.shiftRight_eq_div_pow, show (0x3f : UInt32).toNat = 2^6 - 1 from rfl,
    Nat.and_two_pow_sub_one_eq_mod]
  simp only [Nat.reducePow] at *
  omega

theorem inv_update (iv : S) (m s : List UInt8) (c : Ctx) (h : Inv iv m c) (hs : s.length < 2^32) :
    Inv iv (m ++ s) (update c s) := by
  obtain ⟨hl, hb, hbits, hst⟩ := h
  have hbits' := bits_add c.bits0 c.bits1 (UInt32.ofNat s.length) s.length hs rfl _ hbits
  have hv : 8 * m.length + 8 * s.length = 8 * (m ++ s).length := by simp; omega
  rw [hv] at hbits'
  have ht := tbits _ _ _ hbits
  have htl := tail_len m
  unfold update
  simp only [ht]
  by_cases h0 : m.length % 64 ≠ 0
  · rw [if_pos h0]
    by_cases h1 : s.length < 64 - m.length % 64
    · rw [if_pos h1]
      have hdiv : (m ++ s).length / 64 = m.length / 64 := by simp; omega
      have hmod : (m ++ s).length % 64 = m.length % 64 + s.length := by simp; omega
      have hfull : full (m ++ s) = full m := by
        unfold full; rw [hdiv, List.take_append_of_le_length (by omega)]
      have htail : tail (m ++ s) = tail m ++ s := by
        unfold tail; rw [hdiv, List.drop_append_of_le_length (by omega)]
      refine ⟨by simp only; rw [memcpy_len _ _ _ (by omega)]; exact hl, ?_, hbits', by
        simp only; rw [hfull, hst]⟩
      simp only
      rw [hmod, htail, memcpy, hb, List.take_append_of_le_length (by simp [htl]),
        List.take_of_length_le (by simp [htl])]
    · rw [if_neg h1]
      have hneed : (s.take (64 - m.length % 64)).length = 64 - m.length % 64 := by simp; omega
      have hin : memcpy c.inb (m.length % 64) (s.take (64 - m.length % 64)) =
          tail m ++ s.take (64 - m.length % 64) := by
        unfold memcpy
        rw [hb, hneed, List.drop_eq_nil_of_le (by omega), List.append_nil]
      rw [hin]
      have hmod : (m ++ s.take (64 - m.length % 64)).length % 64 = 0 := by
        rw [List.length_append, hneed]; omega
      have hlen64 : (tail m ++ s.take (64 - m.length % 64)).length = 64 := by
        rw [List.length_append, hneed, htl]; omega
      have key := bulk_eq iv (tail m ++ s.take (64 - m.length % 64)) hlen64
        (s.drop (64 - m.length % 64)) (m ++ s.take (64 - m.length % 64)) hmod
        (transform c.buf (tail m ++ s.take (64 - m.length % 64))) (by
          have hf : full (m ++ s.take (64 - m.length % 64)) = m ++ s.take (64 - m.length % 64) := by
            unfold full; rw [List.take_of_length_le]; omega
          rw [hf, blocks_full, List.foldl_append, hst]
          have hb1 := blocks_cons (b := tail m ++ s.take (64 - m.length % 64)) (r := []) hlen64
          rw [List.append_nil, blocks_short (l := []) (by simp)] at hb1
          rw [hb1]; rfl)
      rw [List.append_assoc, List.take_append_drop] at key
      exact ⟨key.2.1, key.2.2, hbits', key.1⟩
  · rw [if_neg h0]
    have key := bulk_eq iv c.inb hl s m (by omega) c.buf hst
    exact ⟨key.2.1, key.2.2, hbits', key.1⟩

theorem leBytes_len (w : UInt32) : (leBytes w).length = 4 := rfl

theorem le64_eq (b0 b1 : UInt32) (n : Nat) (h : (b0.toNat + 2^32 * b1.toNat) % 2^64 = n % 2^64) :
    leBytes b0 ++ leBytes b1 = le64 n := by
  have h0 := b0.toNat_lt
  have h1 := b1.toNat_lt
  rw [leBytes_eq, leBytes_eq]
  have key : ∀ (a k : Nat), a % 256 = k % 256 → UInt8.ofNat a = UInt8.ofNat k := by
    intro a k h
    apply UInt8.toNat_inj.mp
    simpa [UInt8.toNat_ofNat'] using h
  unfold wordBytes le64
  simp only [List.range, List.range.loop, List.map_cons, List.map_nil, List.cons_append,
    List.nil_append, UInt32.toNat_toBitVec]
  simp only [Nat.reducePow] at *
  rw [key (b0.toNat / 1) (n / 1) (by omega), key (b0.toNat / 256) (n / 256) (by omega),
    key (b0.toNat / 65536) (n / 65536) (by omega), key (b0.toNat / 16777216) (n / 16777216) (by omega),
    key (b1.toNat / 1) (n / 4294967296) (by omega), key (b1.toNat / 256) (n / 1099511627776) (by omega),
    key (b1.toNat / 65536) (n / 281474976710656) (by omega),
    key (b1.toNat / 16777216) (n / 72057594037927936) (by omega)]

theorem final_eq (iv : S) (m : List UInt8) (c : Ctx) (h : Inv iv m c) :
    final c = (iterate transform iv (pad le64 m)).bv.flatMap wordBytes := by
  obtain ⟨hl, hb, hbits, hst⟩ := h
  have ht := tbits _ _ _ hbits
  have htl := tail_len m
  have hle := le64_eq _ _ _ hbits
  have hll : (le64 (8 * m.length)).length = 8 := by simp [le64]
  have hmc : memcpy c.inb (m.length % 64) [0x80] =
      tail m ++ [0x80] ++ c.inb.drop (m.length % 64 + 1) := by
    rw [memcpy, hb]; rfl
  have hput : ∀ d : List UInt8, d.length = 64 →
      memcpy (memcpy d 56 (leBytes c.bits0)) 60 (leBytes c.bits1) =
        d.take 56 ++ le64 (8 * m.length) := by
    intro d hd
    rw [← hle]
    unfold memcpy
    simp only [leBytes_len]
    rw [List.take_append_of_le_length (by simp [leBytes_len]; omega),
      List.take_of_length_le (by simp [leBytes_len]; omega),
      List.drop_eq_nil_of_le (by simp [leBytes_len]; omega)]
    simp
  have hout : ∀ b : S, leBytes b.a ++ leBytes b.b ++ leBytes b.c ++ leBytes b.d =
      b.bv.flatMap wordBytes := by
    intro b; simp [S.bv, leBytes_eq]
  unfold final
  simp only [ht, hmc]
  rw [hout]
  refine congrArg (fun b : S => b.bv.flatMap wordBytes) ?_
  unfold iterate pad
  rw [blocks_full, List.foldl_append, ← hst]
  have hdl : (c.inb.drop (m.length % 64 + 1)).length = 63 - m.length % 64 := by simp; omega
  have hpre : (tail m ++ [0x80]).length = m.length % 64 + 1 := by simp [htl]
  -- filling the rest of the block
  have hfill : ∀ k, k ≤ 63 - m.length % 64 →
      memcpy (tail m ++ [0x80] ++ c.inb.drop (m.length % 64 + 1)) (m.length % 64 + 1)
        (List.replicate k 0) = tail m ++ [0x80] ++ List.replicate k 0 ++
          c.inb.drop (m.length % 64 + 1 + k) := by
    intro k hk
    unfold memcpy
    rw [List.take_append_of_le_length (by omega), List.take_of_length_le (by omega),
      List.length_replicate, List.drop_append, hpre]
    rw [List.drop_eq_nil_of_le (by omega), List.nil_append, List.drop_drop]
    congr 2; omega
  by_cases h8 : 64 - 1 - m.length % 64 < 8
  · simp only [h8, if_true]
    rw [hfill _ (by omega), List.drop_eq_nil_of_le (as := c.inb) (by omega), List.append_nil]
    have hz : padZeros m.length = (64 - 1 - m.length % 64) + 56 := by unfold padZeros; omega
    have hlen : (tail m ++ [0x80] ++ List.replicate (64 - 1 - m.length % 64) 0).length = 64 := by
      rw [List.length_append, hpre, List.length_replicate]; omega
    rw [hput _ (by rw [memcpy_len _ _ _ (by rw [hlen]; simp)]; exact hlen)]
    have ht56 : (memcpy (tail m ++ [0x80] ++ List.replicate (64 - 1 - m.length % 64) 0) 0
        (List.replicate 56 0)).take 56 = List.replicate 56 0 := by
      rw [memcpy]
      rw [List.take_append_of_le_length (by simp), List.take_zero, List.nil_append,
        List.take_of_length_le (by simp)]
    rw [ht56, hz]
    have e : tail m ++ 0x80 :: (List.replicate (64 - 1 - m.length % 64 + 56) 0 ++ le64 (8 * m.length))
        = (tail m ++ [0x80] ++ List.replicate (64 - 1 - m.length % 64) 0) ++
          ((List.replicate 56 0 ++ le64 (8 * m.length)) ++ []) := by
      rw [← List.replicate_append_replicate]; simp
    rw [e, blocks_cons hlen, blocks_cons (by simp [hll]), blocks_short (l := []) (by simp)]
    rfl
  · simp only [h8, if_false]
    rw [hfill _ (by omega)]
    have hz : padZeros m.length = 64 - 1 - m.length % 64 - 8 := by unfold padZeros; omega
    have hl56 : (tail m ++ [0x80] ++ List.replicate (64 - 1 - m.length % 64 - 8) 0).length = 56 := by
      rw [List.length_append, hpre, List.length_replicate]; omega
    rw [hput _ (by rw [List.length_append, hl56]; simp; omega)]
    rw [List.take_append_of_le_length (by omega), List.take_of_length_le (by omega), hz]
    have e : tail m ++ 0x80 :: (List.replicate (64 - 1 - m.length % 64 - 8) 0 ++ le64 (8 * m.length))
        = (tail m ++ [0x80] ++ List.replicate (64 - 1 - m.length % 64 - 8) 0 ++
          le64 (8 * m.length)) ++ [] := by simp
    rw [e, blocks_cons (by rw [List.length_append, hl56, hll]), blocks_short (l := []) (by simp)]
    rfl

theorem inv_init (junk : List UInt8) (h : junk.length = 64) :
    Inv (init junk).buf [] (init junk) := by
  refine ⟨h, by simp [tail], by rfl, ?_⟩
  simp [full, blocks_short (l := []) (by simp)]

theorem iv_bv (junk : List UInt8) : (init junk).buf.bv = Spec.Md5.H0 := by
  simp only [init]; decide

/-- **C10.** For every message shorter than 2^32 bytes (the `uint len` of the update function) and
whatever the uninitialised buffer contained, the digest is RFC 1321 MD5. -/
theorem C10_md5_is_rfc1321 (junk msg : List UInt8) (hj : junk.length = 64)
    (hm : msg.length < 2^32) : digest junk msg = Spec.Md5.md5 msg := by
  unfold digest Spec.Md5.md5
  have := inv_update _ [] msg _ (inv_init junk hj) hm
  rw [final_eq _ msg _ (by simpa using this)]
  congr 1
  unfold iterate
  rw [foldl_hom transform Spec.Md5.compress S.bv _ (fun a c _ => transform_bv a c), iv_bv]

/-- Feeding the message in two calls (each shorter than 2^32 bytes) gives the MD5 of the whole, even
when the total length is 2^32 bytes or more: the two-word bit counter carries. -/
theorem C10_chunking (junk a b : List UInt8) (hj : junk.length = 64)
    (ha : a.length < 2^32) (hb : b.length < 2^32) :
    final (update (update (init junk) a) b) = Spec.Md5.md5 (a ++ b) := by
  have h1 := inv_update _ [] a _ (inv_init junk hj) ha
  have h2 := inv_update _ _ b _ h1 hb
  unfold Spec.Md5.md5
  rw [final_eq _ (a ++ b) _ (by simpa using h2)]
  congr 1
  unfold iterate
  rw [foldl_hom transform Spec.Md5.compress S.bv _ (fun a c _ => transform_bv a c), iv_bv]

/-- Sanity check of the specification: MD5("abc"). -/
example : Spec.Md5.md5 (asc "abc") = [0x90,0x01,0x50,0x98,0x3c,0xd2,0x4f,0xb0,0xd6,0x96,0x3f,0x7d,
    0x28,0xe1,0x7f,0x72] := by
  rw [← C10_md5_is_rfc1321 (List.replicate 64 0) (asc "abc") rfl (by decide)]
  decide +kernel

end Verif.Crypto.Md5
