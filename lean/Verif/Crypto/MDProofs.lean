import Verif.Crypto.MDModel
import Verif.Crypto.MDSpec

namespace Verif.Crypto
open Spec

variable {σ : Type}

theorem blocks_short {l : List UInt8} (h : l.length < 64) : blocks l = [] := by
  rw [blocks]; simp [h]

theorem blocks_cons {b r : List UInt8} (h : b.length = 64) : blocks (b ++ r) = b :: blocks r := by
  rw [blocks]
  have : ¬ (b ++ r).length < 64 := by simp; omega
  rw [dif_neg this]
  rw [List.take_append_of_le_length (by omega), List.take_of_length_le (by omega),
    List.drop_append_of_le_length (by omega), List.drop_of_length_le (by omega)]
  simp

/-- Complete blocks of a concatenation whose first part is a whole number of blocks. -/
theorem blocks_append (q : Nat) : ∀ (a b : List UInt8), a.length = 64 * q →
    blocks (a ++ b) = blocks a ++ blocks b := by
  induction q with
  | zero => intro a b h; have : a = [] := List.eq_nil_of_length_eq_zero (by omega)
            subst this; simp [blocks_short (l := []) (by simp)]
  | succ q ih =>
    intro a b h
    have e : a = a.take 64 ++ a.drop 64 := (List.take_append_drop 64 a).symm
    have h1 : (a.take 64).length = 64 := by simp; omega
    rw [e, List.append_assoc, blocks_cons h1, blocks_cons h1, ih _ _ (by simp; omega)]
    rfl

/-- The whole blocks of `m`. -/
def full (m : List UInt8) : List UInt8 := m.take (64 * (m.length / 64))
def tail (m : List UInt8) : List UInt8 := m.drop (64 * (m.length / 64))

theorem full_tail (m : List UInt8) : full m ++ tail m = m := List.take_append_drop _ _
theorem full_len (m : List UInt8) : (full m).length = 64 * (m.length / 64) := by
  simp [full]; omega
theorem tail_len (m : List UInt8) : (tail m).length = m.length % 64 := by
  simp [tail]; omega

theorem blocks_full (m r : List UInt8) :
    blocks (m ++ r) = blocks (full m) ++ blocks (tail m ++ r) := by
  conv => lhs; rw [← full_tail m, List.append_assoc]
  exact blocks_append _ _ _ (full_len m)

theorem set_eq (d : List UInt8) (i : Nat) (x : UInt8) (h : i < d.length) :
    d.set i x = d.take i ++ x :: d.drop (i+1) := by
  rw [List.set_eq_take_append_cons_drop, if_pos h]

theorem zfill_eq (n : Nat) : ∀ (k i : Nat) (d : List UInt8), n - i = k → i ≤ n → n ≤ d.length →
    zfill d i n = d.take i ++ List.replicate (n - i) 0 ++ d.drop n := by
  intro k
  induction k with
  | zero =>
    intro i d hk h1 h2
    have : i = n := by omega
    subst this
    rw [zfill]; simp
  | succ k ih =>
    intro i d hk h1 h2
    rw [zfill, if_pos (by omega), ih (i+1) (d.set i 0) (by omega) (by omega) (by simpa)]
    have e1 : (d.set i 0).take (i+1) = d.take i ++ [0] := by
      rw [set_eq _ _ _ (by omega), List.take_append]
      have : (d.take i).length = i := by simp; omega
      rw [this, List.take_of_length_le (by omega)]
      simp
    have e2 : (d.set i 0).drop n = d.drop n := by
      rw [List.drop_set_of_lt (by omega)]
    rw [e1, e2, show n - i = (n - (i+1)) + 1 by omega, List.replicate_succ]
    simp

/-- What the buffer holds after `m` was fed to a fresh context. -/
structure Inv (tr : σ → List UInt8 → σ) (iv : σ) (m : List UInt8) (c : Ctx σ) : Prop where
  len : c.data.length = 64
  dl : c.datalen = m.length % 64
  buf : c.data.take c.datalen = tail m
  bl : c.bitlen = UInt64.ofNat (512 * (m.length / 64))
  st : c.state = (blocks (full m)).foldl tr iv

theorem inv_step (tr : σ → List UInt8 → σ) (iv : σ) (m : List UInt8) (c : Ctx σ) (b : UInt8)
    (h : Inv tr iv m c) : Inv tr iv (m ++ [b]) (step tr c b) := by
  obtain ⟨hl, hd, hb, hbl, hs⟩ := h
  have hlt : c.datalen < 64 := by omega
  have hset : (c.data.set c.datalen b).take (c.datalen + 1) = tail m ++ [b] := by
    rw [set_eq _ _ _ (by omega), List.take_append]
    have : (c.data.take c.datalen).length = c.datalen := by simp; omega
    rw [this, List.take_of_length_le (by omega), hb]
    simp
  unfold step
  by_cases h64 : c.datalen + 1 = 64
  · simp only [h64, if_true]
    have hdiv : (m ++ [b]).length / 64 = m.length / 64 + 1 := by simp; omega
    have hfull : full (m ++ [b]) = m ++ [b] := by
      unfold full; rw [hdiv, List.take_of_length_le]; simp; omega
    have htail : tail (m ++ [b]) = [] := by
      unfold tail; rw [hdiv, List.drop_eq_nil_of_le]; simp; omega
    have hfb : c.data.set c.datalen b = tail m ++ [b] := by
      rw [← hset, List.take_of_length_le]; simp; omega
    refine ⟨by simpa using hl, by simp; omega, by simp [htail], ?_, ?_⟩
    · rw [hbl, hdiv, show 512 * (m.length/64 + 1) = 512 * (m.length/64) + 512 by omega]
      simp only [UInt64.ofNat_add]; rfl
    · simp only
      rw [hfull, blocks_full, hs, hfb, List.foldl_append]
      have : blocks (tail m ++ [b]) = [tail m ++ [b]] := by
        have := blocks_cons (b := tail m ++ [b]) (r := [])
          (by simp only [List.length_append, tail_len, List.length_cons, List.length_nil]; omega)
        rw [List.append_nil] at this
        rw [this, blocks_short (by simp)]
      rw [this]; rfl
  · simp only [h64, if_false]
    have hdiv : (m ++ [b]).length / 64 = m.length / 64 := by simp; omega
    have hfull : full (m ++ [b]) = full m := by
      unfold full; rw [hdiv, List.take_append_of_le_length (by omega)]
    have htail : tail (m ++ [b]) = tail m ++ [b] := by
      unfold tail; rw [hdiv, List.drop_append_of_le_length (by omega)]
    refine ⟨by simpa using hl, by simp; omega, ?_, by rw [hbl, hdiv], by rw [hs, hfull]⟩
    simp only; rw [hset, htail]

/-- Feeding bytes in any number of calls only depends on their concatenation. -/
theorem update_append (tr : σ → List UInt8 → σ) (c : Ctx σ) (a b : List UInt8) :
    update tr (update tr c a) b = update tr c (a ++ b) := by
  simp [update]

theorem inv_update (tr : σ → List UInt8 → σ) (iv : σ) (s m : List UInt8) (c : Ctx σ)
    (h : Inv tr iv m c) : Inv tr iv (m ++ s) (update tr c s) := by
  induction s generalizing m c with
  | nil => simpa [update] using h
  | cons b s ih =>
    have := ih (m ++ [b]) (step tr c b) (inv_step tr iv m c b h)
    simpa [update] using this

theorem inv_init (tr : σ → List UInt8 → σ) (iv : σ) (d : List UInt8) (h : d.length = 64) :
    Inv tr iv [] ⟨d, 0, 0, iv⟩ := by
  refine ⟨h, rfl, by simp [tail], rfl, ?_⟩
  simp [full, blocks_short (l := []) (by simp)]

theorem toUInt8_shr (n k : Nat) (hk : k < 64) :
    ((UInt64.ofNat n) >>> (UInt64.ofNat k)).toUInt8 = UInt8.ofNat (n % 2^64 / 2^k) := by
  apply UInt8.toNat_inj.mp
  simp [UInt64.toNat_shiftRight, Nat.shiftRight_eq_div_pow, UInt64.toNat_ofNat, Nat.mod_eq_of_lt hk,
    Nat.mod_eq_of_lt (show k < 2^64 by omega)]

theorem putLen_eq (d : List UInt8) (h : d.length = 64) (n : Nat) (hn : n < 2^64) :
    putLen d (UInt64.ofNat n) = d.take 56 ++ be64 n := by
  have e0 := toUInt8_shr n 0 (by omega)
  have e1 := toUInt8_shr n 8 (by omega)
  have e2 := toUInt8_shr n 16 (by omega)
  have e3 := toUInt8_shr n 24 (by omega)
  have e4 := toUInt8_shr n 32 (by omega)
  have e5 := toUInt8_shr n 40 (by omega)
  have e6 := toUInt8_shr n 48 (by omega)
  have e7 := toUInt8_shr n 56 (by omega)
  rw [Nat.mod_eq_of_lt hn] at e0 e1 e2 e3 e4 e5 e6 e7
  have hz : (UInt64.ofNat n) >>> (UInt64.ofNat 0) = UInt64.ofNat n := by
    apply UInt64.toNat_inj.mp
    simp
  rw [hz] at e0
  unfold putLen be64
  have c1 : (UInt64.ofNat 8) = 8 := rfl
  have c2 : (UInt64.ofNat 16) = 16 := rfl
  have c3 : (UInt64.ofNat 24) = 24 := rfl
  have c4 : (UInt64.ofNat 32) = 32 := rfl
  have c5 : (UInt64.ofNat 40) = 40 := rfl
  have c6 : (UInt64.ofNat 48) = 48 := rfl
  have c7 : (UInt64.ofNat 56) = 56 := rfl
  rw [c1] at e1; rw [c2] at e2; rw [c3] at e3; rw [c4] at e4; rw [c5] at e5; rw [c6] at e6
  rw [c7] at e7
  rw [e0, e1, e2, e3, e4, e5, e6, e7]
  obtain ⟨p, q, hp, hd⟩ : ∃ p q, p.length = 56 ∧ d = p ++ q :=
    ⟨d.take 56, d.drop 56, by simp; omega, (List.take_append_drop 56 d).symm⟩
  subst hd
  have hq : q.length = 8 := by simp at h; omega
  match q, hq with
  | [a0, a1, a2, a3, a4, a5, a6, a7], _ =>
    have ht : (p ++ [a0, a1, a2, a3, a4, a5, a6, a7]).take 56 = p := by
      rw [List.take_append_of_le_length (by omega), List.take_of_length_le (by omega)]
    rw [ht]
    simp only [List.set_append_right _ _ (show p.length ≤ 63 by omega),
      List.set_append_right _ _ (show p.length ≤ 62 by omega),
      List.set_append_right _ _ (show p.length ≤ 61 by omega),
      List.set_append_right _ _ (show p.length ≤ 60 by omega),
      List.set_append_right _ _ (show p.length ≤ 59 by omega),
      List.set_append_right _ _ (show p.length ≤ 58 by omega),
      List.set_append_right _ _ (show p.length ≤ 57 by omega),
      List.set_append_right _ _ (show p.length ≤ 56 by omega), hp]
    congr 1

/-- Finalising computes the iterated hash of the padded message. -/
theorem final_eq (tr : σ → List UInt8 → σ) (iv : σ) (m : List UInt8) (c : Ctx σ)
    (h : Inv tr iv m c) (hm : 8 * m.length < 2^64) :
    final tr c = iterate tr iv (pad be64 m) := by
  obtain ⟨hl, hd, hb, hbl, hs⟩ := h
  have hlt : c.datalen < 64 := by omega
  have hbit : c.bitlen + UInt64.ofNat (c.datalen * 8) = UInt64.ofNat (8 * m.length) := by
    rw [hbl, ← UInt64.ofNat_add]; congr 1; omega
  have hset : c.data.set c.datalen 0x80 = tail m ++ 0x80 :: c.data.drop (c.datalen + 1) := by
    rw [set_eq _ _ _ (by omega), hb]
  have htl : (tail m).length = c.datalen := by rw [tail_len, hd]
  have hsl : (c.data.set c.datalen 0x80).length = 64 := by simpa
  have htk : (c.data.set c.datalen 0x80).take (c.datalen + 1) = tail m ++ [0x80] := by
    rw [hset, List.take_append, htl, List.take_of_length_le (by omega)]
    simp
  have hbe : ∀ n, (be64 n).length = 8 := fun n => by simp [be64]
  unfold final iterate pad
  rw [blocks_full, List.foldl_append, ← hs]
  simp only [hbit]
  by_cases h56 : c.datalen < 56
  · simp only [h56, if_true]
    rw [zfill_eq 56 _ _ _ rfl (by omega) (by omega), htk]
    have hz : padZeros m.length = 56 - (c.datalen + 1) := by unfold padZeros; omega
    rw [hz]
    rw [putLen_eq _ (by simp [htl]; omega) _ hm]
    have ht : (tail m ++ [0x80] ++ List.replicate (56 - (c.datalen + 1)) 0 ++
        (c.data.set c.datalen 0x80).drop 56).take 56 =
        tail m ++ [0x80] ++ List.replicate (56 - (c.datalen + 1)) 0 := by
      rw [List.take_append_of_le_length (by simp [htl]; omega),
        List.take_of_length_le (by simp [htl]; omega)]
    rw [ht]
    have hblk := blocks_cons (b := tail m ++ [0x80] ++
      List.replicate (56 - (c.datalen + 1)) 0 ++ be64 (8 * m.length)) (r := [])
      (by simp [htl, hbe]; omega)
    rw [List.append_nil, blocks_short (l := []) (by simp)] at hblk
    rw [show tail m ++ 0x80 :: (List.replicate (56 - (c.datalen + 1)) 0 ++ be64 (8 * m.length))
      = tail m ++ [0x80] ++ List.replicate (56 - (c.datalen + 1)) 0 ++ be64 (8 * m.length) by simp,
      hblk]
    rfl
  · simp only [h56, if_false]
    rw [zfill_eq 64 _ _ _ rfl (by omega) (by omega), htk]
    have hz : padZeros m.length = (64 - (c.datalen + 1)) + 56 := by unfold padZeros; omega
    have hdr : (c.data.set c.datalen 0x80).drop 64 = [] := List.drop_eq_nil_of_le (by omega)
    rw [hz, hdr, List.append_nil]
    have hmem : memset56 (tail m ++ [0x80] ++ List.replicate (64 - (c.datalen + 1)) 0)
        = List.replicate 56 0 ++
          (tail m ++ [0x80] ++ List.replicate (64 - (c.datalen + 1)) 0).drop 56 := rfl
    rw [hmem, putLen_eq _ (by simp [htl]; omega) _ hm]
    rw [List.take_append_of_le_length (by simp), List.take_of_length_le (by simp)]
    have e : tail m ++ 0x80 :: (List.replicate (64 - (c.datalen + 1) + 56) 0 ++ be64 (8 * m.length))
        = (tail m ++ [0x80] ++ List.replicate (64 - (c.datalen + 1)) 0) ++
          ((List.replicate 56 0 ++ be64 (8 * m.length)) ++ []) := by
      rw [← List.replicate_append_replicate]; simp
    rw [e, blocks_cons (by simp [htl]; omega), blocks_cons (by simp [hbe]),
      blocks_short (l := []) (by simp)]
    rfl

/-- **Streaming theorem.** From an initialised context with any buffer contents, feeding `msg` and
finalising gives the iterated hash of the padded message. -/
theorem stream (tr : σ → List UInt8 → σ) (iv : σ) (d msg : List UInt8) (hd : d.length = 64)
    (hm : 8 * msg.length < 2^64) :
    final tr (update tr ⟨d, 0, 0, iv⟩ msg) = iterate tr iv (pad be64 msg) := by
  have := inv_update tr iv msg [] _ (inv_init tr iv d hd)
  exact final_eq tr iv msg _ (by simpa using this) hm

end Verif.Crypto
