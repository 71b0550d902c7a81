import Verif.Crypto.EncryptModel
import Verif.Crypto.Sha256Props

/-! C12, C13, C41: encryption. -/

namespace Verif.Crypto.Encrypt

/-- The neighbours of position `p` on the ring of `n` words. -/
def encAt (key : List UInt32) (sum : UInt32) (v : List UInt32) (p : Nat) : List UInt32 :=
  v.set p (ix v p + mx key (ix v ((p + v.length - 1) % v.length)) (ix v ((p + 1) % v.length)) sum p
    (eOf sum))

def decAt (key : List UInt32) (sum : UInt32) (v : List UInt32) (p : Nat) : List UInt32 :=
  v.set p (ix v p - mx key (ix v ((p + v.length - 1) % v.length)) (ix v ((p + 1) % v.length)) sum p
    (eOf sum))

theorem encAt_len (key sum v p) : (encAt key sum v p).length = v.length := by simp [encAt]
theorem decAt_len (key sum v p) : (decAt key sum v p).length = v.length := by simp [decAt]

theorem ix_set_ne (v : List UInt32) (i j : Nat) (w : UInt32) (h : i ≠ j) :
    ix (v.set i w) j = ix v j := by
  unfold ix; rw [List.getD_eq_getElem?_getD, List.getElem?_set_ne h, ← List.getD_eq_getElem?_getD]

theorem ix_set_self (v : List UInt32) (i : Nat) (w : UInt32) (h : i < v.length) :
    ix (v.set i w) i = w := by
  unfold ix; rw [List.getD_eq_getElem?_getD, List.getElem?_set_self h]; rfl

theorem set_ix (v : List UInt32) (i : Nat) (h : i < v.length) : v.set i (ix v i) = v := by
  unfold ix
  rw [List.getD_eq_getElem?_getD, List.getElem?_eq_getElem h]
  simp

theorem prev_ne (n p : Nat) (h : 1 < n) (hp : p < n) : p ≠ (p + n - 1) % n := by
  by_cases h0 : p = 0
  · subst h0; rw [Nat.zero_add, Nat.mod_eq_of_lt (by omega)]; omega
  · rw [show p + n - 1 = (p - 1) + n by omega, Nat.add_mod_right, Nat.mod_eq_of_lt (by omega)]; omega

theorem next_ne (n p : Nat) (h : 1 < n) (hp : p < n) : p ≠ (p + 1) % n := by
  by_cases h0 : p + 1 = n
  · rw [h0, Nat.mod_self]; omega
  · rw [Nat.mod_eq_of_lt (by omega)]; omega

theorem dec_enc_at (key : List UInt32) (sum : UInt32) (v : List UInt32) (p : Nat)
    (h : 1 < v.length) (hp : p < v.length) : decAt key sum (encAt key sum v p) p = v := by
  unfold decAt
  rw [encAt_len]
  unfold encAt
  rw [ix_set_self _ _ _ hp, ix_set_ne _ _ _ _ (prev_ne _ _ h hp), ix_set_ne _ _ _ _ (next_ne _ _ h hp),
    List.set_set, UInt32.add_sub_cancel, set_ix _ _ hp]

theorem enc_dec_at (key : List UInt32) (sum : UInt32) (v : List UInt32) (p : Nat)
    (h : 1 < v.length) (hp : p < v.length) : encAt key sum (decAt key sum v p) p = v := by
  unfold encAt
  rw [decAt_len]
  unfold decAt
  rw [ix_set_self _ _ _ hp, ix_set_ne _ _ _ _ (prev_ne _ _ h hp), ix_set_ne _ _ _ _ (next_ne _ _ h hp),
    List.set_set, UInt32.sub_add_cancel, set_ix _ _ hp]

def encRound (key : List UInt32) (sum : UInt32) (v : List UInt32) : List UInt32 :=
  (List.range v.length).foldl (encAt key sum) v

def decRound (key : List UInt32) (sum : UInt32) (v : List UInt32) : List UInt32 :=
  (List.range v.length).foldr (fun p v => decAt key sum v p) v

theorem foldl_enc_len (key sum) (l : List Nat) (v : List UInt32) :
    (l.foldl (encAt key sum) v).length = v.length := by
  induction l generalizing v with
  | nil => rfl
  | cons p l ih => rw [List.foldl_cons, ih, encAt_len]

theorem foldr_dec_len (key sum) (l : List Nat) (v : List UInt32) :
    (l.foldr (fun p v => decAt key sum v p) v).length = v.length := by
  induction l with
  | nil => rfl
  | cons p l ih => rw [List.foldr_cons, decAt_len, ih]

theorem dec_enc_fold (key sum) (l : List Nat) (v : List UInt32) (h : 1 < v.length)
    (hl : ∀ p ∈ l, p < v.length) :
    l.foldr (fun p v => decAt key sum v p) (l.foldl (encAt key sum) v) = v := by
  induction l generalizing v with
  | nil => rfl
  | cons p l ih =>
    rw [List.foldl_cons, List.foldr_cons, ih _ (by rw [encAt_len]; exact h)
      (by rw [encAt_len]; exact fun q hq => hl q (by simp [hq]))]
    exact dec_enc_at _ _ _ _ h (hl p (by simp))

theorem enc_dec_fold (key sum) (l : List Nat) (v : List UInt32) (h : 1 < v.length)
    (hl : ∀ p ∈ l, p < v.length) :
    l.foldl (encAt key sum) (l.foldr (fun p v => decAt key sum v p) v) = v := by
  induction l generalizing v with
  | nil => rfl
  | cons p l ih =>
    rw [List.foldl_cons, List.foldr_cons]
    rw [enc_dec_at _ _ _ _ (by rw [foldr_dec_len]; exact h) (by rw [foldr_dec_len]; exact hl p (by simp))]
    exact ih v h (fun q hq => hl q (by simp [hq]))

/-- The C inner loop is the ring update at `p .. p+todo-1`. -/
theorem encFor_eq (key : List UInt32) (sum : UInt32) (todo p : Nat) (v : List UInt32) (z : UInt32)
    (hn : 1 < v.length) (h : p + todo + 1 = v.length) (hz : z = ix v ((p + v.length - 1) % v.length)) :
    encFor key sum p todo v z =
      let v' := (List.range' p todo).foldl (encAt key sum) v
      (v', ix v' ((p + todo + v.length - 1) % v.length)) := by
  induction todo generalizing p v z with
  | zero => simp [encFor, hz]
  | succ t ih =>
    rw [encFor, List.range'_succ, List.foldl_cons]
    simp only
    have e : v.set p (ix v p + mx key z (ix v (p+1)) sum p (eOf sum)) = encAt key sum v p := by
      unfold encAt
      rw [← hz, Nat.mod_eq_of_lt (by omega : p + 1 < v.length)]
    rw [e, ih _ _ _ (by rw [encAt_len]; exact hn) (by rw [encAt_len]; omega)]
    · rw [encAt_len, show p + 1 + t = p + (t + 1) by omega]
    · rw [encAt_len, ← e, show p + 1 + v.length - 1 = p + v.length by omega, Nat.add_mod_right,
        Nat.mod_eq_of_lt (by omega), ix_set_self _ _ _ (by omega)]

theorem encRounds_eq (key : List UInt32) (r : Nat) (sum : UInt32) (v : List UInt32) (z : UInt32)
    (hn : 1 < v.length) (hz : z = ix v (v.length - 1)) :
    encRounds key v.length (r+1) sum v z =
      encRounds key v.length r (sum + delta) (encRound key (sum + delta) v)
        (ix (encRound key (sum + delta) v) (v.length - 1)) := by
  rw [encRounds]
  have hf := encFor_eq key (sum + delta) (v.length - 1) 0 v z hn (by omega)
    (by rw [hz, Nat.zero_add, Nat.mod_eq_of_lt (by omega)])
  rw [hf]
  simp only
  have e2 : (List.range' 0 (v.length - 1)).foldl (encAt key (sum + delta)) v =
      (List.range (v.length - 1)).foldl (encAt key (sum + delta)) v := by rw [List.range_eq_range']
  rw [e2]
  have e3 : encRound key (sum + delta) v = encAt key (sum + delta)
      ((List.range (v.length - 1)).foldl (encAt key (sum + delta)) v) (v.length - 1) := by
    unfold encRound
    conv => lhs; rw [show v.length = (v.length - 1) + 1 by omega]
    rw [List.range_succ, List.foldl_append]
    simp
  rw [e3]
  have hl := foldl_enc_len key (sum + delta) (List.range (v.length - 1)) v
  generalize (List.range (v.length - 1)).foldl (encAt key (sum + delta)) v = u at *
  have e4 : u.set (v.length - 1) (ix u (v.length - 1) + mx key
      (ix u ((0 + (v.length - 1) + v.length - 1) % v.length)) (ix u 0) (sum + delta) (v.length - 1)
      (eOf (sum + delta))) = encAt key (sum + delta) u (v.length - 1) := by
    unfold encAt
    rw [hl, show v.length - 1 + 1 = v.length by omega, Nat.mod_self, Nat.zero_add]
  rw [e4]
  congr 1
  rw [← e4, ix_set_self _ _ _ (by omega)]

theorem decFor_eq (key : List UInt32) (sum : UInt32) (p : Nat) (v : List UInt32) (y : UInt32)
    (hn : 1 < v.length) (h : p < v.length) (hy : y = ix v ((p + 1) % v.length)) :
    decFor key sum p v y =
      let v' := (List.range' 1 p).foldr (fun p v => decAt key sum v p) v
      (v', ix v' (1 % v.length)) := by
  induction p generalizing v y with
  | zero => simp [decFor, hy]
  | succ t ih =>
    rw [decFor, List.range'_concat, List.foldr_append]
    simp only [List.foldr_cons, List.foldr_nil, Nat.one_mul]
    have e : v.set (t+1) (ix v (t+1) - mx key (ix v t) y sum (t+1) (eOf sum)) =
        decAt key sum v (1 + t) := by
      unfold decAt
      rw [Nat.add_comm 1 t, hy, show t + 1 + v.length - 1 = t + v.length by omega, Nat.add_mod_right,
        Nat.mod_eq_of_lt (show t < v.length by omega)]
    rw [e, ih _ _ (by rw [decAt_len]; exact hn) (by rw [decAt_len]; omega)]
    · rw [decAt_len]
    · rw [decAt_len, ← e, Nat.mod_eq_of_lt h, ix_set_self _ _ _ (by omega)]

theorem decRounds_eq (key : List UInt32) (r : Nat) (sum : UInt32) (v : List UInt32) (y : UInt32)
    (hn : 1 < v.length) (hy : y = ix v 0) :
    decRounds key v.length (r+1) sum v y =
      decRounds key v.length r (sum - delta) (decRound key sum v) (ix (decRound key sum v) 0) := by
  rw [decRounds]
  have hf := decFor_eq key sum (v.length - 1) v y hn (by omega)
    (by rw [hy, show v.length - 1 + 1 = v.length by omega, Nat.mod_self])
  rw [hf]
  simp only
  have e3 : decRound key sum v = decAt key sum
      ((List.range' 1 (v.length - 1)).foldr (fun p v => decAt key sum v p) v) 0 := by
    unfold decRound
    conv => lhs; rw [show v.length = (v.length - 1) + 1 by omega]
    rw [List.range_eq_range', List.range'_succ, List.foldr_cons]
  rw [e3]
  have hl := foldr_dec_len key sum (List.range' 1 (v.length - 1)) v
  generalize (List.range' 1 (v.length - 1)).foldr (fun p v => decAt key sum v p) v = u at *
  have e4 : u.set 0 (ix u 0 - mx key (ix u (v.length - 1)) (ix u (1 % v.length)) sum 0 (eOf sum)) =
      decAt key sum u 0 := by
    unfold decAt
    rw [hl, Nat.zero_add, Nat.zero_add, Nat.mod_eq_of_lt (show v.length - 1 < v.length by omega)]
  rw [e4]
  congr 1
  rw [← e4, ix_set_self _ _ _ (by omega)]

/-- `r` rounds from `sum`. -/
def encN (key : List UInt32) : Nat → UInt32 → List UInt32 → List UInt32
  | 0, _, v => v
  | r+1, sum, v => encN key r (sum + delta) (encRound key (sum + delta) v)

def decN (key : List UInt32) : Nat → UInt32 → List UInt32 → List UInt32
  | 0, _, v => v
  | r+1, sum, v => decN key r (sum - delta) (decRound key sum v)

theorem encRound_len (key sum v) : (encRound key sum v).length = v.length := foldl_enc_len ..
theorem decRound_len (key sum v) : (decRound key sum v).length = v.length := foldr_dec_len ..

theorem encRounds_encN (key : List UInt32) (r : Nat) (sum : UInt32) (v : List UInt32)
    (hn : 1 < v.length) : encRounds key v.length r sum v (ix v (v.length - 1)) = encN key r sum v := by
  induction r generalizing sum v with
  | zero => rfl
  | succ r ih =>
    rw [encRounds_eq _ _ _ _ _ hn rfl, encN]
    have := ih (sum + delta) (encRound key (sum + delta) v) (by rw [encRound_len]; exact hn)
    rw [encRound_len] at this
    exact this

theorem decRounds_decN (key : List UInt32) (r : Nat) (sum : UInt32) (v : List UInt32)
    (hn : 1 < v.length) : decRounds key v.length r sum v (ix v 0) = decN key r sum v := by
  induction r generalizing sum v with
  | zero => rfl
  | succ r ih =>
    rw [decRounds_eq _ _ _ _ _ hn rfl, decN]
    have := ih (sum - delta) (decRound key sum v) (by rw [decRound_len]; exact hn)
    rw [decRound_len] at this
    exact this

theorem dec_enc_round (key sum) (v : List UInt32) (h : 1 < v.length) :
    decRound key sum (encRound key sum v) = v := by
  unfold decRound
  rw [encRound_len]
  exact dec_enc_fold key sum _ v h (fun p hp => List.mem_range.mp hp)

theorem enc_dec_round (key sum) (v : List UInt32) (h : 1 < v.length) :
    encRound key sum (decRound key sum v) = v := by
  unfold encRound
  rw [decRound_len]
  exact enc_dec_fold key sum _ v h (fun p hp => List.mem_range.mp hp)

theorem encN_len (key : List UInt32) (r : Nat) (sum : UInt32) (v : List UInt32) :
    (encN key r sum v).length = v.length := by
  induction r generalizing sum v with
  | zero => rfl
  | succ r ih => rw [encN, ih, encRound_len]

theorem decN_len (key : List UInt32) (r : Nat) (sum : UInt32) (v : List UInt32) :
    (decN key r sum v).length = v.length := by
  induction r generalizing sum v with
  | zero => rfl
  | succ r ih => rw [decN, ih, decRound_len]

/-- Peel the last round of the decoder. -/
theorem decN_last (key : List UInt32) (r : Nat) (sum : UInt32) (v : List UInt32) :
    decN key (r+1) (sum + UInt32.ofNat (r+1) * delta) v =
      decRound key (sum + delta) (decN key r (sum + delta + UInt32.ofNat r * delta) v) := by
  induction r generalizing v with
  | zero => simp [decN]
  | succ r ih =>
    rw [decN]
    have e1 : sum + UInt32.ofNat (r+1+1) * delta - delta = sum + UInt32.ofNat (r+1) * delta := by
      rw [show UInt32.ofNat (r+1+1) = UInt32.ofNat (r+1) + 1 from UInt32.ofNat_add _ _,
        UInt32.add_mul, UInt32.one_mul, ← UInt32.add_assoc, UInt32.add_sub_cancel]
    have e2 : sum + UInt32.ofNat (r+1+1) * delta = sum + delta + UInt32.ofNat (r+1) * delta := by
      rw [show UInt32.ofNat (r+1+1) = UInt32.ofNat (r+1) + 1 from UInt32.ofNat_add _ _,
        UInt32.add_mul, UInt32.one_mul, UInt32.add_assoc, UInt32.add_comm delta]
    have e3 : sum + delta + UInt32.ofNat (r+1) * delta - delta =
        sum + delta + UInt32.ofNat r * delta := by
      rw [show UInt32.ofNat (r+1) = UInt32.ofNat r + 1 from UInt32.ofNat_add _ _,
        UInt32.add_mul, UInt32.one_mul, ← UInt32.add_assoc, UInt32.add_sub_cancel]
    rw [e1, ih, e2, decN, e3]

theorem dec_enc_N (key : List UInt32) (r : Nat) (sum : UInt32) (v : List UInt32)
    (h : 1 < v.length) : decN key r (sum + UInt32.ofNat r * delta) (encN key r sum v) = v := by
  induction r generalizing sum v with
  | zero => rfl
  | succ r ih =>
    rw [decN_last, encN, ih _ _ (by rw [encRound_len]; exact h), dec_enc_round _ _ _ h]

theorem enc_dec_N (key : List UInt32) (r : Nat) (sum : UInt32) (v : List UInt32)
    (h : 1 < v.length) : encN key r sum (decN key r (sum + UInt32.ofNat r * delta) v) = v := by
  induction r generalizing sum v with
  | zero => rfl
  | succ r ih =>
    rw [decN_last, encN, enc_dec_round _ _ _ (by rw [decN_len]; exact h), ih _ _ h]

theorem btea_dec_enc (key v : List UInt32) : bteaDec key (bteaEnc key v) = v := by
  unfold bteaDec bteaEnc
  by_cases h : v.length > 1
  · simp only [h, if_true]
    rw [encRounds_encN _ _ _ _ h, encN_len]
    simp only [h, if_true]
    have := decRounds_decN key (rounds v.length) (UInt32.ofNat (rounds v.length) * delta)
      (encN key (rounds v.length) 0 v) (by rw [encN_len]; exact h)
    rw [encN_len] at this
    rw [this]
    have := dec_enc_N key (rounds v.length) 0 v h
    rw [UInt32.zero_add] at this
    exact this
  · simp only [h, if_false]

theorem btea_enc_dec (key v : List UInt32) : bteaEnc key (bteaDec key v) = v := by
  unfold bteaDec bteaEnc
  by_cases h : v.length > 1
  · simp only [h, if_true]
    rw [decRounds_decN _ _ _ _ h, decN_len]
    simp only [h, if_true]
    have := encRounds_encN key (rounds v.length) 0
      (decN key (rounds v.length) (UInt32.ofNat (rounds v.length) * delta) v)
      (by rw [decN_len]; exact h)
    rw [decN_len] at this
    rw [this]
    have := enc_dec_N key (rounds v.length) 0 v h
    rw [UInt32.zero_add] at this
    exact this
  · simp only [h, if_false]

theorem bteaEnc_len (key v : List UInt32) : (bteaEnc key v).length = v.length := by
  unfold bteaEnc
  by_cases h : v.length > 1
  · simp only [h, if_true]; rw [encRounds_encN _ _ _ _ h, encN_len]
  · simp only [h, if_false]

theorem bteaDec_len (key v : List UInt32) : (bteaDec key v).length = v.length := by
  unfold bteaDec
  by_cases h : v.length > 1
  · simp only [h, if_true]; rw [decRounds_decN _ _ _ _ h, decN_len]
  · simp only [h, if_false]

/-! bytes and words -/

theorem word_bytes (a b c d : UInt8) (w : UInt32)
    (hw : w = a.toUInt32 ||| (b.toUInt32 <<< 8) ||| (c.toUInt32 <<< 16) ||| (d.toUInt32 <<< 24)) :
    [w.toUInt8, (w >>> 8).toUInt8, (w >>> 16).toUInt8, (w >>> 24).toUInt8] = [a, b, c, d] := by
  subst hw
  simp only [List.cons.injEq, and_true]
  refine ⟨?_, ?_, ?_, ?_⟩
  · apply UInt8.toBitVec_inj.mp
    simp
  all_goals
    apply UInt8.toBitVec_inj.mp
    simp
    apply BitVec.eq_of_getLsbD_eq
    intro i hi
    have h8 : ∀ (x : UInt8) (k : Nat), 8 ≤ k → x.toBitVec.getLsbD k = false := fun x k hk =>
      BitVec.getLsbD_of_ge _ _ hk
    have hc : i = 0 ∨ i = 1 ∨ i = 2 ∨ i = 3 ∨ i = 4 ∨ i = 5 ∨ i = 6 ∨ i = 7 := by omega
    rcases hc with rfl | rfl | rfl | rfl | rfl | rfl | rfl | rfl <;> simp [h8]

theorem bytes_word (w : UInt32) :
    (w.toUInt8.toUInt32 ||| ((w >>> 8).toUInt8.toUInt32 <<< 8) |||
      ((w >>> 16).toUInt8.toUInt32 <<< 16) ||| ((w >>> 24).toUInt8.toUInt32 <<< 24)) = w := by
  apply UInt32.toBitVec_inj.mp
  simp [-UInt32.toUInt32_toUInt8]
  apply BitVec.eq_of_getLsbD_eq
  intro i hi
  simp
  by_cases h8 : i < 8
  · simp [h8, show i < 16 by omega, show i < 24 by omega, hi]
  · by_cases h16 : i < 16
    · simp [h8, h16, show i < 24 by omega, hi, show i - 8 < 8 by omega, show 8 + (i - 8) = i by omega]
      intro _; omega
    · by_cases h24 : i < 24
      · simp [h8, h16, h24, hi, show ¬ i - 8 < 8 by omega, show i - 16 < 8 by omega,
          show 16 + (i - 16) = i by omega]
        intro _; omega
      · simp [h8, h16, h24, hi, show ¬ i - 8 < 8 by omega, show ¬ i - 16 < 8 by omega,
          show i - 24 < 8 by omega, show 24 + (i - 24) = i by omega]
        intro _; omega

theorem store_len (v : List UInt32) : (store v).length = 4 * v.length := by
  induction v with
  | nil => rfl
  | cons w v ih =>
    have : store (w :: v) = [w.toUInt8, (w >>> 8).toUInt8, (w >>> 16).toUInt8, (w >>> 24).toUInt8] ++
      store v := rfl
    rw [this, List.length_append, ih]; simp; omega

theorem load_store (v : List UInt32) : load (store v) = v := by
  induction v with
  | nil => rfl
  | cons w v ih =>
    have : store (w :: v) = w.toUInt8 :: (w >>> 8).toUInt8 :: (w >>> 16).toUInt8 ::
      (w >>> 24).toUInt8 :: store v := rfl
    rw [this, load, ih, bytes_word]

theorem store_load (b : List UInt8) (h : b.length % 4 = 0) : store (load b) = b := by
  match b with
  | [] => rfl
  | [_] | [_, _] | [_, _, _] => simp at h
  | a :: b :: c :: d :: l =>
    have hs : ∀ (w : UInt32) v, store (w :: v) = [w.toUInt8, (w >>> 8).toUInt8, (w >>> 16).toUInt8,
      (w >>> 24).toUInt8] ++ store v := fun _ _ => rfl
    rw [load, hs, word_bytes a b c d _ rfl, store_load l (by simp at h; omega)]
    rfl

theorem load_len (b : List UInt8) : (load b).length = b.length / 4 := by
  match b with
  | [] => rfl
  | [_] | [_, _] | [_, _, _] => simp [load]
  | a :: b :: c :: d :: l =>
    rw [load, List.length_cons, load_len l]; simp; omega

/-- The number of zero bytes added. -/
def padOf (n : Nat) : Nat := (4 - n % 4) % 4

theorem padLoop_eq (str : List UInt8) :
    padLoop 4 str 0 = (str ++ List.replicate (padOf str.length) 0, padOf str.length) := by
  unfold padOf
  have h : str.length % 4 = 0 ∨ str.length % 4 = 1 ∨ str.length % 4 = 2 ∨ str.length % 4 = 3 := by omega
  have aux : ∀ k, (str.length + k) % 4 = (str.length % 4 + k) % 4 := by intro k; omega
  rcases h with h | h | h | h <;>
    simp [padLoop, h, List.length_append, aux, List.replicate_succ]

/-- The exact ciphertext: the words of the zero-padded text through the cipher, then the pad count. -/
theorem encrypt_eq (junk str key : List UInt8) (h : 2 ≤ str.length) :
    encrypt junk str key = some (store (bteaEnc (keyWords junk key)
      (load (str ++ List.replicate (padOf str.length) 0))) ++ [UInt8.ofNat (padOf str.length)]) := by
  unfold encrypt
  rw [if_neg (by omega), if_neg (by omega), padLoop_eq]
  simp only
  rw [if_neg]
  simp only [List.length_append, List.length_replicate, padOf]
  omega

theorem setLength_eq (a b : List UInt8) (n : Nat) (h : a.length = n) : setLength (a ++ b) n = a := by
  subst h; simp [setLength]

theorem charToUint_small (k : Nat) (h : k < 4) : charToUint (UInt8.ofNat k) = k := by
  have : ∀ k : Fin 4, charToUint (UInt8.ofNat k.1) = k.1 := by decide +kernel
  exact this ⟨_, h⟩

theorem finish_len (n p : Nat) (hp : p < 4) (hn : n + 4 < 2^31) :
    subInt (n + p) (charToUint (UInt8.ofNat p)) = (n : Int) := by
  rw [charToUint_small p hp]
  unfold subInt
  simp only [Nat.reducePow] at *
  have : (n + p + 4294967296 - p) % 4294967296 = n := by omega
  rw [this, if_pos (by omega)]

/-- **C12.** Decryption with the same key inverts encryption, for every string of at least two bytes
and every key; encryption of shorter strings is an error. -/
theorem C12_decrypt_encrypt (j₁ j₂ str key : List UInt8) (hj₁ : j₁.length = 64) (hj₂ : j₂.length = 64)
    (hk : 8 * key.length < 2^64) (hn : str.length + 4 < 2^31) :
    if str.length < 2 then encrypt j₁ str key = none
    else ∃ c, encrypt j₁ str key = some c ∧ decrypt j₂ c key = some str := by
  split
  · rename_i h
    unfold encrypt
    by_cases h0 : str.length = 0
    · rw [if_pos h0]
    · rw [if_neg h0, if_pos h]
  · rename_i h
    refine ⟨_, encrypt_eq j₁ str key (by omega), ?_⟩
    have hkw : keyWords j₂ key = keyWords j₁ key := by
      unfold keyWords
      split
      · rfl
      · rw [Sha256.C08_sha256_is_fips180 _ _ hj₁ hk, Sha256.C08_sha256_is_fips180 _ _ hj₂ hk]
    have hp : padOf str.length < 4 := by unfold padOf; omega
    have hpl : (str ++ List.replicate (padOf str.length) 0).length = str.length + padOf str.length := by
      simp
    have h4 : (str.length + padOf str.length) % 4 = 0 := by unfold padOf; omega
    generalize hv : bteaEnc (keyWords j₁ key) (load (str ++ List.replicate (padOf str.length) 0)) = v
    have hvl : v.length = (str.length + padOf str.length) / 4 := by
      rw [← hv, bteaEnc_len, load_len, hpl]
    have hsl : (store v).length = str.length + padOf str.length := by
      rw [store_len, hvl]; omega
    unfold decrypt
    have hl : (store v ++ [UInt8.ofNat (padOf str.length)]).length =
      str.length + padOf str.length + 1 := by simp [hsl]
    rw [hl, if_neg (by omega), if_neg (by omega), if_neg (by omega), Nat.add_sub_cancel]
    simp only
    rw [if_neg (by omega), setLength_eq _ _ _ hsl, load_store, ← hv, hkw, btea_dec_enc,
      store_load _ (by rw [hpl]; exact h4)]
    have hg : (store v ++ [UInt8.ofNat (padOf str.length)]).getD (str.length + padOf str.length) 0 =
        UInt8.ofNat (padOf str.length) := by
      rw [List.getD_eq_getElem?_getD, List.getElem?_append_right (by omega), hsl]; simp
    rw [hv, hg, hpl]
    rw [finish_len str.length (padOf str.length) hp hn]
    have hneg : ¬ ((str.length : Int) < 0) := by omega
    rw [if_neg hneg, Int.toNat_natCast]
    exact congrArg some (setLength_eq _ _ _ rfl)

/-- Consequence: with the same key different texts give different ciphertexts. -/
theorem C12_injective (j s t key : List UInt8) (hj : j.length = 64) (hk : 8 * key.length < 2^64)
    (hs : s.length + 4 < 2^31) (ht : t.length + 4 < 2^31) (c : List UInt8)
    (h1 : encrypt j s key = some c) (h2 : encrypt j t key = some c) : s = t := by
  have a := C12_decrypt_encrypt j j s key hj hj hk hs
  have b := C12_decrypt_encrypt j j t key hj hj hk ht
  split at a
  · rw [h1] at a; simp at a
  · split at b
    · rw [h2] at b; simp at b
    · obtain ⟨c1, e1, d1⟩ := a
      obtain ⟨c2, e2, d2⟩ := b
      rw [h1] at e1; rw [h2] at e2
      simp only [Option.some.injEq] at e1 e2
      subst e1; subst e2
      rw [d1] at d2
      simpa using d2

/-- The ciphertext length: the text rounded up to a multiple of 4, plus one. -/
theorem C12_length (j s key c : List UInt8) (h : encrypt j s key = some c) :
    c.length = (s.length + 3) / 4 * 4 + 1 := by
  have h2 : 2 ≤ s.length := by
    apply Decidable.byContradiction
    intro hlt
    unfold encrypt at h
    by_cases h0 : s.length = 0
    · rw [if_pos h0] at h; simp at h
    · rw [if_neg h0, if_pos (by omega)] at h; simp at h
  rw [encrypt_eq _ _ _ h2] at h
  simp only [Option.some.injEq] at h
  rw [← h, List.length_append, store_len, bteaEnc_len, load_len]
  simp [padOf]
  omega

/-- **C41.** Decryption of arbitrary data with an arbitrary key is an error or gives a string at least
one byte shorter than the data, determined by data and key alone (not by uninitialised memory). -/
theorem C41_decrypt_total (j₁ j₂ str key : List UInt8) (hj₁ : j₁.length = 64) (hj₂ : j₂.length = 64)
    (hk : 8 * key.length < 2^64) :
    decrypt j₁ str key = decrypt j₂ str key ∧
    ∀ r, decrypt j₁ str key = some r → r.length + 1 ≤ str.length ∧ str.length % 4 = 1 := by
  have hkw : keyWords j₂ key = keyWords j₁ key := by
    unfold keyWords
    split
    · rfl
    · rw [Sha256.C08_sha256_is_fips180 _ _ hj₁ hk, Sha256.C08_sha256_is_fips180 _ _ hj₂ hk]
  constructor
  · unfold decrypt
    simp only [hkw]
  · intro r h
    have hlen : (store (bteaDec (keyWords j₁ key) (load (setLength str (str.length - 1))))).length + 1 ≤
        max str.length 1 := by
      rw [store_len, bteaDec_len, load_len]
      simp [setLength]; omega
    unfold decrypt at h
    simp only at h
    generalize store (bteaDec (keyWords j₁ key) (load (setLength str (str.length - 1)))) = buf at *
    generalize subInt buf.length (charToUint (str.getD (str.length - 1) 0)) = ol at h
    split at h
    · simp at h
    split at h
    · simp at h
    split at h
    · simp at h
    split at h
    · simp at h
    split at h
    · simp only [Option.some.injEq] at h
      subst h
      omega
    · simp only [Option.some.injEq] at h
      subst h
      refine ⟨?_, by omega⟩
      have : (buf.take ol.toNat).length ≤ buf.length := by rw [List.length_take]; omega
      unfold setLength
      omega

/-- **C13 is false.** Strings of two to four bytes are not encrypted at all: whatever the key, the
ciphertext is the text, zero padding and the pad count. -/
theorem C13_short_plaintext_leaks (j s key : List UInt8) (h : 2 ≤ s.length) (h4 : s.length ≤ 4) :
    encrypt j s key = some (s ++ List.replicate (4 - s.length) 0 ++ [UInt8.ofNat (4 - s.length)]) := by
  rw [encrypt_eq _ _ _ h]
  have hp : padOf s.length = 4 - s.length := by unfold padOf; omega
  rw [hp]
  have hl : (s ++ List.replicate (4 - s.length) 0).length = 4 := by simp; omega
  have : bteaEnc (keyWords j key) (load (s ++ List.replicate (4 - s.length) 0)) =
      load (s ++ List.replicate (4 - s.length) 0) := by
    unfold bteaEnc
    simp only
    rw [if_neg (by rw [load_len, hl]; decide)]
  rw [this, store_load _ (by rw [hl])]

/-- The claim that the key matters, and that the text does not appear in the clear, both fail. -/
theorem C13_refuted :
    (¬ ∀ (j s k k' : List UInt8), j.length = 64 → 2 ≤ s.length → k ≠ k' →
      encrypt j s k ≠ encrypt j s k') ∧
    (¬ ∀ (j s k c : List UInt8), j.length = 64 → 2 ≤ s.length → encrypt j s k = some c →
      ¬ s <:+: c) := by
  constructor
  · intro h
    refine h (List.replicate 64 0) [112, 119] [1] [2] List.length_replicate (by decide) (by decide) ?_
    rw [C13_short_plaintext_leaks _ _ _ (by decide) (by decide),
      C13_short_plaintext_leaks _ _ _ (by decide) (by decide)]
  · intro h
    refine h (List.replicate 64 0) [112, 119] [1] _ List.length_replicate (by decide)
      (C13_short_plaintext_leaks _ _ _ (by decide) (by decide)) ?_
    exact ⟨[], [0, 0, 2], by decide⟩

/-- The length modulo 4 of every text is in the clear, as last byte. -/
theorem C13_pad_in_clear (j s key c : List UInt8) (h : encrypt j s key = some c) :
    c.getLast? = some (UInt8.ofNat ((4 - s.length % 4) % 4)) := by
  have h2 : 2 ≤ s.length := by
    apply Decidable.byContradiction
    intro hlt
    unfold encrypt at h
    by_cases h0 : s.length = 0
    · rw [if_pos h0] at h; simp at h
    · rw [if_neg h0, if_pos (by omega)] at h; simp at h
  rw [encrypt_eq _ _ _ h2] at h
  simp only [Option.some.injEq] at h
  rw [← h, List.getLast?_concat]
  rfl

/-- **C13, partial.** For a fixed key and length above four the cipher is a permutation of the words,
so what remains true is that distinct texts have distinct ciphertexts and every word string is hit. -/
theorem C13_permutation_partial (key : List UInt32) :
    (∀ v, bteaDec key (bteaEnc key v) = v) ∧ (∀ v, bteaEnc key (bteaDec key v) = v) :=
  ⟨btea_dec_enc key, btea_enc_dec key⟩

/-- Non-vacuity: the hypotheses of `C12_decrypt_encrypt` hold of a 10-byte text and a 5-byte key. -/
example : ∃ c, encrypt (List.replicate 64 0) (asc "attack now") (asc "hello") = some c ∧
    decrypt (List.replicate 64 9) c (asc "hello") = some (asc "attack now") := by
  have := C12_decrypt_encrypt (List.replicate 64 0) (List.replicate 64 9) (asc "attack now") (asc "hello")
    List.length_replicate List.length_replicate (by decide) (by decide)
  rw [if_neg (by decide)] at this
  exact this

end Verif.Crypto.Encrypt
