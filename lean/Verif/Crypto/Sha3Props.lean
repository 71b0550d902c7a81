import Verif.Crypto.Sha3Eval

/-! C11: the sponge construction around Keccak-f. -/

namespace Verif.Crypto.Sha3
open Spec.Sha3 (State blocks absorb pad squeeze sha3)

theorem blocks_short {r : Nat} {l : List UInt8} (h : l.length < r) : blocks r l = [] := by
  rw [blocks]; simp [h]

theorem blocks_cons {r : Nat} {b t : List UInt8} (h : b.length = r) (hr : 0 < r) :
    blocks r (b ++ t) = b :: blocks r t := by
  rw [blocks]
  have : ¬ ((b ++ t).length < r ∨ r = 0) := by simp; omega
  rw [dif_neg this, List.take_append_of_le_length (by omega), List.take_of_length_le (by omega),
    List.drop_append_of_le_length (by omega), List.drop_of_length_le (by omega)]
  simp

/-- Absorbing looks at the first `r` bytes of the buffer only. -/
theorem absorb_congr {r : Nat} (h8 : r % 8 = 0) (A : State) (b b' : List UInt8)
    (h : b.take r = b'.take r) : absorb r A b = absorb r A b' := by
  unfold absorb
  congr 1
  funext x y
  split
  · rename_i hlt
    congr 1
    unfold Spec.Sha3.laneOf
    congr 1
    have key : ∀ k < 8, b.getD (8*(5*y+x)+k) 0 = b'.getD (8*(5*y+x)+k) 0 := by
      intro k hk
      have hi : 8*(5*y+x)+k < r := by omega
      rw [List.getD_eq_getElem?_getD, List.getD_eq_getElem?_getD]
      rw [← List.getElem?_take_of_lt hi, h, List.getElem?_take_of_lt hi]
    have : ∀ (l : List Nat) (n : Nat), (∀ k ∈ l, k < 8) →
        l.foldl (fun n k => n + (b.getD (8*(5*y+x)+k) 0).toNat * 256^k) n =
        l.foldl (fun n k => n + (b'.getD (8*(5*y+x)+k) 0).toNat * 256^k) n := by
      intro l
      induction l with
      | nil => intros; rfl
      | cons a l ih =>
        intro n hl
        rw [List.foldl_cons, List.foldl_cons, key a (hl a (by simp)), ih _ (fun k hk => hl k (by simp [hk]))]
    exact this _ _ (fun k hk => List.mem_range.mp hk)
  · rfl

theorem keccakF_congr {A B : State} (h : Agree A B) :
    Agree (Spec.Sha3.keccakF A) (Spec.Sha3.keccakF B) := by
  unfold Spec.Sha3.keccakF
  generalize List.range 24 = l
  induction l generalizing A B with
  | nil => exact h
  | cons r l ih =>
    rw [List.foldl_cons, List.foldl_cons]
    exact ih (ι_congr (χ_congr (πρ_congr (θ_congr h))) r)

theorem absorb_agree {A B : State} (h : Agree A B) (r : Nat) (b : List UInt8) :
    Agree (absorb r A b) (absorb r B b) := by
  unfold absorb
  apply keccakF_congr
  intro x hx y hy
  simp only
  rw [h x hx y hy]

theorem squeeze_agree {A B : State} (h : Agree A B) (d : Nat) (hd : d ≤ 200) :
    squeeze d A = squeeze d B := by
  unfold squeeze
  apply List.map_congr_left
  intro i hi
  have := List.mem_range.mp hi
  rw [h _ (by omega) _ (by omega)]

theorem absorbs_agree {A B : State} (h : Agree A B) (r : Nat) (bs : List (List UInt8)) :
    Agree (bs.foldl (absorb r) A) (bs.foldl (absorb r) B) := by
  induction bs generalizing A B with
  | nil => exact h
  | cons b bs ih => exact ih (absorb_agree h r b)

/-- The bytes after the last whole block. -/
def tailOf (r : Nat) (p : List UInt8) : List UInt8 := p.drop (r * (p.length / r))

/-- What is left in the buffer of the last whole block (`B` if there was none). -/
def lastBlk (r : Nat) (B p : List UInt8) : List UInt8 :=
  if h : p.length < r ∨ r = 0 then B else lastBlk r (p.take r ++ B.drop r) (p.drop r)
termination_by p.length
decreasing_by simp; omega

theorem lastBlk_len (r : Nat) (B p : List UInt8) (hB : r ≤ B.length) :
    (lastBlk r B p).length = B.length := by
  induction hn : p.length using Nat.strongRecOn generalizing B p with
  | _ n ih =>
    rw [lastBlk]
    split
    · rfl
    · rename_i h
      have e : (p.take r ++ B.drop r).length = B.length := by simp; omega
      rw [ih (p.drop r).length (by simp; omega) _ _ (by omega) rfl, e]

theorem tailOf_step (r : Nat) (p : List UInt8) (hr : 0 < r) (h : r ≤ p.length) :
    tailOf r (p.drop r) = tailOf r p := by
  unfold tailOf
  rw [List.drop_drop, List.length_drop]
  congr 1
  have : p.length / r = (p.length - r) / r + 1 := by
    rw [Nat.div_eq_sub_div hr h]
  rw [this, Nat.mul_add, Nat.mul_one]; omega

theorem tailOf_len (r : Nat) (p : List UInt8) : (tailOf r p).length = p.length % r := by
  unfold tailOf
  rw [List.length_drop]
  have := Nat.div_add_mod p.length r
  omega

theorem transform_blk (c : Ctx) : (transform c).blk = c.blk := by unfold transform; rfl
theorem transform_blklen (c : Ctx) : (transform c).blklen = c.blklen := by unfold transform; rfl
theorem transform_dgstlen (c : Ctx) : (transform c).dgstlen = c.dgstlen := by unfold transform; rfl
theorem init_blk (t : Nat) : (init t).blk.length = 256 := by
  unfold init; exact List.length_replicate
theorem init_state (t : Nat) : (init t).state.length = 25 := by
  unfold init; exact List.length_replicate
theorem getD_rep {α : Type} (n : Nat) (d : α) (i : Nat) : (List.replicate n d).getD i d = d := by
  rw [List.getD_eq_getElem?_getD, List.getElem?_replicate]; split <;> rfl

/-- What the update loop leaves, entered at the start of a block. -/
theorem upd_agree (fuel : Nat) : ∀ (c : Ctx) (p : List UInt8) (A : State), p.length < fuel →
    0 < c.blklen → c.blklen ≤ 144 → c.blklen % 8 = 0 → c.blk.length = 256 → c.state.length = 25 →
    Agree (toState c.state) A →
    (updLoop fuel c 0 p).state.length = 25 ∧
    Agree (toState (updLoop fuel c 0 p).state) ((blocks c.blklen p).foldl (absorb c.blklen) A) ∧
    (updLoop fuel c 0 p).index = p.length % c.blklen ∧
    (updLoop fuel c 0 p).blk = tailOf c.blklen p ++
      (lastBlk c.blklen c.blk p).drop (p.length % c.blklen) ∧
    (updLoop fuel c 0 p).blklen = c.blklen ∧ (updLoop fuel c 0 p).dgstlen = c.dgstlen := by
  induction fuel with
  | zero => intro c p A h; omega
  | succ fuel ih =>
    intro c p A hf h0 h144 h8 hbl hsl hA
    unfold updLoop
    simp only [Nat.sub_zero, Nat.zero_add]
    by_cases hlt : p.length < c.blklen
    · simp only [hlt, if_true]
      rw [blocks_short hlt, lastBlk]
      simp only [hlt, true_or, dite_true]
      refine ⟨hsl, hA, (Nat.mod_eq_of_lt hlt).symm, ?_, trivial, trivial⟩
      unfold memcpy tailOf
      rw [Nat.mod_eq_of_lt hlt, Nat.div_eq_of_lt hlt]
      simp
    · simp only [hlt, if_false, Nat.lt_irrefl]
      have htk : (p.take c.blklen).length = c.blklen := by simp; omega
      have hm : memcpy c.blk 0 (p.take c.blklen) = p.take c.blklen ++ c.blk.drop c.blklen := by
        unfold memcpy; rw [htk]; simp
      rw [hm]
      have hcl : (p.take c.blklen ++ c.blk.drop c.blklen).length = 256 := by
        rw [List.length_append, htk, List.length_drop]; omega
      generalize hcc : (⟨c.state, c.index, c.dgstlen, c.blklen,
        p.take c.blklen ++ c.blk.drop c.blklen⟩ : Ctx) = cc
      have q1 : cc.state = c.state := by rw [← hcc]
      have q2 : cc.blklen = c.blklen := by rw [← hcc]
      have q3 : cc.dgstlen = c.dgstlen := by rw [← hcc]
      have q4 : cc.blk = p.take c.blklen ++ c.blk.drop c.blklen := by rw [← hcc]
      have htr := transform_agree cc (by rw [q1]; exact hsl) (by rw [q2]; omega) A
        (by rw [q1]; exact hA)
      rw [q2, q4] at htr
      have htb := (transform_blk cc).trans q4
      have htl := (transform_blklen cc).trans q2
      have htd := (transform_dgstlen cc).trans q3
      revert htr htb htl htd
      generalize transform cc = c'
      intro htr htb htl htd
      have := ih c' (p.drop c.blklen) _ (by simp; omega) (by omega) (by omega) (by omega)
        (by rw [htb]; exact hcl) htr.1 htr.2
      rw [htb, htl, htd] at this
      obtain ⟨r1, r2, r3, r4, r5, r6⟩ := this
      refine ⟨r1, ?_, ?_, ?_, r5, r6⟩
      · refine r2.trans ?_
        rw [show blocks c.blklen p = p.take c.blklen :: blocks c.blklen (p.drop c.blklen) by
          rw [blocks]; rw [dif_neg (by omega)]]
        rw [List.foldl_cons, absorb_congr h8 A _ (p.take c.blklen)]
        · exact Agree.refl _
        · rw [List.take_append_of_le_length (by omega)]
      · rw [r3, List.length_drop]
        exact (Nat.mod_eq_sub_mod (by omega)).symm
      · rw [r4, tailOf_step _ _ h0 (by omega), List.length_drop]
        rw [show lastBlk c.blklen c.blk p = lastBlk c.blklen (p.take c.blklen ++ c.blk.drop c.blklen)
          (p.drop c.blklen) by rw [lastBlk]; rw [dif_neg (by omega)]]
        rw [← Nat.mod_eq_sub_mod (by omega : p.length ≥ c.blklen)]

/-- The last block the C code absorbs: the remaining bytes, 6, what is left of the previous block, and
the top bit of the last byte set. -/
def lastAbsorbed (r : Nat) (msg : List UInt8) : List UInt8 :=
  let b := (tailOf r msg ++ (lastBlk r (List.replicate 256 0) msg).drop (msg.length % r)).set
    (msg.length % r) 6
  b.set (r - 1) (b.getD (r - 1) 0 ||| 0x80)

/-- Rate and digest size of an init type. -/
def dims (type : Nat) : Nat × Nat := ((init type).blklen, (init type).dgstlen)

theorem dims_ok (type : Nat) : dims type = (144, 28) ∨ dims type = (104, 48) ∨
    dims type = (72, 64) ∨ dims type = (136, 32) := by
  unfold dims init
  match type with
  | 0 => simp
  | 1 => simp
  | 2 => simp
  | 3 => simp
  | n+4 => simp

/-- What the code computes, for every message. -/
theorem C11_exact (type : Nat) (msg : List UInt8) :
    final (update (init type) msg) =
      squeeze (dims type).2 (absorb (dims type).1 ((blocks (dims type).1 msg).foldl
        (absorb (dims type).1) (fun _ _ => 0#64)) (lastAbsorbed (dims type).1 msg)) := by
  have hd := dims_ok type
  have hb : (init type).blklen = (dims type).1 := rfl
  have hg : (init type).dgstlen = (dims type).2 := rfl
  have hz : Agree (toState (init type).state) (fun _ _ => 0#64) := by
    intro x hx y hy
    unfold toState init at'
    simp only
    rw [getD_rep]
    rfl
  have := upd_agree (msg.length + 2) (init type) msg (fun _ _ => 0#64) (by omega)
    (by rw [hb]; rcases hd with h | h | h | h <;> rw [h] <;> decide)
    (by rw [hb]; rcases hd with h | h | h | h <;> rw [h] <;> decide)
    (by rw [hb]; rcases hd with h | h | h | h <;> rw [h] <;> rfl)
    (init_blk _) (init_state _) hz
  rw [hb, hg] at this
  unfold final
  have hu : update (init type) msg = updLoop (msg.length + 2) (init type) 0 msg := rfl
  rw [hu]
  revert this
  generalize updLoop (msg.length + 2) (init type) 0 msg = c
  rintro ⟨h1, h2, h3, h4, h5, h6⟩
  simp only
  have hblk : (init type).blk = List.replicate 256 0 := by unfold init; rfl
  rw [hblk] at h4
  generalize hcc : (⟨c.state, c.index, c.dgstlen, c.blklen, (c.blk.set c.index 6).set (c.blklen - 1)
    ((c.blk.set c.index 6).getD (c.blklen - 1) 0 ||| 0x80)⟩ : Ctx) = cc
  have q1 : cc.state = c.state := by rw [← hcc]
  have q2 : cc.blklen = (dims type).1 := by rw [← hcc]; exact h5
  have q3 : cc.dgstlen = (dims type).2 := by rw [← hcc]; exact h6
  have q4 : cc.blk = lastAbsorbed (dims type).1 msg := by
    rw [← hcc]
    unfold lastAbsorbed
    simp only [h3, h4, h5]
  have hc := transform_agree cc (by rw [q1]; exact h1)
    (by rw [q2]; rcases hd with h | h | h | h <;> rw [h] <;> decide) _ (by rw [q1]; exact h2)
  have hcd := (transform_dgstlen cc).trans q3
  rw [q2, q4] at hc
  rw [hcd]
  have hle : (dims type).2 ≤ 200 := by
    rcases hd with h | h | h | h <;> rw [h] <;> decide
  exact squeeze_eq _ hc.1 _ hc.2 _ hle

/-- The specification, unfolded the same way: whole blocks, then the padded tail. -/
theorem sha3_unfold (r d : Nat) (hr : r = 200 - 2*d) (h0 : 2 ≤ r) (msg : List UInt8) :
    sha3 d msg = squeeze d (absorb r ((blocks r msg).foldl (absorb r) (fun _ _ => 0#64))
      (pad r (tailOf r msg))) := by
  unfold sha3
  rw [← hr]
  clear hr
  have key : ∀ m : List UInt8, blocks r (pad r m) = blocks r m ++ [pad r (tailOf r m)] := by
    intro m
    induction hn : m.length using Nat.strongRecOn generalizing m with
    | _ n ih =>
      by_cases h : m.length < r
      · have ht : tailOf r m = m := by unfold tailOf; rw [Nat.div_eq_of_lt h]; simp
        rw [blocks_short h, ht]
        have hl : (pad r m).length = r := by
          unfold pad
          simp only [Nat.mod_eq_of_lt h]
          split
          · simp; omega
          · simp; omega
        have := blocks_cons (b := pad r m) (t := []) hl (by omega)
        rw [List.append_nil, blocks_short (l := []) (by simp; omega)] at this
        exact this
      · have hp : pad r m = m.take r ++ pad r (m.drop r) := by
          unfold pad
          rw [List.length_drop, ← Nat.mod_eq_sub_mod (by omega : m.length ≥ r)]
          simp only
          split <;> rw [← List.append_assoc, List.take_append_drop]
        have hb : blocks r m = m.take r :: blocks r (m.drop r) := by
          rw [blocks]; rw [dif_neg (by omega)]
        rw [hp, blocks_cons (by simp; omega) (by omega), ih (m.drop r).length (by simp; omega) _ rfl,
          hb, tailOf_step _ _ (by omega) (by omega)]
        rfl
  rw [key msg, List.foldl_append, List.foldl_cons, List.foldl_nil]

theorem drop_cons_getD (l : List UInt8) (i : Nat) (h : i < l.length) :
    l.drop i = l.getD i 0 :: l.drop (i+1) := by
  rw [List.drop_eq_getElem_cons h, List.getD_eq_getElem?_getD]; simp [h]

/-- The first `r` bytes of the last absorbed block are the padded tail if the bytes left over from
the previous block after position `index` are zero. -/
theorem lastAbsorbed_eq (r : Nat) (hr : 2 ≤ r) (hr2 : r ≤ 256) (msg : List UInt8)
    (hz : ∀ i, msg.length % r < i → i < r → (lastBlk r (List.replicate 256 0) msg).getD i 0 = 0) :
    (lastAbsorbed r msg).take r = pad r (tailOf r msg) := by
  have hll : (lastBlk r (List.replicate 256 0) msg).length = 256 := by
    rw [lastBlk_len _ _ _ (by rw [List.length_replicate]; omega), List.length_replicate]
  have htl := tailOf_len r msg
  have hmod : msg.length % r < r := Nat.mod_lt _ (by omega)
  unfold lastAbsorbed pad
  rw [htl, Nat.mod_eq_of_lt hmod]
  revert hz hll htl hmod
  generalize lastBlk r (List.replicate 256 0) msg = L
  generalize tailOf r msg = T
  generalize msg.length % r = k
  intro hz hL hT hk
  -- split L
  have hL2 : (L.drop (k+1)).take (r - (k+1)) = List.replicate (r - (k+1)) 0 := by
    apply List.ext_getElem
    · simp; omega
    · intro i h1 h2
      simp only [List.length_replicate] at h2
      have := hz (k + 1 + i) (by omega) (by omega)
      rw [List.getD_eq_getElem?_getD, List.getElem?_eq_getElem (by omega)] at this
      simpa using this
  have hset : (T ++ L.drop k).set k 6 = T ++ 6 :: L.drop (k+1) := by
    rw [drop_cons_getD L k (by omega), List.set_append_right _ _ (by omega), hT]
    simp
  rw [hset]
  simp only
  by_cases h1 : r - k = 1
  · rw [if_pos h1]
    have hk1 : r - 1 = k := by omega
    rw [hk1, List.getD_eq_getElem?_getD, List.getElem?_append_right (by omega), hT,
      List.set_append_right _ _ (by omega), hT]
    simp only [Nat.sub_self, List.getElem?_cons_zero, Option.getD_some, List.set_cons_zero]
    rw [List.take_append, List.take_of_length_le (by omega), hT, h1]
    rfl
  · rw [if_neg h1]
    have e : T ++ 6 :: L.drop (k+1) =
        T ++ 6 :: (List.replicate (r - (k+1) - 1) 0 ++ 0 :: L.drop r) := by
      congr 2
      have : L.drop (k+1) = (L.drop (k+1)).take (r-(k+1)) ++ L.drop r := by
        have := (List.take_append_drop (r-(k+1)) (L.drop (k+1))).symm
        rw [List.drop_drop, show k + 1 + (r - (k+1)) = r by omega] at this
        exact this
      rw [this, hL2]
      rw [show r - (k+1) = (r - (k+1) - 1) + 1 by omega, List.replicate_succ']
      simp
    have hgl : (T ++ 6 :: List.replicate (r - (k+1) - 1) 0).length = r - 1 := by
      simp; omega
    have e2 : T ++ 6 :: (List.replicate (r - (k+1) - 1) 0 ++ 0 :: L.drop r) =
        (T ++ 6 :: List.replicate (r - (k+1) - 1) 0) ++ 0 :: L.drop r := by simp
    rw [e, e2, List.getD_eq_getElem?_getD, List.getElem?_append_right (by omega),
      List.set_append_right _ _ (by omega), hgl]
    simp only [Nat.sub_self, List.getElem?_cons_zero, Option.getD_some, List.set_cons_zero]
    rw [List.take_append, List.take_of_length_le (by omega), hgl, show r - (r-1) = 1 by omega,
      show r - k - 2 = r - (k+1) - 1 by omega]
    simp

/-- **C11, partial.** The digest computed for init type `type` is the FIPS 202 digest of the
corresponding size for every message such that the bytes left in the buffer from the previous block,
after the position of the padding byte, are zero. Missing: all other messages (refuted below), the
variant selection (refuted below) and the answer's length (refuted below). -/
theorem C11_sha3_partial (type : Nat) (msg : List UInt8)
    (hz : ∀ i, msg.length % (dims type).1 < i → i < (dims type).1 →
      (lastBlk (dims type).1 (List.replicate 256 0) msg).getD i 0 = 0) :
    final (update (init type) msg) = sha3 (dims type).2 msg := by
  rw [C11_exact]
  have hd := dims_ok type
  have h1 : 2 ≤ (dims type).1 := by rcases hd with h | h | h | h <;> rw [h] <;> decide
  have h2 : (dims type).1 ≤ 256 := by rcases hd with h | h | h | h <;> rw [h] <;> decide
  have h3 : (dims type).1 = 200 - 2 * (dims type).2 := by rcases hd with h | h | h | h <;> rw [h] <;> rfl
  have h4 : (dims type).1 % 8 = 0 := by rcases hd with h | h | h | h <;> rw [h] <;> rfl
  rw [sha3_unfold _ _ h3 h1, absorb_congr h4 _ _ (pad (dims type).1 (tailOf (dims type).1 msg))]
  rw [lastAbsorbed_eq _ h1 h2 _ hz]
  have hpl : (pad (dims type).1 (tailOf (dims type).1 msg)).length = (dims type).1 := by
    rw [← lastAbsorbed_eq _ h1 h2 _ hz]
    have : (dims type).1 ≤ (lastAbsorbed (dims type).1 msg).length := by
      unfold lastAbsorbed
      simp only [List.length_set, List.length_append, List.length_drop, tailOf_len]
      rw [lastBlk_len _ _ _ (by rw [List.length_replicate]; omega), List.length_replicate]
      omega
    rw [List.length_take]; omega
  rw [List.take_of_length_le (by omega)]

/-- In particular for every message shorter than one block. -/
theorem C11_single_block (type : Nat) (msg : List UInt8) (h : msg.length < (dims type).1) :
    final (update (init type) msg) = sha3 (dims type).2 msg := by
  apply C11_sha3_partial
  intro i _ hi
  have hd := dims_ok type
  have h2 : (dims type).1 ≤ 256 := by rcases hd with h | h | h | h <;> rw [h] <;> decide
  rw [lastBlk, dif_pos (Or.inl h), getD_rep]

/-- The digest a request asks for. -/
def Req.size : Req → Nat
  | .sha3_224 => 28
  | .sha3_384 => 48
  | .sha3_512 => 64
  | .sha3_256 => 32

/-- SHA3-224 of a message shorter than 144 bytes is right (as a prefix of the 64-byte answer). -/
theorem C11_sha3_224_partial (junk msg : List UInt8) (h : msg.length < 144) :
    (hash junk msg .sha3_224).take 28 = sha3 28 msg := by
  unfold hash digest
  have e := C11_single_block 0 msg h
  simp only [Req.offset]
  rw [e]
  have hl : (sha3 28 msg).length = 28 := by simp [sha3, squeeze]
  simp only [dims, init]
  rw [List.take_take, List.take_append_of_le_length (by rw [hl]; decide),
    List.take_of_length_le (by rw [hl]; decide)]

/-- What each request actually computes for messages of less than one block. -/
theorem C11_variant_swap (junk msg : List UInt8) (h : msg.length < 72) :
    (hash junk msg .sha3_384).take 32 = sha3 32 msg ∧
    (hash junk msg .sha3_512).take 48 = sha3 48 msg ∧
    (hash junk msg .sha3_256).take 64 = sha3 64 msg := by
  have gen : ∀ (t d : Nat), (dims t).2 = d → msg.length < (dims t).1 → d ≤ 64 →
      (digest junk msg t).take d = sha3 d msg := by
    intro t d hd hlt hle
    unfold digest
    simp only
    rw [C11_single_block t msg hlt, hd]
    have hl : (sha3 d msg).length = d := by simp [sha3, squeeze]
    rw [List.take_take, List.take_append_of_le_length (by rw [hl]; omega),
      List.take_of_length_le (by rw [hl]; omega)]
  refine ⟨gen 1 32 rfl ?_ (by omega), gen 2 48 rfl ?_ (by omega), gen 3 64 rfl ?_ (by omega)⟩
  · show msg.length < 136; omega
  · show msg.length < 104; omega
  · show msg.length < 72; omega

/-- Evaluating the specification: absorb and squeeze through the strict evaluator. -/
theorem evalB_spec {α : Type} (r d : Nat) (hr2 : r / 8 ≤ 25) (hd : d ≤ 200) (bs : List (List UInt8))
    (k : List UInt8 → α) :
    evalB r bs (List.replicate 25 0) (fun st => k ((stateBytes st).take d)) =
      k (squeeze d (bs.foldl (absorb r) (fun _ _ => 0#64))) := by
  have hz : Agree (toState (List.replicate 25 0)) (fun _ _ => 0#64) := by
    intro x hx y hy
    unfold toState at'
    rw [getD_rep]
    rfl
  have key : ∀ (bs : List (List UInt8)) (st : List UInt64) (A : State), st.length = 25 →
      Agree (toState st) A →
      (bs.foldl (fun st b => (transform ⟨st, 0, 0, r, b⟩).state) st).length = 25 ∧
      Agree (toState (bs.foldl (fun st b => (transform ⟨st, 0, 0, r, b⟩).state) st))
        (bs.foldl (absorb r) A) := by
    intro bs
    induction bs with
    | nil => intro st A h1 h2; exact ⟨h1, h2⟩
    | cons b bs ih =>
      intro st A h1 h2
      have t := transform_agree ⟨st, 0, 0, r, b⟩ h1 hr2 A h2
      rw [List.foldl_cons, List.foldl_cons]
      exact ih _ _ t.1 t.2
  obtain ⟨k1, k2⟩ := key bs _ _ List.length_replicate hz
  rw [evalB_eq]
  exact congrArg k (squeeze_eq _ k1 _ k2 d hd)

/-- A message whose padding is the single block `b`. -/
theorem sha3_one (r d : Nat) (hr : r = 200 - 2*d) (msg b : List UInt8) (hb : pad r msg = b)
    (hl : b.length = r) (h0 : 0 < r) :
    sha3 d msg = squeeze d ([b].foldl (absorb r) (fun _ _ => 0#64)) := by
  unfold sha3
  have h := blocks_cons (t := []) hl h0
  rw [List.append_nil, blocks_short (l := []) (by simpa using h0)] at h
  rw [← hr, hb, h]

/-- **C11 is false (variants).** Asking for SHA3-256 of "abc" does not give SHA3-256: the enum order
and the constants disagree (SHA3-512 is computed). Likewise 384 gives SHA3-256, 512 gives SHA3-384. -/
theorem C11_variant_refuted : ¬ ∀ (junk msg : List UInt8) (r : Req), junk.length = 64 →
    (hash junk msg r).take r.size = sha3 r.size msg := by
  intro h
  have := h (List.replicate 64 0) [97, 98, 99] .sha3_256 List.length_replicate
  have h64 := (C11_variant_swap (List.replicate 64 0) [97, 98, 99] (by decide)).2.2
  have ht : (hash (List.replicate 64 0) [97, 98, 99] .sha3_256).take 32 =
      ((hash (List.replicate 64 0) [97, 98, 99] .sha3_256).take 64).take 32 := by
    rw [List.take_take]; rfl
  rw [show Req.size .sha3_256 = 32 from rfl, ht, h64] at this
  rw [sha3_one 136 32 rfl [97, 98, 99] _ rfl (by decide +kernel) (by decide),
    sha3_one 72 64 rfl [97, 98, 99] _ rfl (by decide +kernel) (by decide)] at this
  have hdec := decide_eq_true this
  rw [← evalB_spec 72 64 (by decide) (by decide) _ (fun l => decide (List.take 32 l = _)),
    ← evalB_spec 136 32 (by decide) (by decide) _
      (fun l' => evalB 72 _ _ (fun st => decide (List.take 32 (List.take 64 (stateBytes st)) = l')))]
    at hdec
  revert hdec
  decide +kernel

/-- **C11 is false (length).** The answer depends on what the uninitialised buffer held: 64 bytes are
returned whatever the variant. -/
theorem C11_uninitialised_refuted : ¬ ∀ (junk junk' msg : List UInt8) (r : Req), junk.length = 64 →
    junk'.length = 64 → hash junk msg r = hash junk' msg r := by
  intro h
  have := h (List.replicate 64 0) (List.replicate 64 1) [] .sha3_224 List.length_replicate
    List.length_replicate
  unfold hash digest at this
  simp only [Req.offset] at this
  have e := C11_single_block 0 [] (by decide)
  have hl : (sha3 28 []).length = 28 := by simp [sha3, squeeze]
  rw [e, show (dims 0).2 = 28 from rfl] at this
  revert this hl
  generalize sha3 28 [] = d
  intro this hl
  have h1 : ∀ v : UInt8, (List.take 64 (d ++ List.drop d.length (List.replicate 64 v))).getD 28 0 = v := by
    intro v
    rw [List.getD_eq_getElem?_getD, List.getElem?_take_of_lt (by decide),
      List.getElem?_append_right (by omega), hl, List.getElem?_drop, List.getElem?_replicate]
    rfl
  have h0 := h1 0
  rw [this, h1 1] at h0
  revert h0; decide

/-- **C11 is false (messages of a block or more).** SHA3-224 of 144 bytes `a`: the stale bytes of the
first block are absorbed again in the last one. -/
theorem C11_multiblock_refuted : ¬ ∀ (junk msg : List UInt8), junk.length = 64 →
    (hash junk msg .sha3_224).take 28 = sha3 28 msg := by
  intro h
  have := h (List.replicate 64 0) (List.replicate 144 97) List.length_replicate
  have hb : blocks 144 (List.replicate 144 97) = [List.replicate 144 97] := by
    have h := blocks_cons (b := List.replicate 144 97) (t := []) (r := 144)
      List.length_replicate (by decide)
    rw [List.append_nil, blocks_short (l := []) (by decide)] at h
    exact h
  have hlast : lastBlk 144 (List.replicate 256 0) (List.replicate 144 97) =
      List.replicate 144 97 ++ List.replicate 112 0 := by
    rw [lastBlk, dif_neg (by rw [List.length_replicate]; decide), lastBlk,
      dif_pos (by left; decide +kernel)]
    decide +kernel
  have hla : lastAbsorbed 144 (List.replicate 144 97) =
      6 :: (List.replicate 142 97 ++ 225 :: List.replicate 112 0) := by
    unfold lastAbsorbed
    rw [hlast]
    decide +kernel
  have hx := C11_exact 0 (List.replicate 144 97)
  rw [show dims 0 = (144, 28) from rfl] at hx
  simp only at hx
  rw [hb, hla] at hx
  have hs := sha3_unfold 144 28 rfl (by decide) (List.replicate 144 97)
  rw [hb, show pad 144 (tailOf 144 (List.replicate 144 97)) =
    6 :: (List.replicate 142 0 ++ [128]) by decide +kernel] at hs
  unfold hash digest at this
  simp only [Req.offset] at this
  rw [hx, hs] at this
  have hfold : ∀ a b : List UInt8, absorb 144 ([a].foldl (absorb 144) (fun _ _ => 0#64)) b =
    [a, b].foldl (absorb 144) (fun _ _ => 0#64) := fun _ _ => by
      rw [List.foldl_cons, List.foldl_nil, List.foldl_cons, List.foldl_cons, List.foldl_nil]
  rw [hfold, hfold] at this
  rw [List.take_take, List.take_append_of_le_length (by simp [squeeze]),
    List.take_of_length_le (by simp [squeeze])] at this
  have hdec := decide_eq_true this
  rw [← evalB_spec 144 28 (by decide) (by decide) [_, _] (fun l => decide (l = _)),
    ← evalB_spec 144 28 (by decide) (by decide) [_, _]
      (fun l' => evalB 144 _ _ (fun st => decide (List.take 28 (stateBytes st) = l')))]
    at hdec
  revert hdec
  decide +kernel

/-- Non-vacuity: SHA3-224("abc") as published. -/
example : sha3 28 [97, 98, 99] = [0xe6,0x42,0x82,0x4c,0x3f,0x8c,0xf2,0x4a,0xd0,0x92,0x34,0xee,0x7d,
    0x3c,0x76,0x6f,0xc9,0xa3,0xa5,0x16,0x8d,0x0c,0x94,0xad,0x73,0xb4,0x6f,0xdf] := by
  rw [sha3_one 144 28 rfl [97, 98, 99] _ rfl (by decide +kernel) (by decide)]
  apply of_decide_eq_true
  rw [← evalB_spec 144 28 (by decide) (by decide) [_] (fun l => decide (l = _))]
  decide +kernel

end Verif.Crypto.Sha3
