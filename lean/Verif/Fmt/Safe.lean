import Verif.Fmt.Any
import Verif.Fmt.Conv
import Verif.Fmt.Main

/-! Memory safety of `format` on every text, well formed or not. -/

namespace Verif.Fmt
open Verif Verif.Utf8

/-- A flag character. -/
def flagC (c : Char) : Bool := c ∈ ['-', '0', ' ', '+', '#', '\'']
/-- A decimal digit. -/
def digC (c : Char) : Bool := '0' ≤ c ∧ c ≤ '9'

/-- No more than 53 flags in a row, no more than 9 digits in a row. -/
structure Short (cs : List Char) : Prop where
  flags : ∀ k, ((cs.drop k).takeWhile flagC).length ≤ 53
  digits : ∀ k, ((cs.drop k).takeWhile digC).length ≤ 9

/-- The rest of the format at some character. -/
def On (cs : List Char) (r : List UInt8) : Prop := ∃ k, r = enc (cs.drop k)

theorem peek_encs (l : List Char) : (l = [] ∧ peek (enc l) = (0, 1) ∧ (enc l).drop 1 = enc l.tail) ∨
    ∃ c t, l = c :: t ∧ peek (enc l) = (c.toNat, (String.utf8EncodeChar c).length) ∧
      (enc l).drop (String.utf8EncodeChar c).length = enc t := by
  cases l with
  | nil => exact Or.inl ⟨rfl, by decide, rfl⟩
  | cons c t =>
    refine Or.inr ⟨c, t, rfl, ?_, ?_⟩
    · rw [enc_cons]; exact peek_enc c _
    · rw [enc_cons]; simp

theorem on_drop {cs : List Char} {r : List UInt8} (h : On cs r) : On cs (r.drop (peek r).2) := by
  obtain ⟨k, e⟩ := h
  refine ⟨k + 1, ?_⟩
  subst e
  have e2 : cs.drop (k + 1) = (cs.drop k).tail := by rw [← List.drop_one, List.drop_drop]
  rw [e2]
  rcases peek_encs (cs.drop k) with ⟨h1, h2, h3⟩ | ⟨c, t, h1, h2, h3⟩
  · rw [h2]; exact h3
  · rw [h2, h1]; simp only [List.tail_cons]; rw [h1] at h3; exact h3

theorem char_ascii_dig (c : Char) : (digC c = true ∧ ∃ b, String.utf8EncodeChar c = [b] ∧ isDig b = true) ∨
    (digC c = false ∧ ∃ b t, String.utf8EncodeChar c = b :: t ∧ isDig b = false) := by
  by_cases h : c.toNat < 128
  · have key : ∀ n < 128, (digC (Char.ofNat n) = true ∧ isDig (UInt8.ofNat n) = true) ∨
      (digC (Char.ofNat n) = false ∧ isDig (UInt8.ofNat n) = false) := by decide +kernel
    have e : String.utf8EncodeChar c = [UInt8.ofNat c.toNat] := by
      have := C06_encode_is_utf8 c
      rw [← this]; unfold uniCharToUtf; rw [if_pos (by omega)]; rfl
    have k := key c.toNat h
    rw [Char.ofNat_toNat] at k
    rcases k with ⟨k1, k2⟩ | ⟨k1, k2⟩
    · exact Or.inl ⟨k1, _, e, k2⟩
    · exact Or.inr ⟨k1, _, _, e, k2⟩
  · have hd : digC c = false := by
      unfold digC
      have : ¬ c ≤ '9' := by
        intro hle
        have : c.toNat ≤ '9'.toNat := hle
        have e9 : '9'.toNat = 57 := by decide
        omega
      simp [this]
    refine Or.inr ⟨hd, ?_⟩
    have hlt := Char_lt c
    have e := C06_encode_is_utf8 c
    rw [← e]
    unfold uniCharToUtf
    rw [if_neg (by omega)]
    have hb : ∀ n, ∀ m, isDig (u8 (0xc0 ||| n) ) = false ∧ isDig (u8 (0xe0 ||| m)) = false ∧ isDig (u8 (0xf0 ||| m)) = false := by
      intro n m
      have g : ∀ b : UInt8, 128 ≤ b.toNat → isDig b = false :=
        fun b => u8_all (P := fun b => 128 ≤ b.toNat → isDig b = false) (by decide +kernel) b
      have k : ∀ a x : Nat, a.testBit 7 = true → 128 ≤ (u8 (a ||| x)).toNat := by
        intro a x ha
        have ht : (u8 (a ||| x)).toNat = (a ||| x) % 256 := by rw [u8, UInt8.toNat_ofNat']
        rw [ht]
        have : ((a ||| x) % 2^8).testBit 7 = true := by
          rw [Nat.testBit_mod_two_pow, Nat.testBit_or, ha]; rfl
        exact Nat.ge_two_pow_of_testBit this
      exact ⟨g _ (k _ _ (by decide)), g _ (k _ _ (by decide)), g _ (k _ _ (by decide))⟩
    split
    · exact ⟨_, _, rfl, (hb _ 0).1⟩
    · split
      · exact ⟨_, _, rfl, (hb 0 _).2.1⟩
      · exact ⟨_, _, rfl, (hb 0 _).2.2⟩

theorem dig_run (l : List Char) : ((enc l).takeWhile isDig).length = (l.takeWhile digC).length ∧
    (enc l).dropWhile isDig = enc (l.dropWhile digC) := by
  induction l with
  | nil => exact ⟨rfl, rfl⟩
  | cons c l ih =>
    rw [enc_cons]
    rcases char_ascii_dig c with ⟨h1, b, e, h2⟩ | ⟨h1, b, t, e, h2⟩
    · rw [e]; simp [h1, h2, ih]
    · rw [e]
      simp only [List.cons_append, List.takeWhile_cons, List.dropWhile_cons, h1, h2, Bool.false_eq_true, if_false]
      refine ⟨rfl, ?_⟩
      rw [enc_cons, e]; rfl

theorem val10_bound (l : List UInt8) (h : ∀ c ∈ l, isDig c = true) : val10 l < 10 ^ l.length := by
  have key : ∀ (l : List UInt8) (a k : Nat), (∀ c ∈ l, isDig c = true) → a < 10^k →
      l.foldl (fun a c => a * 10 + (c.toNat - 48)) a < 10 ^ (k + l.length) := by
    intro l
    induction l with
    | nil => intro a k _ ha; simpa using ha
    | cons c l ih =>
      intro a k hl ha
      have hc : c.toNat - 48 < 10 :=
        u8_all (P := fun c => isDig c = true → c.toNat - 48 < 10) (by decide +kernel) c (hl c (by simp))
      have := ih (a * 10 + (c.toNat - 48)) (k + 1) (fun c h => hl c (by simp [h])) (by rw [Nat.pow_succ]; omega)
      simp only [List.foldl_cons, List.length_cons]
      rw [show k + (l.length + 1) = k + 1 + l.length by omega]; exact this
  have := key l 0 0 h (by decide)
  simpa [val10] using this

theorem strtoul_on {cs : List Char} (hs : Short cs) {r : List UInt8} (h : On cs r) :
    On cs (strtoul r).2 ∧ (strtoul r).1 < 10^9 := by
  obtain ⟨k, e⟩ := h
  subst e
  obtain ⟨h1, h2⟩ := dig_run (cs.drop k)
  constructor
  · unfold strtoul; simp only []; rw [h2]
    have : ∀ l : List Char, ∃ j, l.dropWhile digC = l.drop j := by
      intro l; induction l with
      | nil => exact ⟨0, rfl⟩
      | cons c l ih =>
        obtain ⟨j, hj⟩ := ih
        by_cases hc : digC c = true
        · exact ⟨j + 1, by simp [hc, hj]⟩
        · exact ⟨0, by simp [hc]⟩
    obtain ⟨j, hj⟩ := this (cs.drop k)
    exact ⟨k + j, by rw [hj, List.drop_drop]⟩
  · unfold strtoul; simp only []
    have hb := val10_bound ((enc (cs.drop k)).takeWhile isDig) (fun c hc => by
      have := List.all_takeWhile (p := isDig) (l := enc (cs.drop k))
      exact List.all_eq_true.1 this c hc)
    have hl := hs.digits k
    rw [h1] at hb
    have : 10 ^ ((cs.drop k).takeWhile digC).length ≤ 10^9 := Nat.pow_le_pow_right (by decide) hl
    omega

theorem isFlag_char (c : Char) : isFlag c.toNat = flagC c := by
  have h : ∀ d : Char, (c.toNat == d.toNat) = (c == d) := by
    intro d
    apply Bool.eq_iff_iff.2
    rw [beq_iff_eq, beq_iff_eq]
    exact Char.toNat_inj
  have e1 := h '-'
  have e2 := h '0'
  have e3 := h ' '
  have e4 := h '+'
  have e5 := h '#'
  have e6 := h '\''
  simp only [show '-'.toNat = 45 by decide, show '0'.toNat = 48 by decide, show ' '.toNat = 32 by decide,
    show '+'.toNat = 43 by decide, show '#'.toNat = 35 by decide, show '\''.toNat = 39 by decide] at e1 e2 e3 e4 e5 e6
  unfold isFlag flagC
  rw [e1, e2, e3, e4, e5, e6]
  apply Bool.eq_iff_iff.2
  simp [or_assoc]

/-- After the flag loop: the flags read are flags, not more than are in a row. -/
theorem flagLoop_on {cs : List Char} (n : Nat) : ∀ (l : List Char) (k : Nat) (spec : List UInt8) (minus : Bool) (pad : UInt8) (f : Flags),
    l = cs.drop k → flagLoop n ⟨spec, minus, pad, enc l⟩ = some f →
    On cs f.rem ∧ ∃ fl, f.spec = spec ++ fl ∧ (∀ x ∈ fl, isFlagB x = true) ∧ fl.length ≤ (l.takeWhile flagC).length := by
  induction n with
  | zero => intro l k spec minus pad f _ h; simp [flagLoop] at h
  | succ n ih =>
    intro l k spec minus pad f hl h
    rw [flagLoop] at h
    simp only [] at h
    rcases peek_encs l with ⟨h1, h2, h3⟩ | ⟨c, t, h1, h2, h3⟩
    · rw [h2] at h
      have : isFlag 0 = false := by decide
      simp only [this, Bool.false_eq_true, if_false] at h
      cases h
      exact ⟨⟨k, by rw [hl]⟩, [], by simp, (fun x hx => by cases hx), by simp⟩
    · rw [h2] at h
      simp only [isFlag_char, h3] at h
      split at h
      · rename_i hf
        split at h
        · cases h
        · have ht : t = cs.drop (k + 1) := by
            have : cs.drop (k + 1) = (cs.drop k).tail := by rw [← List.drop_one, List.drop_drop]
            rw [this, ← hl, h1]; rfl
          obtain ⟨i1, fl, i2, i3, i4⟩ := ih t (k + 1) _ _ _ f ht h
          refine ⟨i1, UInt8.ofNat c.toNat :: fl, by rw [i2]; simp, ?_, by rw [h1]; simp [hf]; omega⟩
          intro x hx
          rcases List.mem_cons.1 hx with hx | hx
          · subst hx
            have : isFlag c.toNat = true := by rw [isFlag_char]; exact hf
            have hlt : c.toNat < 256 := by
              simp only [isFlag, Bool.or_eq_true, beq_iff_eq] at this; omega
            rw [← isFlag_u8]
            rw [UInt8.toNat_ofNat', Nat.mod_eq_of_lt hlt]; exact this
          · exact i3 x hx
      · cases h
        exact ⟨⟨k, by rw [hl]⟩, [], by simp, (fun x hx => by cases hx), by simp⟩

/-- The number arguments are small if the text has a `*`. -/
def SmallStar {F} (E : Env F) (cs : List Char) (A : List (Arg F)) : Prop :=
  '*' ∈ cs → ∀ x, Arg.num x ∈ A → (E.wide x).natAbs ≤ 10^9

theorem star_mem {cs : List Char} {r : List UInt8} (h : On cs r) (hc : ((peek r).1 == 42) = true) : '*' ∈ cs := by
  obtain ⟨k, e⟩ := h
  subst e
  rcases peek_encs (cs.drop k) with ⟨h1, h2, h3⟩ | ⟨c, t, h1, h2, h3⟩
  · rw [h2] at hc; simp at hc
  · rw [h2] at hc
    have : c = '*' := Char.toNat_inj.1 (by simpa using hc)
    exact List.mem_of_mem_drop (i := k) (by rw [h1, this]; simp)

theorem getLong_small {F} {E : Env F} {cs : List Char} {A : List (Arg F)} (hsm : SmallStar E cs A) (hst : '*' ∈ cs) {i : Nat} {z : Int}
    (h : getLong E A i = .ok z) : z.natAbs ≤ 10^9 := by
  unfold getLong at h
  split at h
  · rename_i d hd
    have hm := hsm hst d (List.mem_of_getElem? hd)
    have := R.ok.inj h
    subst this
    rw [toLong_id _ (by omega) (by omega)]; exact hm
  · cases h

theorem widthStep_on {F} (E : Env F) {cs : List Char} (hs : Short cs) (A : List (Arg F)) (hsm : SmallStar E cs A) (s : Flags) (ai : Nat)
    (w : Wid) (ho : On cs s.rem) (fl : List UInt8) (hsp : s.spec = 37 :: fl) (hfl : ∀ x ∈ fl, isFlagB x = true)
    (h : widthStep E A s ai = .ok w) :
    On cs w.rem ∧ 0 ≤ w.width ∧ w.width ≤ 10^9 ∧ ∃ fl', w.spec = 37 :: fl' ∧ (∀ x ∈ fl', isFlagB x = true) ∧ fl'.length ≤ fl.length + 1 := by
  unfold widthStep at h
  simp only [] at h
  split at h
  · have := R.ok.inj h; subst this
    have hst := strtoul_on hs ho
    refine ⟨hst.1, ?_, ?_, fl, hsp, hfl, by omega⟩ <;> simp only [] <;> rw [toLong_id _ (by omega) (by omega)] <;> omega
  · split at h
    · rename_i hc
      split at h
      · cases h
      · obtain ⟨z, hz, h2⟩ := bind_ok h
        have hzb := getLong_small hsm (star_mem ho hc) hz
        split at h2
        · have := R.ok.inj h2; subst this
          simp only []
          refine ⟨on_drop ho, by rw [toLong_id _ (by omega) (by omega)]; omega, by rw [toLong_id _ (by omega) (by omega)]; omega, ?_⟩
          cases s.minus with
          | true => exact ⟨fl, hsp, hfl, by omega⟩
          | false =>
            refine ⟨fl ++ [45], by simp [hsp], ?_, by simp⟩
            intro x hx
            rcases List.mem_append.1 hx with hx | hx
            · exact hfl x hx
            · rw [List.mem_singleton.1 hx]; decide
        · have := R.ok.inj h2; subst this
          simp only []
          exact ⟨on_drop ho, by omega, by omega, fl, hsp, hfl, by omega⟩
    · have := R.ok.inj h; subst this
      exact ⟨ho, by simp, by simp, fl, hsp, hfl, by omega⟩

theorem dotStep_on {cs : List Char} {r : List UInt8} (ho : On cs r) : On cs (dotStep r).2 := by
  unfold dotStep; split
  · exact on_drop ho
  · exact ho

theorem precStep_on {F} (E : Env F) {cs : List Char} (hs : Short cs) (A : List (Arg F)) (hsm : SmallStar E cs A) (r : List UInt8) (ai : Nat)
    (p : Pre) (ho : On cs r) (h : precStep E A r ai = .ok p) : On cs p.rem ∧ 0 ≤ p.prec ∧ p.prec ≤ 10^9 := by
  unfold precStep at h
  simp only [] at h
  split at h
  · have := R.ok.inj h; subst this
    have hst := strtoul_on hs ho
    refine ⟨hst.1, ?_, ?_⟩ <;> simp only [] <;> rw [toLong_id _ (by omega) (by omega)] <;> omega
  · split at h
    · rename_i hc
      split at h
      · cases h
      · obtain ⟨z, hz, h2⟩ := bind_ok h
        have hzb := getLong_small hsm (star_mem ho hc) hz
        have := R.ok.inj h2; subst this
        simp only []
        refine ⟨on_drop ho, ?_, ?_⟩ <;> split <;> omega
    · have := R.ok.inj h; subst this
      exact ⟨ho, by simp, by simp⟩

theorem lenMod_on {cs : List Char} {r : List UInt8} (ho : On cs r) : On cs (lenMod r) := by
  unfold lenMod
  split
  · exact on_drop ho
  · split
    · simp only []; split
      · exact on_drop (on_drop ho)
      · exact on_drop ho
    · exact ho

theorem bind_undef {α β : Type} {x : R α} {f : α → R β} (h1 : x ≠ .undef) (h2 : ∀ a, x = .ok a → f a ≠ .undef) : x.bind f ≠ .undef := by
  cases x with
  | ok a => exact h2 a rfl
  | err => simp [R.bind]
  | undef => exact absurd rfl h1
  | null => simp [R.bind]

theorem printNum_safe (t : List UInt8) (l : Nat) (buf : Int) (hb : 100 ≤ buf) (hl : l ≤ 2^31 - 2) :
    ∃ pc, printNum t l buf = .ok pc ∧ 100 ≤ pc.buf := by
  unfold printNum
  rw [toInt_id ((l : Int) + 1) (by omega) (by omega)]
  simp only []
  have e : (((l : Int) + 1) % 2^64).toNat = l + 1 := by
    rw [Int.emod_eq_of_lt (by omega) (by omega)]; omega
  rw [e, if_neg (by omega)]
  have e2 : (t.take (l + 1 - 1)).length ≤ l := by simp; omega
  by_cases h1 : buf < (l : Int) + 1
  · rw [if_pos h1, if_neg (by omega)]
    exact ⟨_, rfl, by simp only []; omega⟩
  · rw [if_neg h1, if_neg (by omega)]
    exact ⟨_, rfl, hb⟩

/-- A result, an error, but not undefined behaviour; the buffer does not shrink below 100 bytes. -/
def Fine (x : R Piece) : Prop := x = .err ∨ ∃ pc, x = .ok pc ∧ 100 ≤ pc.buf

theorem doPrec_fine (got : Bool) (p : Int) (b : List UInt8) (buf : Int) (hb : 100 ≤ buf) (h0 : 0 ≤ p) (h1 : p ≤ 10^9) :
    Fine (doPrec got p b buf) := by
  unfold doPrec
  rw [toInt_id p (by omega) (by omega)]
  simp only []
  split
  · rename_i h
    simp only [Bool.and_eq_true, decide_eq_true_eq] at h
    rw [if_neg (by omega), if_pos (by omega)]
    exact Or.inr ⟨_, rfl, hb⟩
  · exact Or.inr ⟨_, rfl, hb⟩

theorem doPrecSelf_fine (got : Bool) (p : Int) (b : List UInt8) (buf : Int) (hb : 100 ≤ buf) (h0 : 0 ≤ p) (h1 : p ≤ 10^9) :
    Fine (doPrecSelf got p b buf) := by
  unfold doPrecSelf
  rw [toInt_id p (by omega) (by omega)]
  simp only []
  split
  · rename_i h
    simp only [Bool.and_eq_true, decide_eq_true_eq] at h
    rw [if_neg (by omega), if_pos (by omega)]
    exact Or.inr ⟨_, rfl, hb⟩
  · exact Or.inr ⟨_, rfl, hb⟩

theorem convNum_fine {F} (E : Env F) (db : Bool) (ch : UInt8) (v : Arg F) (fl : List UInt8) (W p : Nat) (got : Bool) (buf : Int)
    (hfl : ∀ x ∈ fl, isFlagB x = true) (hl : fl.length ≤ 70) (hW : W ≤ 10^9) (hp : p ≤ 10^9) (hb : 100 ≤ buf) :
    Fine (convNum E db ch v (37 :: fl) W got p buf) := by
  let P : Option Nat := if got then some p else none
  have hP : P.getD 0 ≤ 10^9 := by simp only [P]; split <;> simp; exact hp
  have eS : ∀ sp : List UInt8, specNum sp W got p = specNum sp W P.isSome (P.getD 0 : Nat) := by
    intro sp; cases got <;> simp [P, specNum]
  have hlen := specNum_length fl false W P hl hW hP
  have htext := fun c => specNum_text fl false W P c
  simp only [Bool.false_eq_true, if_false, List.append_nil] at hlen htext
  unfold convNum
  simp only []
  rw [eS, if_neg (by omega)]
  cases v with
  | num x =>
    simp only []
    have hl2 : (if db = true then [ch] else [108, 108, ch]).length ≤ 3 := by split <;> simp
    rw [if_neg (by rw [List.length_append]; omega)]
    have hL : ∃ l : Nat, lenOf db W got p = l ∧ l ≤ 2^31 - 2 := by
      refine ⟨_, lenOf_small db W p got hW hp, ?_⟩
      split <;> split <;> omega
    obtain ⟨l, hl3, hl4⟩ := hL
    rw [hl3]
    split
    · exact Or.inr (printNum_safe _ l buf hb hl4)
    · rename_i hdb
      rw [htext]
      have := parseC_text fl W P ch hfl
      simp only [List.cons_append, List.drop_succ_cons, List.drop_zero]
      rw [this]
      exact Or.inr (printNum_safe _ l buf hb hl4)
  | str b => exact Or.inl rfl
  | other a b => exact Or.inl rfl

theorem convert_fine {F} (E : Env F) (ch : Nat) (v : Arg F) (fl : List UInt8) (W p : Nat) (got : Bool) (buf : Int)
    (hfl : ∀ x ∈ fl, isFlagB x = true) (hl : fl.length ≤ 54) (hW : W ≤ 10^9) (hp : p ≤ 10^9) (hb : 100 ≤ buf) :
    Fine (convert E ch v (37 :: fl) W got p buf) := by
  unfold convert; simp only []
  generalize (if (ch == 105) = true then 100 else ch) = ch
  split
  · exact Or.inl rfl
  · split
    · unfold convS; split
      · exact doPrecSelf_fine _ _ _ _ hb (by omega) (by omega)
      · exact doPrecSelf_fine _ _ _ _ hb (by omega) (by omega)
      · exact doPrec_fine _ _ _ _ hb (by omega) (by omega)
    · split
      · unfold convStr; split
        · exact doPrec_fine _ _ _ _ hb (by omega) (by omega)
        · exact Or.inl rfl
      · split
        · unfold convC; split
          · exact Or.inr ⟨_, rfl, hb⟩
          · split
            · exact Or.inl rfl
            · exact Or.inr ⟨_, rfl, hb⟩
          · exact Or.inl rfl
        · split
          · exact convNum_fine E _ _ v fl W p got buf hfl (by omega) hW hp hb
          · split
            · exact convNum_fine E _ _ v fl W p got buf hfl (by omega) hW hp hb
            · rw [if_neg (by simp; omega)]; exact Or.inl rfl

theorem getLong_undef {F} (E : Env F) (A : List (Arg F)) (i : Nat) : getLong E A i ≠ .undef := by
  unfold getLong; split <;> simp

theorem widthStep_undef {F} (E : Env F) (A : List (Arg F)) (s : Flags) (ai : Nat) : widthStep E A s ai ≠ .undef := by
  unfold widthStep
  simp only []
  split
  · simp
  · split
    · split
      · simp
      · exact bind_undef (getLong_undef E A ai) (fun a _ => by split <;> simp)
    · simp

theorem precStep_undef {F} (E : Env F) (A : List (Arg F)) (r : List UInt8) (ai : Nat) : precStep E A r ai ≠ .undef := by
  unfold precStep
  simp only []
  split
  · simp
  · split
    · split
      · simp
      · exact bind_undef (getLong_undef E A ai) (fun a _ => by simp)
    · simp

theorem directive_safe {F} (E : Env F) {cs : List Char} (hs : Short cs) (A : List (Arg F)) (hsm : SmallStar E cs A) (r : List UInt8)
    (ai : Nat) (buf : Int) (hb : 100 ≤ buf) (ho : On cs r) :
    directive E A r ai buf ≠ .undef ∧ ∀ d, directive E A r ai buf = .ok d → On cs d.rem ∧ 100 ≤ d.buf := by
  unfold directive
  split
  · exact ⟨by simp, fun d h => by cases h⟩
  · split
    · exact ⟨by simp, fun d h => by cases h⟩
    · rename_i f hf
      obtain ⟨k, ek⟩ := ho
      rw [ek] at hf
      obtain ⟨f1, fl, f2, f3, f4⟩ := flagLoop_on (cs := cs) _ (cs.drop k) k _ _ _ f rfl hf
      have f5 := hs.flags k
      have key : ∀ w, widthStep E A f ai = .ok w → ∀ p, precStep E A (dotStep w.rem).2 w.ai = .ok p →
          finish E A f.pad w (dotStep w.rem).1 p buf ≠ .undef ∧
          ∀ d, finish E A f.pad w (dotStep w.rem).1 p buf = .ok d → On cs d.rem ∧ 100 ≤ d.buf := by
        intro w hw p hp
        obtain ⟨w1, w2, w3, fl', w4, w5, w6⟩ := widthStep_on E hs A hsm f ai w f1 fl (by rw [f2]; rfl) f3 hw
        obtain ⟨p1, p2, p3⟩ := precStep_on E hs A hsm _ _ p (dotStep_on w1) hp
        unfold finish
        simp only []
        cases hv : A[p.ai]? with
        | none => exact ⟨by simp, fun d h => by cases h⟩
        | some v =>
          have hc := convert_fine E (peek (lenMod p.rem)).1 v fl' w.width.toNat p.prec.toNat (dotStep w.rem).1 buf w5
            (by omega) (by omega) (by omega) hb
          rw [Int.toNat_of_nonneg w2, Int.toNat_of_nonneg p2, ← w4] at hc
          simp only []
          rcases hc with hc | ⟨pc, hc, hpb⟩
          · rw [hc]; exact ⟨by simp [R.bind], fun d h => by cases h⟩
          · rw [hc]
            refine ⟨by simp [R.bind], fun d h => ?_⟩
            cases h
            exact ⟨on_drop (lenMod_on p1), hpb⟩
      constructor
      · exact bind_undef (widthStep_undef E A f ai) (fun w hw => bind_undef (precStep_undef E A _ _) (fun p hp => (key w hw p hp).1))
      · intro d h
        obtain ⟨w, hw, h2⟩ := bind_ok h
        obtain ⟨p, hp, h3⟩ := bind_ok h2
        exact (key w hw p hp).2 d h3

theorem loop_safe {F} (E : Env F) {cs : List Char} (hs : Short cs) (A : List (Arg F)) (hsm : SmallStar E cs A) (n : Nat) :
    ∀ s : St, On cs s.rem → 100 ≤ s.buf → loop E A n s ≠ .undef := by
  induction n with
  | zero => intro s _ _; simp [loop]
  | succ n ih =>
    intro s ho hb
    have key : round E A s ≠ .undef ∧ ∀ s', round E A s = .ok s' → On cs s'.rem ∧ 100 ≤ s'.buf := by
      unfold round
      simp only []
      split
      · exact ⟨by simp, fun s' h => by cases h; exact ⟨on_drop ho, hb⟩⟩
      · split
        · exact ⟨by simp, fun s' h => by cases h; exact ⟨on_drop (on_drop ho), hb⟩⟩
        · have hd := directive_safe E hs A hsm _ s.ai s.buf hb (on_drop ho)
          refine ⟨bind_undef hd.1 (fun d _ => by simp), fun s' h => ?_⟩
          obtain ⟨d, h1, h2⟩ := bind_ok h
          cases h2
          exact hd.2 d h1
    rw [loop]
    split
    · simp
    · exact out_ne (by simp) (fun h => absurd h key.1) (by simp) (fun s' h => ih s' (key.2 s' h).1 (key.2 s' h).2)

/-- **C85 (memory safety), the part that holds.** On every text in which no more than 53 flag
characters and no more than 9 digits follow each other, with any arguments (if the text has a `*`, the
number arguments being at most 10^9), `format` does not write outside its buffers.  Missing: longer runs
of flags or digits, for which it is false (`C85_refuted`, ...). -/
theorem C85_format_safe_partial {F} (E : Env F) (cs : List Char) (hs : Short cs) (args : List (Arg F))
    (hsm : '*' ∈ cs → ∀ x, Arg.num x ∈ args → (E.wide x).natAbs ≤ 10^9) :
    formatString E (enc cs) args ≠ .undef := by
  refine loop_safe E hs _ (fun h x hx => ?_) _ _ ⟨0, by simp⟩ (by simp)
  rcases List.mem_cons.1 hx with hx | hx
  · cases hx
  · exact hsm h x hx

end Verif.Fmt
