import Verif.Fmt.Print

/-! A conversion does what the specification says. -/

namespace Verif.Fmt
open Verif Verif.Utf8

theorem doPrec_cut (P : Option Nat) (b : List UInt8) (buf : Int) (hP : P.getD 0 ≤ 10^9) :
    doPrec P.isSome (P.getD 0 : Nat) b buf = .ok ⟨cut P b, (cut P b).length, buf⟩ := by
  unfold doPrec
  cases P with
  | none => simp [cut]
  | some p =>
    simp only [Option.getD_some] at hP ⊢
    simp only [Option.isSome_some, Bool.true_and, decide_eq_true_eq, cut]
    by_cases h : (p : Int) < b.length
    · rw [if_pos h, toInt_id p (by omega) (by omega), if_neg (by omega), if_pos (by omega)]
      have e : (b.take p).length = p := by simp; omega
      simp [e]
    · rw [if_neg h, List.take_of_length_le (by omega)]

theorem padOut_field (minus zero : Bool) (W : Nat) (t : List UInt8) (buf : Int)
    (hz : minus = true → zero = false) :
    padOut minus (if zero then 48 else 32) W ⟨t, t.length, buf⟩ = field minus zero W t := by
  unfold padOut field fill
  have e : ((W : Int) - t.length).toNat = W - t.length := by omega
  simp only [e]
  cases minus with
  | true => rw [hz rfl]; rfl
  | false => rfl

theorem padOut_field1 (minus zero : Bool) (W : Nat) (t : List UInt8) (buf : Int)
    (hz : minus = true → zero = false) :
    padOut minus (if zero then 48 else 32) W ⟨t, 1, buf⟩ = field1 minus zero W t := by
  unfold padOut field1 fill
  have e : ((W : Int) - 1).toNat = W - 1 := by omega
  simp only [e]
  cases minus with
  | true => rw [hz rfl]; rfl
  | false => rfl

theorem padOut_full (minus : Bool) (pad : UInt8) (W : Nat) (t : List UInt8) (buf : Int) (h : W ≤ t.length) :
    padOut minus pad W ⟨t, t.length, buf⟩ = t := by
  unfold padOut
  have e : ((W : Int) - t.length).toNat = 0 := by omega
  simp [e]

/-- The result of a conversion agrees with a result of the specification. -/
def Agree (r : Res) (minus : Bool) (pad : UInt8) (W : Nat) (x : R Piece) : Prop :=
  match r with
  | .ok t => ∃ pc, x = .ok pc ∧ padOut minus pad W pc = t ∧ 100 ≤ pc.buf
  | .err => x = .err
  | .big => False

theorem agree_field {minus zero : Bool} {W : Nat} {P : Option Nat} {b : List UInt8} {buf : Int} (hb : 100 ≤ buf)
    (hz : minus = true → zero = false) (hP : P.getD 0 ≤ 10^9) :
    Agree (.ok (field minus zero W (cut P b))) minus (if zero then 48 else 32) W
      (doPrec P.isSome (P.getD 0 : Nat) b buf) := by
  rw [doPrec_cut P b buf hP]
  exact ⟨_, rfl, padOut_field minus zero W _ buf hz, hb⟩

theorem doPrecSelf_none (b : List UInt8) (buf : Int) : doPrecSelf false (0:Nat) b buf = doPrec false (0:Nat) b buf := by
  simp [doPrecSelf, doPrec]

theorem charOfNat (n : Nat) (h : n ≤ 255) : (Char.ofNat n).toNat = n := by
  exact (by decide +kernel : ∀ n < 256, (Char.ofNat n).toNat = n) n (by omega)

theorem specNum_text (fl : List UInt8) (am : Bool) (W : Nat) (P : Option Nat) (c : List UInt8) :
    specNum (37 :: fl ++ (if am then [45] else [])) W P.isSome (P.getD 0 : Nat) ++ c =
    37 :: fl ++ (if am then [45] else []) ++ (if W = 0 then [] else digits 10 false W) ++
      precC P ++ c := by
  unfold specNum
  have e : (if (W : Int) ≠ 0 then showInt W else []) = (if W = 0 then [] else digits 10 false W) := by
    by_cases h : W = 0
    · simp [h]
    · rw [if_pos (by omega), if_neg h, showInt_nonneg]
  rw [e]
  cases P with
  | none => simp [precC]
  | some p => simp [precC, showInt_nonneg]

theorem specNum_length (fl : List UInt8) (am : Bool) (W : Nat) (P : Option Nat) (hf : fl.length ≤ 70)
    (hW : W ≤ 10^9) (hP : P.getD 0 ≤ 10^9) :
    (specNum (37 :: fl ++ (if am then [45] else [])) W P.isSome (P.getD 0 : Nat)).length ≤ 93 := by
  have h := specNum_text fl am W P []
  rw [List.append_nil] at h
  rw [h]
  have h1 : (if W = 0 then [] else digits 10 false W).length ≤ 10 := by
    split
    · simp
    · exact digits_length 10 false (by omega) 9 W (by omega)
  have h2 : (precC P).length ≤ 11 := by
    cases P with
    | none => simp [precC]
    | some p =>
      have := digits_length 10 false (by omega) 9 p (by simp at hP; omega)
      simp [precC]; omega
  have h3 : (if am then [(45 : UInt8)] else []).length ≤ 1 := by split <;> simp
  simp only [List.length_append, List.length_cons, List.length_nil]
  omega

theorem contains_am (fl : List UInt8) (am : Bool) (x : UInt8) (hx : x ≠ 45) :
    (fl ++ (if am then [45] else [])).contains x = fl.contains x := by
  cases am <;> simp [hx]

theorem contains_am45 (fl : List UInt8) (am : Bool) :
    (fl ++ (if am then [45] else [])).contains 45 = (fl.contains 45 || am) := by
  cases am <;> simp

theorem flags_am {fl : List UInt8} {am : Bool} (hf : ∀ x ∈ fl, isFlagB x = true) :
    ∀ x ∈ fl ++ (if am then [45] else []), isFlagB x = true := by
  intro x hx
  rcases List.mem_append.1 hx with h | h
  · exact hf x h
  · cases am with
    | false => cases h
    | true => rw [List.mem_singleton.1 h]; decide

/-- Integers. -/
theorem convNum_int {F} (E : Env F) (hE : LibcOk E) (fl : List UInt8) (am : Bool) (W : Nat) (P : Option Nat) (ch : UInt8)
    (x : F) (buf : Int) (hb : 100 ≤ buf) (hf : ∀ x ∈ fl, isFlagB x = true) (hfl : fl.length ≤ 70)
    (hW : W ≤ 10^9) (hP : P.getD 0 ≤ 10^9) (pad : UInt8) (minus : Bool) (hm : minus = (fl.contains 45 || am)) :
    Agree (.ok (cInt ⟨minus, fl.contains 43, fl.contains 32, fl.contains 35, fl.contains 48, W, P, ch⟩ (E.wide x)))
      minus pad W
      (convNum E false ch (.num x) (37 :: fl ++ (if am then [45] else [])) W P.isSome (P.getD 0 : Nat) buf) := by
  have hlen := specNum_length fl am W P hfl hW hP
  unfold convNum
  simp only []
  rw [if_neg (by omega), if_neg (by simp only [Bool.false_eq_true, if_false, List.length_append, List.length_cons, List.length_nil]; omega)]
  simp only [Bool.false_eq_true, if_false]
  rw [specNum_text]
  have hp := parseC_text (fl ++ (if am then [45] else [])) W P ch (flags_am hf)
  rw [contains_am45, contains_am _ _ _ (by decide), contains_am _ _ _ (by decide), contains_am _ _ _ (by decide),
    contains_am _ _ _ (by decide), ← hm] at hp
  simp only [List.cons_append, List.drop_succ_cons, List.drop_zero]
  rw [hp]
  simp only []
  have hr := hE.wide x
  rw [toLong_id _ hr.1 hr.2]
  generalize hc : CDir.mk minus (fl.contains 43) (fl.contains 32) (fl.contains 35) (fl.contains 48) W P ch = c
  have hl := cInt_length c (E.wide x) hr.1 hr.2
  have hcw : c.width = W := by rw [← hc]
  have hcp : c.prec = P := by rw [← hc]
  rw [hcw, hcp] at hl
  rw [lenOf_small false W (P.getD 0) P.isSome hW hP]
  have e3 : (if P.isSome = true then P.getD 0 else 0) = P.getD 0 := by cases P <;> simp
  rw [e3]
  simp only [Bool.false_eq_true, if_false]
  obtain ⟨buf', hb', hpr⟩ := printNum_ok (cInt c (E.wide x)) (max 24 W + P.getD 0) buf hb (by omega) hl.2
  exact ⟨_, hpr, padOut_full minus pad W _ buf' hl.1, hb'⟩

/-- Floating point numbers. -/
theorem convNum_dbl {F} (E : Env F) (hE : LibcOk E) (fl : List UInt8) (am : Bool) (W : Nat) (P : Option Nat) (ch : UInt8)
    (x : F) (buf : Int) (hb : 100 ≤ buf) (hf : ∀ x ∈ fl, x ∈ asc "-0 +#'") (hfl : fl.length ≤ 70) (hch : ch ∈ asc "aAeEfgG")
    (hW : W ≤ 10^9) (hP : P.getD 0 ≤ 10^9) (pad : UInt8) (minus : Bool) :
    Agree (.ok (E.dbl (cText fl am W P ch) x)) minus pad W
      (convNum E true ch (.num x) (37 :: fl ++ (if am then [45] else [])) W P.isSome (P.getD 0 : Nat) buf) := by
  have hlen := specNum_length fl am W P hfl hW hP
  unfold convNum
  simp only []
  rw [if_neg (by omega), if_neg (by simp only [if_true, List.length_append, List.length_cons, List.length_nil]; omega)]
  simp only [if_true]
  rw [specNum_text]
  have ec : (37 :: fl ++ (if am then [45] else []) ++ (if W = 0 then [] else digits 10 false W) ++
      precC P ++ [ch]) = cText fl am W P ch := rfl
  rw [ec]
  have hl := hE.dbl fl am W P ch x hf hch
  rw [lenOf_small true W (P.getD 0) P.isSome hW hP]
  have e3 : (if P.isSome = true then P.getD 0 else 0) = P.getD 0 := by cases P <;> simp
  rw [e3]
  simp only [if_true]
  obtain ⟨buf', hb', hpr⟩ := printNum_ok (E.dbl (cText fl am W P ch) x) (max 320 W + P.getD 0) buf hb (by omega) hl.2
  exact ⟨_, hpr, padOut_full minus pad W _ buf' hl.1, hb'⟩

theorem convNum_err {F} (E : Env F) (fl : List UInt8) (am : Bool) (W : Nat) (P : Option Nat) (ch : UInt8) (db : Bool)
    (v : Arg F) (hv : ∀ x, v ≠ .num x) (buf : Int) (hfl : fl.length ≤ 70)
    (hW : W ≤ 10^9) (hP : P.getD 0 ≤ 10^9) :
    convNum E db ch v (37 :: fl ++ (if am then [45] else [])) W P.isSome (P.getD 0 : Nat) buf = .err := by
  have hlen := specNum_length fl am W P hfl hW hP
  unfold convNum
  simp only []
  rw [if_neg (by omega)]

end Verif.Fmt
