import Verif.Fmt.Lemmas

/-! The C library part: lengths of printed integers, and the directive that `format` builds is read
back by `printf` as it was meant. -/

namespace Verif.Fmt
open Verif Verif.Utf8

theorem mag_lt (conv : UInt8) (w : Int) (h1 : -2^63 ≤ w) (h2 : w < 2^63) : mag conv w < 2^64 := by
  unfold mag; split
  · omega
  · have := Int.emod_lt_of_pos w (b := 2^64) (by decide)
    have := Int.emod_nonneg w (b := 2^64) (by decide)
    omega

/-- The largest number of digits of a conversion. -/
def maxDig (conv : UInt8) : Nat := if conv = 111 then 22 else if conv = 120 ∨ conv = 88 then 16 else 20

theorem digits_maxDig (conv : UInt8) (m : Nat) (up : Bool) (h : m < 2^64) :
    (digits (baseOf conv) up m).length ≤ maxDig conv := by
  unfold baseOf maxDig
  split
  · exact digits_length 8 up (by omega) 21 m (Nat.lt_of_lt_of_le h (by decide))
  · split
    · exact digits_length 16 up (by omega) 15 m (Nat.lt_of_lt_of_le h (by decide))
    · exact digits_length 10 up (by omega) 19 m (Nat.lt_of_lt_of_le h (by decide))

theorem body_length (d : CDir) (w : Int) (h1 : -2^63 ≤ w) (h2 : w < 2^63) :
    (body d w).length ≤ max (maxDig d.conv) (d.prec.getD 1) + (if d.conv = 111 then 1 else 0) := by
  have hd := digits_maxDig d.conv (mag d.conv w) (d.conv == 88) (mag_lt d.conv w h1 h2)
  unfold body
  simp only []
  generalize hA : (if d.prec = some 0 ∧ mag d.conv w = 0 then ([] : List UInt8)
    else digits (baseOf d.conv) (d.conv == 88) (mag d.conv w)) = A
  have hAl : A.length ≤ maxDig d.conv := by
    rw [← hA]; split
    · simp
    · exact hd
  by_cases h8 : d.conv = 111
  · rw [if_pos h8]
    split <;> simp <;> omega
  · rw [if_neg h8, if_neg (fun h => h8 h.1)]; simp; omega

theorem lead_length (d : CDir) (w : Int) : (lead d w).length ≤ if d.conv = 111 then 0 else 2 := by
  unfold lead
  by_cases h : d.conv = 111
  · rw [if_pos h, h]; simp
  · rw [if_neg h]
    split
    · split
      · simp
      · split
        · simp
        · split <;> simp
    · split <;> simp

theorem cInt_length_eq (d : CDir) (w : Int) :
    (cInt d w).length = max d.width ((lead d w).length + (body d w).length) := by
  unfold cInt
  simp only []
  generalize lead d w = l
  generalize body d w = b
  split
  · simp; omega
  · split <;> simp <;> omega

theorem cInt_length (d : CDir) (w : Int) (h1 : -2^63 ≤ w) (h2 : w < 2^63) :
    d.width ≤ (cInt d w).length ∧ (cInt d w).length ≤ max 24 d.width + d.prec.getD 0 := by
  rw [cInt_length_eq]
  have hb := body_length d w h1 h2
  have hl := lead_length d w
  generalize (body d w).length = B at *
  generalize (lead d w).length = L at *
  have hm : (if d.conv = 111 then 1 + maxDig d.conv else 2 + maxDig d.conv) ≤ 24 := by
    unfold maxDig; split
    · simp
    · split <;> simp
  have hp : d.prec.getD 1 ≤ d.prec.getD 0 + 1 := by cases d.prec <;> simp
  refine ⟨by omega, ?_⟩
  by_cases h : d.conv = 111
  · rw [if_pos h] at *; omega
  · rw [if_neg h] at *; omega

theorem flag_mem : ∀ n < 256, UInt8.ofNat n ∈ asc "-0 +#'" ↔ isFlagB (UInt8.ofNat n) = true := by decide +kernel

theorem u8_all {P : UInt8 → Prop} (h : ∀ n < 256, P (UInt8.ofNat n)) (b : UInt8) : P b := by
  have := h b.toNat b.toNat_lt
  rwa [UInt8.ofNat_toNat] at this

theorem flag_mem' (b : UInt8) : b ∈ asc "-0 +#'" ↔ isFlagB b = true :=
  u8_all (P := fun b => b ∈ asc "-0 +#'" ↔ isFlagB b = true) flag_mem b

/-- The digits of a width that is not zero do not begin with a flag. -/
theorem digits_noflag (n : Nat) (h : n ≠ 0) (r : List UInt8) :
    ∀ c t, digits 10 false n ++ r = c :: t → isFlagB c = false := by
  obtain ⟨c, t, e, hc⟩ := digits_head n h
  intro c' t' e'
  rw [e] at e'
  have : c = c' := by simpa using (List.cons.inj e').1
  subst this
  exact (by decide : ∀ c ∈ asc "123456789", isFlagB c = false) c hc

/-- A byte that ends a number, and is no flag. -/
def isEnd (c : UInt8) : Bool := !isDig c && !isFlagB c

theorem parsePrec_text (p : Option Nat) (r : List UInt8) (hr : ∀ c t, r = c :: t → isDig c = false ∧ c ≠ 46) :
    parsePrec (precC p ++ r) = (p, r) := by
  cases p with
  | none =>
    cases r with
    | nil => rfl
    | cons c t =>
      have := (hr c t rfl).2
      simp only [precC, List.nil_append]
      unfold parsePrec
      split
      · rename_i r' e; cases e; exact absurd rfl this
      · rfl
  | some p =>
    have h := takeWhile_run (p := isDig) (digits 10 false p) r (digits_all p) (fun c t e => (hr c t e).1)
    simp only [precC, List.cons_append, parsePrec, h.1, h.2, val10_digits]

theorem parseC_text (fl : List UInt8) (w : Nat) (p : Option Nat) (c : UInt8)
    (hf : ∀ x ∈ fl, isFlagB x = true) :
    parseC (fl ++ (if w = 0 then [] else digits 10 false w) ++
      precC p ++ [108, 108, c]) =
    some ⟨fl.contains 45, fl.contains 43, fl.contains 32, fl.contains 35, fl.contains 48, w, p, c⟩ := by
  generalize hP : precC p = P
  have hP2 : ∀ x t, P ++ [108, 108, c] = x :: t → isDig x = false ∧ isFlagB x = false := by
    intro x t e
    rw [← hP] at e
    cases p with
    | none =>
      have : x = 108 := by simpa [precC] using (List.cons.inj e).1.symm
      subst this; decide
    | some p =>
      have : x = 46 := by simpa using (List.cons.inj e).1.symm
      subst this; decide
  have hW : ∀ x t, (if w = 0 then [] else digits 10 false w) ++ (P ++ [108, 108, c]) = x :: t → isFlagB x = false := by
    intro x t e
    by_cases h0 : w = 0
    · rw [if_pos h0] at e; exact (hP2 x t e).2
    · rw [if_neg h0] at e; exact digits_noflag w h0 _ x t e
  have h1 := takeWhile_run (p := isFlagB) fl ((if w = 0 then [] else digits 10 false w) ++ (P ++ [108, 108, c])) hf hW
  have h2 := takeWhile_run (p := isDig) (if w = 0 then [] else digits 10 false w) (P ++ [108, 108, c])
    (by split
        · intro x h; cases h
        · exact digits_all w) (fun x t e => (hP2 x t e).1)
  have h3 : parsePrec (P ++ [108, 108, c]) = (p, [108, 108, c]) := by
    rw [← hP]
    exact parsePrec_text p [108, 108, c] (fun x t e => by
      have : x = 108 := by simpa using (List.cons.inj e).1.symm
      subst this; decide)
  have hv : val10 (if w = 0 then [] else digits 10 false w) = w := by
    split
    · rename_i h; subst h; rfl
    · exact val10_digits w
  unfold parseC
  simp only [List.append_assoc] at *
  simp only [h1.1, h1.2, h2.1, h2.2, h3, hv]

theorem lenOf_small (dbl : Bool) (w p : Nat) (got : Bool) (hw : w ≤ 10^9) (hp : p ≤ 10^9) :
    lenOf dbl w got p = ((max (if dbl then 320 else 24) w + (if got then p else 0) : Nat) : Int) := by
  unfold lenOf
  cases dbl <;> cases got <;> simp only [Bool.false_eq_true, if_false, if_true]
  all_goals
    first
    | (split
       · rw [toInt_id _ (by omega) (by omega)]; omega
       · omega)
    | (split
       · rw [toInt_id w (by omega) (by omega), toInt_id _ (by omega) (by omega)]; omega
       · rw [toInt_id _ (by omega) (by omega)]; omega)

/-- With a sane length the number is printed in full. -/
theorem printNum_ok (t : List UInt8) (l : Nat) (buf : Int) (hb : 100 ≤ buf) (hl : l ≤ 2^31 - 2)
    (ht : t.length ≤ l) : ∃ buf', 100 ≤ buf' ∧ printNum t l buf = .ok ⟨t, t.length, buf'⟩ := by
  unfold printNum
  rw [toInt_id ((l : Int) + 1) (by omega) (by omega)]
  simp only []
  have e : (((l : Int) + 1) % 2^64).toNat = l + 1 := by
    rw [Int.emod_eq_of_lt (by omega) (by omega)]; omega
  rw [e, if_neg (by omega)]
  have e2 : t.take (l + 1 - 1) = t := List.take_of_length_le (by omega)
  rw [e2]
  split
  · rename_i h1
    rw [if_neg (by omega)]
    exact ⟨(l : Int) + 1, by omega, rfl⟩
  · rename_i h1
    rw [if_neg (by omega)]
    exact ⟨buf, hb, rfl⟩

end Verif.Fmt
