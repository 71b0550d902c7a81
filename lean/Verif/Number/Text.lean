import Verif.Number.Round

/-! Reading back the layout of `%.15g`. -/

namespace Verif.Number

open Verif Verif.Value

/-- All characters are digits. -/
def AllDig (s : List UInt8) : Prop := ∀ c ∈ s, Fmt.isDig c = true

theorem AllDig.append {a b : List UInt8} (ha : AllDig a) (hb : AllDig b) : AllDig (a ++ b) := by
  intro c hc
  rcases List.mem_append.1 hc with h | h
  · exact ha c h
  · exact hb c h

theorem allDig_digits (n : Nat) : AllDig (Fmt.digits 10 false n) := Fmt.digits_all n

theorem allDig_zeros (k : Nat) : AllDig (List.replicate k 48) := by
  intro c hc
  rw [List.eq_of_mem_replicate hc]; decide

theorem mem_takeWhile48 (l : List UInt8) : ∀ c ∈ l.takeWhile (· == (48 : UInt8)), c = 48 := by
  induction l with
  | nil => intro c hc; cases hc
  | cons a t ih =>
    intro c hc
    rw [List.takeWhile_cons] at hc
    split at hc
    · rename_i h
      rcases List.mem_cons.1 hc with e | e
      · rw [e]; simpa using h
      · exact ih c e
    · cases hc

theorem stripZ_spec (fs : List UInt8) : ∃ k, fs = stripZ fs ++ List.replicate k 48 := by
  unfold stripZ
  have h := List.takeWhile_append_dropWhile (p := (· == (48 : UInt8))) (l := fs.reverse)
  have h2 : fs.reverse.takeWhile (· == (48 : UInt8)) = List.replicate (fs.reverse.takeWhile (· == (48 : UInt8))).length 48 := by
    rw [List.eq_replicate_iff]
    refine ⟨rfl, ?_⟩
    intro c hc
    exact mem_takeWhile48 _ c hc
  refine ⟨(fs.reverse.takeWhile (· == (48 : UInt8))).length, ?_⟩
  have h3 := congrArg List.reverse h
  rw [List.reverse_append, List.reverse_reverse] at h3
  rw [h2, List.reverse_replicate] at h3
  exact h3.symm

theorem stripZ_allDig {fs : List UInt8} (h : AllDig fs) : AllDig (stripZ fs) := by
  obtain ⟨k, hk⟩ := stripZ_spec fs
  intro c hc
  apply h
  rw [hk]; exact List.mem_append_left _ hc

theorem val10_from (ds : List UInt8) : ∀ a, ds.foldl (fun a c => a * 10 + (c.toNat - 48)) a =
    a * 10 ^ ds.length + Fmt.val10 ds := by
  unfold Fmt.val10
  induction ds with
  | nil => intro a; simp
  | cons c t ih =>
    intro a
    rw [List.foldl_cons, List.foldl_cons, ih, ih (0 * 10 + _), List.length_cons, pow_succ]
    ring

theorem val10_append (a b : List UInt8) : Fmt.val10 (a ++ b) = Fmt.val10 a * 10 ^ b.length + Fmt.val10 b := by
  conv => lhs; unfold Fmt.val10
  rw [List.foldl_append, val10_from]; rfl

theorem val10_zeros (k : Nat) : Fmt.val10 (List.replicate k 48) = 0 := by
  induction k with
  | zero => rfl
  | succ k ih =>
    rw [List.replicate_succ, ← List.singleton_append, val10_append, ih]
    have : Fmt.val10 [48] = 0 := by decide
    rw [this]; simp

/-- What follows the digits: nothing, or an exponent. -/
def Tail (e : Int) (t : List UInt8) : Prop := (t = [] ∧ e = 0) ∨ t = expText e

theorem tail_head {e : Int} {t : List UInt8} (h : Tail e t) : ∀ c u, t = c :: u → Fmt.isDig c = false ∧ c ≠ 46 := by
  intro c u hc
  rcases h with ⟨h, _⟩ | h
  · subst h; cases hc
  · rw [h] at hc
    unfold expText at hc
    cases hc
    decide

theorem val10_expDigits (x : Nat) : Fmt.val10 (if x < 10 then 48 :: Fmt.digits 10 false x else Fmt.digits 10 false x) = x := by
  split
  · rw [← List.singleton_append, val10_append, Fmt.val10_digits]
    have : Fmt.val10 [48] = 0 := by decide
    rw [this]; omega
  · exact Fmt.val10_digits x

theorem expDigits_ok (x : Nat) : (if x < 10 then 48 :: Fmt.digits 10 false x else Fmt.digits 10 false x) ≠ [] ∧
    (if x < 10 then 48 :: Fmt.digits 10 false x else Fmt.digits 10 false x).all Fmt.isDig = true := by
  split
  · refine ⟨by simp, ?_⟩
    rw [List.all_cons, List.all_eq_true.2 (Fmt.digits_all x)]; decide
  · exact ⟨Fmt.digits_ne_nil _ _ _, List.all_eq_true.2 (Fmt.digits_all x)⟩

theorem readExp_tail {e : Int} {t : List UInt8} (h : Tail e t) : readExp t = some e := by
  rcases h with ⟨h, he⟩ | h
  · subst h he; rfl
  · rw [h]
    unfold expText
    have h1 := expDigits_ok e.natAbs
    have h2 := val10_expDigits e.natAbs
    generalize (if e.natAbs < 10 then 48 :: Fmt.digits 10 false e.natAbs else Fmt.digits 10 false e.natAbs) = u at *
    by_cases hn : e < 0
    · rw [if_pos hn]
      simp only [readExp, true_or, if_true]
      rw [if_pos h1, h2]
      congr 1; omega
    · rw [if_neg hn]
      simp only [readExp, true_or, if_true]
      rw [if_pos h1, h2]
      congr 1; omega

theorem readUDec_parts (ip fs t : List UInt8) (e : Int) (hi : AllDig ip) (hne : ip ≠ []) (hf : AllDig fs) (ht : Tail e t) :
    readUDec (ip ++ frac fs ++ t) = some (Fmt.val10 (ip ++ stripZ fs), e - ((stripZ fs).length : Int)) := by
  have htail := tail_head ht
  unfold frac
  by_cases hs : stripZ fs = []
  · rw [if_pos hs, hs, List.append_nil]
    have hw := Fmt.takeWhile_run (p := Fmt.isDig) ip t hi (fun c u h => (htail c u h).1)
    unfold readUDec
    rw [hw.1, hw.2]
    have hsp : splitFrac t = ([], t) := by
      unfold splitFrac
      split
      · rename_i u
        exact absurd rfl (htail 46 u rfl).2
      · rfl
    simp only [hsp, readExp_tail ht]
    rw [if_neg (fun h => hne h.1)]
    simp
  · rw [if_neg hs, List.append_assoc, List.cons_append]
    have hw := Fmt.takeWhile_run (p := Fmt.isDig) ip (46 :: (stripZ fs ++ t)) hi
      (fun c u h => by cases h; decide)
    have hw2 := Fmt.takeWhile_run (p := Fmt.isDig) (stripZ fs) t (stripZ_allDig hf) (fun c u h => (htail c u h).1)
    unfold readUDec
    rw [hw.1, hw.2]
    simp only [splitFrac, hw2.1, hw2.2, readExp_tail ht]
    rw [if_neg (fun h => hne h.1)]
    simp

/-- The text has the value `D * 10^q`. -/
def HasValue (s : List UInt8) (D : Nat) (q : Int) : Prop :=
  ∃ D' q', ∃ k : Nat, readUDec s = some (D', q') ∧ D = D' * 10 ^ k ∧ q' = q + k

theorem hasValue_parts (ip fs t : List UInt8) (e : Int) (hi : AllDig ip) (hne : ip ≠ []) (hf : AllDig fs) (ht : Tail e t) :
    HasValue (ip ++ frac fs ++ t) (Fmt.val10 (ip ++ fs)) (e - (fs.length : Int)) := by
  obtain ⟨k, hk⟩ := stripZ_spec fs
  refine ⟨_, _, k, readUDec_parts ip fs t e hi hne hf ht, ?_, ?_⟩
  · conv => lhs; rw [hk]
    rw [← List.append_assoc, val10_append _ (List.replicate k 48), val10_zeros, List.length_replicate]
    rfl
  · have := congrArg List.length hk
    rw [List.length_append, List.length_replicate] at this
    omega

theorem layout_value (D : Nat) (x : Int) (hl : (Fmt.digits 10 false D).length = 15) :
    HasValue (layout (Fmt.digits 10 false D) x) D (x - 14) := by
  have hd := allDig_digits D
  have hv := Fmt.val10_digits D
  generalize Fmt.digits 10 false D = ds at *
  have hne : ds ≠ [] := by intro h; subst h; cases hl
  unfold layout
  have htake : ∀ n, AllDig (ds.take n) := fun n c hc => hd c (List.mem_of_mem_take hc)
  have hdrop : ∀ n, AllDig (ds.drop n) := fun n c hc => hd c (List.mem_of_mem_drop hc)
  have htne : ∀ n, ds.take (n + 1) ≠ [] := by
    intro n h
    cases ds with
    | nil => exact hne rfl
    | cons a b => cases h
  split
  · have := hasValue_parts (ds.take 1) (ds.drop 1) (expText x) x (htake 1) (htne 0) (hdrop 1) (Or.inr rfl)
    rw [List.take_append_drop, hv, List.length_drop, hl] at this
    exact this
  · split
    · rename_i h1 h2
      have := hasValue_parts (ds.take (x.toNat + 1)) (ds.drop (x.toNat + 1)) [] 0 (htake _) (htne _) (hdrop _) (Or.inl ⟨rfl, rfl⟩)
      rw [List.take_append_drop, hv, List.length_drop, hl, List.append_nil] at this
      have e : (0 : Int) - ((15 - (x.toNat + 1) : Nat) : Int) = x - 14 := by omega
      rw [e] at this
      exact this
    · rename_i h1 h2
      have := hasValue_parts [48] (List.replicate ((-x).toNat - 1) 48 ++ ds) [] 0 (by intro c hc; simp at hc; subst hc; decide)
        (by simp) ((allDig_zeros _).append hd) (Or.inl ⟨rfl, rfl⟩)
      rw [List.append_nil] at this
      have e1 : Fmt.val10 ([48] ++ (List.replicate ((-x).toNat - 1) 48 ++ ds)) = D := by
        rw [val10_append, val10_append, val10_zeros, hv]
        have : Fmt.val10 [48] = 0 := by decide
        rw [this]; simp
      have e2 : (0 : Int) - ((List.replicate ((-x).toNat - 1) 48 ++ ds).length : Int) = x - 14 := by
        rw [List.length_append, List.length_replicate, hl]; omega
      rw [e1, e2] at this
      exact this

theorem digits15 (D : Nat) (h1 : 10 ^ 14 ≤ D) (h2 : D < 10 ^ 15) : (Fmt.digits 10 false D).length = 15 := by
  have h := ilog10_unique D 14 h1 h2
  unfold ilog10 at h
  have : 0 < (Fmt.digits 10 false D).length := List.length_pos_of_ne_nil (Fmt.digits_ne_nil _ _ _)
  omega

theorem decNum_of_value {s : List UInt8} {D : Nat} {q : Int} (h : HasValue s D q) (neg : Bool) (hs : s ≠ asc "Infinity") :
    strtodU neg s = decNum neg D q := by
  obtain ⟨D', q', k, h1, h2, h3⟩ := h
  have h4 := decMag_zeros D' q' k
  have h5 : q' - k = q := by omega
  rw [h5, ← h2] at h4
  unfold strtodU
  rw [if_neg hs, h1]
  simp only [decNum, h4]

theorem hasValue_ne_inf {s : List UInt8} {D : Nat} {q : Int} (h : HasValue s D q) : s ≠ asc "Infinity" := by
  obtain ⟨_, _, _, h1, _⟩ := h
  intro e
  subst e
  have : readUDec (asc "Infinity") = none := by decide +kernel
  rw [this] at h1; cases h1

theorem hasValue_head {s : List UInt8} {D : Nat} {q : Int} (h : HasValue s D q) : ∀ c t, s = c :: t → c ≠ 45 ∧ c ≠ 43 := by
  obtain ⟨_, _, _, h1, _⟩ := h
  intro c t e
  subst e
  constructor <;> intro hc <;> subst hc
  · have e1 : ((45 : UInt8) :: t).takeWhile Fmt.isDig = [] := rfl
    have e2 : ((45 : UInt8) :: t).dropWhile Fmt.isDig = 45 :: t := rfl
    rw [readUDec, e1, e2] at h1
    simp [splitFrac] at h1
  · have e1 : ((43 : UInt8) :: t).takeWhile Fmt.isDig = [] := rfl
    have e2 : ((43 : UInt8) :: t).dropWhile Fmt.isDig = 43 :: t := rfl
    rw [readUDec, e1, e2] at h1
    simp [splitFrac] at h1

theorem toNumber_plain {s : List UInt8} {D : Nat} {q : Int} (h : HasValue s D q) : toNumber s = decNum false D q := by
  have hh := hasValue_head h
  unfold toNumber
  split
  · exact absurd rfl (hh _ _ rfl).1
  · exact absurd rfl (hh _ _ rfl).2
  · exact decNum_of_value h false (hasValue_ne_inf h)

theorem toNumber_minus {s : List UInt8} {D : Nat} {q : Int} (h : HasValue s D q) : toNumber (45 :: s) = decNum true D q :=
  decNum_of_value h true (hasValue_ne_inf h)

theorem hasValue_digits (n : Nat) : HasValue (Fmt.digits 10 false n) n 0 := by
  refine ⟨n, 0, 0, ?_, by simp, by simp⟩
  have := readUDec_parts (Fmt.digits 10 false n) [] [] 0 (allDig_digits n) (Fmt.digits_ne_nil _ _ _) (by intro c h; cases h)
    (Or.inl ⟨rfl, rfl⟩)
  have e : stripZ [] = [] := rfl
  rw [frac, if_pos e, e, List.append_nil, List.append_nil, Fmt.val10_digits] at this
  simpa using this

theorem decNum_whole (neg : Bool) (n : Nat) : decNum neg n 0 = roundNum (if neg then -((n : Int) * one) else n * one) ∨ n = 0 := by
  by_cases h0 : n = 0
  · exact Or.inr h0
  left
  have hp : (0 : Int) < n * one := by
    have h1 : 0 < n * one := Nat.mul_pos (by omega) one_pos
    have : ((n * one : Nat) : Int) = n * one := by push_cast; rfl
    omega
  have e : decMag n 0 = roundNat (n * one) := by
    unfold decMag
    simp [roundRat_one]
  have ea : ((n : Int) * one).natAbs = n * one := by
    have : ((n * one : Nat) : Int) = n * one := by push_cast; rfl
    omega
  unfold decNum roundNum
  rw [e]
  cases neg with
  | false =>
    simp only [Bool.false_eq_true, if_false, ea]
    have hn : ¬ ((n : Int) * one < 0) := by omega
    simp only [hn, if_false, decide_false]
  | true =>
    simp only [if_true, Int.natAbs_neg, ea]
    have hn : -((n : Int) * one) < 0 := by omega
    simp only [hn, if_true, decide_true]

theorem toNumber_showInt (k : Int) : toNumber (Fmt.showInt k) = ofInt k := by
  unfold Fmt.showInt ofInt
  split
  · rw [toNumber_minus (hasValue_digits _)]
    rcases decNum_whole true k.natAbs with h | h
    · rw [h, if_pos rfl]
      have : (k.natAbs : Int) = -k := by omega
      rw [this, Int.neg_mul, Int.neg_neg]
    · omega
  · rw [toNumber_plain (hasValue_digits _)]
    rcases decNum_whole false k.natAbs with h | h
    · rw [h, if_neg (by simp)]
      have : (k.natAbs : Int) = k := by omega
      rw [this]
    · have hk : k = 0 := by omega
      subst hk
      simp [decNum, decMag, roundRat_one, roundNum, roundNat]

end Verif.Number
