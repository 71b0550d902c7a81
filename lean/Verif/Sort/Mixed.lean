import Verif.Sort.Props
import Verif.Arith.Props

/-! C158 for arrays that mix whole numbers with `true`, `false` and `null`. -/

namespace Verif.Sort

open Verif.Value (Val Num Ctx OKind numEq numLt toInt sub toNum toPrim vt one)
open Verif.Number (whole)

variable {q : (Elem → Elem → Int) → List Elem → List Elem}

/-- A whole number, a truth value. -/
inductive Mixed where
  | int (k : Int)
  | bool (b : Bool)
  deriving DecidableEq

/-- The number that a value stands for. -/
def Mixed.key : Mixed → Int
  | .int k => k
  | .bool b => if b then 1 else 0

/-- The value in an array. -/
def Mixed.elem : Mixed → Elem
  | .int k => some (.num (whole k))
  | .bool b => some (.bool b)

/-- Back from the value. -/
def mixedOf : Elem → Option Mixed
  | some (.num (.fin m)) => some (.int (m / one))
  | some (.bool b) => some (.bool b)
  | _ => none

theorem mixedOf_elem (x : Mixed) : mixedOf x.elem = some x := by
  cases x with
  | int k =>
    unfold Mixed.elem mixedOf whole
    simp only []
    rw [Int.mul_ediv_cancel]
    exact_mod_cast (ne_of_gt Number.one_pos)
  | bool b => rfl

/-- Far from the limits of int. -/
def Mixed.Small (x : Mixed) : Prop := x.key.natAbs < 2 ^ 30

theorem diff (a b : Int) (ha : a.natAbs < 2 ^ 30) (hb : b.natAbs < 2 ^ 30) : toInt (sub (whole b) (whole a)) = b - a := by
  rw [Arith.sub_whole _ _ (by omega), Arith.toInt_whole32 _ (by omega)]

theorem whole_lt (a b : Int) : numLt (whole a) (whole b) = decide (a < b) := by
  unfold numLt whole
  simp only []
  have : (0 : Int) < one := by exact_mod_cast Number.one_pos
  congr 1
  apply propext
  exact Int.mul_lt_mul_right this

theorem whole_eq (a b : Int) : numEq (whole a) (whole b) = decide (a = b) := by
  unfold numEq whole
  simp only []
  have : (one : Int) ≠ 0 := by exact_mod_cast (ne_of_gt Number.one_pos)
  rw [Bool.eq_iff_iff, beq_iff_eq, decide_eq_true_iff, Num.fin.injEq]
  exact Int.mul_eq_mul_right_iff this

theorem bool_num (c : Ctx) (b : Bool) : toNum c (.bool b) = whole (if b then 1 else 0) := by
  cases b <;> simp [toNum, whole]

/-- The difference has the sign of the comparison. -/
theorem mixed_cmp (c : Ctx) (o : Opts) (hc : o.compare = none) (x y : Mixed) (hx : x.Small) (hy : y.Small) :
    (0 < rawCmp c o x.elem y.elem ↔ x.key < y.key) ∧ (rawCmp c o x.elem y.elem < 0 ↔ y.key < x.key) ∧
      rawCmp c o x.elem y.elem ≠ -2147483648 := by
  unfold Mixed.Small at *
  cases x with
  | int a =>
    cases y with
    | int b =>
      have e : rawCmp c o (Mixed.int a).elem (Mixed.int b).elem = if b = a then 0 else if b < a then -1 else 1 := by
        simp [Mixed.elem, rawCmp, hc, valueCmp, vt, sameCmp, whole_eq, whole_lt]
      rw [e]
      simp only [Mixed.key]
      split
      · omega
      · split <;> omega
    | bool b =>
      have e : rawCmp c o (Mixed.int a).elem (Mixed.bool b).elem = toInt (sub (toNum c (.bool b)) (whole a)) := by
        simp [Mixed.elem, rawCmp, hc, valueCmp, vt, toPrim, toNum]
      simp only [Mixed.key] at *
      rw [e, bool_num, diff _ _ hx hy]
      omega
  | bool a =>
    cases y with
    | int b =>
      have e : rawCmp c o (Mixed.bool a).elem (Mixed.int b).elem = toInt (sub (whole b) (toNum c (.bool a))) := by
        simp [Mixed.elem, rawCmp, hc, valueCmp, vt, toPrim, toNum]
      simp only [Mixed.key] at *
      rw [e, bool_num, diff _ _ hx hy]
      omega
    | bool b =>
      have e : rawCmp c o (Mixed.bool a).elem (Mixed.bool b).elem = (if b then 1 else 0) - (if a then 1 else 0) := by
        simp [Mixed.elem, rawCmp, hc, valueCmp, vt, sameCmp]
      rw [e]
      cases a <;> cases b <;> simp [Mixed.key]

/-- **C158** Whole numbers below 2^30 in magnitude and truth values are put in ascending order of the numbers they stand
for. -/
theorem C158_mixed_partial (hq : Qsort q) (c : Ctx) (l : List Mixed) (hl : ∀ x ∈ l, x.Small) :
    ∃ l' : List Mixed, l'.Perm l ∧ l'.Pairwise (fun a b => a.key ≤ b.key) ∧
      sort q c .default (l.map Mixed.elem) = l'.map Mixed.elem := by
  have hs : ∀ a ∈ l, ∀ b ∈ l, subCmd c .default a.elem b.elem = -rawCmp c .default a.elem b.elem := by
    intro a ha b hb
    have := (mixed_cmp c .default rfl a b (hl a ha) (hl b hb)).2.2
    unfold subCmd
    rw [if_neg (by simp [Opts.default]), neg32_of this]
  obtain ⟨l', h1, h2, h3⟩ := sort_by hq c .default rfl Mixed.elem mixedOf mixedOf_elem (fun a b => a.key < b.key) l
    ⟨fun a ha b hb => by
      have h := mixed_cmp c .default rfl a b (hl a ha) (hl b hb)
      show subCmd c .default a.elem b.elem < 0 ↔ _
      rw [hs a ha b hb]
      constructor
      · intro h'; exact h.1.1 (by omega)
      · intro h'; have := h.1.2 h'; omega,
    fun a ha b hb => by
      have h := mixed_cmp c .default rfl a b (hl a ha) (hl b hb)
      show 0 < subCmd c .default a.elem b.elem ↔ _
      rw [hs a ha b hb]
      constructor
      · intro h'; exact h.2.1.1 (by omega)
      · intro h'; have := h.2.1.2 h'; omega,
    fun a _ b _ d _ => by omega⟩
  exact ⟨l', h1, h2.imp (by intro a b h; omega), h3⟩

example : ∀ x ∈ [Mixed.int 5, .bool true, .int (-3), .bool false], x.Small := by
  unfold Mixed.Small; decide

end Verif.Sort
