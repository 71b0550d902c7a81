import Verif.Sort.Model

/-! Lemmas: the merge sort of glibc is a `Qsort`; the comparisons are consistent. -/

namespace Verif.Sort

open Verif.Value (Val Num Ctx OKind numEq numLt toInt sub toNum toPrim vt strcmp strcmpL)

/-! ### merge sort -/

theorem msort_perm (cmp : Elem → Elem → Int) (n : Nat) (l : List Elem) (hn : l.length ≤ n) : (msort cmp l).Perm l := by
  induction n generalizing l with
  | zero =>
    have : l = [] := List.length_eq_zero_iff.mp (by omega)
    subst this
    rw [msort]; simp
  | succ n ih =>
    rw [msort]
    split
    · exact List.Perm.refl _
    · rename_i h
      refine (List.merge_perm_append _).trans ?_
      refine ((ih _ (by simp; omega)).append (ih _ (by simp; omega))).trans ?_
      rw [List.take_append_drop]

theorem merge_ordered (R : Elem → Elem → Prop) [DecidableRel R] (S : Elem → Prop)
    (tot : ∀ x y, S x → S y → ¬ R x y → R y x) (tr : ∀ x y z, S x → S y → S z → R x y → R y z → R x z)
    (l r : List Elem) (hl : l.Pairwise R) (hr : r.Pairwise R) (sl : ∀ x ∈ l, S x) (sr : ∀ x ∈ r, S x) :
    (List.merge l r (fun x y => decide (R x y))).Pairwise R := by
  induction l generalizing r with
  | nil => simpa [List.nil_merge] using hr
  | cons x l ihl =>
    induction r with
    | nil => simpa [List.merge_right] using hl
    | cons y r ihr =>
      rw [List.cons_merge_cons]
      have hl' := List.pairwise_cons.mp hl
      have hr' := List.pairwise_cons.mp hr
      have sx := sl x (by simp)
      have sy := sr y (by simp)
      split
      · rename_i h
        have h : R x y := by simpa using h
        refine List.pairwise_cons.mpr ⟨?_, ihl (y :: r) hl'.2 hr (fun z hz => sl z (by simp [hz])) sr⟩
        intro z hz
        rcases List.mem_append.mp ((List.merge_perm_append _).mem_iff.mp hz) with hz | hz
        · exact hl'.1 z hz
        · rcases List.mem_cons.mp hz with rfl | hz
          · exact h
          · exact tr x y z sx sy (sr z (by simp [hz])) h (hr'.1 z hz)
      · rename_i h
        have h : ¬ R x y := by simpa using h
        have hyx := tot x y sx sy h
        refine List.pairwise_cons.mpr ⟨?_, ihr hr'.2 (fun z hz => sr z (by simp [hz]))⟩
        intro z hz
        rcases List.mem_append.mp ((List.merge_perm_append _).mem_iff.mp hz) with hz | hz
        · rcases List.mem_cons.mp hz with rfl | hz
          · exact hyx
          · exact tr y x z sy sx (sl z (by simp [hz])) hyx (hl'.1 z hz)
        · exact hr'.1 z hz

theorem msort_ordered (cmp : Elem → Elem → Int) (n : Nat) (l : List Elem) (hn : l.length ≤ n)
    (h : Consistent cmp l) : (msort cmp l).Pairwise (fun x y => cmp x y ≤ 0) := by
  induction n generalizing l with
  | zero =>
    have : l = [] := List.length_eq_zero_iff.mp (by omega)
    subst this
    rw [msort]; simp
  | succ n ih =>
    rw [msort]
    split
    · rename_i h1
      match l, h1 with
      | [], _ => simp
      | [x], _ => simp
    · rename_i h1
      have mt : ∀ x, x ∈ msort cmp (l.take (l.length / 2)) → x ∈ l := fun x hx =>
        List.mem_of_mem_take ((msort_perm cmp _ _ (Nat.le_refl _)).mem_iff.mp hx)
      have md : ∀ x, x ∈ msort cmp (l.drop (l.length / 2)) → x ∈ l := fun x hx =>
        List.mem_of_mem_drop ((msort_perm cmp _ _ (Nat.le_refl _)).mem_iff.mp hx)
      refine merge_ordered (fun x y => cmp x y ≤ 0) (· ∈ l) ?_ ?_ _ _ (ih _ (by simp; omega) ?_) (ih _ (by simp; omega) ?_)
        mt md
      · intro x y hx hy hn
        exact (h.anti y hy x hx).mpr (by omega)
      · intro x y z hx hy hz
        exact h.trans x hx y hy z hz
      · exact ⟨fun x hx y hy => h.anti x (List.mem_of_mem_take hx) y (List.mem_of_mem_take hy),
          fun x hx y hy z hz => h.trans x (List.mem_of_mem_take hx) y (List.mem_of_mem_take hy) z (List.mem_of_mem_take hz)⟩
      · exact ⟨fun x hx y hy => h.anti x (List.mem_of_mem_drop hx) y (List.mem_of_mem_drop hy),
          fun x hx y hy z hz => h.trans x (List.mem_of_mem_drop hx) y (List.mem_of_mem_drop hy) z (List.mem_of_mem_drop hz)⟩

/-- There is such a function: the one of glibc. -/
theorem msort_qsort : Qsort msort :=
  ⟨fun cmp l => msort_perm cmp _ l (Nat.le_refl _), fun cmp l h => msort_ordered cmp _ l (Nat.le_refl _) h⟩

/-! ### numbers -/

/-- A place on a line for each number but NaN. -/
def place : Num → Int × Int
  | .nan => (0, 0)
  | .inf true => (-1, 0)
  | .inf false => (1, 0)
  | .fin m => (0, m)

/-- Before on that line. -/
def lt2 (a b : Int × Int) : Prop := a.1 < b.1 ∨ (a.1 = b.1 ∧ a.2 < b.2)

theorem numLt_place (a b : Num) (ha : a ≠ .nan) (hb : b ≠ .nan) : numLt a b = true ↔ lt2 (place a) (place b) := by
  cases a with
  | nan => exact absurd rfl ha
  | inf x => cases b with
    | nan => exact absurd rfl hb
    | inf y => cases x <;> cases y <;> simp [numLt, place, lt2]
    | fin n => cases x <;> simp [numLt, place, lt2]
  | fin m => cases b with
    | nan => exact absurd rfl hb
    | inf y => cases y <;> simp [numLt, place, lt2]
    | fin n => simp [numLt, place, lt2]

theorem numEq_place (a b : Num) (ha : a ≠ .nan) (hb : b ≠ .nan) : numEq a b = true ↔ place a = place b := by
  cases a with
  | nan => exact absurd rfl ha
  | inf x => cases b with
    | nan => exact absurd rfl hb
    | inf y => cases x <;> cases y <;> simp [numEq, place]
    | fin n => cases x <;> simp [numEq, place]
  | fin m => cases b with
    | nan => exact absurd rfl hb
    | inf y => cases y <;> simp [numEq, place]
    | fin n => simp [numEq, place]

/-- The sign of the comparison of two numbers. -/
theorem numCmp (a b : Num) (ha : a ≠ .nan) (hb : b ≠ .nan) :
    (0 < (if numEq b a then (0 : Int) else if numLt b a then -1 else 1) ↔ numLt a b = true) ∧
    ((if numEq b a then (0 : Int) else if numLt b a then -1 else 1) < 0 ↔ numLt b a = true) := by
  have h1 := numEq_place b a hb ha
  have h2 := numLt_place b a hb ha
  have h3 := numLt_place a b ha hb
  unfold lt2 at *
  rw [Prod.ext_iff] at h1
  by_cases e1 : numEq b a = true
  · rw [if_pos e1]
    have := h1.mp e1
    rw [h2, h3]; omega
  · rw [if_neg e1]
    have e1' : ¬ _ := fun h => e1 (h1.mpr h)
    by_cases e2 : numLt b a = true
    · rw [if_pos e2]
      have := h2.mp e2
      rw [h2, h3]; omega
    · rw [if_neg e2]
      have e2' : ¬ _ := fun h => e2 (h2.mpr h)
      rw [h2, h3]; omega

/-! ### strings -/

theorem strcmpL_lt (a b : Bytes) : (strcmpL a b < 0 ↔ a < b) ∧ (0 < strcmpL a b ↔ b < a) ∧ (strcmpL a b = 0 ↔ a = b) ∧
    -1 ≤ strcmpL a b ∧ strcmpL a b ≤ 1 := by
  induction a generalizing b with
  | nil => cases b <;> simp [strcmpL]
  | cons x a ih =>
    cases b with
    | nil => simp [strcmpL]
    | cons y b =>
      rw [strcmpL]
      have h := UInt8.lt_iff_toNat_lt (a := x) (b := y)
      have h' := UInt8.lt_iff_toNat_lt (a := y) (b := x)
      have he := UInt8.toNat_inj (a := x) (b := y)
      rw [List.cons_lt_cons_iff, List.cons_lt_cons_iff]
      by_cases h1 : x < y
      · have h1n := h.mp h1
        have : ¬ y < x := by rw [h']; omega
        have e : x ≠ y := by rw [Ne, ← he]; omega
        simp [h1, this, e]
        exact fun e' => absurd e'.symm e
      · by_cases h2 : y < x
        · have h2n := h'.mp h2
          have e : x ≠ y := by rw [Ne, ← he]; omega
          simp [h1, h2, e]
        · have h1n : ¬ _ := fun q => h1 (h.mpr q)
          have h2n : ¬ _ := fun q => h2 (h'.mpr q)
          have e : x = y := by rw [← he]; omega
          subst e
          simp only [h1, if_false, false_or, true_and, List.cons.injEq]
          exact ih b

theorem strcmp_noNul (a b : Bytes) (ha : 0 ∉ a) (hb : 0 ∉ b) : strcmp a b = strcmpL a b := by
  have h : ∀ l : Bytes, 0 ∉ l → Value.cstr l = l := by
    intro l h
    induction l with
    | nil => rfl
    | cons c l ih =>
      have h1 : c ≠ 0 := by rintro rfl; simp at h
      have h2 : 0 ∉ l := by intro e; exact h (by simp [e])
      have ih' : l.takeWhile (· ≠ 0) = l := ih h2
      simp only [Value.cstr, List.takeWhile, h1, ne_eq, not_false_eq_true, decide_true]
      rw [ih']
  rw [strcmp, h a ha, h b hb]

theorem lower_nul (a : Bytes) (ha : 0 ∉ a) : 0 ∉ a.map lower := by
  intro h
  obtain ⟨c, hc, h0⟩ := List.mem_map.mp h
  have : c = 0 := by
    revert h0
    unfold lower
    split
    · rename_i h
      intro h0
      have h1 := UInt8.le_iff_toNat_le.mp h.1
      have h2 := UInt8.le_iff_toNat_le.mp h.2
      have h3 := congrArg UInt8.toNat h0
      rw [UInt8.toNat_add] at h3
      have e1 : (65 : UInt8).toNat = 65 := rfl
      have e2 : (90 : UInt8).toNat = 90 := rfl
      have e3 : (32 : UInt8).toNat = 32 := rfl
      have e4 : (0 : UInt8).toNat = 0 := rfl
      omega
    · exact id
  rw [this] at hc
  exact ha hc

end Verif.Sort
