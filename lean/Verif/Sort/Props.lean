import Verif.Sort.Lib

/-! C157-C160: `Array.sort`. -/

namespace Verif.Sort

open Verif.Value (Val Num Ctx OKind numEq numLt toInt sub toNum toPrim vt strcmp strcmpL one)

variable {q : (Elem → Elem → Int) → List Elem → List Elem}

/-! ### C157 -/

theorem uniq_sub (cmp : Elem → Elem → Int) (x : Elem) (r : List Elem) : (uniq cmp x r).Sublist (x :: r) := by
  induction r generalizing x with
  | nil => exact List.Sublist.refl _
  | cons y r ih =>
    rw [uniq]
    split
    · exact (ih y).cons_cons x
    · split
      · exact (ih y).cons_cons x
      · exact (ih x).trans ((List.sublist_cons_self y r).cons_cons x)

/-- **C157** Whatever the order asked for, whatever the comparison function answers: after sort the array has the same
elements, each as often as before. -/
theorem C157_same_elements (hq : Qsort q) (c : Ctx) (o : Opts) (l : List Elem) (hu : o.unique = false) :
    (sort q c o l).Perm l := by
  unfold sort
  split
  · exact List.Perm.refl _
  · rw [if_neg (by simp [hu])]
    exact hq.perm _ _

/-- **C157** With unique some may be missing, none is new and none is there more often. -/
theorem C157_unique_elements (hq : Qsort q) (c : Ctx) (o : Opts) (l : List Elem) :
    ∃ l', l'.Perm l ∧ (sort q c o l).Sublist l' := by
  unfold sort
  split
  · exact ⟨l, List.Perm.refl _, List.Sublist.refl _⟩
  · split
    · refine ⟨q (subCmd c o) l, hq.perm _ _, ?_⟩
      cases q (subCmd c o) l with
      | nil => exact List.Sublist.refl _
      | cons x r => exact uniq_sub _ x r
    · exact ⟨_, hq.perm _ _, List.Sublist.refl _⟩

example (c : Ctx) (f : Val → Val → Ret) : (sort msort c ⟨false, false, false, false, some f⟩
    [some .undef, none, some (.num (.fin 3))]).Perm [some .undef, none, some (.num (.fin 3))] :=
  C157_same_elements msort_qsort c _ _ rfl

/-! ### C158: order -/

theorem lift {α : Type} (e : α → Elem) (p : Elem → Option α) (hpe : ∀ a, p (e a) = some a) (l : List α) (r : List Elem)
    (h : r.Perm (l.map e)) : ∃ l' : List α, r = l'.map e ∧ l'.Perm l := by
  refine ⟨r.filterMap p, ?_, ?_⟩
  · have hm : ∀ x ∈ r, ∃ a, x = e a := by
      intro x hx
      obtain ⟨a, _, ha⟩ := List.mem_map.mp (h.mem_iff.mp hx)
      exact ⟨a, ha.symm⟩
    clear h
    induction r with
    | nil => rfl
    | cons x r ih =>
      obtain ⟨a, rfl⟩ := hm x (by simp)
      rw [List.filterMap_cons, hpe]
      simp only [List.map_cons]
      rw [← ih (fun x hx => hm x (by simp [hx]))]
  · have := h.filterMap p
    rw [List.filterMap_map] at this
    have e2 : (p ∘ e) = some := funext hpe
    rw [e2, List.filterMap_some] at this
    exact this

/-- The comparison is that of an order `lt` of which the complement is transitive. -/
structure By {α : Type} (cmp : α → α → Int) (lt : α → α → Prop) (l : List α) : Prop where
  neg : ∀ a ∈ l, ∀ b ∈ l, cmp a b < 0 ↔ lt a b
  pos : ∀ a ∈ l, ∀ b ∈ l, 0 < cmp a b ↔ lt b a
  tr : ∀ a ∈ l, ∀ b ∈ l, ∀ c ∈ l, ¬ lt b a → ¬ lt c b → ¬ lt c a

theorem By.consistent {α : Type} {e : α → Elem} {cmp : Elem → Elem → Int} {lt : α → α → Prop} {l : List α}
    (h : By (fun a b => cmp (e a) (e b)) lt l) : Consistent cmp (l.map e) := by
  constructor
  · intro x hx y hy
    obtain ⟨a, ha, rfl⟩ := List.mem_map.mp hx
    obtain ⟨b, hb, rfl⟩ := List.mem_map.mp hy
    have h1 := h.pos a ha b hb
    have h2 := h.neg b hb a ha
    constructor
    · intro h3
      exact Int.not_lt.mp (fun h4 => Int.not_lt.mpr h3 (h1.mpr (h2.mp h4)))
    · intro h3
      exact Int.not_lt.mp (fun h4 => Int.not_lt.mpr h3 (h2.mpr (h1.mp h4)))
  · intro x hx y hy z hz
    obtain ⟨a, ha, rfl⟩ := List.mem_map.mp hx
    obtain ⟨b, hb, rfl⟩ := List.mem_map.mp hy
    obtain ⟨d, hd, rfl⟩ := List.mem_map.mp hz
    intro h1 h2
    refine Int.not_lt.mp (fun h3 => ?_)
    exact h.tr a ha b hb d hd (fun h4 => Int.not_lt.mpr h1 ((h.pos a ha b hb).mpr h4))
      (fun h4 => Int.not_lt.mpr h2 ((h.pos b hb d hd).mpr h4)) ((h.pos a ha d hd).mp h3)

theorem sort_by {α : Type} (hq : Qsort q) (c : Ctx) (o : Opts) (hu : o.unique = false) (e : α → Elem)
    (p : Elem → Option α) (hpe : ∀ a, p (e a) = some a) (lt : α → α → Prop) (l : List α)
    (hb : By (fun a b => subCmd c o (e a) (e b)) lt l) :
    ∃ l' : List α, l'.Perm l ∧ l'.Pairwise (fun a b => ¬ lt b a) ∧ sort q c o (l.map e) = l'.map e := by
  obtain ⟨l', h1, h2⟩ := lift e p hpe l _ (C157_same_elements hq c o (l.map e) hu)
  refine ⟨l', h2, ?_, h1⟩
  have h3 : (sort q c o (l.map e)).Pairwise (fun x y => subCmd c o x y ≤ 0) := by
    unfold sort
    split
    · rename_i hl
      match l, hl with
      | [], _ => simp
      | [a], _ => simp
    · rw [if_neg (by simp [hu])]
      exact hq.ordered _ _ hb.consistent
  rw [h1, List.pairwise_map] at h3
  refine h3.imp_of_mem ?_
  intro a b ha hb' h4 h5
  have := (hb.pos a (h2.mem_iff.mp ha) b (h2.mem_iff.mp hb')).mpr h5
  omega

theorem neg32_of {x : Int} (h : x ≠ -2147483648) : neg32 x = -x := by simp [neg32, h]

/-- An array of numbers. -/
def nums (l : List Num) : List Elem := l.map (fun n => some (.num n))
/-- An array of strings. -/
def strs (l : List Bytes) : List Elem := l.map (fun s => some (.str s))

/-- The number in a slot. -/
def numOf : Elem → Option Num
  | some (.num n) => some n
  | _ => none
/-- The string in a slot. -/
def strOf : Elem → Option Bytes
  | some (.str s) => some s
  | _ => none

theorem sub_num (c : Ctx) (o : Opts) (hc : o.compare = none) (a b : Num) : subCmd c o (some (.num a)) (some (.num b)) =
    if o.desc then (if numEq b a then 0 else if numLt b a then -1 else 1)
    else -(if numEq b a then 0 else if numLt b a then -1 else 1) := by
  have hr : rawCmp c o (some (.num a)) (some (.num b)) = (if numEq b a then 0 else if numLt b a then -1 else 1) := by
    simp [rawCmp, hc, valueCmp, vt, sameCmp]
  rw [subCmd, hr]
  congr 1
  apply neg32_of
  split
  · decide
  · split <;> decide

theorem num_tr (a b d : Num) (ha : a ≠ .nan) (hb : b ≠ .nan) (hd : d ≠ .nan) (h1 : ¬ numLt b a = true)
    (h2 : ¬ numLt d b = true) : ¬ numLt d a = true := by
  rw [numLt_place _ _ hb ha] at h1
  rw [numLt_place _ _ hd hb] at h2
  rw [numLt_place _ _ hd ha]
  unfold lt2 at *
  omega

theorem nums_by (c : Ctx) (o : Opts) (hc : o.compare = none) (l : List Num) (hn : .nan ∉ l) :
    By (fun a b => subCmd c o (some (.num a)) (some (.num b)))
      (fun a b => if o.desc then numLt b a = true else numLt a b = true) l := by
  have hn' : ∀ a ∈ l, a ≠ .nan := fun a ha e => hn (e ▸ ha)
  constructor
  · intro a ha b hb
    have h := numCmp a b (hn' a ha) (hn' b hb)
    simp only [sub_num c o hc]
    split
    · exact h.2
    · exact Iff.trans (by omega) h.1
  · intro a ha b hb
    have h := numCmp a b (hn' a ha) (hn' b hb)
    simp only [sub_num c o hc]
    split
    · exact h.1
    · exact Iff.trans (by omega) h.2
  · intro a ha b hb d hd
    split
    · intro h1 h2
      exact num_tr d b a (hn' d hd) (hn' b hb) (hn' a ha) h2 h1
    · exact num_tr a b d (hn' a ha) (hn' b hb) (hn' d hd)

/-- **C158** `sort()` puts numbers in ascending order (NaN excepted). -/
theorem C158_numbers_partial (hq : Qsort q) (c : Ctx) (l : List Num) (hn : .nan ∉ l) :
    ∃ l', l'.Perm l ∧ l'.Pairwise (fun a b => numLt b a = false) ∧ sort q c .default (nums l) = nums l' := by
  obtain ⟨l', h1, h2, h3⟩ := sort_by hq c .default rfl (fun n => some (.num n)) numOf (fun _ => rfl) _ l
    (nums_by c .default rfl l hn)
  refine ⟨l', h1, h2.imp ?_, h3⟩
  intro a b h
  simpa [Opts.default] using h

/-- **C158** With mode "desc" in descending order. -/
theorem C158_numbers_desc_partial (hq : Qsort q) (c : Ctx) (l : List Num) (hn : .nan ∉ l) :
    ∃ l', l'.Perm l ∧ l'.Pairwise (fun a b => numLt a b = false) ∧
      sort q c ⟨true, false, false, false, none⟩ (nums l) = nums l' := by
  obtain ⟨l', h1, h2, h3⟩ := sort_by hq c ⟨true, false, false, false, none⟩ rfl (fun n => some (.num n)) numOf
    (fun _ => rfl) _ l (nums_by c _ rfl l hn)
  refine ⟨l', h1, h2.imp ?_, h3⟩
  intro a b h
  simpa using h

example (c : Ctx) : ∃ l', l'.Perm [Num.fin 3, .inf true, .fin 1] ∧ l'.Pairwise (fun a b => numLt b a = false) ∧
    sort msort c .default (nums [Num.fin 3, .inf true, .fin 1]) = nums l' :=
  C158_numbers_partial msort_qsort c _ (by decide)

theorem sub_str (c : Ctx) (o : Opts) (hc : o.compare = none) (a b : Bytes) :
    subCmd c o (some (.str a)) (some (.str b)) = if o.desc then strcmpDict o b a else neg32 (strcmpDict o b a) := by
  have hr : rawCmp c o (some (.str a)) (some (.str b)) = strcmpDict o b a := by
    simp [rawCmp, hc, valueCmp, vt, sameCmp]
  rw [subCmd, hr]

/-- If the strings are compared by a key, they are in the order of the key. -/
theorem strs_by (c : Ctx) (o : Opts) (hc : o.compare = none) (l : List Bytes) (k : Bytes → Bytes)
    (hk : ∀ a ∈ l, ∀ b ∈ l, strcmpDict o a b = strcmpL (k a) (k b)) :
    By (fun a b => subCmd c o (some (.str a)) (some (.str b)))
      (fun a b => if o.desc then k b < k a else k a < k b) l := by
  have tot : ∀ x y z : Bytes, ¬ y < x → ¬ z < y → ¬ z < x := by
    intro x y z h1 h2
    exact List.not_lt.mpr (List.le_trans (List.not_lt.mp h1) (List.not_lt.mp h2))
  constructor
  · intro a ha b hb
    have h := strcmpL_lt (k b) (k a)
    simp only [sub_str c o hc, hk b hb a ha]
    split
    · exact h.1
    · rw [neg32_of (by omega), ← h.2.1]; omega
  · intro a ha b hb
    have h := strcmpL_lt (k b) (k a)
    simp only [sub_str c o hc, hk b hb a ha]
    split
    · exact h.2.1
    · rw [neg32_of (by omega), ← h.1]; omega
  · intro a ha b hb d hd
    split
    · intro h1 h2; exact tot _ _ _ h2 h1
    · exact tot _ _ _

/-- **C158** `sort()` puts strings in ascending order of their bytes, which for UTF-8 is that of the characters (strings
with NUL excepted). -/
theorem C158_strings_partial (hq : Qsort q) (c : Ctx) (l : List Bytes) (hz : ∀ s ∈ l, 0 ∉ s) :
    ∃ l', l'.Perm l ∧ l'.Pairwise (· ≤ ·) ∧ sort q c .default (strs l) = strs l' := by
  obtain ⟨l', h1, h2, h3⟩ := sort_by hq c .default rfl (fun s => some (.str s)) strOf (fun _ => rfl) _ l
    (strs_by c .default rfl l id (fun a ha b hb => by
      simp [strcmpDict, Opts.default, strcmp_noNul a b (hz a ha) (hz b hb)]))
  refine ⟨l', h1, h2.imp ?_, h3⟩
  intro a b h
  simpa [Opts.default, List.not_lt] using h

/-- **C158** With mode "desc" in descending order. -/
theorem C158_strings_desc_partial (hq : Qsort q) (c : Ctx) (l : List Bytes) (hz : ∀ s ∈ l, 0 ∉ s) :
    ∃ l', l'.Perm l ∧ l'.Pairwise (fun a b => b ≤ a) ∧ sort q c ⟨true, false, false, false, none⟩ (strs l) = strs l' := by
  obtain ⟨l', h1, h2, h3⟩ := sort_by hq c ⟨true, false, false, false, none⟩ rfl (fun s => some (.str s)) strOf
    (fun _ => rfl) _ l (strs_by c _ rfl l id (fun a ha b hb => by
      simp [strcmpDict, strcmp_noNul a b (hz a ha) (hz b hb)]))
  refine ⟨l', h1, h2.imp ?_, h3⟩
  intro a b h
  simpa [List.not_lt] using h

/-- **C158** With mode "nocase" in the order of the strings in small letters. -/
theorem C158_nocase_partial (hq : Qsort q) (c : Ctx) (l : List Bytes) (hz : ∀ s ∈ l, 0 ∉ s) :
    ∃ l', l'.Perm l ∧ l'.Pairwise (fun a b => a.map lower ≤ b.map lower) ∧
      sort q c ⟨false, false, true, false, none⟩ (strs l) = strs l' := by
  obtain ⟨l', h1, h2, h3⟩ := sort_by hq c ⟨false, false, true, false, none⟩ rfl (fun s => some (.str s)) strOf
    (fun _ => rfl) _ l (strs_by c _ rfl l (·.map lower) (fun a ha b hb => by
      simp [strcmpDict, strcasecmp, strcmp_noNul _ _ (lower_nul a (hz a ha)) (lower_nul b (hz b hb))]))
  refine ⟨l', h1, h2.imp ?_, h3⟩
  intro a b h
  simpa [List.not_lt] using h

example (c : Ctx) : ∃ l', l'.Perm [asc "b", asc "", asc "B", asc "ba"] ∧ l'.Pairwise (· ≤ ·) ∧
    sort msort c .default (strs [asc "b", asc "", asc "B", asc "ba"]) = strs l' :=
  C158_strings_partial msort_qsort c _ (by decide)

/-! ### what is not in order -/

theorem msort_two (cmp : Elem → Elem → Int) (x y : Elem) :
    msort cmp [x, y] = if cmp x y ≤ 0 then [x, y] else [y, x] := by
  rw [msort]
  simp [msort, List.cons_merge_cons]

/-- **C158** (the code does not do this) Numbers are in order whatever else is in the array: `undefined` keeps 2 in front
of 1. -/
theorem C158_mixed_refuted (c : Ctx) : ∃ q, Qsort q ∧
    sort q c .default [some (.num (.fin 2)), some .undef, some (.num (.fin 1))] =
      [some (.num (.fin 2)), some .undef, some (.num (.fin 1))] := by
  refine ⟨msort, msort_qsort, ?_⟩
  have h1 : subCmd c .default (some (.num (.fin 2))) (some .undef) = -2147483648 := by
    simp [subCmd, rawCmp, Opts.default, valueCmp, vt, toPrim, toNum, sub, toInt, neg32]
  have h2 : subCmd c .default (some .undef) (some (.num (.fin 1))) = -2147483648 := by
    simp [subCmd, rawCmp, Opts.default, valueCmp, vt, toPrim, toNum, sub, toInt, neg32]
  simp only [sort]
  rw [msort]
  simp [Opts.default] at h1 h2 ⊢
  rw [msort_two, if_pos (by rw [h2]; omega)]
  rw [msort]
  simp [List.cons_merge_cons, h1]

/-- **C158** (the code does not do this) Slots without an element come last: they come first. -/
theorem C158_holes_refuted (c : Ctx) : ∃ q, Qsort q ∧
    sort q c .default [some (.num (.fin 1)), none] = [none, some (.num (.fin 1))] := by
  refine ⟨msort, msort_qsort, ?_⟩
  simp [sort, msort_two, Opts.default, subCmd, rawCmp, neg32]

/-- **C158** (the code does not do this) Strings with NUL are in order: what follows the NUL is not compared. -/
theorem C158_nul_refuted (c : Ctx) : ∃ q, Qsort q ∧
    sort q c .default (strs [[65, 0, 66], [65, 0, 65]]) = strs [[65, 0, 66], [65, 0, 65]] := by
  refine ⟨msort, msort_qsort, ?_⟩
  simp [sort, strs, msort_two, Opts.default, subCmd, rawCmp, valueCmp, vt, sameCmp, strcmpDict, strcmp, Value.cstr,
    strcmpL, neg32]

end Verif.Sort
