import Verif.Sort.Props

/-! C158 (mode "dict"), C159 (comparison functions), C160 (unique). -/

namespace Verif.Sort

open Verif.Value (Val Num Ctx OKind numEq numLt toInt sub toNum toPrim vt strcmp strcmpL one)
open Verif.Dict (dictCmp cmpLoop stripZeros numLoop nd hd digit dropComma Plain Before)

variable {q : (Elem → Elem → Int) → List Elem → List Elem}

/-! ### mode "dict" -/

theorem strip_cnt (l : Bytes) : (stripZeros l).2 ≤ l.length := by
  induction l with
  | nil => simp [stripZeros]
  | cons c t ih => simp only [stripZeros]; split <;> simp; omega

theorem nd_bound (d : Int) (a b : UInt8) (hd : -256 ≤ d ∧ d ≤ 256) : -256 ≤ nd d a b ∧ nd d a b ≤ 256 := by
  have h1 := a.toNat_lt
  have h2 := b.toNat_lt
  unfold nd
  split <;> omega

theorem numLoop_bound (n : Nat) (l r : Bytes) (d : Int) (hn : l.length ≤ n) (hd : -256 ≤ d ∧ d ≤ 256) :
    (∀ x, numLoop d l r = .inl x → -256 ≤ x ∧ x ≤ 256) ∧
    (∀ l2 r2, numLoop d l r = .inr (l2, r2) → l2.length ≤ l.length ∧ r2.length ≤ r.length) := by
  induction n generalizing l r d with
  | zero =>
    have : l = [] := List.length_eq_zero_iff.mp (by omega)
    subst this
    constructor
    · intro x h; simp [numLoop] at h
    · intro l2 r2 h; simp [numLoop] at h; obtain ⟨rfl, rfl⟩ := h; simp
  | succ n ih =>
    match l, r with
    | [], r => constructor
               · intro x h; simp [numLoop] at h
               · intro l2 r2 h; simp [numLoop] at h; obtain ⟨rfl, rfl⟩ := h; simp
    | a :: l, [] => constructor
                    · intro x h; simp [numLoop] at h
                    · intro l2 r2 h; simp [numLoop] at h; obtain ⟨rfl, rfl⟩ := h; simp
    | a :: l, b :: r =>
      have hb := nd_bound d a b hd
      have hl := Dict.dropComma_length l
      have hr := Dict.dropComma_length r
      rw [numLoop]
      simp only [List.length_cons] at hn ⊢
      split
      · split
        · constructor
          · intro x h; injection h with h; omega
          · intro l2 r2 h; injection h
        · split
          · constructor
            · intro x h; injection h with h; omega
            · intro l2 r2 h; injection h
          · constructor
            · intro x h; injection h
            · intro l2 r2 h; injection h with h; obtain ⟨rfl, rfl⟩ := Prod.mk.inj h; omega
      · split
        · constructor
          · intro x h; injection h with h; omega
          · intro l2 r2 h; injection h
        · have := ih (dropComma l) (dropComma r) (nd d a b) (by omega) hb
          refine ⟨this.1, fun l2 r2 h => ?_⟩
          have := this.2 l2 r2 h
          omega

theorem cmpLoop_bound (n : Nat) (B : Int) (sec : Int) (l r : Bytes) (hn : l.length ≤ n) (hl : (l.length : Int) ≤ B)
    (hr : (r.length : Int) ≤ B) (hB : 300 ≤ B) (hs : -B ≤ sec ∧ sec ≤ B) : -B ≤ cmpLoop sec l r ∧ cmpLoop sec l r ≤ B := by
  induction n generalizing sec l r with
  | zero =>
    have : l = [] := List.length_eq_zero_iff.mp (by omega)
    subst this
    have h0 : hd [] = 0 := rfl
    have hr' := (hd r).toNat_lt
    rw [cmpLoop]
    rw [h0]
    rw [dif_neg (by intro h; exact absurd h.2 (by decide))]
    split
    · rw [dif_pos rfl]; exact hs
    · split
      · rename_i h; exact absurd h.1 (by decide)
      · split
        · rename_i h; exact absurd h.2 (by decide)
        · have : (0 : UInt8).toNat = 0 := rfl
          omega
  | succ n ih =>
    have hl' := (hd l).toNat_lt
    have hr' := (hd r).toNat_lt
    rw [cmpLoop]
    split
    · rename_i hdig
      have s1 := Dict.stripZeros_length l
      have s2 := Dict.stripZeros_length r
      have c1 := strip_cnt l
      have c2 := strip_cnt r
      have hb := numLoop_bound _ (stripZeros l).1 (stripZeros r).1 0 (Nat.le_refl _) (by omega)
      split
      · rename_i d hh
        have := hb.1 d hh
        omega
      · rename_i l2 r2 hh
        have := hb.2 l2 r2 hh
        have hlt := Dict.numLoop_length _ _ _ _ _ _ (Nat.le_refl _)
          (Dict.stripZeros_ne l (Dict.hd_digit_ne hdig.2)) (Dict.stripZeros_ne r (Dict.hd_digit_ne hdig.1)) hh
        refine ih _ l2 r2 (by omega) (by omega) (by omega) ?_
        split <;> omega
    · have htl : l.tail.length ≤ l.length - 1 := by simp
      have htr : r.tail.length ≤ r.length := by simp
      split
      · split
        · exact hs
        · exact ih _ _ _ (by omega) (by omega) (by omega) hs
      · split
        · split
          · omega
          · split
            · omega
            · refine ih _ _ _ (by omega) (by omega) (by omega) ?_
              split <;> omega
        · split
          · split
            · omega
            · split
              · omega
              · refine ih _ _ _ (by omega) (by omega) (by omega) ?_
                split <;> omega
          · omega

theorem plain_cstr (s : Bytes) (h : Plain s) : Value.cstr s = s := by
  unfold Value.cstr
  induction s with
  | nil => rfl
  | cons c s ih =>
    have h1 := (h c (by simp)).1
    have ih' := ih (fun x hx => h x (by simp [hx]))
    simp only [List.takeWhile, h1, ne_eq, not_false_eq_true, decide_true]
    rw [ih']

/-- **C158** With mode "dict" strings are in dictionary order: case does not matter but between strings that are equal
otherwise, and numbers inside are compared by value (`Before`, see C22).

Missing: strings with commas or characters between `Z` and `a`, for which the comparison is not an order (C22). -/
theorem C158_dict_partial (hq : Qsort q) (c : Ctx) (l : List Bytes) (hp : ∀ s ∈ l, Plain s)
    (hs : ∀ s ∈ l, s.length < 2 ^ 31) :
    ∃ l', l'.Perm l ∧ l'.Pairwise (fun a b => ¬ Before b a) ∧ sort q c ⟨false, true, false, false, none⟩ (strs l) = strs l' := by
  refine sort_by hq c ⟨false, true, false, false, none⟩ rfl (fun s => some (.str s)) strOf (fun _ => rfl) Before l ?_
  have hc : ∀ a ∈ l, ∀ b ∈ l, subCmd c ⟨false, true, false, false, none⟩ (some (.str a)) (some (.str b)) = dictCmp a b := by
    intro a ha b hb
    have h1 := hs a ha
    have h2 := hs b hb
    rw [sub_str c _ rfl]
    simp only [strcmpDict, if_true, plain_cstr a (hp a ha), plain_cstr b (hp b hb), Bool.false_eq_true, if_false]
    have := cmpLoop_bound _ 2147483647 0 b a (Nat.le_refl _) (by omega) (by omega) (by omega) (by omega)
    rw [neg32_of (by unfold dictCmp; omega), Dict.C22_antisymmetric a b]
    omega
  constructor
  · intro a ha b hb
    show subCmd _ _ _ _ < 0 ↔ _
    rw [hc a ha b hb]
    exact (Dict.C22_is_dictionary_order_partial a b (hp a ha) (hp b hb)).1
  · intro a ha b hb
    show 0 < subCmd _ _ _ _ ↔ _
    rw [hc a ha b hb]
    exact (Dict.C22_is_dictionary_order_partial a b (hp a ha) (hp b hb)).2
  · intro a ha b hb d hd h1 h2 h3
    have o1 := Dict.C22_is_dictionary_order_partial b a (hp b hb) (hp a ha)
    have o2 := Dict.C22_is_dictionary_order_partial d b (hp d hd) (hp b hb)
    have o3 := Dict.C22_is_dictionary_order_partial d a (hp d hd) (hp a ha)
    have z1 : ¬ dictCmp b a < 0 := fun h => h1 (o1.1.mp h)
    have z2 : ¬ dictCmp d b < 0 := fun h => h2 (o2.1.mp h)
    have z3 := o3.1.mpr h3
    by_cases e1 : dictCmp b a = 0
    · rw [(Dict.C22_zero_partial b a (hp b hb) (hp a ha)).mp e1] at z2; exact z2 z3
    by_cases e2 : dictCmp d b = 0
    · rw [(Dict.C22_zero_partial d b (hp d hd) (hp b hb)).mp e2] at z3; exact z1 z3
    have y1 := Dict.C22_antisymmetric b a
    have y2 := Dict.C22_antisymmetric d b
    have y3 := Dict.C22_antisymmetric d a
    have := Dict.C22_transitive_partial a b d (hp a ha) (hp b hb) (hp d hd) (by omega) (by omega)
    omega

example (c : Ctx) : ∃ l', l'.Perm [asc "x10", asc "X9", asc "x9"] ∧ l'.Pairwise (fun a b => ¬ Before b a) ∧
    sort msort c ⟨false, true, false, false, none⟩ (strs [asc "x10", asc "X9", asc "x9"]) = strs l' :=
  C158_dict_partial msort_qsort c _ (by unfold Plain; decide) (by decide)

/-! ### C159: comparison functions -/

theorem one_pos : 0 < one := Nat.two_pow_pos _

theorem toInt_int (k : Int) (h : k.natAbs < 2147483648) : toInt (.fin (k * one)) = k := by
  have h1 : (k * (one : Int)).natAbs = k.natAbs * one := by rw [Int.natAbs_mul]; simp
  have hp := one_pos
  unfold toInt
  simp only [h1, Nat.mul_div_cancel _ hp, h, if_true]
  by_cases hk : k < 0
  · have : k * (one : Int) < 0 := Int.mul_neg_of_neg_of_pos hk (by exact_mod_cast hp)
    rw [if_pos this]; omega
  · have : ¬ k * (one : Int) < 0 := Int.not_lt.mpr (Int.mul_nonneg (by omega) (by exact_mod_cast hp.le))
    rw [if_neg this]; omega

/-- The comparison function `g`: it returns whole numbers of at most 31 bits. -/
def byInt (g : Val → Val → Int) : Opts := ⟨false, false, false, false, some (fun a b => .num (.fin (g a b * one)))⟩

theorem sub_fun (c : Ctx) (g : Val → Val → Int) (a b : Val) (h : (g a b).natAbs < 2147483648) :
    subCmd c (byInt g) (some a) (some b) = g a b := by
  simp only [subCmd, byInt, rawCmp, Bool.false_eq_true, if_false, toInt_int _ h]
  rw [neg32_of (x := g a b) (by omega), neg32_of (by omega)]
  omega

/-- **C159** With a comparison function that returns whole numbers below 2^31, negative, zero or positive, the result is
in the order of the function, if it is one.

Missing: other numbers and functions that throw, see below. -/
theorem C159_function_partial (hq : Qsort q) (c : Ctx) (g : Val → Val → Int) (l : List Val)
    (hr : ∀ a ∈ l, ∀ b ∈ l, (g a b).natAbs < 2147483648) (hs : ∀ a ∈ l, ∀ b ∈ l, g a b < 0 ↔ 0 < g b a)
    (ht : ∀ a ∈ l, ∀ b ∈ l, ∀ d ∈ l, g a b ≤ 0 → g b d ≤ 0 → g a d ≤ 0) :
    ∃ l' : List Val, l'.Perm l ∧ l'.Pairwise (fun a b => g a b ≤ 0) ∧ sort q c (byInt g) (l.map some) = l'.map some := by
  obtain ⟨l', h1, h2, h3⟩ := sort_by hq c (byInt g) rfl (fun v => some v) id (fun _ => rfl) (fun a b => g a b < 0) l (by
    constructor
    · intro a ha b hb
      show subCmd _ _ _ _ < 0 ↔ _
      rw [sub_fun c g a b (hr a ha b hb)]
    · intro a ha b hb
      show 0 < subCmd _ _ _ _ ↔ _
      rw [sub_fun c g a b (hr a ha b hb), hs b hb a ha]
    · intro a ha b hb d hd h1 h2 h3
      have e1 := hs b hb a ha
      have e2 := hs d hd b hb
      have e3 := hs d hd a ha
      have := ht a ha b hb d hd (by omega) (by omega)
      omega)
  refine ⟨l', h1, h2.imp_of_mem ?_, h3⟩
  intro a b ha hb h
  have := hs b (h1.mem_iff.mp hb) a (h1.mem_iff.mp ha)
  omega

/-- The function `(a, b) => a - b`. -/
def minus : Val → Val → Ret
  | .num a, .num b => .num (sub a b)
  | _, _ => .other

/-- **C159** (the code does not do this) With `(a, b) => a - b` numbers come in ascending order: 1.5 stays before 1.25,
the difference being cut to 0. -/
theorem C159_fraction_refuted (c : Ctx) : ∃ q, Qsort q ∧
    sort q c ⟨false, false, false, false, some minus⟩ (nums [.fin (3 * 2 ^ 1073), .fin (5 * 2 ^ 1072)]) =
      nums [.fin (3 * 2 ^ 1073), .fin (5 * 2 ^ 1072)] := by
  refine ⟨msort, msort_qsort, ?_⟩
  have h : neg32 (neg32 (toInt (sub (.fin (3 * 2 ^ 1073)) (.fin (5 * 2 ^ 1072))))) ≤ 0 := by decide +kernel
  simp only [sort, nums, List.map_cons, List.map_nil, List.length_cons, List.length_nil, msort_two]
  rw [if_neg (by omega), if_neg (by simp)]
  simp only [subCmd, rawCmp, minus, Bool.false_eq_true, if_false]
  rw [if_pos h]

/-- **C159** (the code does not do this) Nor if they are far apart: 0 stays before -3000000000. -/
theorem C159_large_refuted (c : Ctx) : ∃ q, Qsort q ∧
    sort q c ⟨false, false, false, false, some minus⟩ (nums [.fin 0, .fin (-3000000000 * one)]) =
      nums [.fin 0, .fin (-3000000000 * one)] := by
  refine ⟨msort, msort_qsort, ?_⟩
  have h : neg32 (neg32 (toInt (sub (.fin 0) (.fin (-3000000000 * one))))) ≤ 0 := by decide +kernel
  simp only [sort, nums, List.map_cons, List.map_nil, List.length_cons, List.length_nil, msort_two]
  rw [if_neg (by omega), if_neg (by simp)]
  simp only [subCmd, rawCmp, minus, Bool.false_eq_true, if_false]
  rw [if_pos h]

/-- **C159** (the code does not do this) An exception in the function ends the sorting: it is taken for -1. -/
theorem C159_exception_refuted (c : Ctx) (f : Val → Val → Ret) (l : List Elem) :
    sort q c ⟨false, false, false, false, some f⟩ l =
      sort q c ⟨false, false, false, false, some (fun a b => match f a b with
        | .error => .num (.fin (-1 * one))
        | r => r)⟩ l := by
  have hc : subCmd c ⟨false, false, false, false, some f⟩ =
      subCmd c ⟨false, false, false, false, some (fun a b => match f a b with
        | .error => .num (.fin (-1 * one))
        | r => r)⟩ := by
    funext x y
    simp only [subCmd, Bool.false_eq_true, if_false]
    congr 1
    cases x with
    | none => cases y <;> rfl
    | some a => cases y with
      | none => rfl
      | some b =>
        simp only [rawCmp]
        cases f a b with
        | error => show 1 = neg32 (toInt (.fin (-1 * one))); rw [toInt_int (-1) (by decide)]; decide
        | num n => rfl
        | other => rfl
  unfold sort
  rw [hc]

/-! ### C160: unique -/

theorem uniq_spec {cmp : Elem → Elem → Int} (x : Elem) (r : List Elem) (hn : none ∉ x :: r)
    (hc : Consistent cmp (x :: r)) (hp : (x :: r).Pairwise (fun a b => cmp a b ≤ 0)) :
    (uniq cmp x r).Pairwise (fun a b => cmp a b < 0) ∧ ∀ y ∈ x :: r, ∃ z ∈ uniq cmp x r, cmp z y = 0 := by
  have self : ∀ y ∈ x :: r, cmp y y = 0 := by
    intro y hy
    have := hc.anti y hy y hy
    omega
  induction r generalizing x with
  | nil =>
    refine ⟨by simp [uniq], ?_⟩
    intro y hy
    have e : y = x := by simpa using hy
    subst e
    exact ⟨y, by simp [uniq], self y hy⟩
  | cons y r ih =>
    have hp' := List.pairwise_cons.mp hp
    have hxn : x ≠ none := by intro e; exact hn (by simp [e])
    rw [uniq, if_neg (by intro h; exact hxn h.1)]
    have sub2 : ∀ z, z ∈ y :: r → z ∈ x :: y :: r := fun z hz => List.mem_cons_of_mem _ hz
    by_cases h : cmp x y = 0
    · rw [if_neg (by simp [h])]
      have sub1 : ∀ z, z ∈ x :: r → z ∈ x :: y :: r := by
        intro z hz
        rcases List.mem_cons.mp hz with rfl | hz
        · simp
        · simp [hz]
      obtain ⟨i1, i2⟩ := ih x (fun h => hn (sub1 _ h))
        ⟨fun a ha b hb => hc.anti a (sub1 a ha) b (sub1 b hb),
          fun a ha b hb d hd => hc.trans a (sub1 a ha) b (sub1 b hb) d (sub1 d hd)⟩
        (List.pairwise_cons.mpr ⟨fun z hz => hp'.1 z (by simp [hz]), (List.pairwise_cons.mp hp'.2).2⟩)
        (fun z hz => self z (sub1 z hz))
      refine ⟨i1, ?_⟩
      intro z hz
      rcases List.mem_cons.mp hz with rfl | hz'
      · exact i2 z (by simp)
      · rcases List.mem_cons.mp hz' with rfl | hz''
        · obtain ⟨w, hw, hwx⟩ := i2 x (by simp)
          have hwm : w ∈ x :: z :: r := sub1 w ((uniq_sub cmp x r).subset hw)
          refine ⟨w, hw, ?_⟩
          have a1 := hc.trans w hwm x (by simp) z (by simp) (by omega) (by omega)
          have b1 := hc.anti x (by simp) z (by simp)
          have b2 := hc.anti w hwm x (by simp)
          have b3 := hc.anti z (by simp) x (by simp)
          have b4 := hc.anti x (by simp) w hwm
          have a2 := hc.trans z (by simp) x (by simp) w hwm (by omega) (by omega)
          have b5 := hc.anti z (by simp) w hwm
          omega
        · exact i2 z (by simp [hz''])
    · rw [if_pos h]
      obtain ⟨i1, i2⟩ := ih y (fun h => hn (sub2 _ h))
        ⟨fun a ha b hb => hc.anti a (sub2 a ha) b (sub2 b hb),
          fun a ha b hb d hd => hc.trans a (sub2 a ha) b (sub2 b hb) d (sub2 d hd)⟩
        hp'.2 (fun z hz => self z (sub2 z hz))
      refine ⟨List.pairwise_cons.mpr ⟨?_, i1⟩, ?_⟩
      · intro z hz
        have hzm := (uniq_sub cmp y r).subset hz
        have hxz := hp'.1 z hzm
        have hxy := hp'.1 y (by simp)
        by_cases hz0 : cmp x z = 0
        · exfalso
          have hyz : cmp y z ≤ 0 := by
            rcases List.mem_cons.mp hzm with rfl | hzr
            · have := self z (sub2 z hzm); omega
            · exact (List.pairwise_cons.mp hp'.2).1 z hzr
          have b1 := hc.anti z (sub2 z hzm) x (by simp)
          have a1 := hc.trans y (by simp) z (sub2 z hzm) x (by simp) hyz (by omega)
          have b2 := hc.anti y (by simp) x (by simp)
          omega
        · omega
      · intro z hz
        rcases List.mem_cons.mp hz with rfl | hz'
        · exact ⟨z, by simp, self z (by simp)⟩
        · obtain ⟨w, hw, hwz⟩ := i2 z hz'
          exact ⟨w, by simp [hw], hwz⟩

/-- **C160** With unique, an array of numbers (no NaN) has each of its numbers once, in ascending order. -/
theorem C160_unique_numbers_partial (hq : Qsort q) (c : Ctx) (l : List Num) (hn : .nan ∉ l) :
    ∃ l', sort q c ⟨false, false, false, true, none⟩ (nums l) = nums l' ∧ l'.Pairwise (fun a b => numLt a b = true) ∧
      ∀ a, a ∈ l' ↔ a ∈ l := by
  have hn' : ∀ a ∈ l, a ≠ .nan := fun a ha e => hn (e ▸ ha)
  generalize ho : (⟨false, false, false, true, none⟩ : Opts) = o
  have hcmp : o.compare = none := by rw [← ho]
  have hdesc : o.desc = false := by rw [← ho]
  have hun : o.unique = true := by rw [← ho]
  have hby := nums_by c o hcmp l hn
  by_cases hl : l.length ≤ 1
  · refine ⟨l, ?_, ?_, fun a => Iff.rfl⟩
    · simp [sort, nums, hl]
    · match l, hl with
      | [], _ => simp
      | [a], _ => simp
  · obtain ⟨s, h1, h2⟩ := lift (fun n => some (.num n)) numOf (fun _ => rfl) l _ (hq.perm (subCmd c o) (nums l))
    have hcon : Consistent (subCmd c o) (nums l) := By.consistent hby
    have hord := hq.ordered (subCmd c o) (nums l) hcon
    have hsort : sort q c o (nums l) = uniqAll (subCmd c o) (q (subCmd c o) (nums l)) := by
      unfold sort
      rw [if_neg (by simp [nums]; omega), if_pos hun]
    rw [hsort]
    have hperm := hq.perm (subCmd c o) (nums l)
    rw [h1] at hord hperm ⊢
    cases s with
    | nil =>
      have := h2.length_eq
      simp at this
      omega
    | cons a s =>
      simp only [List.map_cons, uniqAll] at hord hperm ⊢
      have hcon' : Consistent (subCmd c o) (some (.num a) :: s.map (fun n => some (.num n))) :=
        ⟨fun x hx y hy => hcon.anti x (hperm.mem_iff.mp hx) y (hperm.mem_iff.mp hy),
          fun x hx y hy z hz => hcon.trans x (hperm.mem_iff.mp hx) y (hperm.mem_iff.mp hy) z (hperm.mem_iff.mp hz)⟩
      obtain ⟨u1, u2⟩ := uniq_spec (some (.num a)) (s.map (fun n => some (.num n))) (by simp) hcon' hord
      have usub := uniq_sub (subCmd c o) (some (.num a)) (s.map (fun n => some (.num n)))
      have hex : ∃ l', uniq (subCmd c o) (some (.num a)) (s.map (fun n => some (.num n))) = nums l' ∧ ∀ x ∈ l', x ∈ a :: s := by
        have : ∀ r : List Elem, (∀ x ∈ r, ∃ n ∈ a :: s, x = some (.num n)) → ∃ l', r = nums l' ∧ ∀ x ∈ l', x ∈ a :: s := by
          intro r
          induction r with
          | nil => intro _; exact ⟨[], rfl, by simp⟩
          | cons y r ih =>
            intro h
            obtain ⟨n, hn1, rfl⟩ := h y (by simp)
            obtain ⟨l', e1, e2⟩ := ih (fun x hx => h x (by simp [hx]))
            refine ⟨n :: l', by rw [e1]; rfl, ?_⟩
            intro x hx
            rcases List.mem_cons.mp hx with rfl | hx
            · exact hn1
            · exact e2 x hx
        refine this _ (fun x hx => ?_)
        have hx := usub.subset hx
        rcases List.mem_cons.mp hx with rfl | hx
        · exact ⟨a, by simp, rfl⟩
        · obtain ⟨n, hn1, rfl⟩ := List.mem_map.mp hx
          exact ⟨n, by simp [hn1], rfl⟩
      obtain ⟨l', e1, e2⟩ := hex
      refine ⟨l', e1, ?_, ?_⟩
      · rw [e1, nums, List.pairwise_map] at u1
        refine u1.imp_of_mem ?_
        intro x y hx hy h
        have := (hby.neg x (h2.mem_iff.mp (e2 x hx)) y (h2.mem_iff.mp (e2 y hy))).mp h
        simpa [hdesc] using this
      · intro x
        constructor
        · intro hx; exact h2.mem_iff.mp (e2 x hx)
        · intro hx
          have hx' := h2.mem_iff.mpr hx
          have hm : some (Val.num x) ∈ some (Val.num a) :: s.map (fun n => some (.num n)) := by
            rcases List.mem_cons.mp hx' with rfl | h
            · simp
            · exact List.mem_cons_of_mem _ (List.mem_map.mpr ⟨x, h, rfl⟩)
          obtain ⟨z, hz, hzx⟩ := u2 _ hm
          rw [e1] at hz
          obtain ⟨n, hn1, rfl⟩ := List.mem_map.mp hz
          have hnl := h2.mem_iff.mp (e2 n hn1)
          have i1 := (hby.neg n hnl x hx)
          have i2 := (hby.pos n hnl x hx)
          have j1 : ¬ numLt n x = true := by
            intro h; have := i1.mpr (by simpa [hdesc] using h); omega
          have j2 : ¬ numLt x n = true := by
            intro h; have := i2.mpr (by simpa [hdesc] using h); omega
          rw [numLt_place _ _ (hn' n hnl) (hn' x hx)] at j1
          rw [numLt_place _ _ (hn' x hx) (hn' n hnl)] at j2
          have hpl : place n = place x := by
            unfold lt2 at j1 j2
            rw [Prod.ext_iff]; omega
          have := (numEq_place n x (hn' n hnl) (hn' x hx)).mpr hpl
          have hnx : n = x := by
            cases n <;> cases x <;> simp_all [numEq]
          rw [← hnx]; exact hn1

example (c : Ctx) : ∃ l', sort msort c ⟨false, false, false, true, none⟩ (nums [.fin 5, .fin 3, .fin 5]) = nums l' ∧
    l'.Pairwise (fun a b => numLt a b = true) ∧ ∀ a, a ∈ l' ↔ a ∈ [Num.fin 5, .fin 3, .fin 5] :=
  C160_unique_numbers_partial msort_qsort c _ (by decide)

/-- **C160** (the code does not do this) Equal elements are removed also if they are missing ones. -/
theorem C160_holes_refuted (c : Ctx) : ∃ q, Qsort q ∧
    sort q c ⟨false, false, false, true, none⟩ [none, none] = [none, none] := by
  refine ⟨msort, msort_qsort, ?_⟩
  simp [sort, msort_two, uniqAll, uniq]

/-- The values in the array are alive, and nothing is behind its end. -/
def Buf.Fine (b : Buf) : Prop :=
  (∀ i p, i < b.cnt → b.arr[i]? = some (some p) → b.refs p = (b.arr.count (some p))) ∧
  ∀ i : Nat, b.cnt ≤ i → (b.arr[i]?).join = none

/-- **C160** (the code does not do this) After unique the array can be used as any other: three values, the first two
equal, become two; the next `push` frees the second, which stays in the array. -/
theorem C160_memory_refuted :
    ∃ (b : Buf) (same : Nat → Nat → Bool) (p i v : Nat), b.Fine ∧ (push (uniqBuf same b) p).arr[i]? = some (some v) ∧
      i < (push (uniqBuf same b) p).cnt ∧ (push (uniqBuf same b) p).refs v = 0 := by
  refine ⟨⟨[some 1, some 2, some 3, none], 3, fun k => if k = 1 ∨ k = 2 ∨ k = 3 then 1 else 0⟩,
    fun x y => decide (x ≤ 2 ∧ y ≤ 2), 9, 1, 3, ⟨?_, ?_⟩, by decide, by decide, by decide⟩
  · intro i p hi h
    match i, hi with
    | 0, _ => simp at h; subst h; decide
    | 1, _ => simp at h; subst h; decide
    | 2, _ => simp at h; subst h; decide
  · intro i hi
    match i, hi with
    | 3, _ => rfl
    | i + 4, _ => simp

end Verif.Sort
