import Verif.Complete.Model
/-!
# The range of Info.completions: theorems (C212)
-/
namespace Verif.Complete

theorem upToNul_all : ∀ s : List UInt8, (0 : UInt8) ∉ s → upToNul s = s
  | [], _ => rfl
  | x :: s, h => by
    have := upToNul_all s (fun hm => h (List.mem_cons_of_mem _ hm))
    have hx : x ≠ 0 := fun e => h (by rw [e]; exact List.mem_cons_self)
    unfold upToNul at this ⊢
    rw [List.takeWhile_cons, if_pos (by simpa using hx), this]

theorem upToNul_at : ∀ (t r : List UInt8), (0 : UInt8) ∉ t → upToNul (t ++ 0 :: r) = t
  | [], _, _ => by unfold upToNul; simp
  | x :: t, r, h => by
    have := upToNul_at t r (fun hm => h (List.mem_cons_of_mem _ hm))
    have hx : x ≠ 0 := fun e => h (by rw [e]; exact List.mem_cons_self)
    unfold upToNul at this ⊢
    rw [List.cons_append, List.takeWhile_cons, if_pos (by simpa using hx), this]

theorem first_in {n x : Int} (h1 : 0 ≤ x) (h2 : x < n) : first n (some x) = x := by
  show (if (if x < 0 then 0 else x) ≥ n then n - 1 else if x < 0 then 0 else x) = x
  rw [if_neg (show ¬ x < 0 by omega), if_neg (by omega)]

theorem first_neg {n x : Int} (h1 : x < 0) (h2 : 0 < n) : first n (some x) = 0 := by
  show (if (if x < 0 then 0 else x) ≥ n then n - 1 else if x < 0 then 0 else x) = 0
  rw [if_pos h1, if_neg (by omega)]

theorem first_empty (x : Int) : first 0 (some x) = -1 := by
  show (if (if x < 0 then 0 else x) ≥ 0 then 0 - 1 else if x < 0 then 0 else x) = -1
  by_cases h : x < 0
  · rw [if_pos h, if_pos (by omega)]; rfl
  · rw [if_neg h, if_pos (by omega)]; rfl

theorem last_in {n x : Int} (h1 : 0 ≤ x) (h2 : x < n) : last n (some x) = x := by
  show (if (if x < 0 then n - 1 else x) ≥ n then n - 1 else if x < 0 then n - 1 else x) = x
  rw [if_neg (show ¬ x < 0 by omega), if_neg (by omega)]

theorem last_out {n x : Int} (h : x < 0 ∨ n ≤ x) : last n (some x) = n - 1 := by
  show (if (if x < 0 then n - 1 else x) ≥ n then n - 1 else if x < 0 then n - 1 else x) = n - 1
  by_cases h1 : x < 0
  · rw [if_pos h1, if_neg (by omega)]
  · rw [if_neg h1, if_pos (by omega)]

theorem stem_range (s : List UInt8) (a b : Option Int) (i j : Nat) (hs : (0 : UInt8) ∉ s) (hi : first s.length a = i) (hj : last s.length b = (j : Int) - 1)
    (h1 : i ≤ j) (h2 : j ≤ s.length) : stem s a b = some ((s.drop i).take (j - i)) := by
  have hk : last s.length b - first s.length a + 1 = ((j - i : Nat) : Int) := by omega
  unfold stem
  rw [hk, hi]
  have e : append s (i : Int) ((j - i : Nat) : Int) = some ((s.drop i).take (j - i)) := by
    unfold append
    rw [if_neg (by omega), if_neg (by omega), if_pos (by omega)]
    congr 1
    rw [Int.toNat_natCast, Int.toNat_natCast, List.drop_append_of_le_length (by omega), List.take_append_of_le_length (by rw [List.length_drop]; omega)]
  rw [e]
  dsimp only
  have hl : ((s.drop i).take (j - i)).length = j - i := by rw [List.length_take, List.length_drop]; omega
  have hn : (0 : UInt8) ∉ (s.drop i).take (j - i) := fun hm => hs (List.mem_of_mem_drop (List.mem_of_mem_take hm))
  generalize (s.drop i).take (j - i) = t at hl hn
  unfold endAt
  rw [if_neg (by rw [List.length_append, hl]; simp; omega), Int.toNat_natCast, ← hl, List.set_append_right _ _ (Nat.le_refl _), Nat.sub_self]
  congr 1
  exact upToNul_at t [] hn

/-- **C212 (part).** With a range inside the text, its bytes from `i` to `j` are completed. -/
theorem C212_inside_partial (s : List UInt8) (i j : Nat) (hs : (0 : UInt8) ∉ s) (h1 : i ≤ j) (h2 : j < s.length) :
    stem s (some i) (some j) = some ((s.drop i).take (j + 1 - i)) := by
  refine stem_range s _ _ i (j + 1) hs ?_ ?_ (by omega) (by omega)
  · exact first_in (by omega) (by omega)
  · rw [last_in (by omega) (by omega)]; omega

/-- **C212.** Without a range it is the whole text. -/
theorem C212_whole (s : List UInt8) (hs : (0 : UInt8) ∉ s) : stem s none none = some s := by
  have := stem_range s none none 0 s.length hs rfl rfl (by omega) (by omega)
  rw [List.drop_zero, Nat.sub_zero, List.take_length] at this
  exact this

/-- **C212 (part).** Without an end, or with one behind the text or less than zero, it is the rest; a start less than zero is zero. -/
theorem C212_rest_partial (s : List UInt8) (x : Int) (b : Option Int) (hs : (0 : UInt8) ∉ s) (hx : x < s.length) (hn : s ≠ [])
    (hb : ∀ y, b = some y → y < 0 ∨ s.length ≤ y) : stem s (some x) b = some (s.drop x.toNat) := by
  have hp : 0 < s.length := List.length_pos_iff.2 hn
  have h := stem_range s (some x) b x.toNat s.length hs (by
    by_cases h0 : x < 0
    · rw [first_neg h0 (by omega)]; omega
    · rw [first_in (by omega) hx]; omega) (by
    cases b with
    | none => rfl
    | some y => exact last_out (hb y rfl)) (by omega) (by omega)
  rw [h]
  congr 1
  exact List.take_of_length_le (by rw [List.length_drop]; omega)

/-- **C212 refuted.** An end more than one before the start: a byte before the text is written, whatever the text is. -/
theorem C212_backward_refuted (s : List UInt8) (i j : Nat) (h1 : j + 1 < i) (h2 : i < s.length) : stem s (some i) (some j) = none := by
  have hi : first s.length (some (i : Int)) = i := first_in (by omega) (by omega)
  have hj : last s.length (some (j : Int)) = j := last_in (by omega) (by omega)
  unfold stem
  rw [hi, hj]
  unfold append
  rw [if_neg (by omega), if_pos (by omega)]
  dsimp only
  unfold endAt
  rw [if_pos (by omega)]

/-- **C212 refuted.** For the empty text any start reads the byte before it. -/
theorem C212_empty_refuted (x : Int) (b : Option Int) : stem [] (some x) b = none := by
  unfold stem append
  have e : first ((([] : List UInt8).length : Nat) : Int) (some x) = -1 := first_empty x
  rw [e]
  rw [if_pos (by omega)]

example : stem (asc "foo.bar") (some 4) (some 5) = some (asc "ba") := by decide +kernel
example : stem (asc "foo.bar") (some 4) none = some (asc "bar") := by decide +kernel
example : stem (asc "foo.bar") (some 5) (some 2) = none := by decide +kernel

end Verif.Complete
