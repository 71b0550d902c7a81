import Verif.Date.Calendar

/-! Different dates have different numbers, so `gm` undoes `secs`. -/

namespace Verif.Date

open Verif

/-- The number of the first day of a year. -/
def yearStart (y : Int) : Int := 365 * (y - 1970) + ((y - 1) / 4 - (y - 1) / 100 + (y - 1) / 400 - 477)

theorem yearStart_next (y : Int) : yearStart (y + 1) = yearStart y + 365 + (if leap y then 1 else 0) := by
  unfold yearStart leap
  by_cases a : y % 4 = 0 <;> by_cases b : y % 100 = 0 <;> by_cases c : y % 400 = 0 <;> simp [a, b, c] <;> omega

theorem yearStart_mono (k : Nat) (y : Int) : yearStart y + 365 + (if leap y then 1 else 0) ≤ yearStart (y + 1 + k) := by
  induction k with
  | zero => rw [Int.ofNat_zero, Int.add_zero, yearStart_next]; omega
  | succ k ih =>
    have := yearStart_next (y + 1 + k)
    rw [show y + 1 + ((k + 1 : Nat) : Int) = y + 1 + k + 1 by omega, this]
    have : (0 : Int) ≤ (if leap (y + 1 + k) then 1 else 0) := by split <;> omega
    omega

theorem yearStart_lt (y y' : Int) (h : y < y') : yearStart y + 365 + (if leap y then 1 else 0) ≤ yearStart y' := by
  have := yearStart_mono (y' - y - 1).toNat y
  rw [show y + 1 + ((y' - y - 1).toNat : Int) = y' by omega] at this
  exact this

theorem months (m : Int) (h1 : 1 ≤ m) (h2 : m ≤ 12) :
    m = 1 ∨ m = 2 ∨ m = 3 ∨ m = 4 ∨ m = 5 ∨ m = 6 ∨ m = 7 ∨ m = 8 ∨ m = 9 ∨ m = 10 ∨ m = 11 ∨ m = 12 := by omega

theorem doy_bound (y m d : Int) (h : ValidDate y m d) :
    0 ≤ daysBefore y m + (d - 1) ∧ daysBefore y m + (d - 1) < 365 + (if leap y then 1 else 0) := by
  obtain ⟨h1, h2, h3, h4⟩ := h
  rcases months m h1 h2 with rfl | rfl | rfl | rfl | rfl | rfl | rfl | rfl | rfl | rfl | rfl | rfl <;>
    simp [daysBefore, monthLen] at * <;> cases hl : leap y <;> simp [hl] at * <;> omega

theorem month_mono (y m m' : Int) (h1 : 1 ≤ m) (h2 : m < m') (h3 : m' ≤ 12) :
    daysBefore y m + monthLen y m ≤ daysBefore y m' := by
  rcases months m h1 (by omega) with rfl | rfl | rfl | rfl | rfl | rfl | rfl | rfl | rfl | rfl | rfl | rfl <;>
  rcases months m' (by omega) h3 with rfl | rfl | rfl | rfl | rfl | rfl | rfl | rfl | rfl | rfl | rfl | rfl <;>
    first | omega | (simp [daysBefore, monthLen]; done) | (simp [daysBefore, monthLen]; cases leap y <;> simp)

theorem dayNumber_inj {y m d y' m' d' : Int} (h : ValidDate y m d) (h' : ValidDate y' m' d')
    (e : dayNumber y m d = dayNumber y' m' d') : y = y' ∧ m = m' ∧ d = d' := by
  have b := doy_bound y m d h
  have b' := doy_bound y' m' d' h'
  have e1 : yearStart y + daysBefore y m + (d - 1) = yearStart y' + daysBefore y' m' + (d' - 1) := e
  have hy : y = y' := by
    rcases Int.lt_trichotomy y y' with hlt | he | hlt
    · have := yearStart_lt y y' hlt; omega
    · exact he
    · have := yearStart_lt y' y hlt; omega
  subst hy
  obtain ⟨v1, v2, v3, v4⟩ := h
  obtain ⟨w1, w2, w3, w4⟩ := h'
  have hm : m = m' := by
    rcases Int.lt_trichotomy m m' with hlt | he | hlt
    · have := month_mono y m m' v1 hlt w2; omega
    · exact he
    · have := month_mono y m' m w1 hlt v2; omega
  subst hm
  exact ⟨rfl, rfl, by omega⟩

theorem secs_inj {c c' : TM} (h : Valid c) (h' : Valid c') (e : secs c = secs c') : c = c' := by
  obtain ⟨y, m, d, H, M, S⟩ := c
  obtain ⟨y', m', d', H', M', S'⟩ := c'
  obtain ⟨v, a1, a2, a3, a4, a5, a6⟩ := h
  obtain ⟨v', b1, b2, b3, b4, b5, b6⟩ := h'
  simp only [secs] at *
  have hd : dayNumber y m d = dayNumber y' m' d' := by omega
  obtain ⟨rfl, rfl, rfl⟩ := dayNumber_inj v v' hd
  have : H = H' := by omega
  have : M = M' := by omega
  have : S = S' := by omega
  subst_vars
  rfl

theorem gm_secs {c : TM} (h : Valid c) : gm (secs c) = c := secs_inj (gm_ok _).1 h (gm_ok _).2

end Verif.Date
