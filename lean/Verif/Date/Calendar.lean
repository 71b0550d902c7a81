import Verif.Date.Model

/-! The calendar: what `gm` shows is a date that exists, and the one whose count of seconds was given. -/

namespace Verif.Date

open Verif

/-! ### Specification -/

/-- The days of a month. -/
def monthLen (y m : Int) : Int :=
  if m = 2 then (if leap y then 29 else 28) else if m = 4 ∨ m = 6 ∨ m = 9 ∨ m = 11 then 30 else 31

/-- A date that exists. -/
def ValidDate (y m d : Int) : Prop := 1 ≤ m ∧ m ≤ 12 ∧ 1 ≤ d ∧ d ≤ monthLen y m

/-- A date and a time that exist. -/
def Valid (c : TM) : Prop :=
  ValidDate c.year c.mon c.mday ∧ 0 ≤ c.hour ∧ c.hour < 24 ∧ 0 ≤ c.min ∧ c.min < 60 ∧ 0 ≤ c.sec ∧ c.sec < 60

/-- The day after. -/
def nextDay (y m d : Int) : Int × Int × Int :=
  if d < monthLen y m then (y, m, d + 1) else if m < 12 then (y, m + 1, 1) else (y + 1, 1, 1)

/-! ### Proofs -/

/-- The count of days begins with 1970-01-01 ... -/
theorem dayNumber_epoch : dayNumber 1970 1 1 = 0 := by decide

/-- ... and each day has the number after that of the day before. -/
theorem dayNumber_next (y m d : Int) (h : ValidDate y m d) :
    dayNumber (nextDay y m d).1 (nextDay y m d).2.1 (nextDay y m d).2.2 = dayNumber y m d + 1 := by
  obtain ⟨h1, h2, h3, h4⟩ := h
  unfold nextDay
  by_cases hd : d < monthLen y m
  · rw [if_pos hd]; unfold dayNumber; simp only []; omega
  · rw [if_neg hd]
    have hd : d = monthLen y m := by omega
    subst hd
    by_cases hm : m < 12
    · rw [if_pos hm]
      have : m = 1 ∨ m = 2 ∨ m = 3 ∨ m = 4 ∨ m = 5 ∨ m = 6 ∨ m = 7 ∨ m = 8 ∨ m = 9 ∨ m = 10 ∨ m = 11 := by omega
      unfold dayNumber monthLen daysBefore
      rcases this with rfl | rfl | rfl | rfl | rfl | rfl | rfl | rfl | rfl | rfl | rfl <;>
        cases leap y <;> simp <;> omega
    · rw [if_neg hm]
      have : m = 12 := by omega
      subst this
      unfold dayNumber monthLen daysBefore
      simp only [leap]
      by_cases a : y % 4 = 0 <;> by_cases b : y % 100 = 0 <;> by_cases c : y % 400 = 0 <;> simp [a, b, c] <;> omega

theorem march_arith (era c q y doy : Int) (hc : 0 ≤ c ∧ c ≤ 3) (hq : 0 ≤ q ∧ q ≤ 24) (hy : 0 ≤ y ∧ y ≤ 3) (hd : 0 ≤ doy)
    (hd2 : doy ≤ 365) (hd3 : y < 3 → doy ≤ 364) (hd4 : q = 24 → c < 3 → doy ≤ 364) :
    era * 146097 + c * 36524 + q * 1461 + y * 365 + doy =
      doy + 365 * (era * 400 + c * 100 + q * 4 + y) + (era * 400 + c * 100 + q * 4 + y) / 4
      - (era * 400 + c * 100 + q * 4 + y) / 100 + (era * 400 + c * 100 + q * 4 + y) / 400 ∧
    (leap (era * 400 + c * 100 + q * 4 + y + 1) = false → doy ≤ 364) := by
  have e4 : (era * 400 + c * 100 + q * 4 + y) / 4 = era * 100 + c * 25 + q := by omega
  have e100 : (era * 400 + c * 100 + q * 4 + y) / 100 = era * 4 + c := by omega
  have e400 : (era * 400 + c * 100 + q * 4 + y) / 400 = era := by omega
  refine ⟨by rw [e4, e100, e400]; omega, ?_⟩
  intro hl
  unfold leap at hl
  by_cases h3 : y < 3
  · exact hd3 h3
  · have y3 : y = 3 := by omega
    subst y3
    have a : (era * 400 + c * 100 + q * 4 + 3 + 1) % 4 = 0 := by omega
    by_cases b : (era * 400 + c * 100 + q * 4 + 3 + 1) % 100 = 0
    · by_cases c4 : (era * 400 + c * 100 + q * 4 + 3 + 1) % 400 = 0
      · simp [a, b, c4] at hl
      · exact hd4 (by omega) (by omega)
    · simp [a, b] at hl

theorem marchYear_ok (z : Int) :
    z = (marchYear z).2 + 365 * (marchYear z).1 + (marchYear z).1 / 4 - (marchYear z).1 / 100 + (marchYear z).1 / 400 ∧
    0 ≤ (marchYear z).2 ∧ (marchYear z).2 ≤ 365 ∧ (leap ((marchYear z).1 + 1) = false → (marchYear z).2 ≤ 364) := by
  unfold marchYear
  simp only []
  have h1 := Int.emod_nonneg z (show (146097 : Int) ≠ 0 by decide)
  have h2 := Int.emod_lt_of_pos z (show (0 : Int) < 146097 by decide)
  have h3 := Int.emod_add_mul_ediv z 146097
  generalize z / 146097 = era at *
  generalize z % 146097 = doe at *
  generalize hc : (if doe / 36524 = 4 then 3 else doe / 36524) = c at *
  have hc1 : 0 ≤ c ∧ c ≤ 3 ∧ 0 ≤ doe - c * 36524 ∧ doe - c * 36524 ≤ 36524 ∧ (c < 3 → doe - c * 36524 ≤ 36523) := by
    split at hc <;> omega
  clear hc
  obtain ⟨c1, c2, c3, c4, c5⟩ := hc1
  generalize hr : doe - c * 36524 = r at *
  have q1 := Int.emod_nonneg r (show (1461 : Int) ≠ 0 by decide)
  have q2 := Int.emod_lt_of_pos r (show (0 : Int) < 1461 by decide)
  have q3 := Int.emod_add_mul_ediv r 1461
  generalize r / 1461 = q at *
  generalize r % 1461 = s at *
  generalize hy : (if s / 365 = 4 then 3 else s / 365) = y at *
  have hy1 : 0 ≤ y ∧ y ≤ 3 ∧ 0 ≤ s - y * 365 ∧ s - y * 365 ≤ 365 ∧ (y < 3 → s - y * 365 ≤ 364) ∧ (q = 24 → c < 3 → s - y * 365 ≤ 364) := by
    split at hy <;> omega
  clear hy
  obtain ⟨y1, y2, y3, y4, y5, y6⟩ := hy1
  have := march_arith era c q y (s - y * 365) ⟨c1, c2⟩ ⟨by omega, by omega⟩ ⟨y1, y2⟩ y3 y4 y5 y6
  refine ⟨?_, y3, y4, this.2⟩
  rw [← this.1]
  omega

theorem monthDay_ok (doy : Int) (h1 : 0 ≤ doy) (h2 : doy ≤ 365) :
    (monthDay doy).1 = 2 ∧ 1 ≤ (monthDay doy).2 ∧ (monthDay doy).2 = doy - 336 ∨
    (monthDay doy).1 = 1 ∧ 1 ≤ (monthDay doy).2 ∧ (monthDay doy).2 = doy - 305 ∧ (monthDay doy).2 ≤ 31 ∨
    3 ≤ (monthDay doy).1 ∧ (monthDay doy).1 ≤ 12 ∧ 1 ≤ (monthDay doy).2 ∧
      (monthDay doy).2 ≤ (if (monthDay doy).1 = 4 ∨ (monthDay doy).1 = 6 ∨ (monthDay doy).1 = 9 ∨ (monthDay doy).1 = 11 then 30 else 31) ∧
      doy + 59 = daysBefore 1 (monthDay doy).1 + (monthDay doy).2 - 1 := by
  have key : ∀ n : Nat, n < 366 →
    (monthDay n).1 = 2 ∧ 1 ≤ (monthDay n).2 ∧ (monthDay n).2 = n - 336 ∨
    (monthDay n).1 = 1 ∧ 1 ≤ (monthDay n).2 ∧ (monthDay n).2 = n - 305 ∧ (monthDay n).2 ≤ 31 ∨
    3 ≤ (monthDay n).1 ∧ (monthDay n).1 ≤ 12 ∧ 1 ≤ (monthDay n).2 ∧
      (monthDay n).2 ≤ (if (monthDay n).1 = 4 ∨ (monthDay n).1 = 6 ∨ (monthDay n).1 = 9 ∨ (monthDay n).1 = 11 then 30 else 31) ∧
      (n : Int) + 59 = daysBefore 1 (monthDay n).1 + (monthDay n).2 - 1 := by decide +kernel
  obtain ⟨n, rfl⟩ := Int.eq_ofNat_of_zero_le h1
  exact key n (by omega)

theorem before_leap (y m : Int) : daysBefore y m = daysBefore 1 m + (if 3 ≤ m ∧ leap y = true then 1 else 0) := by
  unfold daysBefore
  have : leap 1 = false := by decide
  simp [this]

theorem date_ok (z y doy : Int) (hz : z = doy + 365 * y + y / 4 - y / 100 + y / 400) (h1 : 0 ≤ doy) (h2 : doy ≤ 365)
    (h3 : leap (y + 1) = false → doy ≤ 364) :
    ValidDate (y + (if (monthDay doy).1 ≤ 2 then 1 else 0)) (monthDay doy).1 (monthDay doy).2 ∧
    dayNumber (y + (if (monthDay doy).1 ≤ 2 then 1 else 0)) (monthDay doy).1 (monthDay doy).2 = z - 719468 := by
  rcases monthDay_ok doy h1 h2 with ⟨a, b, c⟩ | ⟨a, b, c, d⟩ | ⟨a, b, c, d, e⟩
  · rw [if_pos (by omega), a]
    refine ⟨⟨by omega, by omega, b, ?_⟩, ?_⟩
    · unfold monthLen
      rw [if_pos rfl, c]
      cases hl : leap (y + 1)
      · have := h3 hl; simp; omega
      · simp; omega
    · unfold dayNumber daysBefore; simp; omega
  · rw [if_pos (by omega), a]
    refine ⟨⟨by omega, by omega, b, ?_⟩, ?_⟩
    · unfold monthLen; simp; omega
    · unfold dayNumber daysBefore; simp; omega
  · rw [if_neg (by omega), Int.add_zero]
    refine ⟨⟨by omega, by omega, c, ?_⟩, ?_⟩
    · unfold monthLen; rw [if_neg (by omega)]; exact d
    · unfold dayNumber
      rw [before_leap]
      have e2 : (if 3 ≤ (monthDay doy).1 ∧ leap y = true then (1 : Int) else 0) = (if leap y = true then 1 else 0) := by
        simp [a]
      rw [e2]
      have e3 : y / 4 - y / 100 + y / 400 = (y - 1) / 4 - (y - 1) / 100 + (y - 1) / 400 + (if leap y = true then 1 else 0) := by
        unfold leap
        by_cases a : y % 4 = 0 <;> by_cases b : y % 100 = 0 <;> by_cases c : y % 400 = 0 <;> simp [a, b, c] <;> omega
      generalize (if leap y = true then (1 : Int) else 0) = w at *
      omega

/-- `gmtime` shows a date and time that exist, and the ones that the seconds stand for. -/
theorem gm_ok (t : Int) : Valid (gm t) ∧ secs (gm t) = t := by
  obtain ⟨m1, m2, m3, m4⟩ := marchYear_ok (t / 86400 + 719468)
  obtain ⟨d1, d2⟩ := date_ok _ _ _ m1 m2 m3 m4
  have r1 := Int.emod_nonneg t (show (86400 : Int) ≠ 0 by decide)
  have r2 := Int.emod_lt_of_pos t (show (0 : Int) < 86400 by decide)
  refine ⟨⟨d1, ?_, ?_, ?_, ?_, ?_, ?_⟩, ?_⟩
  · unfold gm; simp only []; omega
  · unfold gm; simp only []; omega
  · unfold gm; simp only []; omega
  · unfold gm; simp only []; omega
  · unfold gm; simp only []; omega
  · unfold gm; simp only []; omega
  · unfold secs gm
    simp only []
    rw [d2]
    omega

end Verif.Date
