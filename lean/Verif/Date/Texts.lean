import Verif.Date.Props

/-! C173 the usual ways to write a date are understood; C174 offsets and fractions; C175 reading is safe. -/

namespace Verif.Date

open Verif

/-! ### C173 -/

theorem fail_end (e : Env) (c : UInt8) (hc : c ≠ 37) (hs : isSp c = false) (f : List UInt8) (tm : TM) :
    ptime e (c :: f) [] tm = (tm, none) := ptime_charFail e c hc f _ tm (char_other c hs [] (by simp))

/-- Without seconds, a blank in the middle. -/
theorem readFields_mins_sp (e : Env) (c : TM) (h : Valid c) (hy : 0 ≤ c.year ∧ c.year ≤ 9999) (h0 : c.sec = 0) :
    readFields e none (dateText c ++ 32 :: minText c) = (c, some []) := by
  obtain ⟨k, t, ht⟩ := min_head c h []
  rw [List.append_nil] at ht
  have hm := fun f tm => read_mins e c h f [] tm
  simp only [List.append_nil] at hm
  have r0 : strptime e (asc "%Y-%m-%d %H:%M:%S") (dateText c ++ 32 :: minText c) .zero = (⟨c.year, c.mon, c.mday, c.hour, c.min, 0⟩, none) := by
    unfold strptime
    rw [fmt_sp, read_date e c h hy, blank_step e _ _ k t ht, hm, fail_end e 58 (by decide) (by decide)]
    rfl
  have r1 : strptime e (asc "%Y-%m-%dT%H:%M:%S") (dateText c ++ 32 :: minText c) ⟨c.year, c.mon, c.mday, c.hour, c.min, 0⟩ =
      (⟨c.year, c.mon, c.mday, c.hour, c.min, 0⟩, none) := by
    unfold strptime
    rw [fmt_T, read_date e c h hy, ptime_charFail e 84 (by decide) _ _ _ (char_other 84 (by decide) _ (by simp))]
  have r2 : strptime e (asc "%Y-%m-%d %H:%M") (dateText c ++ 32 :: minText c) ⟨c.year, c.mon, c.mday, c.hour, c.min, 0⟩ =
      (⟨c.year, c.mon, c.mday, c.hour, c.min, 0⟩, some []) := by
    unfold strptime
    rw [fmt_spm, read_date e c h hy, blank_step e _ _ k t ht, hm, ptime]
  unfold readFields timeFmts
  simp only []
  rw [tryAll_fail e _ _ _ _ (by rw [r0]), r0, tryAll_fail e _ _ _ _ (by rw [r1]), r1, tryAll, r2]
  simp only []
  rw [← h0]

/-- Without seconds, a `T` in the middle. -/
theorem readFields_mins_T (e : Env) (c : TM) (h : Valid c) (hy : 0 ≤ c.year ∧ c.year ≤ 9999) (h0 : c.sec = 0) :
    readFields e none (dateText c ++ 84 :: minText c) = (c, some []) := by
  have hm := fun f tm => read_mins e c h f [] tm
  simp only [List.append_nil] at hm
  have r0 : strptime e (asc "%Y-%m-%d %H:%M:%S") (dateText c ++ 84 :: minText c) .zero = (⟨c.year, c.mon, c.mday, 0, 0, 0⟩, none) := by
    unfold strptime
    rw [fmt_sp, read_date e c h hy, ptime_char e 32 (by decide) _ _ _ _ (char_noBlank 84 _ (by decide)),
      noNum e 72 rfl 84 (by decide) (by decide)]
    rfl
  have r1 : strptime e (asc "%Y-%m-%dT%H:%M:%S") (dateText c ++ 84 :: minText c) ⟨c.year, c.mon, c.mday, 0, 0, 0⟩ =
      (⟨c.year, c.mon, c.mday, c.hour, c.min, 0⟩, none) := by
    unfold strptime
    rw [fmt_T, read_date e c h hy, read_lit e 84 (by decide) (by decide), hm, fail_end e 58 (by decide) (by decide)]
  have r2 : strptime e (asc "%Y-%m-%d %H:%M") (dateText c ++ 84 :: minText c) ⟨c.year, c.mon, c.mday, c.hour, c.min, 0⟩ =
      (⟨c.year, c.mon, c.mday, c.hour, c.min, 0⟩, none) := by
    unfold strptime
    rw [fmt_spm, read_date e c h hy, ptime_char e 32 (by decide) _ _ _ _ (char_noBlank 84 _ (by decide)),
      noNum e 72 rfl 84 (by decide) (by decide)]
  have r3 : strptime e (asc "%Y-%m-%dT%H:%M") (dateText c ++ 84 :: minText c) ⟨c.year, c.mon, c.mday, c.hour, c.min, 0⟩ =
      (⟨c.year, c.mon, c.mday, c.hour, c.min, 0⟩, some []) := by
    unfold strptime
    rw [fmt_Tm, read_date e c h hy, read_lit e 84 (by decide) (by decide), hm, ptime]
  unfold readFields timeFmts
  simp only []
  rw [tryAll_fail e _ _ _ _ (by rw [r0]), r0, tryAll_fail e _ _ _ _ (by rw [r1]), r1, tryAll_fail e _ _ _ _ (by rw [r2]), r2,
    tryAll, r3]
  simp only []
  rw [← h0]

/-- A date alone. -/
theorem readFields_date (e : Env) (c : TM) (h : Valid c) (hy : 0 ≤ c.year ∧ c.year ≤ 9999)
    (h0 : c.hour = 0 ∧ c.min = 0 ∧ c.sec = 0) : readFields e none (dateText c) = (c, some []) := by
  have hd := fun f tm => read_date e c h hy f [] tm
  simp only [List.append_nil] at hd
  have hb : readChar 32 [] = some [] := by decide
  have r0 : strptime e (asc "%Y-%m-%d %H:%M:%S") (dateText c) .zero = (⟨c.year, c.mon, c.mday, 0, 0, 0⟩, none) := by
    unfold strptime
    rw [fmt_sp, hd, ptime_char e 32 (by decide) _ _ _ _ hb, noNumEnd]
    rfl
  have r1 : strptime e (asc "%Y-%m-%dT%H:%M:%S") (dateText c) ⟨c.year, c.mon, c.mday, 0, 0, 0⟩ =
      (⟨c.year, c.mon, c.mday, 0, 0, 0⟩, none) := by
    unfold strptime
    rw [fmt_T, hd, fail_end e 84 (by decide) (by decide)]
  have r2 : strptime e (asc "%Y-%m-%d %H:%M") (dateText c) ⟨c.year, c.mon, c.mday, 0, 0, 0⟩ =
      (⟨c.year, c.mon, c.mday, 0, 0, 0⟩, none) := by
    unfold strptime
    rw [fmt_spm, hd, ptime_char e 32 (by decide) _ _ _ _ hb, noNumEnd]
  have r3 : strptime e (asc "%Y-%m-%dT%H:%M") (dateText c) ⟨c.year, c.mon, c.mday, 0, 0, 0⟩ =
      (⟨c.year, c.mon, c.mday, 0, 0, 0⟩, none) := by
    unfold strptime
    rw [fmt_Tm, hd, fail_end e 84 (by decide) (by decide)]
  have r4 : strptime e (asc "%Y-%m-%d") (dateText c) ⟨c.year, c.mon, c.mday, 0, 0, 0⟩ =
      (⟨c.year, c.mon, c.mday, 0, 0, 0⟩, some []) := by
    unfold strptime
    rw [fmt_d, hd, ptime]
  unfold readFields timeFmts
  simp only []
  rw [tryAll_fail e _ _ _ _ (by rw [r0]), r0, tryAll_fail e _ _ _ _ (by rw [r1]), r1, tryAll_fail e _ _ _ _ (by rw [r2]), r2,
    tryAll_fail e _ _ _ _ (by rw [r3]), r3, tryAll, r4]
  obtain ⟨a, b, d⟩ := h0
  obtain ⟨y, m, d', H, M, S⟩ := c
  simp only at a b d
  subst a b d
  rfl

theorem date_head (c : TM) (h : 0 ≤ c.year ∧ c.year ≤ 9999) (r : List UInt8) :
    dateText c ++ r ≠ asc "now" ∧ dateText c ++ r ≠ [] := by
  obtain ⟨n, hn⟩ := Int.eq_ofNat_of_zero_le h.1
  unfold dateText
  rw [hn, four_nat n (by omega)]
  refine ⟨?_, by simp⟩
  intro e
  have := (List.cons.inj e).1
  exact dig_ne _ 110 (by decide) this

/-- The time read when nothing is left over. -/
theorem parse_whole (e : Env) (he : e.Ok) (c : TM) (s : List UInt8) (hs : s ≠ asc "now") (hn : s ≠ [])
    (hr : readFields e none s = (c, some [])) (hsh : e.Shown (secs c)) (hm : e.mkt (secs c) ≠ -1) :
    strptimeCmd e s none true false = some (secs c * 1000) := by
  have hw : e.mkt (secs c) + e.off (e.mkt (secs c)) = secs c := by
    obtain ⟨t, ht⟩ := hsh
    rw [← ht]; exact he t
  unfold strptimeCmd
  rw [if_neg hn]
  unfold parse
  rw [if_neg hs, hr]
  simp only []
  rw [if_neg hm]
  have ho : offset (skipBlank (readMs []).2) = 0 := by decide
  have h1 : (readMs []).1 = 0 := by decide
  simp [ho, h1, hw]

/-- **C173** Dates are read (with `utc`) in the forms YYYY-MM-DD HH:MM:SS, YYYY-MM-DDTHH:MM:SS, YYYY-MM-DD HH:MM, YYYY-MM-DDTHH:MM and
YYYY-MM-DD; times that the clocks skip and the second before 1970 excepted. -/
theorem C173_forms_partial (e : Env) (he : e.Ok) (c : TM) (h : Plain c) (hs : e.Shown (secs c)) (hm : e.mkt (secs c) ≠ -1) :
    (∀ sep, sep = 32 ∨ sep = 84 → strptimeCmd e (stamp sep c) none true false = some (secs c * 1000)) ∧
    (∀ sep, sep = 32 ∨ sep = 84 → c.sec = 0 → strptimeCmd e (dateText c ++ sep :: minText c) none true false = some (secs c * 1000)) ∧
    (c.hour = 0 ∧ c.min = 0 ∧ c.sec = 0 → strptimeCmd e (dateText c) none true false = some (secs c * 1000)) := by
  have hy : 0 ≤ c.year ∧ c.year ≤ 9999 := ⟨by have := h.2.1; omega, h.2.2⟩
  refine ⟨?_, ?_, ?_⟩
  · intro sep hsep
    have hh := date_head c hy (sep :: timeText c)
    refine parse_whole e he c _ hh.1 hh.2 ?_ hs hm
    have h1 := readFields_sp e c h.1 hy []
    have h2 := readFields_T e c h.1 hy []
    rw [List.append_nil] at h1 h2
    rcases hsep with rfl | rfl
    · exact h1
    · exact h2
  · intro sep hsep h0
    have hh := date_head c hy (sep :: minText c)
    refine parse_whole e he c _ hh.1 hh.2 ?_ hs hm
    rcases hsep with rfl | rfl
    · exact readFields_mins_sp e c h.1 hy h0
    · exact readFields_mins_T e c h.1 hy h0
  · intro h0
    have hh := date_head c hy []
    rw [List.append_nil] at hh
    exact parse_whole e he c _ hh.1 hh.2 (readFields_date e c h.1 hy h0) hs hm

/-- 2024-02-29 00:00:00 -/
def leapMidnight : TM := ⟨2024, 2, 29, 0, 0, 0⟩

example : Plain leapMidnight ∧ (leapMidnight.hour = 0 ∧ leapMidnight.min = 0 ∧ leapMidnight.sec = 0) ∧
    dateText leapMidnight = asc "2024-02-29" ∧ dateText leapMidnight ++ 84 :: minText leapMidnight = asc "2024-02-29T00:00" ∧
    (fixed 7200).Ok ∧ (fixed 7200).Shown (secs leapMidnight) ∧ (fixed 7200).mkt (secs leapMidnight) ≠ -1 := by
  refine ⟨?_, by decide, by decide, by decide, fixed_ok _, fixed_shown _ _, by decide⟩
  unfold Plain Valid ValidDate; decide

/-- **C173** (the code does not do this) A time of day means the same with and without its format: what a format that failed has
stored stays, so `10:20:30` is read with the year 10. -/
theorem C173_time_refuted : strptimeCmd (fixed 0) (asc "10:20:30") none true false ≠
    strptimeCmd (fixed 0) (asc "10:20:30") (some (asc "%H:%M:%S")) true false := by decide +kernel

/-- **C173** (the code does not do this) A date that does not exist is refused, and so is a text with something behind the date. -/
theorem C173_nonsense_refuted : strptimeCmd (fixed 0) (asc "2023-02-31") none true false = some (secs ⟨2023, 3, 3, 0, 0, 0⟩ * 1000) ∧
    strptimeCmd (fixed 0) (asc "2023-03-03 nonsense") none true false = some (secs ⟨2023, 3, 3, 0, 0, 0⟩ * 1000) := by decide +kernel

/-- **C173** (the code does not do this) With an empty format (as for options that hold a time) the seconds count. -/
theorem C173_empty_refuted : strptimeCmd (fixed 0) (asc "2024-02-29 12:34:56") (some []) true false =
    some (secs ⟨2024, 2, 29, 12, 34, 0⟩ * 1000) := by decide +kernel

/-! ### C174 -/

theorem scan2_two (n : Nat) (h : n < 100) (r : List UInt8) : scan2 (two n ++ r) = some ((n : Int), r) := by
  rw [two_nat n h]
  unfold scan2
  simp only [List.cons_append, List.nil_append]
  rw [List.dropWhile_cons, if_neg (by simp [dig_notSp])]
  simp only []
  have e1 : scanDigits 2 (dig (n / 10) :: dig n :: r) = [dig (n / 10), dig n] := by
    rw [scanDigits, if_pos (dig_isDig _), scanDigits, if_pos (dig_isDig _)]
    cases r <;> rfl
  rw [if_neg (by rintro (h | h) <;> exact absurd h (dig_ne _ _ (by decide))), e1, if_neg (by simp)]
  have e2 : digitsVal 0 [dig (n / 10), dig n] = n := by
    rw [digitsVal, if_pos (dig_isDig _), dig_val, digitsVal, if_pos (dig_isDig _), dig_val, digitsVal]
    omega
  rw [e2]
  rfl

/-- `+HH:MM` or `-HH:MM` -/
def offText (neg : Bool) (h m : Int) : List UInt8 := (if neg then 45 else 43) :: (two h ++ 58 :: two m)

theorem offset_text (neg : Bool) (h m : Nat) (hh : h < 100) (hm : m < 100) (r : List UInt8) :
    offset (offText neg h m ++ r) = (3600 * h + 60 * m) * (if neg then 1 else -1) := by
  obtain ⟨k, t, ht⟩ := two_cons h (by omega) (by omega) (58 :: (two m ++ r))
  have e1 : offText neg h m ++ r = (if neg then 45 else 43) :: (two h ++ 58 :: (two m ++ r)) := by
    unfold offText; simp
  have hd : isSign (dig k) = false := by
    unfold isSign
    simp [dig_ne k 43 (by decide), dig_ne k 45 (by decide)]
  have hsg : ∀ b : Bool, isSign (if b then 45 else 43) = true := by intro b; cases b <;> decide
  have e2 : scanOff (offText neg h m ++ r) = some ((h : Int), (m : Int)) := by
    unfold scanOff
    rw [e1]
    have t1 : ((if neg then (45 : UInt8) else 43) :: (two h ++ 58 :: (two m ++ r))).takeWhile isSign = [if neg then 45 else 43] := by
      rw [ht, List.takeWhile_cons, if_pos (hsg neg), show List.takeWhile isSign (dig k :: t) = [] from by simp [List.takeWhile_cons, hd]]
    have t2 : ((if neg then (45 : UInt8) else 43) :: (two h ++ 58 :: (two m ++ r))).dropWhile isSign = two h ++ 58 :: (two m ++ r) := by
      rw [ht, List.dropWhile_cons, if_pos (hsg neg), show List.dropWhile isSign (dig k :: t) = dig k :: t from by simp [List.dropWhile_cons, hd]]
    rw [t1, t2, if_neg (by simp), scan2_two h hh]
    simp only []
    rw [scan2_two m hm]
    rfl
  unfold offset
  rw [e2, e1]
  cases neg <;> simp

/-- **C174** With `utc`, an offset behind the time counts, and so do three digits of a fraction: the time is that of the clock less
the offset. -/
theorem C174_offset_partial (e : Env) (he : e.Ok) (c : TM) (h : Plain c) (hs : e.Shown (secs c)) (hm : e.mkt (secs c) ≠ -1)
    (sep : UInt8) (hsep : sep = 32 ∨ sep = 84) (neg : Bool) (H M : Nat) (hH : H < 24) (hM : M < 60) (r : List UInt8) :
    strptimeCmd e (stamp sep c ++ (offText neg H M ++ r)) none true false =
      some ((secs c - (if neg then -1 else 1) * (3600 * H + 60 * M)) * 1000) ∧
    ∀ ms : Nat, ms < 1000 → strptimeCmd e (stamp sep c ++ (46 :: (three ms ++ (offText neg H M ++ r)))) none true false =
      some ((secs c - (if neg then -1 else 1) * (3600 * H + 60 * M)) * 1000 + ms) := by
  have hw : e.mkt (secs c) + e.off (e.mkt (secs c)) = secs c := by
    obtain ⟨t, ht⟩ := hs
    rw [← ht]; exact he t
  have ho := offset_text neg H M (by omega) (by omega) r
  have hsk : skipBlank (offText neg H M ++ r) = offText neg H M ++ r := by
    unfold offText; cases neg <;> rfl
  have hms : readMs (offText neg H M ++ r) = (0, offText neg H M ++ r) := by
    unfold offText; cases neg <;> rfl
  have hsum : e.mkt (secs c) + (3600 * (H : Int) + 60 * M) * (if neg then 1 else -1) + e.off (e.mkt (secs c)) =
      secs c - (if neg then -1 else 1) * (3600 * H + 60 * M) := by
    cases neg <;> simp <;> omega
  constructor
  · rw [parse_stamp e sep hsep c h _ true false hm, hms]
    simp only [hsk, ho, if_true, Bool.false_eq_true, if_false, hsum, Int.add_zero]
  · intro ms hlt
    rw [parse_stamp e sep hsep c h _ true false hm, readMs_three ms hlt]
    · simp only [hsk, ho, if_true, Bool.false_eq_true, if_false, hsum]
    · intro c' t' e'
      unfold offText at e'
      have := (List.cons.inj e').1
      rw [← this]
      cases neg <;> decide

example : stamp 84 leapDay ++ (46 :: (three 7 ++ (offText true 5 30 ++ []))) = asc "2024-02-29T12:34:56.007-05:30" := by decide

/-- **C174** (the code does not do this) An offset makes the zone of the computer irrelevant. -/
theorem C174_local_refuted : strptimeCmd (fixed 3600) (asc "2024-02-29T12:00:00+02:00") none false false =
    some (secs ⟨2024, 2, 29, 9, 0, 0⟩ * 1000) := by decide +kernel

/-- **C174** (the code does not do this) `.5` is half a second and `.1234` 123 milliseconds. -/
theorem C174_fraction_refuted : strptimeCmd (fixed 0) (asc "2024-02-29T12:00:00.5") none true false = some (secs ⟨2024, 2, 29, 12, 0, 0⟩ * 1000) ∧
    strptimeCmd (fixed 0) (asc "2024-02-29T12:00:00.1234") none true false = some (secs ⟨2024, 2, 29, 12, 0, 1⟩ * 1000 + 234) := by decide +kernel

/-! ### C175 -/

/-- No three signs stand side by side. -/
def NoRun (s : List UInt8) : Prop :=
  ∀ a b x y z, s = a ++ x :: y :: z :: b → ¬ ((x = 43 ∨ x = 45) ∧ (y = 43 ∨ y = 45) ∧ (z = 43 ∨ z = 45))

/-- `strptime` leaves an end of the text for the conversions that are not modelled, too. -/
def Env.Reads (e : Env) : Prop := ∀ k s tm r, (e.read k s tm).2 = some r → r <:+ s

theorem numLoop_suffix (hi : Nat) : ∀ n v s, (numLoop hi n v s).2 <:+ s := by
  intro n
  induction n with
  | zero => intro v s; rw [numLoop_zero]; exact List.suffix_refl _
  | succ n ih =>
    intro v s
    cases s with
    | nil => exact List.suffix_refl _
    | cons c s =>
      rw [numLoop]
      split
      · exact (ih _ _).trans (List.suffix_cons _ _)
      · exact List.suffix_refl _

theorem getNum_suffix {lo hi n : Nat} {s r : List UInt8} {v : Nat} (h : getNum lo hi n s = some (v, r)) : r <:+ s := by
  unfold getNum at h
  have hd := List.dropWhile_suffix (l := s) (fun c => decide (c = 32))
  generalize s.dropWhile (fun c => decide (c = 32)) = d at *
  cases d with
  | nil => cases h
  | cons c t =>
    simp only at h
    split at h
    · cases h
    · split at h
      · cases h
      · have := numLoop_suffix hi n 0 (c :: t)
        have e1 := Option.some.inj h
        rw [e1] at this
        exact this.trans hd

theorem field_suffix {tm : TM} {lo hi n : Nat} {s r : List UInt8} {set : TM → Int → TM}
    (h : (field tm (getNum lo hi n s) set).2 = some r) : r <:+ s := by
  cases hg : getNum lo hi n s with
  | none => rw [hg] at h; cases h
  | some p =>
    obtain ⟨v, q⟩ := p
    rw [hg] at h
    simp only [field] at h
    cases h
    exact getNum_suffix hg

theorem readConv_suffix (e : Env) (he : e.Reads) (k : UInt8) (s : List UInt8) (tm : TM) (r : List UInt8)
    (h : (readConv e k s tm).2 = some r) : r <:+ s := by
  unfold readConv at h
  split at h
  · exact field_suffix h
  · split at h
    · exact field_suffix h
    · split at h
      · exact field_suffix h
      · split at h
        · exact field_suffix h
        · split at h
          · exact field_suffix h
          · split at h
            · exact field_suffix h
            · exact he k s tm r h

theorem readChar_suffix {c : UInt8} {s r : List UInt8} (h : readChar c s = some r) : r <:+ s := by
  unfold readChar at h
  split at h
  · cases h; exact List.dropWhile_suffix _
  · split at h
    · cases h; exact List.tail_suffix s
    · cases h

theorem ptime_suffix (e : Env) (he : e.Reads) (f s : List UInt8) (tm : TM) (r : List UInt8) (h : (ptime e f s tm).2 = some r) : r <:+ s := by
  induction f, s, tm using ptime.induct e with
  | case1 k f s tm tm' s' hc ih =>
    rw [ptime, hc] at h
    exact (ih h).trans (readConv_suffix e he k s tm s' (by rw [hc]))
  | case2 k f s tm tm' hc =>
    rw [ptime, hc] at h; cases h
  | case3 c f s tm hne s' hc ih =>
    rw [ptime, hc] at h
    · exact (ih h).trans (readChar_suffix hc)
    · exact hne
  | case4 c f s tm hne hc =>
    rw [ptime, hc] at h
    · cases h
    · exact hne
  | case5 s tm => rw [ptime] at h; cases h; exact List.suffix_refl _

theorem tryAll_suffix (e : Env) (he : e.Reads) (fs : List (List UInt8)) : ∀ s tm r, (tryAll e fs s tm).2 = some r → r <:+ s := by
  induction fs with
  | nil => intro s tm r h; cases h
  | cons f fs ih =>
    intro s tm r h
    rw [tryAll] at h
    cases hp : strptime e f s tm with
    | mk tm' o =>
      rw [hp] at h
      cases o with
      | none => exact ih s tm' r h
      | some q =>
        cases h
        exact ptime_suffix e he (expand f) s tm r (by unfold strptime at hp; rw [hp])

theorem readFields_suffix (e : Env) (he : e.Reads) (fmt : Option (List UInt8)) (s r : List UInt8)
    (h : (readFields e fmt s).2 = some r) : r <:+ s := by
  unfold readFields at h
  split at h
  · exact tryAll_suffix e he _ s _ r h
  · exact tryAll_suffix e he _ s _ r h
  · split at h
    · exact ptime_suffix e he _ s _ r h
    · exact ptime_suffix e he _ s _ r h

theorem readMs_suffix (s : List UInt8) : (readMs s).2 <:+ s := by
  unfold readMs
  split
  · rename_i a b c s
    split
    · exact ⟨[46, a, b, c], rfl⟩
    · exact List.suffix_refl _
  · exact List.suffix_refl _

theorem skip_suffix (s : List UInt8) : skipBlank s <:+ s := by
  unfold skipBlank
  split
  · exact List.suffix_cons _ _
  · exact List.suffix_refl _

theorem noRun_run (s : List UInt8) (h : NoRun s) (r : List UInt8) (hr : r <:+ s) : (r.takeWhile isSign).length ≤ 2 := by
  obtain ⟨a, ha⟩ := hr
  match hrr : r with
  | [] => simp
  | [x] => have := List.takeWhile_sublist isSign (l := [x]); have := this.length_le; simp at this; omega
  | [x, y] => have := List.takeWhile_sublist isSign (l := [x, y]); have := this.length_le; simp at this; omega
  | x :: y :: z :: b =>
    have hn := h a b x y z ha.symm
    by_cases hx : isSign x = true
    · by_cases hy : isSign y = true
      · by_cases hz : isSign z = true
        · exfalso
          apply hn
          unfold isSign at hx hy hz
          simp at hx hy hz
          exact ⟨hx, hy, hz⟩
        · simp [List.takeWhile_cons, hx, hy, hz]
      · simp [List.takeWhile_cons, hx, hy]
    · simp [List.takeWhile_cons, hx]

/-- **C175** Reading a text without three signs side by side stores at most the three bytes there is room for. -/
theorem C175_partial (e : Env) (he : e.Reads) (s : List UInt8) (fmt : Option (List UInt8)) (h : NoRun s) : parseStores e s fmt ≤ 3 := by
  unfold parseStores
  split
  · omega
  · cases hp : readFields e fmt s with
    | mk tm o =>
      cases o with
      | none => simp
      | some rv =>
        have h1 := readFields_suffix e he fmt s rv (by rw [hp])
        have h2 := noRun_run s h _ ((skip_suffix _).trans ((readMs_suffix rv).trans h1))
        simp only []
        unfold scanStores
        split <;> omega

example : (fixed 0).Reads ∧ NoRun (asc "a+-b") := by
  constructor
  · intro k s tm r h; cases h
  · rintro a b x y z h ⟨hx, hy, hz⟩
    have hl : (asc "a+-b").length = 4 := by decide
    match a, h with
    | [], h =>
      have := (List.cons.inj h).1
      rw [← this] at hx; revert hx; decide
    | [_], h =>
      have h1 := (List.cons.inj h).2
      have h2 := (List.cons.inj h1).2
      have h3 := (List.cons.inj h2).2
      have h4 := (List.cons.inj h3).1
      rw [← h4] at hz; revert hz; decide
    | _ :: _ :: a, h => rw [h] at hl; simp at hl; omega

/-- **C175** (the code does not do this) Reading any text stays within its buffers: four signs behind a date overrun the three bytes. -/
theorem C175_refuted : parseStores (fixed 0) (asc "2024-02-29++++") none = 5 := by decide +kernel

end Verif.Date
