import Verif.Date.Read

/-!
C170 `Date.strftime` shows the date; C171 `Date.strptime` undoes `Date.strftime`; C172 the same with milliseconds (iso);
C173 the usual ways to write a date are understood; C174 offsets and fractions in the text count; C175 reading is safe.
-/

namespace Verif.Date

open Verif

/-! ### Specification -/

/-- `mktime` finds a time at which the clocks show what is asked for, if there is one. -/
def Env.Ok (e : Env) : Prop := ∀ t, e.mkt (t + e.off t) + e.off (e.mkt (t + e.off t)) = t + e.off t

/-- The clocks show `s` (in seconds) at some time: it is not skipped when the clocks go forward. -/
def Env.Shown (e : Env) (s : Int) : Prop := ∃ t, t + e.off t = s

/-- A place whose clocks are always `d` seconds ahead of UTC. -/
def fixed (d : Int) : Env := ⟨0, fun _ => d, fun s => s - d, fun _ _ => [], fun _ _ tm => (tm, none)⟩

/-- A place whose clocks go forward by an hour at time `t0`; a skipped time is taken as after the change. -/
def forward (t0 : Int) : Env :=
  ⟨0, fun t => if t < t0 then 0 else 3600, fun s => if s < t0 then s else if s < t0 + 3600 then s else s - 3600,
    fun _ _ => [], fun _ _ tm => (tm, none)⟩

theorem fixed_ok (d : Int) : (fixed d).Ok := by
  intro t; show t + d - d + d = t + d; omega

theorem fixed_shown (d s : Int) : (fixed d).Shown s := ⟨s - d, by show s - d + d = s; omega⟩

theorem forward_ok (t0 : Int) : (forward t0).Ok := by
  intro t
  unfold forward
  simp only []
  by_cases h : t < t0
  · rw [if_pos h, Int.add_zero, if_pos h, if_pos h]; omega
  · rw [if_neg h, if_neg (show ¬ t + 3600 < t0 by omega)]
    by_cases h2 : t + 3600 < t0 + 3600
    · omega
    · rw [if_neg h2, if_neg (show ¬ t + 3600 - 3600 < t0 by omega)]; omega

/-! ### C170 -/

theorem ftime_lit (e : Env) (c : TM) (b : UInt8) (hb : b ≠ 37) (f : List UInt8) : ftime e c (b :: f) = b :: ftime e c f := by
  rw [ftime]; intro k _ e1 _; exact hb e1

theorem ftime_stamp (e : Env) (c : TM) (h : Plain c) (sep : UInt8) (hs : sep ≠ 37) :
    ftime e c (37 :: 89 :: 45 :: 37 :: 109 :: 45 :: 37 :: 100 :: sep :: 37 :: 72 :: 58 :: 37 :: 77 :: 58 :: 37 :: 83 :: []) = stamp sep c := by
  obtain ⟨⟨⟨h1, h2, h3, h4⟩, a1, a2, a3, a4, a5, a6⟩, y1, y2⟩ := h
  have := monthLen_le c.year c.mon
  have l45 := fun f => ftime_lit e c 45 (by decide) f
  have l58 := fun f => ftime_lit e c 58 (by decide) f
  have ls := fun f => ftime_lit e c sep hs f
  have step := fun k f => show ftime e c (37 :: k :: f) = conv e k c ++ ftime e c f by rw [ftime]
  have nil : ftime e c [] = [] := by rw [ftime]
  have cY : conv e 89 c = decI c.year := by simp [conv]
  have cm : conv e 109 c = dec2 c.mon := by simp [conv]
  have cd : conv e 100 c = dec2 c.mday := by simp [conv]
  have cH : conv e 72 c = dec2 c.hour := by simp [conv]
  have cM : conv e 77 c = dec2 c.min := by simp [conv]
  have cS : conv e 83 c = dec2 c.sec := by simp [conv]
  rw [step, l45, step, l45, step, ls, step, l58, step, l58, step, nil, cY, cm, cd, cH, cM, cS,
    decI_four _ y1 y2, dec2_two _ (by omega) (by omega), dec2_two _ (by omega) (by omega), dec2_two _ (by omega) (by omega),
    dec2_two _ (by omega) (by omega), dec2_two _ (by omega) (by omega)]
  unfold stamp dateText timeText
  simp

theorem stamp_len (sep : UInt8) (c : TM) : (stamp sep c).length = 19 := by
  simp [stamp, dateText, timeText, two, four]

theorem strftime_sp (e : Env) (c : TM) (h : Plain c) : strftime e (asc "%Y-%m-%d %H:%M:%S") c = some (stamp 32 c) := by
  have hl := stamp_len 32 c
  unfold strftime
  rw [fmt_sp, ftime_stamp e c h 32 (by decide), if_neg]
  rintro (h | h)
  · rw [h] at hl; cases hl
  · omega

theorem findF_sp : findF [] (asc "%Y-%m-%d %H:%M:%S") = none := by decide

theorem format_sp (e : Env) (num : Int) (utc : Bool) (c : TM)
    (hc : (if utc then gm (Int.tdiv num 1000) else e.loc (Int.tdiv num 1000)) = c) (h : Plain c) :
    format e num none utc = some (stamp 32 c) := by
  unfold format formatOf
  simp only [findF_sp, hc]
  exact strftime_sp e c h

theorem tdiv_part (t ms : Int) (h0 : 0 ≤ ms) (h1 : ms < 1000) (h : 0 ≤ t ∨ ms = 0) : Int.tdiv (t * 1000 + ms) 1000 = t := by
  rcases h with h | h
  · rw [Int.tdiv_eq_ediv_of_nonneg (by omega)]; omega
  · subst h; rw [Int.add_zero, Int.mul_tdiv_cancel _ (by decide)]

/-- **C170** `Date.strftime(ms, {utc:true})` shows the date and time of which the whole seconds are given by the calendar; times with
a fraction of a second before 1970 excepted. -/
theorem C170_utc_partial (e : Env) (c : TM) (h : Plain c) (ms : Int) (h0 : 0 ≤ ms) (h1 : ms < 1000) (hn : 0 ≤ secs c ∨ ms = 0) :
    strftimeCmd e (secs c * 1000 + ms) none true false false = some (stamp 32 c) := by
  unfold strftimeCmd
  simp only [Bool.false_eq_true, if_false]
  apply format_sp _ _ _ _ _ h
  rw [if_pos rfl, tdiv_part _ _ h0 h1 hn, gm_secs h.1]

/-- **C170** `Date.strftime(ms)` shows what the clocks show. -/
theorem C170_local_partial (e : Env) (t : Int) (c : TM) (h : Plain c) (hc : secs c = t + e.off t) (ms : Int) (h0 : 0 ≤ ms) (h1 : ms < 1000)
    (hn : 0 ≤ t ∨ ms = 0) : strftimeCmd e (t * 1000 + ms) none false false false = some (stamp 32 c) := by
  unfold strftimeCmd
  simp only [Bool.false_eq_true, if_false]
  apply format_sp _ _ _ _ _ h
  rw [if_neg (by decide), tdiv_part _ _ h0 h1 hn]
  unfold Env.loc
  rw [← hc, gm_secs h.1]

/-- **C170** Given seconds (option `secs`), the same. -/
theorem C170_secs_partial (e : Env) (c : TM) (h : Plain c) : strftimeCmd e (secs c) none true true false = some (stamp 32 c) := by
  unfold strftimeCmd
  simp only [Bool.false_eq_true, if_false, if_true]
  apply format_sp _ _ _ _ _ h
  rw [if_pos rfl, ← Int.add_zero (secs c * 1000), tdiv_part _ _ (by decide) (by decide) (.inr rfl), gm_secs h.1]

/-- 2024-02-29 12:34:56 -/
def leapDay : TM := ⟨2024, 2, 29, 12, 34, 56⟩

example : Plain leapDay ∧ secs leapDay = 1709210096 ∧ stamp 32 leapDay = asc "2024-02-29 12:34:56" := by
  refine ⟨?_, by decide, by decide⟩
  unfold Plain Valid ValidDate; decide

/-- **C170** (the code does not do this) One millisecond before 1970 it is still 1969. -/
theorem C170_before_1970_refuted : strftimeCmd (fixed 0) (-1) none true false false = some (asc "1970-01-01 00:00:00") := by
  decide +kernel

/-- **C170** (the code does not do this) An empty format shows the seconds with and without `utc`. -/
theorem C170_empty_refuted : strftimeCmd (fixed 0) 1709210096000 (some []) true false false = some (asc "2024-02-29 12:34") ∧
    strftimeCmd (fixed 0) 1709210096000 (some []) false false false = some (asc "2024-02-29T12:34:56") := by
  decide +kernel

/-! ### C171 -/

theorem two_ne_nil (n : Int) (r : List UInt8) : two n ++ r ≠ [] := by simp [two]

theorem stamp_head (sep : UInt8) (c : TM) (h : 0 ≤ c.year ∧ c.year ≤ 9999) (r : List UInt8) :
    stamp sep c ++ r ≠ asc "now" ∧ stamp sep c ++ r ≠ [] := by
  obtain ⟨n, hn⟩ := Int.eq_ofNat_of_zero_le h.1
  unfold stamp dateText
  rw [hn, four_nat n (by omega)]
  refine ⟨?_, by simp⟩
  intro e
  have := (List.cons.inj e).1
  exact dig_ne _ 110 (by decide) this

/-- What is read from a stamp and what follows it. -/
theorem parse_stamp (e : Env) (sep : UInt8) (hsep : sep = 32 ∨ sep = 84) (c : TM) (h : Plain c) (r : List UInt8) (utc sec : Bool) (hm : e.mkt (secs c) ≠ -1) :
    strptimeCmd e (stamp sep c ++ r) none utc sec =
      some (let w := (e.mkt (secs c) + offset (skipBlank (readMs r).2) + if utc then e.off (e.mkt (secs c)) else 0) * 1000 + (readMs r).1
            if sec then Int.tdiv w 1000 else w) := by
  have hy : 0 ≤ c.year ∧ c.year ≤ 9999 := ⟨by have := h.2.1; omega, h.2.2⟩
  have hh := stamp_head sep c hy r
  unfold strptimeCmd
  rw [if_neg hh.2]
  unfold parse
  rw [if_neg hh.1]
  have hr : readFields e none (stamp sep c ++ r) = (c, some r) := by
    rcases hsep with rfl | rfl
    · exact readFields_sp e c h.1 hy r
    · exact readFields_T e c h.1 hy r
  rw [hr]
  simp only []
  rw [if_neg hm]
  rfl

/-- **C171** A time in whole seconds, shown by `Date.strftime` with `utc` and read by `Date.strptime` with `utc`, is the same, unless
the clocks skip the time shown or it is the second before 1970 as clocks show it. -/
theorem C171_utc_partial (e : Env) (he : e.Ok) (c : TM) (h : Plain c) (hs : e.Shown (secs c)) (h1 : e.mkt (secs c) ≠ -1) :
    ∃ text, strftimeCmd e (secs c * 1000) none true false false = some text ∧ strptimeCmd e text none true false = some (secs c * 1000) ∧
      strftimeCmd e (secs c) none true true false = some text ∧ strptimeCmd e text none true true = some (secs c) := by
  have hw : e.mkt (secs c) + e.off (e.mkt (secs c)) = secs c := by
    obtain ⟨t, ht⟩ := hs
    rw [← ht]; exact he t
  have hp := parse_stamp e 32 (.inl rfl) c h [] true
  simp only [List.append_nil] at hp
  have ho : offset (skipBlank (readMs []).2) = 0 := by decide
  refine ⟨stamp 32 c, ?_, ?_, C170_secs_partial e c h, ?_⟩
  · have := C170_utc_partial e c h 0 (by decide) (by decide) (.inr rfl)
    rwa [Int.add_zero] at this
  · rw [hp false h1, ho]
    simp only [if_true, Int.add_zero, hw]
    simp [readMs]
  · rw [hp true h1, ho]
    simp only [if_true, Int.add_zero, hw]
    simp [readMs]

/-- **C171** The same without `utc`, if no other time is shown alike, and the time is not the second before 1970. -/
theorem C171_local_partial (e : Env) (he : e.Ok) (t : Int) (c : TM) (h : Plain c) (hc : secs c = t + e.off t)
    (hu : ∀ u, u + e.off u = t + e.off t → u = t) (h1 : t ≠ -1) :
    ∃ text, strftimeCmd e (t * 1000) none false false false = some text ∧ strptimeCmd e text none false false = some (t * 1000) := by
  have hw : e.mkt (secs c) = t := by rw [hc]; exact hu _ (he t)
  have hp := parse_stamp e 32 (.inl rfl) c h [] false false (by rw [hw]; exact h1)
  simp only [List.append_nil] at hp
  refine ⟨stamp 32 c, ?_, ?_⟩
  · have := C170_local_partial e t c h hc 0 (by decide) (by decide) (.inr rfl)
    rwa [Int.add_zero] at this
  · rw [hp, hw]
    have ho : offset (skipBlank (readMs []).2) = 0 := by decide
    simp [readMs] at ho ⊢
    simp [ho]

example : (fixed 3600).Ok ∧ (fixed 3600).Shown (secs leapDay) ∧ (fixed 3600).mkt (secs leapDay) ≠ -1 ∧
    ∀ u t, u + (fixed 3600).off u = t + (fixed 3600).off t → u = t := by
  refine ⟨fixed_ok _, fixed_shown _ _, by decide, ?_⟩
  intro u t h
  have : u + 3600 = t + 3600 := h
  omega

/-- **C171** (the code does not do this) The second before 1970 comes back. -/
theorem C171_minus_one_refuted : strftimeCmd (fixed 0) (-1000) none true false false = some (asc "1969-12-31 23:59:59") ∧
    strptimeCmd (fixed 0) (asc "1969-12-31 23:59:59") none true false = none := by decide +kernel

/-- **C171** (the code does not do this) UTC times do not depend on the zone: where the clocks go forward from 02:00 to 03:00 on
2024-03-31, the UTC time 02:30 of that day comes back as 03:30. -/
theorem C171_skipped_refuted : (forward 1711850400).Ok ∧
    strftimeCmd (forward 1711850400) 1711852200000 none true false false = some (asc "2024-03-31 02:30:00") ∧
    strptimeCmd (forward 1711850400) (asc "2024-03-31 02:30:00") none true false = some 1711855800000 :=
  ⟨forward_ok _, by decide +kernel, by decide +kernel⟩

/-! ### C172 -/

theorem fmt_iso : expand (asc "%FT%T.") = 37 :: 89 :: 45 :: 37 :: 109 :: 45 :: 37 :: 100 :: 84 :: 37 :: 72 :: 58 :: 37 :: 77 :: 58 :: 37 :: 83 :: 46 :: [] := by
  decide

theorem findF_iso : findF [] (asc "%FT%T.%f") = some (asc "%FT%T.", []) := by decide

theorem ftime_append (e : Env) (c : TM) (f g : List UInt8) (hf : ∀ a b, f = a ++ [b] → b ≠ 37) : ftime e c (f ++ g) = ftime e c f ++ ftime e c g := by
  induction f using ftime.induct with
  | case1 k f ih =>
    rw [List.cons_append, List.cons_append, ftime, ftime, ih, List.append_assoc]
    intro a b h
    exact hf (37 :: k :: a) b (by rw [h]; rfl)
  | case2 b f hb ih =>
    have hb37 : b ≠ 37 := by
      intro e1
      subst e1
      cases f with
      | nil => exact hf [] 37 rfl rfl
      | cons k f => exact hb k f rfl rfl
    rw [List.cons_append, ftime_lit e c b hb37, ftime_lit e c b hb37, ih, List.cons_append]
    intro a d h
    exact hf (b :: a) d (by rw [h]; rfl)
  | case3 => rw [List.nil_append, show ftime e c [] = [] by rw [ftime], List.nil_append]

theorem strftime_iso (e : Env) (c : TM) (h : Plain c) : strftime e (asc "%FT%T.") c = some (stamp 84 c ++ [46]) := by
  have hl := stamp_len 84 c
  have e1 : ftime e c (expand (asc "%FT%T.")) = stamp 84 c ++ [46] := by
    rw [fmt_iso, show (37 :: 89 :: 45 :: 37 :: 109 :: 45 :: 37 :: 100 :: 84 :: 37 :: 72 :: 58 :: 37 :: 77 :: 58 :: 37 :: 83 :: 46 :: [] : List UInt8) =
      (37 :: 89 :: 45 :: 37 :: 109 :: 45 :: 37 :: 100 :: 84 :: 37 :: 72 :: 58 :: 37 :: 77 :: 58 :: 37 :: 83 :: []) ++ [46] from rfl,
      ftime_append, ftime_stamp e c h 84 (by decide)]
    · rfl
    · intro a b hab
      have := congrArg List.getLast? hab
      simp at this
      subst this
      decide
  unfold strftime
  rw [e1, if_neg]
  rintro (h | h)
  · simp at h
  · simp [hl] at h

theorem tmod_part (t ms : Int) (h0 : 0 ≤ ms) (h1 : ms < 1000) (h : 0 ≤ t ∨ ms = 0) : Int.tmod (t * 1000 + ms) 1000 = ms := by
  rcases h with h | h
  · rw [Int.tmod_eq_emod_of_nonneg (by omega)]; omega
  · subst h; rw [Int.add_zero, Int.mul_tmod_left]

/-- **C172** With `iso` and `utc` the date, the time and the milliseconds are shown; from 1970 on. -/
theorem C172_shows_partial (e : Env) (c : TM) (h : Plain c) (ms : Int) (h0 : 0 ≤ ms) (h1 : ms < 1000) (hn : 0 ≤ secs c ∨ ms = 0) :
    strftimeCmd e (secs c * 1000 + ms) none true false true = some (stamp 84 c ++ 46 :: three ms) := by
  unfold strftimeCmd
  simp only [if_true, Bool.false_eq_true, if_false]
  have hf : formatOf (some (asc "%FT%T.%f")) true = asc "%FT%T.%f" := by decide
  have h2 : gm (Int.tdiv (secs c * 1000 + ms) 1000) = c := by
    rw [tdiv_part _ _ h0 h1 hn, gm_secs h.1]
  unfold format
  simp only [hf, findF_iso, if_true, h2, strftime_iso e c h, formatRest, tmod_part _ _ h0 h1 hn, dec3_three ms h0 h1]
  simp

theorem readMs_three (n : Nat) (h : n < 1000) (r : List UInt8) (hr : ∀ c t, r = c :: t → isDig c = false) :
    readMs (46 :: (three n ++ r)) = ((n : Int), r) := by
  rw [three_nat n h]
  simp only [List.cons_append, List.nil_append]
  unfold readMs
  simp only [dig_isDig, and_self, if_true]
  congr 1
  rw [digitsVal, if_pos (dig_isDig _), dig_val, digitsVal, if_pos (dig_isDig _), dig_val, digitsVal, if_pos (dig_isDig _), dig_val]
  have : ∀ v, digitsVal v r = v := by
    intro v
    cases r with
    | nil => rfl
    | cons c t => rw [digitsVal, if_neg (by rw [hr c t rfl]; decide)]
  rw [this]
  omega

/-- **C172** A time with milliseconds, shown with `iso` and `utc` and read with `utc`, is the same; from 1970 on. -/
theorem C172_round_trip_partial (e : Env) (he : e.Ok) (c : TM) (h : Plain c) (hs : e.Shown (secs c)) (hm : e.mkt (secs c) ≠ -1)
    (ms : Int) (h0 : 0 ≤ ms) (h1 : ms < 1000) (hn : 0 ≤ secs c ∨ ms = 0) :
    ∃ text, strftimeCmd e (secs c * 1000 + ms) none true false true = some text ∧
      strptimeCmd e text none true false = some (secs c * 1000 + ms) := by
  refine ⟨_, C172_shows_partial e c h ms h0 h1 hn, ?_⟩
  have hw : e.mkt (secs c) + e.off (e.mkt (secs c)) = secs c := by
    obtain ⟨t, ht⟩ := hs
    rw [← ht]; exact he t
  rw [parse_stamp e 84 (.inr rfl) c h _ true false hm]
  obtain ⟨n, rfl⟩ := Int.eq_ofNat_of_zero_le h0
  have := readMs_three n (by omega) [] (by intro c t h; cases h)
  rw [List.append_nil] at this
  rw [this]
  have ho : offset (skipBlank []) = 0 := by decide
  simp only [if_true, Bool.false_eq_true, if_false, ho, Int.add_zero, hw]

example : (0 : Int) ≤ secs leapDay ∧ stamp 84 leapDay ++ 46 :: three 7 = asc "2024-02-29T12:34:56.007" := by decide

/-- **C172** (the code does not do this) Times before 1970 show their milliseconds, and the format that shows a time reads it. -/
theorem C172_refuted : strftimeCmd (fixed 0) (-1) none true false true = some (asc "1970-01-01T00:00:00.-001") ∧
    strftimeCmd (fixed 0) 7 (some (asc "%FT%T.%f")) true false false = some (asc "1970-01-01T00:00:00.007") ∧
    strptimeCmd (fixed 0) (asc "1970-01-01T00:00:00.007") (some (asc "%FT%T.%f")) true false = none := by decide +kernel

end Verif.Date
