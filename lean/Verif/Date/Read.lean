import Verif.Date.Inj

/-! Reading back what was written. -/

namespace Verif.Date

open Verif

/-! ### Specification: how a date and time are written -/

/-- The digit for 0 to 9. -/
def digit (n : Int) : UInt8 := UInt8.ofNat (48 + n.toNat)
/-- Two digits. -/
def two (n : Int) : List UInt8 := [digit (n / 10), digit (n % 10)]
/-- Four digits. -/
def four (n : Int) : List UInt8 := [digit (n / 1000), digit (n / 100 % 10), digit (n / 10 % 10), digit (n % 10)]
/-- Three digits. -/
def three (n : Int) : List UInt8 := [digit (n / 100), digit (n / 10 % 10), digit (n % 10)]

/-- YYYY-MM-DD -/
def dateText (c : TM) : List UInt8 := four c.year ++ 45 :: (two c.mon ++ 45 :: two c.mday)
/-- HH:MM -/
def minText (c : TM) : List UInt8 := two c.hour ++ 58 :: two c.min
/-- HH:MM:SS -/
def timeText (c : TM) : List UInt8 := two c.hour ++ 58 :: (two c.min ++ 58 :: two c.sec)
/-- YYYY-MM-DD HH:MM:SS, `sep` in the middle -/
def stamp (sep : UInt8) (c : TM) : List UInt8 := dateText c ++ sep :: timeText c

/-- A date and time that exist, with a year of four digits. -/
def Plain (c : TM) : Prop := Valid c ∧ 1000 ≤ c.year ∧ c.year ≤ 9999

/-! ### Digits -/

theorem digit_dig (n : Nat) : digit ((n % 10 : Nat) : Int) = dig n := rfl

theorem dig_isDig (n : Nat) : isDig (dig n) = true := by
  have key : ∀ k < 10, isDig (UInt8.ofNat (48 + k)) = true := by decide
  exact key _ (Nat.mod_lt _ (by decide))

theorem dig_val (n : Nat) : (dig n).toNat - 48 = n % 10 := by
  have key : ∀ k < 10, (UInt8.ofNat (48 + k)).toNat - 48 = k := by decide
  exact key _ (Nat.mod_lt _ (by decide))

theorem dig_ne (n : Nat) (c : UInt8) (h : isDig c = false) : dig n ≠ c := by
  intro e; rw [← e, dig_isDig] at h; cases h

theorem two_nat (n : Nat) (h : n < 100) : two n = [dig (n / 10), dig n] := by
  unfold two
  have e : ((n : Int) / 10) = ((n / 10 % 10 : Nat) : Int) := by omega
  have e2 : ((n : Int) % 10) = ((n % 10 : Nat) : Int) := by omega
  rw [e, e2, digit_dig, digit_dig]

theorem four_nat (n : Nat) (h : n < 10000) : four n = [dig (n / 1000), dig (n / 100), dig (n / 10), dig n] := by
  unfold four
  have e : ((n : Int) / 1000) = ((n / 1000 % 10 : Nat) : Int) := by omega
  have e1 : ((n : Int) / 100 % 10) = ((n / 100 % 10 : Nat) : Int) := by omega
  have e2 : ((n : Int) / 10 % 10) = ((n / 10 % 10 : Nat) : Int) := by omega
  have e3 : ((n : Int) % 10) = ((n % 10 : Nat) : Int) := by omega
  rw [e, e1, e2, e3]; simp only [digit_dig]

theorem three_nat (n : Nat) (h : n < 1000) : three n = [dig (n / 100), dig (n / 10), dig n] := by
  unfold three
  have e1 : ((n : Int) / 100) = ((n / 100 % 10 : Nat) : Int) := by omega
  have e2 : ((n : Int) / 10 % 10) = ((n / 10 % 10 : Nat) : Int) := by omega
  have e3 : ((n : Int) % 10) = ((n % 10 : Nat) : Int) := by omega
  rw [e1, e2, e3]; simp only [digit_dig]

theorem dec2_two (n : Int) (h0 : 0 ≤ n) (h : n < 100) : dec2 n = two n := by
  obtain ⟨k, rfl⟩ := Int.eq_ofNat_of_zero_le h0
  rw [two_nat k (by omega)]; rfl

theorem decN_step (n : Nat) (h : 10 ≤ n) : decN n = decN (n / 10) ++ [dig n] := by
  rw [decN, if_neg (by omega)]

theorem decI_four (n : Int) (h0 : 1000 ≤ n) (h : n ≤ 9999) : decI n = four n := by
  obtain ⟨k, rfl⟩ := Int.eq_ofNat_of_zero_le (show 0 ≤ n by omega)
  rw [four_nat k (by omega)]
  unfold decI
  rw [if_neg (by omega), Int.natAbs_natCast, decN_step k (by omega), decN_step (k / 10) (by omega), decN_step (k / 10 / 10) (by omega),
    decN, if_pos (by omega)]
  simp only [Nat.div_div_eq_div_mul]
  rfl

theorem dec3_three (n : Int) (h0 : 0 ≤ n) (h : n < 1000) : dec3 n = three n := by
  obtain ⟨k, rfl⟩ := Int.eq_ofNat_of_zero_le h0
  rw [three_nat k (by omega)]
  unfold dec3
  rw [if_neg (by omega), if_pos (by omega)]
  rfl

/-! ### Numbers are read as written -/

theorem drop_dig (n : Nat) (r : List UInt8) :
    (dig n :: r).dropWhile (fun c => decide (c = 32)) = dig n :: r := by
  rw [List.dropWhile_cons, if_neg (by simpa using dig_ne n 32 (by decide))]

theorem numLoop_dig (hi n v k : Nat) (s : List UInt8) (h : v * 10 ≤ hi) :
    numLoop hi (n + 1) v (dig k :: s) = numLoop hi n (v * 10 + k % 10) s := by
  rw [numLoop, if_pos ⟨dig_isDig k, h⟩, dig_val]

theorem numLoop_zero (hi v : Nat) (s : List UInt8) : numLoop hi 0 v s = (v, s) := by
  cases s <;> rfl

theorem getNum_two (lo hi n : Nat) (h1 : lo ≤ n) (h2 : n ≤ hi) (h3 : n < 100) (r : List UInt8) :
    getNum lo hi 2 (two n ++ r) = some (n, r) := by
  rw [two_nat n h3]
  unfold getNum
  simp only [List.cons_append, List.nil_append]
  rw [drop_dig]
  simp only [dig_isDig]
  have e : numLoop hi 2 0 (dig (n / 10) :: dig n :: r) = (n, r) := by
    rw [numLoop_dig _ _ _ _ _ (by omega), numLoop_dig _ _ _ _ _ (by omega), numLoop_zero]
    congr 1
    omega
  rw [e, if_neg (by simp), if_neg (by omega)]

theorem getNum_four (n : Nat) (h : n ≤ 9999) (r : List UInt8) : getNum 0 9999 4 (four n ++ r) = some (n, r) := by
  rw [four_nat n (by omega)]
  unfold getNum
  simp only [List.cons_append, List.nil_append]
  rw [drop_dig]
  simp only [dig_isDig]
  have e : numLoop 9999 4 0 (dig (n / 1000) :: dig (n / 100) :: dig (n / 10) :: dig n :: r) = (n, r) := by
    rw [numLoop_dig _ _ _ _ _ (by omega), numLoop_dig _ _ _ _ _ (by omega), numLoop_dig _ _ _ _ _ (by omega),
      numLoop_dig _ _ _ _ _ (by omega), numLoop_zero]
    congr 1
    omega
  rw [e, if_neg (by simp), if_neg (by omega)]

/-! ### Steps of strptime -/

variable (e : Env)

theorem ptime_conv (k : UInt8) (f s s' : List UInt8) (tm tm' : TM) (h : readConv e k s tm = (tm', some s')) :
    ptime e (37 :: k :: f) s tm = ptime e f s' tm' := by
  rw [ptime, h]

theorem ptime_convFail (k : UInt8) (f s : List UInt8) (tm tm' : TM) (h : readConv e k s tm = (tm', none)) :
    ptime e (37 :: k :: f) s tm = (tm', none) := by
  rw [ptime, h]

theorem ptime_char (c : UInt8) (hc : c ≠ 37) (f s s' : List UInt8) (tm : TM) (h : readChar c s = some s') :
    ptime e (c :: f) s tm = ptime e f s' tm := by
  rw [ptime, h]
  intro k _ e1 _; exact hc e1

theorem ptime_charFail (c : UInt8) (hc : c ≠ 37) (f s : List UInt8) (tm : TM) (h : readChar c s = none) :
    ptime e (c :: f) s tm = (tm, none) := by
  rw [ptime, h]
  intro k _ e1 _; exact hc e1

theorem char_same (c : UInt8) (hc : isSp c = false) (s : List UInt8) : readChar c (c :: s) = some s := by
  unfold readChar; rw [hc]; simp

theorem char_other (c : UInt8) (hc : isSp c = false) (s : List UInt8) (h : s.head? ≠ some c) : readChar c s = none := by
  unfold readChar; rw [hc, if_neg h]; simp

theorem char_blank (d : UInt8) (s : List UInt8) (h : isSp d = false) : readChar 32 (32 :: d :: s) = some (d :: s) := by
  unfold readChar
  rw [if_pos (by decide), List.dropWhile_cons, if_pos (by decide), List.dropWhile_cons, if_neg (by simp [h])]

theorem char_noBlank (d : UInt8) (s : List UInt8) (h : isSp d = false) : readChar 32 (d :: s) = some (d :: s) := by
  unfold readChar
  rw [if_pos (by decide), List.dropWhile_cons, if_neg (by simp [h])]

theorem read_Y (c : Int) (h0 : 0 ≤ c) (h : c ≤ 9999) (f r : List UInt8) (tm : TM) :
    ptime e (37 :: 89 :: f) (four c ++ r) tm = ptime e f r { tm with year := c } := by
  obtain ⟨n, rfl⟩ := Int.eq_ofNat_of_zero_le h0
  apply ptime_conv
  unfold readConv
  rw [if_pos rfl, getNum_four n (by omega)]; rfl

theorem read_m (c : Int) (h0 : 1 ≤ c) (h : c ≤ 12) (f r : List UInt8) (tm : TM) :
    ptime e (37 :: 109 :: f) (two c ++ r) tm = ptime e f r { tm with mon := c } := by
  obtain ⟨n, rfl⟩ := Int.eq_ofNat_of_zero_le (show 0 ≤ c by omega)
  apply ptime_conv
  have : readConv e 109 (two n ++ r) tm = field tm (getNum 1 12 2 (two n ++ r)) (fun c v => { c with mon := v }) := by simp [readConv]
  rw [this, getNum_two _ _ n (by omega) (by omega) (by omega)]; rfl

theorem read_d (c : Int) (h0 : 1 ≤ c) (h : c ≤ 31) (f r : List UInt8) (tm : TM) :
    ptime e (37 :: 100 :: f) (two c ++ r) tm = ptime e f r { tm with mday := c } := by
  obtain ⟨n, rfl⟩ := Int.eq_ofNat_of_zero_le (show 0 ≤ c by omega)
  apply ptime_conv
  have : readConv e 100 (two n ++ r) tm = field tm (getNum 1 31 2 (two n ++ r)) (fun c v => { c with mday := v }) := by simp [readConv]
  rw [this, getNum_two _ _ n (by omega) (by omega) (by omega)]; rfl

theorem read_H (c : Int) (h0 : 0 ≤ c) (h : c < 24) (f r : List UInt8) (tm : TM) :
    ptime e (37 :: 72 :: f) (two c ++ r) tm = ptime e f r { tm with hour := c } := by
  obtain ⟨n, rfl⟩ := Int.eq_ofNat_of_zero_le h0
  apply ptime_conv
  have : readConv e 72 (two n ++ r) tm = field tm (getNum 0 23 2 (two n ++ r)) (fun c v => { c with hour := v }) := by simp [readConv]
  rw [this, getNum_two _ _ n (by omega) (by omega) (by omega)]; rfl

theorem read_M (c : Int) (h0 : 0 ≤ c) (h : c < 60) (f r : List UInt8) (tm : TM) :
    ptime e (37 :: 77 :: f) (two c ++ r) tm = ptime e f r { tm with min := c } := by
  obtain ⟨n, rfl⟩ := Int.eq_ofNat_of_zero_le h0
  apply ptime_conv
  have : readConv e 77 (two n ++ r) tm = field tm (getNum 0 59 2 (two n ++ r)) (fun c v => { c with min := v }) := by simp [readConv]
  rw [this, getNum_two _ _ n (by omega) (by omega) (by omega)]; rfl

theorem read_S (c : Int) (h0 : 0 ≤ c) (h : c < 60) (f r : List UInt8) (tm : TM) :
    ptime e (37 :: 83 :: f) (two c ++ r) tm = ptime e f r { tm with sec := c } := by
  obtain ⟨n, rfl⟩ := Int.eq_ofNat_of_zero_le h0
  apply ptime_conv
  have : readConv e 83 (two n ++ r) tm = field tm (getNum 0 61 2 (two n ++ r)) (fun c v => { c with sec := v }) := by simp [readConv]
  rw [this, getNum_two _ _ n (by omega) (by omega) (by omega)]; rfl

theorem read_lit (c : UInt8) (hc : c ≠ 37) (hs : isSp c = false) (f r : List UInt8) (tm : TM) :
    ptime e (c :: f) (c :: r) tm = ptime e f r tm := ptime_char e c hc f _ _ tm (char_same c hs r)

theorem two_cons (n : Int) (h0 : 0 ≤ n) (h : n < 100) (r : List UInt8) : ∃ k t, two n ++ r = dig k :: t := by
  obtain ⟨k, rfl⟩ := Int.eq_ofNat_of_zero_le h0
  rw [two_nat k (by omega)]
  exact ⟨_, _, rfl⟩

theorem dig_notSp (n : Nat) : isSp (dig n) = false := by
  have key : ∀ k < 10, isSp (UInt8.ofNat (48 + k)) = false := by decide
  exact key _ (Nat.mod_lt _ (by decide))

theorem monthLen_le (y m : Int) : monthLen y m ≤ 31 := by
  unfold monthLen; split
  · split <;> omega
  · split <;> omega

theorem fmt_sp : expand (asc "%Y-%m-%d %H:%M:%S") = 37 :: 89 :: 45 :: 37 :: 109 :: 45 :: 37 :: 100 :: 32 :: 37 :: 72 :: 58 :: 37 :: 77 :: 58 :: 37 :: 83 :: [] := by
  decide
theorem fmt_T : expand (asc "%Y-%m-%dT%H:%M:%S") = 37 :: 89 :: 45 :: 37 :: 109 :: 45 :: 37 :: 100 :: 84 :: 37 :: 72 :: 58 :: 37 :: 77 :: 58 :: 37 :: 83 :: [] := by
  decide
theorem fmt_spm : expand (asc "%Y-%m-%d %H:%M") = 37 :: 89 :: 45 :: 37 :: 109 :: 45 :: 37 :: 100 :: 32 :: 37 :: 72 :: 58 :: 37 :: 77 :: [] := by
  decide
theorem fmt_Tm : expand (asc "%Y-%m-%dT%H:%M") = 37 :: 89 :: 45 :: 37 :: 109 :: 45 :: 37 :: 100 :: 84 :: 37 :: 72 :: 58 :: 37 :: 77 :: [] := by
  decide
theorem fmt_d : expand (asc "%Y-%m-%d") = 37 :: 89 :: 45 :: 37 :: 109 :: 45 :: 37 :: 100 :: [] := by
  decide

/-- The date at the start of a format. -/
theorem read_date (c : TM) (h : Valid c) (hy : 0 ≤ c.year ∧ c.year ≤ 9999) (f r : List UInt8) (tm : TM) :
    ptime e (37 :: 89 :: 45 :: 37 :: 109 :: 45 :: 37 :: 100 :: f) (dateText c ++ r) tm =
      ptime e f r { tm with year := c.year, mon := c.mon, mday := c.mday } := by
  obtain ⟨⟨h1, h2, h3, h4⟩, _⟩ := h
  have := monthLen_le c.year c.mon
  unfold dateText
  simp only [List.append_assoc, List.cons_append]
  rw [read_Y e _ hy.1 hy.2, read_lit e 45 (by decide) (by decide), read_m e _ h1 h2, read_lit e 45 (by decide) (by decide),
    read_d e _ h3 (by omega)]

theorem read_mins (c : TM) (h : Valid c) (f r : List UInt8) (tm : TM) :
    ptime e (37 :: 72 :: 58 :: 37 :: 77 :: f) (minText c ++ r) tm = ptime e f r { tm with hour := c.hour, min := c.min } := by
  obtain ⟨_, a1, a2, a3, a4, _⟩ := h
  unfold minText
  simp only [List.append_assoc, List.cons_append]
  rw [read_H e _ a1 a2, read_lit e 58 (by decide) (by decide), read_M e _ a3 a4]

theorem read_time (c : TM) (h : Valid c) (f r : List UInt8) (tm : TM) :
    ptime e (37 :: 72 :: 58 :: 37 :: 77 :: 58 :: 37 :: 83 :: f) (timeText c ++ r) tm =
      ptime e f r { tm with hour := c.hour, min := c.min, sec := c.sec } := by
  obtain ⟨_, a1, a2, a3, a4, a5, a6⟩ := h
  unfold timeText
  simp only [List.append_assoc, List.cons_append]
  rw [read_H e _ a1 a2, read_lit e 58 (by decide) (by decide), read_M e _ a3 a4, read_lit e 58 (by decide) (by decide), read_S e _ a5 a6]

theorem time_head (c : TM) (h : Valid c) (r : List UInt8) : ∃ k t, timeText c ++ r = dig k :: t := by
  unfold timeText
  rw [List.append_assoc]
  exact two_cons _ h.2.1 (by have := h.2.2.1; omega) _

theorem min_head (c : TM) (h : Valid c) (r : List UInt8) : ∃ k t, minText c ++ r = dig k :: t := by
  unfold minText
  rw [List.append_assoc]
  exact two_cons _ h.2.1 (by have := h.2.2.1; omega) _

theorem blank_step (f s : List UInt8) (k : Nat) (t : List UInt8) (hs : s = dig k :: t) (tm : TM) :
    ptime e (32 :: f) (32 :: s) tm = ptime e f s tm := by
  subst hs
  exact ptime_char e 32 (by decide) f _ _ tm (char_blank _ _ (dig_notSp k))

/-- A character that is no digit where a number should be. -/
theorem noNum (k : UInt8) (hk : k = 72) (d : UInt8) (hd : isDig d = false) (h32 : d ≠ 32) (f s : List UInt8) (tm : TM) :
    ptime e (37 :: k :: f) (d :: s) tm = (tm, none) := by
  subst hk
  apply ptime_convFail
  have : readConv e 72 (d :: s) tm = field tm (getNum 0 23 2 (d :: s)) (fun c v => { c with hour := v }) := by simp [readConv]
  rw [this]
  have : getNum 0 23 2 (d :: s) = none := by
    unfold getNum
    rw [List.dropWhile_cons, if_neg (by simpa using h32)]
    simp only [hd, if_true]
  rw [this]; rfl

theorem noNumEnd (f : List UInt8) (tm : TM) : ptime e (37 :: 72 :: f) [] tm = (tm, none) := by
  apply ptime_convFail
  simp [readConv, getNum, field]

/-- YYYY-MM-DD HH:MM:SS is read as it is written, and what follows is left. -/
theorem read_stamp (c : TM) (h : Valid c) (hy : 0 ≤ c.year ∧ c.year ≤ 9999) (r : List UInt8) (tm : TM) :
    strptime e (asc "%Y-%m-%d %H:%M:%S") (stamp 32 c ++ r) tm = (c, some r) := by
  unfold strptime stamp
  rw [fmt_sp, List.append_assoc, read_date e c h hy, List.cons_append]
  obtain ⟨k, t, ht⟩ := time_head c h r
  rw [blank_step e _ _ k t ht, read_time e c h]
  rfl

theorem read_stampT (c : TM) (h : Valid c) (hy : 0 ≤ c.year ∧ c.year ≤ 9999) (r : List UInt8) (tm : TM) :
    strptime e (asc "%Y-%m-%dT%H:%M:%S") (stamp 84 c ++ r) tm = (c, some r) := by
  unfold strptime stamp
  rw [fmt_T, List.append_assoc, read_date e c h hy, List.cons_append, read_lit e 84 (by decide) (by decide), read_time e c h]
  rfl

/-- With a `T` the first format fails. -/
theorem read_stampT_first (c : TM) (h : Valid c) (hy : 0 ≤ c.year ∧ c.year ≤ 9999) (r : List UInt8) (tm : TM) :
    (strptime e (asc "%Y-%m-%d %H:%M:%S") (dateText c ++ 84 :: r) tm).2 = none := by
  unfold strptime
  rw [fmt_sp, read_date e c h hy, ptime_char e 32 (by decide) _ _ _ _ (char_noBlank 84 _ (by decide)),
    noNum e 72 rfl 84 (by decide) (by decide)]

theorem tryAll_fail (f : List UInt8) (fs : List (List UInt8)) (s : List UInt8) (tm : TM) (h : (strptime e f s tm).2 = none) :
    tryAll e (f :: fs) s tm = tryAll e fs s (strptime e f s tm).1 := by
  rw [tryAll]
  generalize strptime e f s tm = p at *
  obtain ⟨a, b⟩ := p
  simp only at h
  subst h
  rfl

/-- All formats together: with a blank ... -/
theorem readFields_sp (c : TM) (h : Valid c) (hy : 0 ≤ c.year ∧ c.year ≤ 9999) (r : List UInt8) :
    readFields e none (stamp 32 c ++ r) = (c, some r) := by
  unfold readFields timeFmts
  rw [tryAll, read_stamp e c h hy]

/-- ... and with a `T`. -/
theorem readFields_T (c : TM) (h : Valid c) (hy : 0 ≤ c.year ∧ c.year ≤ 9999) (r : List UInt8) :
    readFields e none (stamp 84 c ++ r) = (c, some r) := by
  unfold readFields timeFmts
  simp only []
  have h1 : (strptime e (asc "%Y-%m-%d %H:%M:%S") (stamp 84 c ++ r) .zero).2 = none := by
    have := read_stampT_first e c h hy (timeText c ++ r) .zero
    unfold stamp
    rw [List.append_assoc, List.cons_append]
    exact this
  rw [tryAll_fail e _ _ _ _ h1, tryAll, read_stampT e c h hy]

theorem readFields_T_empty (c : TM) (h : Valid c) (hy : 0 ≤ c.year ∧ c.year ≤ 9999) (r : List UInt8) :
    readFields e (some []) (stamp 84 c ++ r) = (c, some r) := by
  unfold readFields timeFmts
  simp only [List.tail_cons]
  rw [tryAll, read_stampT e c h hy]

end Verif.Date
