import Verif.Basic

/-!
Model of `Date.strftime` and `Date.strptime` (src/jsiCmds.c 1945-2245) on Linux.

Times are whole numbers of milliseconds.  `strftime`, `strptime`, `gmtime_r`, `sscanf` and `atof` are modelled as glibc has them
for the conversions %Y %m %d %H %M %S %F %T; what the others do is left open (`Env.shown`, `Env.read`).  The time zone is left
open too: `Env.off t` is what the clocks are ahead of UTC at time `t`, `Env.mkt` is `mktime`.
-/

namespace Verif.Date

open Verif

/-- `struct tm`; `year` is the year itself (`tm_year + 1900`), `mon` counts from 1. -/
structure TM where
  year : Int
  mon : Int
  mday : Int
  hour : Int
  min : Int
  sec : Int
  deriving DecidableEq, Repr

/-- `struct tm tm = {}` (src/jsiCmds.c 1978) -/
def TM.zero : TM := ⟨1900, 1, 0, 0, 0, 0⟩

/-- Leap years of the Gregorian calendar. -/
def leap (y : Int) : Bool := decide (y % 4 = 0) && (decide (y % 100 ≠ 0) || decide (y % 400 = 0))

/-- The days of the year before month `m`. -/
def daysBefore (y m : Int) : Int :=
  (if m ≤ 1 then 0 else if m = 2 then 31 else if m = 3 then 59 else if m = 4 then 90 else if m = 5 then 120 else if m = 6 then 151
   else if m = 7 then 181 else if m = 8 then 212 else if m = 9 then 243 else if m = 10 then 273 else if m = 11 then 304 else 334)
  + (if 3 ≤ m ∧ leap y = true then 1 else 0)

/-- The day counted from 1970-01-01. -/
def dayNumber (y m d : Int) : Int :=
  365 * (y - 1970) + ((y - 1) / 4 - (y - 1) / 100 + (y - 1) / 400 - 477) + daysBefore y m + (d - 1)

/-- The seconds from 1970-01-01 00:00:00 to what a clock shows (what `timegm` and, without a time zone, `mktime` compute). -/
def secs (c : TM) : Int := dayNumber c.year c.mon c.mday * 86400 + c.hour * 3600 + c.min * 60 + c.sec

/-- The year that begins in March, and the day in it, of day `z` of the count from 0000-03-01: 400 years have 146097 days, 100
years 36524 (the last one more), 4 years 1461 (the last of a century maybe one less), a year 365 (the last one more). -/
def marchYear (z : Int) : Int × Int :=
  let doe := z % 146097
  let c := if doe / 36524 = 4 then 3 else doe / 36524
  let r := doe - c * 36524
  let y := if r % 1461 / 365 = 4 then 3 else r % 1461 / 365
  (z / 146097 * 400 + c * 100 + r / 1461 * 4 + y, r % 1461 - y * 365)

/-- The month and day of day `doy` of a year that begins in March. -/
def monthDay (doy : Int) : Int × Int :=
  let mp := (5 * doy + 2) / 153
  ((if mp < 10 then mp + 3 else mp - 9), doy - (153 * mp + 2) / 5 + 1)

/-- `gmtime_r` (glibc has a loop instead of the closed formula) -/
def gm (t : Int) : TM :=
  let z := t / 86400 + 719468
  let md := monthDay (marchYear z).2
  let r := t % 86400
  ⟨(marchYear z).1 + (if md.1 ≤ 2 then 1 else 0), md.1, md.2, r / 3600, r % 3600 / 60, r % 60⟩

/-- What the program finds around it. -/
structure Env where
  /-- the time now, in ms -/
  now : Int
  /-- `tm_gmtoff` at a time in seconds -/
  off : Int → Int
  /-- `mktime` for what a clock shows, in seconds -/
  mkt : Int → Int
  /-- `strftime` for other conversions -/
  shown : UInt8 → TM → List UInt8
  /-- `strptime` for other conversions -/
  read : UInt8 → List UInt8 → TM → TM × Option (List UInt8)

/-- `localtime_r` -/
def Env.loc (e : Env) (t : Int) : TM := gm (t + e.off t)

/-! ### strftime -/

/-- A decimal digit. -/
def dig (n : Nat) : UInt8 := UInt8.ofNat (48 + n % 10)

/-- The digits of a number, without leading zeros. -/
def decN (n : Nat) : List UInt8 := if n < 10 then [dig n] else decN (n / 10) ++ [dig n]

/-- %Y -/
def decI (n : Int) : List UInt8 := if n < 0 then 45 :: decN n.natAbs else decN n.natAbs

/-- Two digits (%m, %d, %H, %M, %S). -/
def dec2 (n : Int) : List UInt8 := [dig (n.toNat / 10), dig n.toNat]

/-- %F and %T are written out. -/
def expand : List UInt8 → List UInt8
  | 37 :: 70 :: f => asc "%Y-%m-%d" ++ expand f
  | 37 :: 84 :: f => asc "%H:%M:%S" ++ expand f
  | 37 :: k :: f => 37 :: k :: expand f
  | c :: f => c :: expand f
  | [] => []

/-- What one conversion shows. -/
def conv (e : Env) (k : UInt8) (c : TM) : List UInt8 :=
  if k = 89 then decI c.year
  else if k = 109 then dec2 c.mon
  else if k = 100 then dec2 c.mday
  else if k = 72 then dec2 c.hour
  else if k = 77 then dec2 c.min
  else if k = 83 then dec2 c.sec
  else if k = 37 then [37]
  else e.shown k c

/-- `strftime` on a written out format -/
def ftime (e : Env) (c : TM) : List UInt8 → List UInt8
  | 37 :: k :: f => conv e k c ++ ftime e c f
  | b :: f => b :: ftime e c f
  | [] => []

/-- `strftime` into a buffer of 8192 bytes: nothing, or too much, is an error for the caller (src/jsiCmds.c 2100, 2113). -/
def strftime (e : Env) (f : List UInt8) (c : TM) : Option (List UInt8) :=
  if ftime e c (expand f) = [] ∨ 8192 ≤ (ftime e c (expand f)).length then none else some (ftime e c (expand f))

/-- `strstr(fmt, "%f")` with the conditions that it is not at the start and no `%` is before it; `p`: what was passed, backwards. -/
def findF (p : List UInt8) : List UInt8 → Option (List UInt8 × List UInt8)
  | 37 :: 102 :: f => if p = [] ∨ p.head? = some 37 then none else some (p.reverse, f)
  | c :: f => findF (c :: p) f
  | [] => none

/-- printf("%3.3d") -/
def dec3 (n : Int) : List UInt8 :=
  (if n < 0 then [45] else []) ++ (if n.natAbs < 1000 then [dig (n.natAbs / 100), dig (n.natAbs / 10), dig n.natAbs] else decN n.natAbs)

/-- The formats tried (src/jsiCmds.c 1958-1968). -/
def timeFmts : List (List UInt8) :=
  [asc "%Y-%m-%d %H:%M:%S", asc "%Y-%m-%dT%H:%M:%S", asc "%Y-%m-%d %H:%M", asc "%Y-%m-%dT%H:%M", asc "%Y-%m-%d", asc "%H:%M:%S",
   asc "%H:%M", asc "%c"]

/-- The format used (src/jsiCmds.c 2068-2075). -/
def formatOf (fmt : Option (List UInt8)) (utc : Bool) : List UInt8 :=
  match fmt with
  | none => asc "%Y-%m-%d %H:%M:%S"
  | some [] => if utc then asc "%Y-%m-%d %H:%M" else asc "%Y-%m-%dT%H:%M:%S"
  | some f => f

/-- What follows %f (src/jsiCmds.c 2111-2119). -/
def formatRest (e : Env) (f : List UInt8) (c : TM) : Option (List UInt8) := if f = [] then some [] else strftime e f c

/-- `Jsi_DatetimeFormat` (src/jsiCmds.c 2060-2121); `num/1000` and the remainder are cut towards zero. The text before %f alone is
formatted (`Jsi_Strncpy` ends it with a NUL and "%S." lands behind that). A format is taken to be shorter than the buffers. -/
def format (e : Env) (num : Int) (fmt : Option (List UInt8)) (utc : Bool) : Option (List UInt8) :=
  let tt := Int.tdiv num 1000
  let c := if utc then gm tt else e.loc tt
  match findF [] (formatOf fmt utc) with
  | none => strftime e (formatOf fmt utc) c
  | some (p, r) =>
    match strftime e p c, formatRest e r c with
    | some a, some b => some (a ++ dec3 (Int.tmod num 1000) ++ b)
    | _, _ => none

/-! ### strptime -/

/-- `isdigit` -/
def isDig (c : UInt8) : Bool := decide (48 ≤ c.toNat) && decide (c.toNat ≤ 57)
/-- `isspace` -/
def isSp (c : UInt8) : Bool := decide (c = 32) || (decide (9 ≤ c.toNat) && decide (c.toNat ≤ 13))

/-- The loop of `get_number` in glibc: at most `n` digits, and none after which `hi` must be exceeded. -/
def numLoop (hi : Nat) : Nat → Nat → List UInt8 → Nat × List UInt8
  | n + 1, v, c :: s => if isDig c = true ∧ v * 10 ≤ hi then numLoop hi n (v * 10 + (c.toNat - 48)) s else (v, c :: s)
  | _, v, s => (v, s)

/-- `get_number` of glibc. -/
def getNum (lo hi n : Nat) (s : List UInt8) : Option (Nat × List UInt8) :=
  match s.dropWhile (fun c => decide (c = 32)) with
  | [] => none
  | c :: t =>
    if isDig c = false then none
    else if (numLoop hi n 0 (c :: t)).1 < lo ∨ hi < (numLoop hi n 0 (c :: t)).1 then none
    else some (numLoop hi n 0 (c :: t))

/-- A field is stored when its number was read. -/
def field (tm : TM) (r : Option (Nat × List UInt8)) (set : TM → Int → TM) : TM × Option (List UInt8) :=
  match r with
  | none => (tm, none)
  | some (v, s) => (set tm v, some s)

/-- What one conversion reads. -/
def readConv (e : Env) (k : UInt8) (s : List UInt8) (tm : TM) : TM × Option (List UInt8) :=
  if k = 89 then field tm (getNum 0 9999 4 s) (fun c v => { c with year := v })
  else if k = 109 then field tm (getNum 1 12 2 s) (fun c v => { c with mon := v })
  else if k = 100 then field tm (getNum 1 31 2 s) (fun c v => { c with mday := v })
  else if k = 72 then field tm (getNum 0 23 2 s) (fun c v => { c with hour := v })
  else if k = 77 then field tm (getNum 0 59 2 s) (fun c v => { c with min := v })
  else if k = 83 then field tm (getNum 0 61 2 s) (fun c v => { c with sec := v })
  else e.read k s tm

/-- One character of the format that is not a conversion. -/
def readChar (c : UInt8) (s : List UInt8) : Option (List UInt8) :=
  if isSp c then some (s.dropWhile isSp)
  else if s.head? = some c then some s.tail
  else none

/-- `strptime` on a written out format: the fields, stored as far as it got, and the rest of the text. -/
def ptime (e : Env) : List UInt8 → List UInt8 → TM → TM × Option (List UInt8)
  | 37 :: k :: f, s, tm =>
    match readConv e k s tm with
    | (tm', some s') => ptime e f s' tm'
    | (tm', none) => (tm', none)
  | c :: f, s, tm =>
    match readChar c s with
    | some s' => ptime e f s' tm
    | none => (tm, none)
  | [], s, tm => (tm, some s)

/-- `strptime` -/
def strptime (e : Env) (f s : List UInt8) (tm : TM) : TM × Option (List UInt8) := ptime e (expand f) s tm

/-- The formats are tried in turn on the same fields (src/jsiCmds.c 2014-2019). -/
def tryAll (e : Env) : List (List UInt8) → List UInt8 → TM → TM × Option (List UInt8)
  | [], _, tm => (tm, none)
  | f :: fs, s, tm =>
    match strptime e f s tm with
    | (tm', some r) => (tm', some r)
    | (tm', none) => tryAll e fs s tm'

/-- src/jsiCmds.c 2005-2020; a format is taken to be shorter than the buffer. -/
def readFields (e : Env) (fmt : Option (List UInt8)) (s : List UInt8) : TM × Option (List UInt8) :=
  match fmt with
  | none => tryAll e timeFmts s .zero
  | some [] => tryAll e timeFmts.tail s .zero
  | some f =>
    match findF [] f with
    | none => strptime e f s .zero
    | some (p, _) => strptime e (p ++ asc ":%S.") s .zero

/-- The number that digits begin (`atof`; a point or an exponent behind the digits is left out). -/
def digitsVal (v : Nat) : List UInt8 → Nat
  | c :: s => if isDig c then digitsVal (v * 10 + (c.toNat - 48)) s else v
  | [] => v

/-- The milliseconds (src/jsiCmds.c 2026-2029). -/
def readMs : List UInt8 → Int × List UInt8
  | 46 :: a :: b :: c :: s =>
    if isDig a = true ∧ isDig b = true ∧ isDig c = true then (digitsVal 0 (a :: b :: c :: s), s) else (0, 46 :: a :: b :: c :: s)
  | s => (0, s)

/-- The digits of a `%2d` of sscanf, at most `n`. -/
def scanDigits : Nat → List UInt8 → List UInt8
  | n + 1, c :: s => if isDig c then c :: scanDigits n s else []
  | _, _ => []

/-- `%2d` of sscanf: blanks, a sign, digits; two characters. -/
def scan2 (s : List UInt8) : Option (Int × List UInt8) :=
  match s.dropWhile isSp with
  | [] => none
  | c :: t =>
    if c = 43 ∨ c = 45 then
      (if scanDigits 1 t = [] then none
       else some ((if c = 45 then -1 else 1) * (digitsVal 0 (scanDigits 1 t) : Int), t.drop 1))
    else if scanDigits 2 (c :: t) = [] then none
    else some (digitsVal 0 (scanDigits 2 (c :: t)), (c :: t).drop (scanDigits 2 (c :: t)).length)

/-- `+` or `-` -/
def isSign (c : UInt8) : Bool := decide (c = 43) || decide (c = 45)

/-- `sscanf(rv, "%[+-]%2d:%2d", ss, &th, &ts) == 3` (src/jsiCmds.c 2035) -/
def scanOff (s : List UInt8) : Option (Int × Int) :=
  if s.takeWhile isSign = [] then none
  else match scan2 (s.dropWhile isSign) with
    | some (h, 58 :: r) => (scan2 r).map fun m => (h, m.1)
    | _ => none

/-- How many bytes that sscanf stores in `ss`, which has 3. -/
def scanStores (s : List UInt8) : Nat :=
  if s.takeWhile isSign = [] then 0 else (s.takeWhile isSign).length + 1

/-- `if (rv[0] == ' ') rv++` -/
def skipBlank : List UInt8 → List UInt8
  | 32 :: s => s
  | s => s

/-- What the offset in the text adds (src/jsiCmds.c 2034-2038). -/
def offset (s : List UInt8) : Int :=
  match scanOff s with
  | some (h, m) => (3600 * h + 60 * m) * (if s.head? = some 45 then 1 else -1)
  | none => 0

/-- `Jsi_DatetimeParse` (src/jsiCmds.c 1970-2058) -/
def parse (e : Env) (s : List UInt8) (fmt : Option (List UInt8)) (utc : Bool) : Option Int :=
  if s = asc "now" then some (e.now + if utc then e.off (Int.tdiv e.now 1000) * 1000 else 0)
  else match readFields e fmt s with
    | (_, none) => none
    | (tm, some rv) =>
      let t := e.mkt (secs tm)
      if t = -1 then none
      else some ((t + offset (skipBlank (readMs rv).2) + if utc then e.off t else 0) * 1000 + (readMs rv).1)

/-- The bytes stored in `ss` when the text is parsed. -/
def parseStores (e : Env) (s : List UInt8) (fmt : Option (List UInt8)) : Nat :=
  if s = asc "now" then 0
  else match readFields e fmt s with
    | (_, none) => 0
    | (_, some rv) => scanStores (skipBlank (readMs rv).2)

/-- `Date.strptime(text, {utc, fmt, secs})` (src/jsiCmds.c 2142-2173); `none` is NaN.  A text is not empty. -/
def strptimeCmd (e : Env) (s : List UInt8) (fmt : Option (List UInt8)) (utc sec : Bool) : Option Int :=
  (parse e (if s = [] then asc "now" else s) fmt utc).map fun w => if sec then Int.tdiv w 1000 else w

/-- `Date.strftime(num, {utc, fmt, secs, iso})` (src/jsiCmds.c 2177-2240); `none` is an error. -/
def strftimeCmd (e : Env) (num : Int) (fmt : Option (List UInt8)) (utc sec iso : Bool) : Option (List UInt8) :=
  if iso then (if fmt = none then format e (if sec then num * 1000 else num) (some (asc "%FT%T.%f")) utc else none)
  else format e (if sec then num * 1000 else num) fmt utc

end Verif.Date
