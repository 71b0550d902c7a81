import Verif.Basic
import Verif.Utf8.Model

/-!
Model of the String methods of src/jsiString.c that do not use regular expressions, of `Jsi_SplitStr`
(src/jsiUtils.c:2035-2079, 2307-2344), of the searches in src/jsiChar.c:52-63, 148-178 and of `Array.join`
(src/jsiArray.c:78-110).

A string value is the list of its bytes, which may contain NUL; `cstr` is what C sees of it.  Arguments are
given after their conversion.  Not modelled: the limits on sizes (`MAX_LOOP_COUNT`, `JSI_MAX_ALLOC_BUF`,
`maxArrayList`), locales other than "C", the conversion of other values to strings.
-/

namespace Verif.Str

open Verif.Utf8

/-- A string of bytes. -/
abbrev Bytes := List UInt8

/-- The bytes up to the first NUL. -/
def cstr (s : Bytes) : Bytes := s.takeWhile (· ≠ 0)

/-- `strstr` (src/jsiChar.c:52-54): the offset of the first occurrence of `sub`. -/
def strstr (sub : Bytes) : Bytes → Option Nat
  | [] => if sub = [] then some 0 else none
  | c :: s => if sub.isPrefixOf (c :: s) then some 0 else (strstr sub s).map (· + 1)

/-! ### split and join -/

/-- src/jsiUtils.c:2318-2324: how often `cnt` is incremented, from `cp = s`.  `sub` is not empty. -/
def countLoop (sub s : Bytes) : Nat :=
  if s = [] then 0
  else match strstr sub s with
    | none => 0
    | some n => if sub = [] ∨ s.drop n = [] then 0 else 1 + countLoop sub (s.drop (n + sub.length))
termination_by s.length
decreasing_by
  rename_i h h2
  have h1 : s.length ≠ 0 := fun h1 => h (List.length_eq_zero_iff.1 h1)
  have h3 : sub.length ≠ 0 := fun h3 => h2 (Or.inl (List.length_eq_zero_iff.1 h3))
  simp only [List.length_drop]; omega

/-- src/jsiUtils.c:2332-2342: the strings `argv[0]`, ... from `cp = s` on (`*ep = 0` ends each). -/
def pieces (sub s : Bytes) : List Bytes :=
  if s = [] then [[]]
  else match strstr sub s with
    | none => [s]
    | some n =>
      if sub = [] ∨ s.drop n = [] then [s] else s.take n :: pieces sub (s.drop (n + sub.length))
termination_by s.length
decreasing_by
  rename_i h h2
  have h1 : s.length ≠ 0 := fun h1 => h (List.length_eq_zero_iff.1 h1)
  have h3 : sub.length ≠ 0 := fun h3 => h2 (Or.inl (List.length_eq_zero_iff.1 h3))
  simp only [List.length_drop]; omega

/-- `isspace` in the C locale. -/
def isspace (c : UInt8) : Bool := c = 32 || (9 ≤ c && c ≤ 13)

/-- src/jsiUtils.c:2043-2053 with `ch == 0`. -/
def wsCount : Bytes → Nat
  | [] => 0
  | c :: s => if isspace c then 1 + wsCount s else wsCount s

/-- src/jsiUtils.c:2062-2077 with `ch == 0`: the string being read, then the others. -/
def wsPieces : Bytes → Bytes → List Bytes
  | cur, [] => [cur]
  | cur, c :: s => if isspace c then cur :: wsPieces [] s else wsPieces (cur ++ [c]) s

/-- The vector `argv` has room for `cnt` strings (src/jsiUtils.c:2326-2331, 2055-2060); `none`: more are
stored, or fewer are. -/
def stored (cnt : Nat) (l : List Bytes) : Option (List Bytes) := if l.length = cnt then some l else none

/-- src/jsiUtils.c:2307-2344  `Jsi_SplitStr` on C strings; an empty separator is `SplitChar` with `ch == 0`. -/
def splitStr (s sep : Bytes) : Option (List Bytes) :=
  if (cstr sep).length = 0 then stored (1 + wsCount (cstr s)) (wsPieces [] (cstr s))
  else stored (1 + countLoop (cstr sep) (cstr s)) (pieces (cstr sep) (cstr s))

/-- The argument of `split`. -/
inductive SplitArg where
  | omitted
  | null
  | str (sep : Bytes)

/-- src/jsiString.c:56-107  `split`. -/
def split (s : Bytes) : SplitArg → Option (List Bytes)
  | .omitted => splitStr s []
  | .null => (splitStr s []).map (List.filter (· ≠ []))
  | .str sep => if sep = [] then some (s.map fun c => cstr [c]) else splitStr s sep

/-- The loop of src/jsiArray.c:93-105; `i` is the index, a hole is `none`. -/
def joinLoop (jstr : Bytes) : Nat → List (Option Bytes) → Bytes
  | _, [] => []
  | i, none :: l => joinLoop jstr (i + 1) l
  | i, some v :: l => (if i ≠ 0 ∧ jstr ≠ [] then jstr else []) ++ cstr v ++ joinLoop jstr (i + 1) l

/-- src/jsiArray.c:78-110  `join`; the elements are given by their strings. -/
def join (l : List (Option Bytes)) (sep : Option Bytes) : Bytes :=
  joinLoop (match sep with | none => [] | some s => cstr s) 0 l

/-! ### trim -/

/-- src/jsiString.c:352-360: from the left; `tstr` is the C string of characters. -/
def trimL (tstr : Bytes) : Bytes → Bytes
  | [] => []
  | c :: s => if c = 0 then c :: s else if c ∈ tstr then trimL tstr s else c :: s

/-- src/jsiString.c:361-368: the `k` bytes that are left, looked at from the last one. -/
def trimR (tstr : Bytes) (s : Bytes) : Nat → Nat
  | 0 => 0
  | k + 1 =>
    match s[k]? with
    | none => k + 1
    | some c => if c ∈ tstr then trimR tstr s k else k + 1

/-- src/jsiString.c:341, 345-350: the characters to remove. -/
def trimChars : Option Bytes → Bytes
  | none => [32, 9, 10, 13]
  | some c => cstr c

/-- src/jsiString.c:338-374  `_StringTrimCmd`: `left`/`right` are the bits of `ends`. -/
def trim (left right : Bool) (s : Bytes) (chars : Option Bytes) : Bytes :=
  let tstr := trimChars chars
  let v := if left then trimL tstr s else s
  let k := if right then trimR tstr v v.length else v.length
  v.take k

/-! ### case -/

/-- `toupper` in the C locale, for bytes below 128. -/
def toupper (c : UInt8) : UInt8 := if 97 ≤ c ∧ c ≤ 122 then c - 32 else c
/-- `tolower`. -/
def tolower (c : UInt8) : UInt8 := if 65 ≤ c ∧ c ≤ 90 then c + 32 else c

/-- The parameter `upper` of `jsi_utf_tocase`. -/
inductive Case where
  | lower | upper | title
deriving DecidableEq

/-- src/jsiString.c:417-418. -/
def Case.next : Case → Case
  | .title => .lower
  | c => c

/-- The loop of src/jsiString.c:398-420; `k` is `blen - m`, `fuel` bounds the steps (each takes a byte). -/
def caseLoop : Nat → Case → Nat → Bytes → Option Bytes
  | 0, _, _, _ => some []
  | fuel + 1, up, k, s =>
    if k = 0 then some []
    else (rdC s 0).bind fun c =>
      if c = 0 then some []
      else if c &&& 0x80 ≠ 0 then
        (utfToUniChar s).bind fun r =>
          let u := uniCharToUtf r.1
          if u.length ≥ k then some []
          else (caseLoop fuel up.next (k - u.length) (s.drop u.length)).map (cstr u ++ ·)
      else (caseLoop fuel up.next (k - 1) (s.drop 1)).map ((if up = .lower then tolower c else toupper c) :: ·)

/-- src/jsiString.c:394-422  `jsi_utf_tocase`; `toLowerCase`, `toUpperCase`, `toTitle`. -/
def toCase (up : Case) (s : Bytes) : Option Bytes := caseLoop s.length up s.length s

/-! ### searching -/

/-- src/jsiChar.c:148-160  `Jsi_Strpos`. -/
def strpos (s : Bytes) (start : Nat) (sub : Bytes) : Int :=
  if s.length < start then -1
  else match strstr sub (s.drop start) with
    | none => -1
    | some n => (start + n : Nat)

/-- src/jsiString.c:228-256  `indexOf`. -/
def indexOf (s sub : Bytes) (start : Option Int) : Int :=
  strpos (cstr s) (start.getD 0).toNat (cstr sub)

/-- The loop of src/jsiChar.c:171-174: `s` is what is left from offset `i`, `os` the last offset found. -/
def rposLoop (sub : Bytes) : Bytes → Nat → Option Nat → Option Nat
  | [], _, os => os
  | c :: s, i, os =>
    match strstr sub (c :: s) with
    | none => os
    | some n => rposLoop sub s (i + 1) (some (i + n))

/-- src/jsiChar.c:163-178  `Jsi_Strrpos`. -/
def strrpos (s : Bytes) (start : Nat) (sub : Bytes) : Int :=
  if s.length < start then -1
  else match rposLoop sub (s.drop start) start none with
    | none => -1
    | some n => (n : Nat)

/-- src/jsiString.c:488-516  `lastIndexOf`. -/
def lastIndexOf (s sub : Bytes) (start : Option Int) : Int :=
  strrpos (cstr s) (start.getD 0).toNat (cstr sub)

/-- src/jsiString.c:887-906  `search` with a string. -/
def search (s sub : Bytes) : Int :=
  match strstr (cstr sub) (cstr s) with
  | none => -1
  | some n => (n : Nat)

/-! ### parts -/

/-- src/jsiString.c:155-199  `substring(start, end)`.  `none` is an endless loop or an access out of
bounds. -/
def substring (s : Bytes) (start : Int) (e : Option Int) : Option Bytes :=
  let sLen := numUtfChars s
  match e with
  | none => if sLen = s.length then substrDup s start (-1) else utfSubstr s start (-1)
  | some e =>
    let iend : Int := if e > sLen then sLen else e
    if iend < start then some []
    else if sLen = s.length then substrDup s start (iend - start + 1)
    else utfSubstr s start (iend - start + 1)

/-- src/jsiString.c:563-568: the start of `slice`. -/
def sliceStart (len : Nat) (start : Int) : Int :=
  let i := if start < 0 then len + start else start
  let i := if i < 0 then 0 else i
  if i ≥ len then (len : Int) - 1 else i

/-- src/jsiString.c:569-580: the end. -/
def sliceEnd (len : Nat) (istart : Int) : Option Int → Int
  | none => len
  | some e =>
    let e := if e < 0 then len + e else e
    let e : Int := if e ≥ len then len else e
    if e < istart then istart else e

/-- src/jsiString.c:549-586  `slice`: `Jsi_UtfSubstr` gets the end as the length. -/
def slice (s : Bytes) (start : Int) (e : Option Int) : Option Bytes :=
  let len := strlen s
  let i := sliceStart len start
  utfSubstr s i (sliceEnd len i e)

/-! ### putting together -/

/-- src/jsiString.c:202-226  `repeat`; `none` is the error "count out of range". -/
def «repeat» (s : Bytes) (n : Int) : Option Bytes :=
  if n < 0 ∨ s.length = 0 then none else some (List.replicate n.toNat s).flatten

/-- src/jsiString.c:518-547  `concat`. -/
def concat (s : Bytes) (args : List Bytes) : Bytes := cstr s ++ args.flatten

/-- The second argument of `replace`. -/
inductive Repl where
  | str (r : Bytes)
  | fn (f : Bytes → Bytes)

/-- src/jsiString.c:677-711  `replace` with a string to look for.  The function gets the whole string. -/
def replace (s sub : Bytes) (r : Repl) : Bytes :=
  let s := cstr s
  let sub := cstr sub
  match strstr sub s with
  | none => s
  | some n =>
    s.take n ++ (match r with | .str r => r | .fn f => cstr (f s)) ++ s.drop (n + sub.length)

/-- What the search for a pair gives. -/
inductive Found where
  | empty
  | nothing
  | pair (a b : Bytes)

/-- src/jsiString.c:612-633: the first pair whose first string is at `s`; `eq` compares two bytes (with
or without case); the strings have no NUL (`strncmp` with the length of the first). -/
def mapFind (eq : UInt8 → UInt8 → Bool) (s : Bytes) : List (Bytes × Bytes) → Found
  | [] => .nothing
  | (a, b) :: l =>
    if a = [] then .empty
    else if a.length ≤ s.length ∧ (List.zipWith eq a s).all id then .pair a b else mapFind eq s l

/-- The loop of src/jsiString.c:610-636 (`fuel` bounds the steps; each takes a byte).  `none` is the error
"map src can not be empty". -/
def mapLoop (eq : UInt8 → UInt8 → Bool) (l : List (Bytes × Bytes)) : Nat → Bytes → Option Bytes
  | 0, _ => some []
  | _ + 1, [] => some []
  | fuel + 1, c :: s =>
    match mapFind eq (c :: s) l with
    | .empty => none
    | .pair a b => (mapLoop eq l fuel ((c :: s).drop a.length)).map (b ++ ·)
    | .nothing => (mapLoop eq l fuel s).map (c :: ·)

/-- src/jsiString.c:588-639  `map`. -/
def map (eq : UInt8 → UInt8 → Bool) (s : Bytes) (l : List (Bytes × Bytes)) : Option Bytes :=
  mapLoop eq l s.length s

end Verif.Str
