import Verif.Basic
import Verif.Str.Model

/-!
Model of what jsish does around the regular expression engine of the C library: String.replace, match and search
with a regular expression (src/jsiString.c:258-275, 643-880, 884-930), RegExp.exec and test and the making of
RegExp objects (src/jsiRegexp.c:31-354).

The engine itself (`regcomp`, `regexec`) is a parameter: a function from the flag REG_NOTBOL and a text to a result.
`Lang.lean` gives a family of engines for a language of regular expressions.  Strings are lists of bytes; `none` as
the result of a call is an access outside memory (or, in `jsi_SubstrDup`, an endless loop).  Not modelled: reference
counts, the limit on the size of arrays, functions that delete the interpreter.
-/

namespace Verif.Regex

open Verif.Str (Bytes cstr)

/-- `regmatch_t`: first byte and byte behind the last; both -1 for a group that took no part. -/
structure Span where
  so : Int
  eo : Int
deriving DecidableEq, Repr

/-- What `regexec` answers: an error, REG_NOMATCH, or the spans of the match and of its groups (of the 256 entries
of `pos`, src/jsiInt.h:1521, those that remain at -1 may be left out at the end of the list). -/
inductive Res where
  | fail
  | miss
  | found (l : List Span)
deriving DecidableEq, Repr

/-- A compiled pattern: `regexec(reg, text, 256, pos, notbol ? REG_NOTBOL : 0)`. -/
abbrev Engine := Bool → Bytes → Res

/-- `p[so..eo)` of the C string at `p`, if this lies inside it. -/
def rd (p : Bytes) (so eo : Int) : Option Bytes :=
  if 0 ≤ so ∧ so ≤ eo ∧ eo ≤ (cstr p).length then some ((p.drop so.toNat).take (eo - so).toNat) else none

/-! ### String.replace (src/jsiString.c:643-880) -/

/-- What a function given to replace is called with (src/jsiString.c:802-850): the match alone if it has one
parameter, otherwise the match, the groups (null for one that took no part), the offset and the string. -/
inductive Args where
  | one (m : Bytes)
  | many (m : Bytes) (groups : List (Option Bytes)) (offset : Int) (s : Bytes)
deriving DecidableEq, Repr

/-- The second argument of replace: a text, or a function with its number of parameters.  The function may read and
change the state `σ` of the script and may fail (`none`). -/
inductive Repl (σ : Type) where
  | text (t : Bytes)
  | fn (params : Nat) (f : σ → Args → σ × Option Bytes)

/-- One group of the match in a template (src/jsiString.c:797-800). -/
def tgroup (p : Bytes) (l : List Span) (idx : Nat) : Option Bytes :=
  match l[idx]? with
  | none => some []
  | some m => if m.so ≠ -1 ∧ m.eo ≠ -1 then rd p m.so m.eo else some []

/-- `$'` (src/jsiString.c:780-783): `Jsi_DSAppendLen(p + eo, eo - strlen(p))`, where a negative length means "up to
the NUL" (src/jsiDString.c:98-99). -/
def tpost (p : Bytes) (m : Span) : Option Bytes :=
  if m.eo - (cstr p).length < 0 then rd p m.eo (cstr p).length else rd p m.eo m.eo

/-- What `$` and the byte `c` behind it stand for (src/jsiString.c:770-800). -/
def tdollar (p : Bytes) (m : Span) (l : List Span) (c : UInt8) : Option Bytes :=
  if 48 ≤ c ∧ c ≤ 57 then tgroup p l (c.toNat - 48)
  else if c = 38 then tgroup p l 0
  else if c = 36 then some [36]
  else if c = 39 then tpost p m
  else if c = 96 then rd p 0 m.so
  else some [36, c]

/-- The loop over a template with `$` in it (src/jsiString.c:766-801).  A `$` at the end is taken together with the
NUL behind the string. -/
def expand (p : Bytes) (m : Span) (l : List Span) : Bytes → Option Bytes
  | [] => some []
  | [c] => some (if c = 36 then [36, 0] else [c])
  | c :: d :: r =>
    if c = 36 then (tdollar p m l d).bind fun a => (expand p m l r).map (a ++ ·)
    else (expand p m l (d :: r)).map (c :: ·)

/-- The groups handed to a function (src/jsiString.c:826-833). -/
def fgroup (p : Bytes) (m : Span) : Option (Option Bytes) :=
  if m.so < 0 then some none else (Utf8.substrDup (cstr p) m.so (m.eo - m.so)).map some

/-- All of a list of results, or nothing. -/
def allSome {α : Type} : List (Option α) → Option (List α)
  | [] => some []
  | a :: r => a.bind fun x => (allSome r).map (x :: ·)

/-- The result of replacing one match: what is appended, a stop (src/jsiString.c:808-809), or an error. -/
inductive One (σ : Type) where
  | put (st : σ) (t : Bytes)
  | stop
  | err (st : σ)

/-- The call of the function (src/jsiString.c:802-851). -/
def callFn {σ : Type} (nsub params : Nat) (f : σ → Args → σ × Option Bytes) (s p : Bytes) (eoff : Int) (m : Span)
    (l : List Span) (st : σ) : Option (One σ) :=
  if m.so ≤ 0 ∧ m.eo ≤ 0 then some .stop
  else
    (Utf8.substrDup (cstr p) m.so (m.eo - m.so)).bind fun mt =>
    (if params = 1 then some (Args.one mt)
     else (allSome (((l.drop 1).take (min nsub 252)).map (fgroup p))).map fun gs =>
       Args.many mt gs (eoff + m.so) s).map fun a =>
    match f st a with
    | (st, some t) => .put st (cstr t)
    | (st, none) => .err st

/-- Replacing one match (src/jsiString.c:762-852). -/
def subst {σ : Type} (nsub : Nat) (r : Repl σ) (s p : Bytes) (eoff : Int) (m : Span) (l : List Span) (st : σ) :
    Option (One σ) :=
  match r with
  | .text t => if 36 ∈ cstr t then (expand p m l t).map (.put st ·) else some (.put st (cstr t))
  | .fn params f => callFn nsub params f s p eoff m l st

/-- What replace returns: a string or an error, with the state of the script. -/
inductive ROut (σ : Type) where
  | str (st : σ) (t : Bytes)
  | err (st : σ)

/-- src/jsiString.c:743 -/
def maxMatches : Nat := 10000000

/-- The loop of replace (src/jsiString.c:742-879): `k` matches have been replaced, `p` is what is left, `out` what
has been written.  `n` is always the length of `p`.  The tests of `re->pattern[0]` (862-872) never hold: the pattern
is kept with its slashes (src/jsiRegexp.c:101-105), so its first byte is `/`. -/
def replLoop {σ : Type} (E : Engine) (glob : Bool) (nsub : Nat) (r : Repl σ) (s : Bytes) (k : Nat) (p : Bytes)
    (eoff : Int) (nb : Bool) (out : Bytes) (st : σ) : Option (ROut σ) :=
  if maxMatches < k then some (.err st)
  else
    match E nb (cstr p) with
    | .fail => some (.err st)
    | .miss => some (.str st (out ++ cstr p))
    | .found [] => none
    | .found (m :: l) =>
      if h : 0 ≤ m.so ∧ m.so ≤ m.eo ∧ m.eo ≤ (cstr p).length then
        match subst nsub r s p eoff m (m :: l) st with
        | none => none
        | some .stop => some (.str st (out ++ p.take m.so.toNat ++ cstr p))
        | some (.err st) => some (.err st)
        | some (.put st t) =>
          if hs : glob = false ∨ p.drop m.eo.toNat = [] ∨ m.eo = 0 then
            some (.str st (out ++ p.take m.so.toNat ++ t ++ cstr (p.drop m.eo.toNat)))
          else
            replLoop E glob nsub r s (k + 1) (p.drop m.eo.toNat) (eoff + m.eo) true
              (out ++ p.take m.so.toNat ++ t) st
      else none
termination_by p.length
decreasing_by
  have : (cstr p).length ≤ p.length := (List.takeWhile_sublist _).length_le
  simp only [List.length_drop]; omega

/-- `s.replace(re, r)` (src/jsiString.c:643-880) for a pattern with `nsub` groups; `E` is the compiled pattern and
`glob` its flag g. -/
def replace {σ : Type} (E : Engine) (glob : Bool) (nsub : Nat) (r : Repl σ) (s : Bytes) (st : σ) :
    Option (ROut σ) :=
  replLoop E glob nsub r s 0 s 0 false [] st

/-! ### match and exec (src/jsiRegexp.c:212-288) -/

/-- The loop over the spans of one match (src/jsiRegexp.c:258-273): the texts added, each with the end of its span.
`one` is `match && isglob`, `prev` the span before. -/
def collect (one : Bool) (str : Bytes) : Option Span → List Span → Option (List (Bytes × Int))
  | _, [] => some []
  | prev, p :: ps =>
    if p.so ≤ 0 ∧ p.eo ≤ 0 then some []
    else if prev = some p then collect one str (some p) ps
    else (Utf8.substrDup (cstr str) p.so (p.eo - p.so)).bind fun t =>
      if one then some [(t, p.eo)] else (collect one str (some p) ps).map ((t, p.eo) :: ·)

/-- What match and exec return. -/
inductive MOut where
  | null
  | arr (l : List Bytes)
  | err
deriving DecidableEq, Repr

/-- `*ofs`: the end of the last span that was added (src/jsiRegexp.c:267-268). -/
def lastEnd (o : Int) (l : List (Bytes × Int)) : Int := (l.getLast?.map (·.2)).getD o

/-- The loop (src/jsiRegexp.c:234-286): `ofs` says whether an offset is asked for, `mtch` whether the caller is
String.match, `n` the bytes believed to be left, `acc` the array so far, `o` the value of `*ofs`. -/
def matchLoop (E : Engine) (glob mtch ofs : Bool) (str : Bytes) (n : Int) (nb : Bool) (acc : List Bytes) (o : Int) :
    Option (MOut × Int) :=
  match E nb (cstr str) with
  | .fail => some (.err, o)
  | .miss => some (if acc = [] then .null else .arr acc, o)
  | .found [] => none
  | .found (m :: l) =>
    if h : 0 ≤ m.so ∧ m.so ≤ m.eo ∧ m.eo ≤ (cstr str).length then
      match collect (mtch && glob) str none (m :: l) with
      | none => none
      | some new =>
        if (acc ++ new.map (·.1) ≠ [] ∧ mtch = true ∧ glob = false) ∨
            ((acc ++ new.map (·.1)).length = 1 ∧ (ofs = true ∨ glob = false)) then
          some (.arr (acc ++ new.map (·.1)), lastEnd o new)
        else if hn : n - m.eo ≠ 0 ∧ 0 < m.eo then
          matchLoop E glob mtch ofs (str.drop m.eo.toNat) (n - m.eo) true (acc ++ new.map (·.1)) (lastEnd o new)
        else some (.arr (acc ++ new.map (·.1)), lastEnd o new)
    else none
termination_by str.length
decreasing_by
  have : (cstr str).length ≤ str.length := (List.takeWhile_sublist _).length_le
  simp only [List.length_drop]; omega

/-- `s.match(re)` (src/jsiString.c:258-275). -/
def strMatch (E : Engine) (glob : Bool) (s : Bytes) : Option MOut :=
  (matchLoop E glob true false s s.length false [] 0).map (·.1)

/-- `s.search(re)` (src/jsiString.c:884-930): `none` is an error. -/
def search (E : Engine) (s : Bytes) : Option Int :=
  match E false (cstr s) with
  | .fail => none
  | .miss => some (-1)
  | .found l => some ((l.head?.map (·.so)).getD 0)

/-- `re.test(s)` (src/jsiRegexp.c:179-208, 338-349): `none` is an error. -/
def test (E : Engine) (s : Bytes) : Option Bool :=
  match E false (cstr s) with
  | .fail => none
  | .miss => some false
  | .found _ => some true

/-- What exec keeps: `lastIndex` in the compiled pattern, which all RegExp objects made from the same text share
(src/jsiRegexp.c:44-51, 101-105), and for each of these objects its property lastIndex, once it has one. -/
structure Memo where
  shared : Int
  prop : Nat → Option Int

/-- An interpreter in which the pattern was just compiled. -/
def Memo.fresh : Memo := ⟨0, fun _ => none⟩

/-- Setting the property lastIndex of object `o`. -/
def Memo.set (w : Memo) (o : Nat) (i : Int) : Memo := ⟨w.shared, fun x => if x = o then some i else w.prop x⟩

/-- `str + lastIndex`, or the empty string if that is not before the end (src/jsiRegexp.c:322); `none` if it points
before the string. -/
def execText (s : Bytes) (i : Int) : Option Bytes :=
  if i < s.length then (if i < 0 then none else some (s.drop i.toNat)) else some []

/-- `o.exec(s)` for object number `o` (src/jsiRegexp.c:296-336), for a property lastIndex that is a whole number in
the range of int. -/
def exec (E : Engine) (glob : Bool) (o : Nat) (s : Bytes) (w : Memo) : Option (MOut × Memo) :=
  if glob then
    (execText s ((w.prop o).getD w.shared)).bind fun t =>
    (matchLoop E true false true t (-1) false [] 0).map fun r =>
    if r.1 = .err then (.err, ⟨(w.prop o).getD w.shared, w.prop⟩)
    else
      let i := if r.1 = .null then 0 else (w.prop o).getD w.shared + r.2
      (r.1, Memo.set ⟨i, w.prop⟩ o i)
  else
    (execText s w.shared).bind fun t => (matchLoop E false false false t (-1) false [] 0).map fun r => (r.1, w)

/-! ### Making a RegExp object (src/jsiRegexp.c:31-109, 146-177) -/

/-- The flags of a compiled pattern: i, g, m, s. -/
structure Flags where
  icase : Bool
  glob : Bool
  newline : Bool
  dotNewline : Bool
deriving DecidableEq, Repr

/-- One letter behind the last slash (src/jsiRegexp.c:66-80).  Other letters are skipped. -/
def addFlag (f : Flags) (c : UInt8) : Flags :=
  if c = 105 then { f with icase := true }
  else if c = 103 then { f with glob := true }
  else if c = 109 then { f with newline := true }
  else if c = 115 then { f with dotNewline := true }
  else f

/-- The part before the last slash and the part behind it (`strrchr`). -/
def lastSlash : Bytes → Option (Bytes × Bytes)
  | [] => none
  | c :: s =>
    match lastSlash s with
    | some (a, b) => some (c :: a, b)
    | none => if c = 47 then some ([], s) else none

/-- `Jsi_RegExpNew` on a text that was not seen before (src/jsiRegexp.c:58-83): the pattern given to `regcomp` and
the flags; `none` is NULL. -/
def parseText (t : Bytes) : Option (Bytes × Flags) :=
  match t with
  | [] => none
  | c :: cp =>
    if c ≠ 47 then none
    else (lastSlash cp).bind fun r => if r.1 = [] then none else some (r.1, r.2.foldl addFlag ⟨false, false, false, false⟩)

/-- `new RegExp(text, flags)` (src/jsiRegexp.c:166-174). -/
def construct (txt mods : Bytes) : Option (Bytes × Flags) := parseText (cstr ([47] ++ cstr txt ++ [47] ++ cstr mods))

end Verif.Regex
