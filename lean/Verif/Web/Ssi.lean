import Verif.Basic

/-!
Server side includes: `jsi_wsEvalSSI`, src/jsiWebSocket.c:1068-1286, with `jsi_wsFileRead` (1024-1044) as a
parameter.  A file is read, text is copied, directives `<!--#...-->` are carried out.

Strings are lists of bytes.  The directive text lies in a buffer (`lStr`) of which only the part up to the
terminating NUL belongs to this directive; using what is behind it is recorded as `fault`.
Simplifications: only levels 1 and up (level 0 is not used by any caller), a file is read up to its first NUL
byte, the names of files are not cut at PATH_MAX.
-/

namespace Verif.Web

abbrev Str := List UInt8

/-- A value of the object `udata` or of the query of the request. -/
inductive Val where
  | bool (b : Bool)
  | str (s : Str)
  | other
  deriving DecidableEq

/-- `udata`: absent, or an object. -/
abbrev UD := Option (Str → Option Val)

/-- What the evaluation depends on: the root directory, the option `noWarn`, the query of the request (absent
or an object), the key of the session, the files (`jsi_wsFileRead`: `none` is an error), and which extensions
are evaluated (`jsi_wsIsSSIExt`). -/
structure Env where
  root : Str
  noWarn : Bool
  query : Option (Str → Option Val)
  key : Str
  file : Str → Option Str
  ssi : Str → Bool

/-- One of the elements of `II[]`, 1102-1104. -/
structure Slot where
  inif : Bool
  inelse : Bool
  matched : Bool
  elide : Bool
  deriving DecidableEq

/-- The state: what was written, `udata`, the elements `II[ii]`, ..., `II[0]`, and whether `msg` was set
without leaving the loop (1223). -/
structure St where
  out : Str
  ud : UD
  top : Slot
  below : List Slot
  bad : Bool

/-- How an evaluation ends. -/
inductive Stat where
  | ok
  | err
  | fault
  deriving DecidableEq

/-- The result: status, what was written, `udata`. -/
structure Res where
  stat : Stat
  out : Str
  ud : UD

/-- `Jsi_Strstr`: what is before and after the first occurrence of `p`. -/
def cut (p : Str) : Str → Option (Str × Str)
  | [] => if p = [] then some ([], []) else none
  | c :: s =>
    if p.isPrefixOf (c :: s) then some ([], (c :: s).drop p.length)
    else match cut p s with
      | some (a, b) => some (c :: a, b)
      | none => none

/-- `<!--#` -/
def opening : Str := [60, 33, 45, 45, 35]
/-- `-->` -/
def closing : Str := [45, 45, 62]

/-- `Jsi_Strrchr(s, c)`: what is before the last occurrence, and from it on. -/
def lastCut (c : UInt8) : Str → Option (Str × Str)
  | [] => none
  | x :: s =>
    match lastCut c s with
    | some (a, b) => some (x :: a, b)
    | none => if x = c then some ([], x :: s) else none

/-- The byte at `i`, NUL behind the end. -/
def at0 (s : Str) (i : Nat) : UInt8 := s.getD i 0

/-- The name without the root directory, 1079-1081. -/
def below (root fname : Str) : Str := if root.isPrefixOf fname then fname.drop root.length else fname

/-- The directory of the file, 1082-1086: the part before the last slash, and the whole without one. -/
def dirOf (fname : Str) : Str :=
  match lastCut 47 fname with
  | some (a, _) => a
  | none => fname

/-- `Jsi_GetBool`, src/jsiUtils.c:2490-2502: a non-empty beginning of "true" or "false", without case. -/
def getBool (s : Str) : Option Bool :=
  let l := s.map (fun c => if 65 ≤ c ∧ c ≤ 90 then c + 32 else c)
  if s ≠ [] ∧ l.isPrefixOf (asc "true") then some true
  else if s ≠ [] ∧ l.isPrefixOf (asc "false") then some false
  else none

/-- `isalpha` -/
def isalpha (c : UInt8) : Bool := (65 ≤ c && c ≤ 90) || (97 ≤ c && c ≤ 122)

/-- The modifiers before a name, 1210-1225. -/
structure Mods where
  warn : Bool
  req : Bool
  inot : Bool
  isq : Bool
  isu : Bool
  qfirst : Bool
  fail : Bool

/-- The modifiers and the name behind them. -/
def modLoop (matched : Bool) : Mods → Str → Mods × Str
  | m, [] => (m, [])
  | m, c :: s =>
    if isalpha c then (m, c :: s)
    else if c = 126 then modLoop matched { m with qfirst := true } s
    else if c = 58 then modLoop matched { m with isu := true } s
    else if c = 63 then modLoop matched { m with isq := true } s
    else if c = 64 then modLoop matched { m with warn := !matched } s
    else if c = 42 then modLoop matched { m with req := !matched } s
    else if c = 33 then modLoop matched { m with inot := true } s
    else ({ m with fail := true }, c :: s)

/-- The value of a name, 1226-1232. -/
def lookup (E : Env) (ud : UD) (m : Mods) (name : Str) : Option Val :=
  let q := E.query.bind (· name)
  let u := ud.bind (· name)
  let v1 := if m.qfirst then q else none
  let v2 := if v1.isNone && !m.isq then u else v1
  if v2.isNone && !m.qfirst && !m.isu then q else v2

/-- 1233-1243; `none`: the message ends the evaluation. -/
def truth (m : Mods) : Option Val → Option Bool
  | none => if m.req then none else some false
  | some (.bool b) => some b
  | some (.str s) =>
    match getBool s with
    | some b => some b
    | none => if m.warn then some false else none
  | some .other => if m.warn then some false else none

/-- `#if` and `#elif`, 1188-1257: the condition, with the state after 1203. -/
def condition (E : Env) (st : St) (e : Str) : Option (Bool × Bool) :=
  if e.length < 4 ∨ at0 e 0 ≠ 36 ∨ at0 e 1 ≠ 123 ∨ at0 e (e.length - 1) ≠ 125 then none
  else
    let p := modLoop st.top.matched ⟨false, false, false, false, false, false, false⟩ ((e.drop 2).dropLast)
    match truth p.1 (lookup E st.ud p.1 p.2) with
    | none => none
    | some b => some (if p.1.inot then !b else b, p.1.fail)

/-- 1193-1200: the element of an `#if`. -/
def pushIf (st : St) : Option St :=
  if st.top.inif then
    if 10 ≤ st.below.length + 1 then none
    else some { st with top := ⟨true, false, false, st.top.elide⟩, below := st.top :: st.below }
  else some { st with top := { st.top with inif := true } }

/-- 1245-1249 for `#if`. -/
def setIf (b : Bool) (s : Slot) : Slot := if b then { s with matched := true } else { s with elide := true }

/-- Whether the part around this one is left out. -/
def outer : List Slot → Bool
  | [] => false
  | s :: _ => s.elide

/-- 1250-1256 for `#elif`. -/
def setElif (b : Bool) (s : Slot) (bl : List Slot) : Slot :=
  if s.matched || !b then { s with elide := true } else { s with matched := true, elide := outer bl }

/-- What a directive leads to. -/
inductive Next where
  | go (st : St)
  | stop (stat : Stat) (st : St)

/-- `#if expr="${...}"`, `#elif expr="${...}"`. -/
def doCond (E : Env) (st : St) (d : Str) : Next :=
  if d.length < 11 ∨ at0 d (d.length - 1) ≠ 34 ∨ at0 d (d.length - 2) = 61 then .stop .err st
  else
    let iselif := at0 d 1 = 101
    let e := d.dropLast.drop (if iselif then 12 else 10)
    if iselif then
      if !st.top.inif then .stop .err st
      else match condition E st e with
        | none => .stop .err st
        | some (b, f) => .go { st with top := setElif b st.top st.below, bad := st.bad || f }
    else match pushIf st with
      | none => .stop .err st
      | some st1 =>
        match condition E st1 e with
        | none => .stop .err st1
        | some (b, f) => .go { st1 with top := setIf b st1.top, bad := st1.bad || f }

/-- `#else`, 1258-1261. -/
def doElse (st : St) : Next :=
  if !st.top.inif || st.top.inelse then .stop .err st
  else .go { st with top := { st.top with inelse := true, elide := if outer st.below then true else st.top.matched } }

/-- `#endif`, 1262-1266. -/
def doEndif (st : St) : Next :=
  if !st.top.inif then .stop .err st
  else match st.below with
    | [] => .go { st with top := ⟨false, false, false, false⟩ }
    | s :: bl => .go { st with top := s, below := bl }

/-- `#echo '...'`, 1162-1186. -/
def doEcho (E : Env) (st : St) (d : Str) : Next :=
  match cut [36, 123] d with
  | none => .go { st with out := st.out ++ (d.drop 7).dropLast }
  | some (pre, post) =>
    match cut [125] post with
    | none => .stop .err st
    | some (name, rest) =>
      let st := { st with out := st.out ++ pre.drop 7 }
      if name = [35] then .go { st with out := st.out ++ 39 :: E.key ++ 39 :: rest.dropLast }
      else match st.ud with
        | none => .go { st with out := st.out ++ rest.dropLast }
        | some u =>
          match u name with
          | none => .stop .err st
          | some (.str s) => .go { st with out := st.out ++ s ++ rest.dropLast }
          | some _ => .go { st with out := st.out ++ rest.dropLast }

/-- `Jsi_ValueInsert` into `udata`. -/
def insert (u : Str → Option Val) (k : Str) (v : Val) : Str → Option Val := fun x => if x = k then some v else u x

/-- `#set name='...'`, 1155-1161, where `pre` is the part before the first `=`.  For `#set a='` the value begins
at the old terminator of the directive and is empty. -/
def doSet (st : St) (u : Str → Option Val) (d pre : Str) : Next :=
  .go { st with ud := some (insert u (pre.drop 5) (.str (d.dropLast.drop (pre.length + 2)))) }

/-- Is it a `#set`?  The part before the first `=`, 1155. -/
def isSet (d : Str) : Option Str :=
  if d.take 5 = asc "#set " ∧ at0 d 5 ≠ 61 then
    match cut [61] d with
    | none => none
    | some (pre, post) =>
      if (at0 post 0 = 39 ∨ at0 post 0 = 34) ∧ at0 d (d.length - 1) = at0 post 0 then some pre else none
  else none

/-- The extension of a name, 1147. -/
def extOf (name : Str) : Option Str := (lastCut 46 name).map (fun p => p.2.drop 1)

/-- Is it an `#include`? 1125: fewer characters are compared than there are. -/
def isInclude (d : Str) : Bool := d.take 12 = asc "#include fil" || d.take 15 = asc "#include virtua"

/-- The file that is included, 1140-1150: evaluated by `ev` or read, by its ending. -/
def incOf (E : Env) (ev : Str → UD → Res) (dir name : Str) (u : UD) : Res :=
  let f := E.root ++ 47 :: dir ++ 47 :: name
  if (extOf f).any E.ssi then ev f u
  else match E.file f with
    | some t => ⟨.ok, t, u⟩
    | none => ⟨if E.noWarn then .ok else .err, [], u⟩

/-- `#include file="..."`, 1125-1154; `ev` evaluates a file one level further down. -/
def doInclude (E : Env) (ev : Str → UD → Res) (dir : Str) (st : St) (d : Str) : Next :=
  if at0 d (d.length - 1) ≠ 34 ∨ at0 d (d.length - 2) = 61 then .stop .err st
  else if st.top.elide then .go st
  else
    let off := if at0 d 9 = 118 then 18 else 15
    if off > d.length then .stop .fault st
    else
      let r := incOf E ev dir (d.dropLast.drop off) st.ud
      let st := { st with out := st.out ++ r.out, ud := r.ud }
      if r.stat = .fault then .stop .fault st
      else if r.stat = .ok || E.noWarn then .go st
      else .stop .err st

/-- One directive, 1125-1270. -/
def directive (E : Env) (ev : Str → UD → Res) (dir : Str) (st : St) (d : Str) : Next :=
  if isInclude d then doInclude E ev dir st d
  else
    match st.ud, isSet d with
    | some u, some pre => doSet st u d pre
    | _, _ =>
      if d.take 6 = asc "#echo " ∧ (at0 d 6 = 39 ∨ at0 d 6 = 34) ∧ at0 d (d.length - 1) = at0 d 6 then doEcho E st d
      else if d.take 10 = asc "#if expr=\"" ∨ d.take 12 = asc "#elif expr=\"" then doCond E st d
      else if d.take 5 = asc "#else" then doElse st
      else if d.take 6 = asc "#endif" then doEndif st
      else .stop .err st

/-- A newline behind a directive is skipped, 1271-1273. -/
def skipNl : Str → Str
  | c :: s => if c = 10 then s else c :: s
  | [] => []

/-- After the loop, 1275-1282. -/
def done (st : St) : Res := ⟨if st.top.inif || st.bad then .err else .ok, st.out, st.ud⟩

/-- The text before a directive, 1122-1123. -/
def addText (st : St) (t : Str) : St := if st.top.elide then st else { st with out := st.out ++ t }

/-- The loop, 1109-1274. -/
def loop (E : Env) (ev : Str → UD → Res) (dir : Str) : Nat → Str → St → Res
  | 0, _, st => ⟨.err, st.out, st.ud⟩
  | n+1, cs, st =>
    match cut opening cs with
    | none => done { st with out := st.out ++ cs }
    | some (t, r) =>
      match cut closing r with
      | none => done { st with out := st.out ++ cs }
      | some (d, rest) =>
        if 10 ∈ d then ⟨.err, st.out, st.ud⟩
        else
          match directive E ev dir (addText st t) (35 :: d) with
          | .go st' => loop E ev dir n (skipNl rest) st'
          | .stop k st' => ⟨k, st'.out, st'.ud⟩

/-- `II[]` at the beginning. -/
def start (ud : UD) : St := ⟨[], ud, ⟨false, false, false, false⟩, [], false⟩

/-- `jsi_wsEvalSSI` at level `11 - n`. -/
def evalSSI (E : Env) : Nat → Str → UD → Res
  | 0, _, ud => ⟨.err, [], ud⟩
  | n+1, fn, ud =>
    match E.file fn with
    | none => ⟨if E.noWarn then .ok else .err, [], ud⟩
    | some t =>
      let cs := t.takeWhile (· ≠ 0)
      loop E (evalSSI E n) (dirOf (below E.root fn)) (cs.length + 1) cs (start ud)

end Verif.Web
