import Verif.Basic
import Verif.Json.Model

/-!
Objects, arrays and their properties: src/jsiObj.c, src/jsiValue.c, src/jsiEval.c, src/jsiProto.c, src/jsiArray.c.

A property or an array element is a pointer to a value (`Jsi_Value*`): several properties, elements and variables may
point to the same one.  The model keeps these values in a list of cells; a pointer is a position of the list.  A cell is
never used again for something else: that the memory behind a pointer is not given back too early is the subject of the
reference counts, C40 (Verif/Ref).

Left out: accessors (`get`/`set`), functions as values, wrapped numbers/strings/booleans as objects, fractions, infinities,
values with the flag `readonly` or `dontdel` (scripts cannot make them), the option `noproto`.
-/

namespace Verif.Obj

abbrev Bytes := List UInt8

/-- The contents of a value (jsiInt.h:562-592, `vt` and `d`).  A number is a whole number or NaN (`none`).  An object is
the position of the object in the list of objects. -/
inductive Val where
  | undef | null
  | bool (b : Bool)
  | num (n : Option Int)
  | str (s : Bytes)
  | obj (o : Nat)
  deriving DecidableEq, Repr

/-- A value with its flags `dontenum` and `frozen` (jsiInt.h:570-579).  `*to = *from` in `jsi_ValueCopyMove`
(jsiValue.c:238-293) copies contents and flags. -/
structure FV where
  val : Val
  dontenum : Bool := false
  frozen : Bool := false
  deriving DecidableEq, Repr

/-- An entry of the tree of an object: key, pointer to the value, flag `dontenum` of the entry. -/
structure Ent where
  key : Bytes
  cell : Nat
  hid : Bool
  deriving DecidableEq, Repr

/-- `Jsi_Obj` (jsiInt.h): the tree in ascending order of the keys (C16: it behaves as a sorted map), the array part: `arr`
is `none` for a NULL pointer, positions from the end of the list on are NULL; `cnt` is `arrCnt`. -/
structure Ob where
  tree : List Ent := []
  isarr : Bool := false
  arr : Option (List (Option Nat)) := none
  cnt : Nat := 0
  proto : Option Nat := none
  freeze : Bool := false
  noMod : Bool := false
  readChk : Bool := false
  deriving DecidableEq, Repr

/-- The state: values, objects, the variables in sight (innermost function first; a variable is a pointer, too), the
variables of the functions that are waiting for a call to return, the value of `this`. -/
structure St where
  cells : List FV
  objs : List Ob
  vars : List Nat
  saved : List (List Nat) := []
  thisC : Nat := 0
  deriving DecidableEq, Repr

/-- What is not modelled: `interp->maxArrayList`, the size check of `Jsi_ObjArraySizer` (jsiObj.c:449-468; see
Verif/Array), the conversion of strings to numbers, strict mode, `callee` and `constructor` (jsiValue.c:1025-1100). -/
structure Env where
  maxList : Nat
  fits : Nat → Bool
  strtod : Bytes → Option Int
  strict : Bool
  special : St → Nat → Bytes → Option FV

/-- A key in brackets or behind a dot: a string or a whole number. -/
inductive Key where
  | s (b : Bytes)
  | n (i : Int)
  deriving DecidableEq, Repr

/-- The name used for the tree: `Jsi_ValueToString` (jsiValue.c:486-560); C strings end at the first NUL. -/
def Key.name : Key → Bytes
  | .s b => b.takeWhile (· ≠ 0)
  | .n i => Json.dec i

/-! ### Trees -/

/-- `strcmp` as an order: `true` if `a` comes before `b`. -/
def before : Bytes → Bytes → Bool
  | [], [] => false
  | [], _ :: _ => true
  | _ :: _, [] => false
  | a :: as, b :: bs => a < b || (a == b && before as bs)

/-- `Jsi_TreeObjGetValue`, jsiObj.c:10-21. -/
def treeGet (t : List Ent) (k : Bytes) : Option Nat := (t.find? (fun e => e.key == k)).map Ent.cell

/-- `jsi_TreeObjSetValue`, jsiObj.c:23-65: the pointer of an existing entry is replaced, or an entry is made. -/
def treeSet (k : Bytes) (c : Nat) (hid : Bool) : List Ent → List Ent
  | [] => [⟨k, c, hid⟩]
  | e :: t =>
    if e.key = k then ⟨k, c, e.hid || hid⟩ :: t
    else if before k e.key then ⟨k, c, hid⟩ :: e :: t
    else e :: treeSet k c hid t

/-- `Jsi_TreeEntryDelete` for the entry found, jsiEval.c:464-467. -/
def treeDel (t : List Ent) (k : Bytes) : List Ent := t.filter (fun e => e.key ≠ k)

/-! ### Index strings -/

def isdigit (c : UInt8) : Bool := 48 ≤ c && c ≤ 57

def hexval (c : UInt8) : Nat :=
  if 48 ≤ c ∧ c ≤ 57 then c.toNat - 48
  else if 97 ≤ c ∧ c ≤ 102 then c.toNat - 87
  else if 65 ≤ c ∧ c ≤ 70 then c.toNat - 55
  else 99

/-- The digits of the base at the beginning of the text, as a number. -/
def digits (base : Nat) (acc : Nat) : Bytes → Nat
  | [] => acc
  | c :: r => if hexval c < base then digits base (acc * base + hexval c) r else acc

/-- `strtol(key, &ep, 0)` for a text that begins with a digit (the result is cut at the largest long); what follows the
number is not looked at. -/
def strtol0 (k : Bytes) : Nat :=
  min (match k with
    | 48 :: x :: h :: r => if (x = 120 ∨ x = 88) ∧ hexval h < 16 then digits 16 0 (h :: r) else digits 8 0 k
    | 48 :: _ => digits 8 0 k
    | _ => digits 10 0 k) (2 ^ 63 - 1)

/-- `(int)strtol(...)`: `none` if negative. -/
def idxOf (k : Bytes) : Option Nat :=
  if strtol0 k % 2 ^ 32 < 2 ^ 31 then some (strtol0 k % 2 ^ 32) else none

/-- `jsi_ObjArrayLookup`, jsiObj.c:372-381. -/
def arrLookup (o : Ob) (k : Bytes) : Option Nat :=
  match o.arr, k with
  | some a, c :: _ =>
    if isdigit c then
      match idxOf k with
      | some n => if n < o.cnt then (a[n]?).getD none else none
      | none => none
    else none
  | _, _ => none

/-! ### Reading -/

def kThis : Bytes := asc "this"
def kLength : Bytes := asc "length"
def kPrototype : Bytes := asc "prototype"
def kCallee : Bytes := asc "callee"
def kConstructor : Bytes := asc "constructor"

/-- `Jsi_ValueObjLookup`, jsiValue.c:328-357: own property, as a pointer. -/
def lookOwn (s : St) (o : Nat) (k : Bytes) : Option Nat :=
  if k = kThis then some s.thisC
  else
    match s.objs[o]? with
    | none => none
    | some ob => (arrLookup ob k).or (treeGet ob.tree k)

/-- The outcome of a search through the prototypes. -/
inductive Found where
  | cell (c : Nat) | missing | overflow
  deriving DecidableEq, Repr

/-- `jsi_ValueLookupBase`, jsiValue.c:980-1013.  The C function calls itself for the prototype; `overflow`: more calls than
there are objects (the prototypes form a circle and the calls never end). -/
def lookBase (s : St) (k : Bytes) : Nat → Nat → Found
  | 0, _ => .overflow
  | fuel + 1, o =>
    match lookOwn s o k with
    | some c => .cell c
    | none =>
      match (s.objs[o]?).bind Ob.proto with
      | some p => lookBase s k fuel p
      | none => .missing

def look (s : St) (o : Nat) (k : Bytes) : Found := lookBase s k (s.objs.length + 1) o

/-- The contents of a cell. -/
def St.at (s : St) (c : Nat) : FV := (s.cells[c]?).getD ⟨.undef, false, false⟩

/-- What an operation does: new state, error (a script can catch it and go on), crash of the process. -/
inductive Out where
  | ok (s : St) | err (s : St) | crash
  deriving DecidableEq, Repr

/-- The outcome of reading. -/
inductive Rd where
  | val (v : FV) | err | crash
  deriving DecidableEq, Repr

/-- `jsi_isDebugKey`, jsiCmds.c:4804-4808. -/
def isDebugKey (k : Bytes) : Bool := k == asc "Test" || k == asc "Trace" || k == asc "Assert" || k == asc "Debug"

/-- The length of an object that has no property `length`: jsiValue.c:1028-1045. -/
def lengthOf (ob : Ob) : Nat := if ob.isarr then ob.cnt else ob.tree.length

/-- What `jsi_ValueSubscript` does when nothing was found, jsiValue.c:1020-1131: number keys give nothing. -/
def subscript2 (E : Env) (s : St) (o : Nat) : Key → Option FV
  | .n _ => none
  | .s b =>
    if b.takeWhile (· ≠ 0) = kLength then
      match s.objs[o]? with
      | some ob => some ⟨.num (some (lengthOf ob)), false, false⟩
      | none => none
    else if b.takeWhile (· ≠ 0) = kCallee ∨ b.takeWhile (· ≠ 0) = kConstructor then
      E.special s o (b.takeWhile (· ≠ 0))
    else none

/-- Nothing there: `undefined`, or an error if the object is frozen with `readcheck`, jsiEval.c:1004-1011. -/
def missing (s : St) (o : Nat) (k : Key) : Rd :=
  match s.objs[o]? with
  | some ob => if ob.freeze && ob.readChk && !isDebugKey k.name then .err else .val ⟨.undef, false, false⟩
  | none => .val ⟨.undef, false, false⟩

/-- `o[k]` for the value: `jsiEvalSubscript`, jsiEval.c:985-1018 with `right_val`. -/
def read (E : Env) (s : St) (o : Nat) (k : Key) : Rd :=
  match look s o k.name with
  | .cell c => .val (s.at c)
  | .overflow => .crash
  | .missing =>
    match subscript2 E s o k with
    | some v => .val v
    | none => missing s o k

/-! ### Writing -/

/-- `Jsi_ValueCopy(c, v)` into an existing value. -/
def St.wr (s : St) (c : Nat) (v : FV) : St := { s with cells := s.cells.set c v }

/-- A new value. -/
def St.alloc (s : St) (v : FV) : St := { s with cells := s.cells ++ [v] }

/-- Changing an object. -/
def St.upd (s : St) (o : Nat) (f : Ob → Ob) : St := { s with objs := s.objs.modify o f }

/-- `jsi_ObjValInsert`, jsiValue.c:1406-1434 (no setters): `none` is the error. -/
def insert (s : St) (o : Nat) (k : Bytes) (c : Nat) (hid : Bool) : Option St :=
  match s.objs[o]? with
  | none => none
  | some ob =>
    if ob.freeze && (ob.noMod || (treeGet ob.tree k).isNone) then none
    else
      some { s with
        objs := s.objs.set o { ob with tree := treeSet k c hid ob.tree },
        cells := if hid then s.cells.modify c (fun v => { v with dontenum := true }) else s.cells }

/-- `Jsi_ObjGetLength`, jsiObj.c:731-744: a property `length` comes first. -/
def objGetLength (s : St) (ob : Ob) : Int :=
  match treeGet ob.tree kLength with
  | some c =>
    match (s.at c).val with
    | .num (some n) => n
    | _ => if ob.arr.isSome then ob.cnt else 0
  | none => if ob.arr.isSome then ob.cnt else 0

/-- `obj->arr[n] = c` in a long enough vector. -/
def setSlot (a : List (Option Nat)) (n : Nat) (c : Nat) : List (Option Nat) :=
  (a ++ List.replicate (n + 1 - a.length) none).set n (some c)

/-- `jsi_ObjArraySetDup`, jsiEval.c:1046-1067: an existing element is overwritten in place, otherwise a new value is made;
`Jsi_ObjArraySizer(n)` raises `arrCnt` to `n`. -/
def arraySetDup (E : Env) (s : St) (o : Nat) (ob : Ob) (a : List (Option Nat)) (v : FV) (n : Nat) : Out :=
  if !E.fits n then .err s
  else
    match (a[n]?).getD none with
    | some c => .ok ((s.upd o (fun _ => { ob with cnt := max ob.cnt n })).wr c v)
    | none =>
      if objGetLength s { ob with cnt := max ob.cnt n } < n + 1 then
        .ok ((s.alloc v).upd o (fun _ => { ob with cnt := n + 1, arr := some (setSlot a n s.cells.length) }))
      else
        .ok ((s.alloc v).upd o (fun _ => { ob with cnt := max ob.cnt n, arr := some (setSlot a n s.cells.length) }))

/-- The second half of `jsi_ValueObjKeyAssign`, jsiEval.c:1083-1110. -/
def putName (s : St) (o : Nat) (k : Bytes) (v : FV) : Out :=
  if k = kPrototype then .err s
  else
    match insert (s.alloc v) o k s.cells.length false with
    | some s' => .ok s'
    | none => .err (s.alloc v)

/-- `o[k] = v`: `jsi_ValueObjKeyAssign`, jsiEval.c:1070-1111. -/
def put (E : Env) (s : St) (o : Nat) (k : Key) (v : FV) : Out :=
  match s.objs[o]? with
  | none => .err s
  | some ob =>
    match k, ob.arr with
    | .n i, some a =>
      if 0 ≤ i ∧ i.toNat < E.maxList then arraySetDup E s o ob a v i.toNat else putName s o k.name v
    | _, _ => putName s o k.name v

/-- `Jsi_ValueToNumber`, jsiValue.c:571-639. -/
def toNum (E : Env) : Val → Option Int
  | .undef => none
  | .null => some 0
  | .bool b => some (if b then 1 else 0)
  | .num n => n
  | .str s => E.strtod s
  | .obj _ => some 0

/-- A value turned into a number in place; `Jsi_ValueReset` clears the flags of all values but `undefined`. -/
def numbered (E : Env) (v : FV) : FV :=
  match v.val with
  | .num _ => v
  | .undef => { v with val := .num none }
  | w => ⟨.num (toNum E w), false, false⟩

/-- `v->d.num += 1`. -/
def plusOne (v : FV) : FV :=
  match v.val with
  | .num (some n) => { v with val := .num (some (n + 1)) }
  | _ => v

/-- `OP_INC` on a pointer, jsiEval.c:1705-1741 (a decrement works the same way). -/
def incCell (E : Env) (s : St) (c : Nat) : Out :=
  if (s.at c).frozen then .err s
  else if E.strict && (toNum E (s.at c).val).isNone then .err (s.wr c (plusOne (numbered E (s.at c))))
  else .ok (s.wr c (plusOne (numbered E (s.at c))))

/-- `o[k]++`: the pointer found (in the object or in a prototype) is incremented, jsiEval.c:1019-1027. -/
def inc (E : Env) (s : St) (o : Nat) (k : Key) : Out :=
  match look s o k.name with
  | .cell c => incCell E s c
  | .overflow => .crash
  | .missing => .err s

/-- `delete o[k]`, jsiEval.c:454-468 and 1899-1909: only the tree is looked at. -/
def del (s : St) (o : Nat) (k : Bytes) : Out :=
  match s.objs[o]? with
  | none => .err s
  | some ob => if ob.freeze then .err s else .ok (s.upd o (fun b => { b with tree := treeDel b.tree k }))

/-! ### Making objects -/

/-- Position of `Object.prototype`. -/
def objProto : Nat := 0
/-- Position of `Array.prototype`. -/
def arrProto : Nat := 1

/-- `Jsi_ObjNewType`, jsiObj.c:283-302. -/
def newObj (s : St) (ob : Ob) : St := { s with objs := s.objs ++ [ob] }

/-- `x = v`: `jsiValueAssign`, jsiEval.c:150-190: the value is overwritten in place. -/
def setVar (s : St) (x : Nat) (v : FV) : Out :=
  match s.vars[x]? with
  | some c => .ok (s.wr c v)
  | none => .err s

/-- The value of a variable. -/
def St.var (s : St) (x : Nat) : FV :=
  match s.vars[x]? with
  | some c => s.at c
  | none => ⟨.undef, false, false⟩

/-- The pairs of an object literal: `jsi_ObjNewObj`, jsiObj.c:666-707: each value is copied. -/
def litPairs (s : St) (o : Nat) : List (Bytes × FV) → St
  | [] => s
  | (k, v) :: r =>
    match insert (s.alloc v) o (k.takeWhile (· ≠ 0)) s.cells.length false with
    | some s' => litPairs s' o r
    | none => litPairs (s.alloc v) o r

/-- `{k: v, ...}` -/
def literal (s : St) (ps : List (Bytes × FV)) : St :=
  litPairs (newObj s { proto := some objProto }) s.objs.length ps

/-- `[v, ...]`: `Jsi_ObjNewArray(..., copyflag 1)`, jsiObj.c:470-493 (within the size limit). -/
def arrayLit (s : St) (vs : List FV) : St :=
  newObj { s with cells := s.cells ++ vs }
    { isarr := true, arr := some ((List.range vs.length).map (fun i => some (s.cells.length + i))),
      cnt := vs.length, proto := some arrProto }

/-- `Jsi_ObjInsert` of all entries of a tree that are enumerable: the pointers are shared.  jsiProto.c:511-523, 545-554,
649-657.  Stops at the first error. -/
def copyTree (s : St) (o : Nat) : List Ent → Option St × St
  | [] => (some s, s)
  | e :: r =>
    if (s.at e.cell).dontenum then copyTree s o r
    else
      match insert s o e.key e.cell false with
      | some s' => copyTree s' o r
      | none => (none, s)

/-- `Object.assign(o, ...)`, jsiProto.c:528-556. -/
def assignAll (s : St) (o : Nat) : List Val → Out
  | [] => .ok s
  | .obj p :: r =>
    match s.objs[p]? with
    | none => .err s
    | some pb =>
      match copyTree s o pb.tree with
      | (some s', _) => assignAll s' o r
      | (none, s') => .err s'
  | _ :: _ => .err s

/-- `Object.assign(o, v, ...)` with the first argument as it is. -/
def assign (s : St) (o : Val) (vs : List Val) : Out :=
  match o with
  | .obj q => if q < s.objs.length then assignAll s q vs else .err s
  | _ => .err s

/-- Store the new object number `o` in the variable. -/
def bind (r : Out) (x o : Nat) : Out :=
  match r with
  | .ok s => setVar s x ⟨.obj o, false, false⟩
  | r => r

/-- `a.merge(b)`, jsiProto.c:498-526. -/
def merge (s : St) (x : Nat) (a b : Val) : Out :=
  match a, b with
  | .obj _, .obj _ =>
    bind (assignAll (newObj s { proto := some objProto }) s.objs.length [a, b]) x s.objs.length
  | _, _ => .err s

/-- The prototype for `Object.create`: `null` leaves the prototype of `Jsi_ObjNew`, jsiProto.c:640-645. -/
def createProto : Val → Option Nat
  | .obj p => some p
  | .null => some objProto
  | _ => none

/-- `Object.create(p)` and `Object.create(p, props)`, jsiProto.c:624-660. -/
def create (s : St) (x : Nat) (p : Val) (props : List Val) : Out :=
  match createProto p with
  | none => .err s
  | some q => bind (assignAll (newObj s { proto := some q }) s.objs.length props) x s.objs.length

/-- The values of an object: `jsi_ObjSetFlag`, jsiValue.c:1502-1524. -/
def ownCells (ob : Ob) : List Nat :=
  if ob.isarr then ((ob.arr.getD []).take ob.cnt).filterMap id else ob.tree.map Ent.cell

/-- Set or clear the flag `frozen` of some values. -/
def setFrozen (b : Bool) (cs : List Nat) (cells : List FV) : List FV :=
  cs.foldl (fun l c => l.modify c (fun v => { v with frozen := b })) cells

/-- `Object.freeze(o, freeze, modifyok, readcheck)`, jsiProto.c:365-398. -/
def freeze (s : St) (o : Nat) (f m r : Bool) : Out :=
  match s.objs[o]? with
  | none => .err s
  | some ob =>
    .ok { s with
      objs := s.objs.set o { ob with freeze := f, noMod := !m, readChk := r },
      cells := if (!ob.noMod) != m then setFrozen (!m) (ownCells ob) s.cells else s.cells }

/-- `Object.setPrototypeOf(o, p)`, jsiProto.c:569-583. -/
def setProto (s : St) (o p : Nat) : Out :=
  match s.objs[o]?, s.objs[p]? with
  | some _, some pb =>
    if pb.tree ≠ [] ∧ p ≠ o then .ok (s.upd o (fun b => { b with proto := some p }))
    else .ok (s.upd o (fun b => { b with proto := pb.proto }))
  | _, _ => .err s

/-- The array made by `Object.values(o)`, jsiObj.c:126-156: the pointers in the tree; NULL if there are none. -/
def valuesOb (ob : Ob) : Ob :=
  { isarr := true, proto := some arrProto, cnt := ob.tree.length,
    arr := if ob.tree = [] then none else some (ob.tree.map (fun e => some e.cell)) }

/-- `Object.values(o)`, jsiObj.c:126-156. -/
def values (s : St) (x : Nat) (o : Nat) : Out :=
  match s.objs[o]? with
  | none => .err s
  | some ob => bind (.ok (newObj s (valuesOb ob))) x s.objs.length

/-- `a.filter(f)`, jsiArray.c:404-475, for a callback that says `sel i` for element `i` and changes nothing: the pointers of
the chosen elements. -/
def filterArr (s : St) (x : Nat) (o : Nat) (sel : Nat → Bool) : Out :=
  match s.objs[o]? with
  | none => .err s
  | some ob =>
    if ob.isarr then
      let cs := (List.range ob.cnt).filterMap (fun i => if sel i then ((ob.arr.getD [])[i]?).getD none else none)
      bind (.ok (newObj s { isarr := true, proto := some arrProto, cnt := cs.length, arr := some (cs.map some) }))
        x s.objs.length
    else .err s

/-! ### Calls -/

/-- `f(v, ...)`: the arguments are copied (jsiEval.c:822-824), missing ones are new values (jsiProto.c:155-157); all become
`dontenum` (jsiProto.c:159).  The function sees the variables that were in sight, too. -/
def call (s : St) (vs : List FV) : St :=
  { s with
    cells := s.cells ++ vs.map (fun v => { v with dontenum := true }),
    vars := (List.range vs.length).map (s.cells.length + ·) ++ s.vars,
    saved := s.vars :: s.saved }

/-- A function with one parameter called by `forEach`, `map`, `filter`, ... for element `i` of an array: the parameter is
the element (jsiArray.c:381-386, `Jsi_ObjNewArray(..., copyflag 0)`, jsiProto.c:153-159). -/
def each (s : St) (o i : Nat) : Out :=
  match s.objs[o]? with
  | none => .err s
  | some ob =>
    if ob.isarr ∧ i < ob.cnt then
      match ((ob.arr.getD [])[i]?).getD none with
      | some c =>
        .ok { s with
          cells := s.cells.modify c (fun v => { v with dontenum := true }),
          vars := c :: s.vars, saved := s.vars :: s.saved }
      | none => .err s
    else .err s

/-- Binding the parameters for `apply`: the elements of the array become properties of the array under the names of the
parameters, missing ones are new values.  jsi_SharedArgs, jsiProto.c:128-160. -/
def bindParams (s : St) (o : Nat) (a : List (Option Nat)) (cnt : Nat) : Nat → List Bytes → List Nat → St × List Nat
  | _, [], vs => (s, vs)
  | i, nm :: r, vs =>
    match (if i < cnt then (a[i]?).getD none else none) with
    | some c => bindParams ((insert s o nm c true).getD s) o a cnt (i + 1) r (vs ++ [c])
    | none =>
      bindParams ((insert (s.alloc ⟨.undef, false, false⟩) o nm s.cells.length true).getD
        (s.alloc ⟨.undef, false, false⟩)) o a cnt (i + 1) r (vs ++ [s.cells.length])

/-- `f.apply(null, a)` for a function with these parameters and no other variables, jsiProto.c:447-487: the array itself
is the argument list.  With a frozen array the parameters cannot be bound: taken as an error. -/
def apply (s : St) (o : Nat) (params : List Bytes) : Out :=
  match s.objs[o]? with
  | none => .err s
  | some ob =>
    if ob.isarr ∧ !ob.freeze then
      let r := bindParams s o (ob.arr.getD []) ob.cnt 0 params []
      .ok { r.1 with vars := r.2 ++ s.vars, saved := s.vars :: s.saved }
    else .err s

/-- Return from a call. -/
def ret (s : St) : Out :=
  match s.saved with
  | v :: r => .ok { s with vars := v, saved := r }
  | [] => .err s

/-! ### Histories -/

/-- What a script does, one step at a time.  Operands are variables. -/
inductive Op where
  | lit (x : Nat) (v : Val)
  | copy (x y : Nat)
  | incVar (x : Nat)
  | mk (x : Nat) (ps : List (Bytes × Nat))
  | mkArr (x : Nat) (ys : List Nat)
  | get (x o : Nat) (k : Key)
  | put (o : Nat) (k : Key) (y : Nat)
  | inc (o : Nat) (k : Key)
  | del (o : Nat) (k : Key)
  | create (x p : Nat) (props : List Nat)
  | assign (o : Nat) (ys : List Nat)
  | merge (x a b : Nat)
  | freeze (o : Nat) (f m r : Bool)
  | setProto (o p : Nat)
  | values (x o : Nat)
  | filter (x a : Nat) (sel : Nat → Bool)
  | call (ys : List Nat)
  | each (a i : Nat)
  | apply (a : Nat) (params : List Bytes)
  | ret

/-- Apply an operation to the object in a variable; for other values there is an error. -/
def withObj (s : St) (v : Val) (f : Nat → Out) : Out :=
  match v with
  | .obj o => f o
  | _ => .err s

/-- Literal values have no object in them. -/
def isPrim : Val → Bool
  | .obj _ => false
  | _ => true

/-- `x = o[k]` after reading. -/
def gotten (s : St) (x : Nat) : Rd → Out
  | .val v => setVar s x v
  | .err => .err s
  | .crash => .crash

def step (E : Env) (s : St) : Op → Out
  | .lit x v => if isPrim v then setVar s x ⟨v, false, false⟩ else .err s
  | .copy x y => setVar s x (s.var y)
  | .incVar x => match s.vars[x]? with | some c => incCell E s c | none => .err s
  | .mk x ps => setVar (literal s (ps.map fun p => (p.1, s.var p.2))) x ⟨.obj s.objs.length, false, false⟩
  | .mkArr x ys => setVar (arrayLit s (ys.map s.var)) x ⟨.obj s.objs.length, false, false⟩
  | .get x o k => withObj s (s.var o).val fun q => gotten s x (read E s q k)
  | .put o k y => withObj s (s.var o).val fun q => put E s q k (s.var y)
  | .inc o k => withObj s (s.var o).val fun q => inc E s q k
  | .del o k => withObj s (s.var o).val fun q => del s q k.name
  | .create x p props => create s x (s.var p).val (props.map fun y => (s.var y).val)
  | .assign o ys => assign s (s.var o).val (ys.map fun y => (s.var y).val)
  | .merge x a b => merge s x (s.var a).val (s.var b).val
  | .freeze o f m r => withObj s (s.var o).val fun q => freeze s q f m r
  | .setProto o p => withObj s (s.var o).val fun q => withObj s (s.var p).val fun p => setProto s q p
  | .values x o => withObj s (s.var o).val fun q => values s x q
  | .filter x a sel => withObj s (s.var a).val fun q => filterArr s x q sel
  | .call ys => .ok (call s (ys.map s.var))
  | .each a i => withObj s (s.var a).val fun q => each s q i
  | .apply a ps => withObj s (s.var a).val fun q => apply s q ps
  | .ret => ret s

/-- A history: errors are caught by the script, which goes on; `none`: the process crashed.  The second part tells which
steps succeeded. -/
def run (E : Env) : St → List Op → Option (St × List Bool)
  | s, [] => some (s, [])
  | s, op :: r =>
    match step E s op with
    | .ok s' => (run E s' r).map fun p => (p.1, true :: p.2)
    | .err s' => (run E s' r).map fun p => (p.1, false :: p.2)
    | .crash => none

/-- The start: `Object.prototype` and `Array.prototype` (without their functions) and `n` variables. -/
def start (n : Nat) : St :=
  { cells := List.replicate (n + 1) ⟨.undef, false, false⟩,
    objs := [{}, { isarr := false, proto := some objProto }],
    vars := (List.range n).map (· + 1) }

end Verif.Obj
