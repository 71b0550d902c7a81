import Verif.Basic
/-!
# Function calls (model for C117–C122)

Functions written in the language (`FC_NORMAL`), called directly, by `call`, by `apply`, through `bind` and by
`forEach`.  A variable is a cell that holds a value (`Jsi_Value`); an array holds cells; the variables of a call
are names in the very array object that holds its arguments (`Jsi_ValueInsert(interp, args, argkey, …)`).  So
whether two calls share variables is visible in the model.  Reference counts are not modelled.
-/
namespace Verif.Call

abbrev Name := List UInt8

/-- The kind of an object, `Jsi_otype`.  src/jsi.h:88-100.  (`JSI_OT_ARRAY` is "not a real type": an array is an
`object` with `isarrlist`.) -/
inductive Ot where
  | bool | num | str | object | function | regexp | iter | userobj
  deriving DecidableEq, Repr

/-- A value.  src/jsi.h:102-110; numbers by their bits.  `obj ot arr id`: `arr` is `isarrlist`, `id` which
object. -/
inductive Val where
  | undef
  | bool (b : Bool)
  | num (bits : UInt64)
  | str (s : List UInt8)
  | null
  | obj (ot : Ot) (arr : Bool) (id : Nat)
  deriving DecidableEq, Repr

/-- A type that can be written in a signature.  src/jsi.h:113-127 (`JSI_TT_*`), in the order in which
`jsi_typeName` writes them, `any` first. -/
inductive Ty where
  | any | number | string | boolean | array | function | object | regexp | userobj | iterobj | null | undefined | void
  deriving DecidableEq, Repr

/-- A set of types: the bits of an `int`. -/
abbrev Tys := Ty → Bool

/-- Every type. -/
def allTy : List Ty := [.any, .number, .string, .boolean, .array, .function, .object, .regexp, .userobj, .iterobj, .null,
  .undefined, .void]

/-- No type at all (`typ <= 0`). -/
def noTys : Tys := fun _ => false

/-- `typ <= 0`. -/
def isNone (t : Tys) : Bool := !(allTy.any t)

/-- `|` of two sets. -/
def union (s t : Tys) : Tys := fun x => s x || t x

/-- The set of one type. -/
def single (x : Ty) : Tys := fun y => decide (y = x)

/-- What a default value in a signature can be.  src/parser.y:557-565. -/
inductive Dflt where
  | undefined | void | null
  | bool (b : Bool) | num (bits : UInt64) | str (s : List UInt8)
  deriving DecidableEq, Repr

/-- The value of a default (`Jsi_ValueDup`; `void` is an undefined value with a mark). -/
def Dflt.val : Dflt → Val
  | .undefined => .undef
  | .void => .undef
  | .null => .null
  | .bool b => .bool b
  | .num n => .num n
  | .str s => .str s

/-- The type a default value implies.  src/jsiPstate.c:82-93. -/
def Dflt.ty : Dflt → Ty
  | .undefined => .undefined
  | .void => .void
  | .null => .null
  | .bool _ => .boolean
  | .num _ => .number
  | .str _ => .string

/-- A parameter as it is kept, `jsi_ArgValue`. -/
structure Param where
  name : Name
  tys : Tys
  dflt : Option Dflt

/-- `Jsi_ScopeStrs` for parameters: them, and the place (from 1) of the first default, 0 for none. -/
structure Params where
  args : List Param
  firstDef : Nat

/-- A parameter as it is written: name, declared types, default. -/
structure Decl where
  name : Name
  tys : Tys
  dflt : Option Dflt

/-- The types kept for a declaration.  src/jsiPstate.c:81-93. -/
def declTys (d : Decl) : Tys :=
  match d.dflt with
  | none => d.tys
  | some v => union d.tys (single v.ty)

/-- `jsi_argInsert` (appending).  src/jsiPstate.c:75-121.  What is reported while parsing is left out. -/
def argInsert (a : Params) (d : Decl) : Params :=
  ⟨a.args ++ [⟨d.name, declTys d, d.dflt⟩],
   if d.dflt.isSome = true ∧ a.firstDef = 0 then a.args.length + 1 else a.firstDef⟩

/-- The parameters of a function.  src/parser.y:567-576. -/
def mkParams (ds : List Decl) : Params := ds.foldl argInsert ⟨[], 0⟩

/-- A function: parameters, `...`, its local variables and its return types.
src/jsiFunc.c:490-517. -/
structure Fn where
  ps : Params
  varargs : Bool
  locals : List Name
  ret : Tys

/-- What governs checking: `noCheck`, `noError`, the bits `noundef` and `noreturn` of `typeCheck`,
`typeMismatchCnt` and `typeWarnMax` (0 or less: no limit). -/
structure Chk where
  noCheck : Bool
  noError : Bool
  noundef : Bool
  noreturn : Bool
  cnt : Nat
  max : Nat
  deriving DecidableEq, Repr

/-- `jsi_TypeMismatch`.  src/jsiUtils.c:97-106.  (`memset` clears the other bits of `typeCheck` too.) -/
def mismatch (c : Chk) : Chk :=
  if c.max ≠ 0 ∧ c.max ≤ c.cnt + 1 then { c with cnt := c.cnt + 1, noundef := false, noreturn := false }
  else { c with cnt := c.cnt + 1 }

/-- `Jsi_ValueIsNumber`.  src/jsiValue.c:416-419. -/
def isNumber : Val → Bool
  | .num _ => true
  | .obj .num _ _ => true
  | _ => false

/-- `Jsi_ValueIsString`.  src/jsiValue.c:430-433. -/
def isString : Val → Bool
  | .str _ => true
  | .obj .str _ _ => true
  | _ => false

/-- `Jsi_ValueIsBoolean`.  src/jsiValue.c:390-393. -/
def isBoolean : Val → Bool
  | .bool _ => true
  | .obj .bool _ _ => true
  | _ => false

/-- `Jsi_ValueIsArray`.  src/jsiValue.c:386-388. -/
def isArray : Val → Bool
  | .obj .object true _ => true
  | _ => false

/-- `Jsi_ValueIsObjType`, `Jsi_ValueIsFunction`.  src/jsiValue.c:435-464. -/
def isOt (k : Ot) : Val → Bool
  | .obj ot _ _ => decide (ot = k)
  | _ => false

/-- `Jsi_ValueIsUndef`. -/
def isUndef : Val → Bool
  | .undef => true
  | _ => false

/-- `Jsi_ValueIsNull`. -/
def isNull : Val → Bool
  | .null => true
  | _ => false

/-- The row of tests in `jsi_ArgTypeCheck`.  src/jsiFunc.c:230-242. -/
def anyFits (t : Tys) (v : Val) : Bool :=
  (t .undefined && isUndef v) || (t .number && isNumber v) || (t .string && isString v) || (t .boolean && isBoolean v)
  || (t .array && isArray v) || (t .function && isOt .function v) || (t .regexp && isOt .regexp v)
  || (t .userobj && isOt .userobj v) || (t .iterobj && isOt .iter v)
  || (t .object && (isOt .object v && !isArray v)) || (t .null && isNull v)

/-- The outcome of a mismatch: an error, or only a warning with `noError`.  src/jsiInt.h:262 (`Jsi_LogType` at run
time), src/jsiUtils.c:151. -/
def fail (c : Chk) : Chk × Bool := (mismatch c, c.noError)

/-- `jsi_ArgTypeCheck` at run time for a function of the language: `isRet` is `index == 0`, the check of the
value returned.  `true` is `JSI_OK`.  src/jsiFunc.c:200-262. -/
def argCheck (c : Chk) (t : Tys) (v : Val) (isRet isDef : Bool) : Chk × Bool :=
  if c.noCheck then (c, true)
  else if isUndef v && !c.noundef && !isRet && !isDef && !(t .undefined || t .any) then fail c
  else if isNone t then (c, true)
  else if t .any then (c, true)
  else if isRet && isUndef v then (if t .void then (c, true) else fail c)
  else if isDef && t .void && isUndef v then (c, true)
  else if anyFits t v then (c, true)
  else fail c

/-- `jsi_RunFuncCallCheck` at run time, for a function of the language.  src/jsiFunc.c:336-384. -/
def countCheck (c : Chk) (f : Fn) (argc : Nat) : Chk × Bool :=
  if c.noCheck then (c, true)
  else
    if argc < (if f.ps.firstDef > 0 then f.ps.firstDef - 1 else f.ps.args.length)
        ∨ (f.varargs = false ∧ argc > f.ps.args.length) then fail c
    else (c, true)

/-- An array object: its elements (cells; `none` is a hole) and the names inserted into it. -/
structure Arr where
  elems : List (Option Nat)
  names : Name → Option Nat

/-- The memory: cells and array objects, handed out in order. -/
structure Heap where
  val : Nat → Val
  next : Nat
  objs : Nat → Arr
  nextObj : Nat

/-- A new cell (`Jsi_ValueNew`, `Jsi_ValueDup`). -/
def newCell (h : Heap) (v : Val) : Heap × Nat :=
  (⟨fun c => if c = h.next then v else h.val c, h.next + 1, h.objs, h.nextObj⟩, h.next)

/-- A new array object. -/
def newArr (h : Heap) (es : List (Option Nat)) : Heap × Nat :=
  (⟨h.val, h.next, fun k => if k = h.nextObj then ⟨es, fun _ => none⟩ else h.objs k, h.nextObj + 1⟩, h.nextObj)

/-- `Jsi_ValueInsert`: the name refers to the cell from now on.  src/jsiValue.c:1437-1443, 1402-1434 and
src/jsiObj.c:23-52.  (The array is neither frozen nor has it setters.) -/
def insert (h : Heap) (o : Nat) (nm : Name) (c : Nat) : Heap :=
  ⟨h.val, h.next, fun k => if k = o then ⟨(h.objs o).elems, fun n => if n = nm then some c else (h.objs o).names n⟩ else h.objs k,
   h.nextObj⟩

/-- A new cell and a name for it. -/
def insertNew (h : Heap) (o : Nat) (nm : Name) (v : Val) : Heap := insert (newCell h v).1 o nm (newCell h v).2

/-- The cell of the `i`-th argument, `Jsi_ValueArrayIndex`.  src/jsiValue.c:359-370. -/
def argCell (h : Heap) (o : Nat) (i : Nat) : Option Nat := ((h.objs o).elems[i]?).join

/-- Assigning to the variable of a scope: into its cell.  `jsiValueAssign`, src/jsiEval.c:150-188.  (Without
noticing read only variables.) -/
def assign (h : Heap) (o : Nat) (w : Name × Val) : Heap :=
  match (h.objs o).names w.1 with
  | some c => { h with val := fun k => if k = c then w.2 else h.val k }
  | none => h

/-- One round of `jsi_SharedArgs`: the parameter `p` at place `i`.  src/jsiProto.c:126-163 (`alloc`, no
`addargs`). -/
def bindOne (o : Nat) (i : Nat) (p : Param) (s : Chk × Bool × Heap) : Chk × Bool × Heap :=
  match argCell s.2.2 o i with
  | some c =>
    if s.2.1 then
      ((argCheck s.1 p.tys (s.2.2.val c) false false).1, (argCheck s.1 p.tys (s.2.2.val c) false false).2, insert s.2.2 o p.name c)
    else (s.1, false, insert s.2.2 o p.name c)
  | none =>
    match p.dflt with
    | some d =>
      if s.2.1 then
        ((argCheck s.1 p.tys d.val false true).1, (argCheck s.1 p.tys d.val false true).2, insertNew s.2.2 o p.name d.val)
      else (s.1, false, insertNew s.2.2 o p.name d.val)
    | none => (s.1, s.2.1, insertNew s.2.2 o p.name .undef)

/-- The loop of `jsi_SharedArgs` from place `i` on. -/
def bindAll (o : Nat) : Nat → List Param → Chk × Bool × Heap → Chk × Bool × Heap
  | _, [], s => s
  | i, p :: ps, s => bindAll o (i + 1) ps (bindOne o i p s)

/-- `jsi_InitLocalVar`.  src/jsiFunc.c:619-634. -/
def initLocals (o : Nat) : List Name → Heap → Heap
  | [], h => h
  | n :: ns, h => initLocals o ns (insertNew h o n .undef)

/-- What the body of a function does, given its scope and `this`: `none` is an exception. -/
abbrev Body := Nat → Val → Chk × Heap → (Chk × Heap) × Option Val

/-- The value returned is checked.  src/jsiProto.c:258-259 (not for a constructor). -/
def checkRet (f : Fn) (cons : Bool) (r : (Chk × Heap) × Option Val) : (Chk × Heap) × Option Val :=
  match r.2 with
  | none => r
  | some v =>
    if cons = false ∧ isNone f.ret = false ∧ r.1.1.noreturn = false then
      if (argCheck r.1.1 f.ret v true false).2 then (((argCheck r.1.1 f.ret v true false).1, r.1.2), some v)
      else (((argCheck r.1.1 f.ret v true false).1, r.1.2), none)
    else r

/-- The state after `jsi_SharedArgs`: the checks' state, whether all is well, the memory. -/
def share (f : Fn) (o : Nat) (s : Chk × Heap) : Chk × Bool × Heap :=
  ((bindAll o 0 f.ps.args ((countCheck s.1 f (s.2.objs o).elems.length).1, true, s.2)).1,
   (countCheck s.1 f (s.2.objs o).elems.length).2 && (bindAll o 0 f.ps.args ((countCheck s.1 f (s.2.objs o).elems.length).1, true, s.2)).2.1,
   (bindAll o 0 f.ps.args ((countCheck s.1 f (s.2.objs o).elems.length).1, true, s.2)).2.2)

/-- `jsi_FuncCallSub` for a function of the language: `o` is the array of the arguments.
src/jsiProto.c:168-272.  (`maxDepth`, tracing and profiling are left out.) -/
def callSub (f : Fn) (body : Body) (o : Nat) (this : Val) (cons : Bool) (s : Chk × Heap) : (Chk × Heap) × Option Val :=
  if (share f o s).2.1 then
    checkRet f cons (body o this ((share f o s).1, initLocals o f.locals (share f o s).2.2))
  else (((share f o s).1, (share f o s).2.2), none)

/-- Copies of values in new cells. -/
def newCells : List Val → Heap → Heap × List (Option Nat)
  | [], h => (h, [])
  | v :: vs, h => ((newCells vs (newCell h v).1).1, some (newCell h v).2 :: (newCells vs (newCell h v).1).2)

/-- The array of the arguments of a direct call: copies of the values on the stack.
src/jsiEval.c:814-824 and `Jsi_ObjNewArray`, src/jsiObj.c:470-493, with `copyflag`. -/
def argArr (h : Heap) (vs : List Val) : Heap × Nat := newArr (newCells vs h).1 (newCells vs h).2

/-- A direct call `f(vs…)`.  src/jsiEval.c:808-852, 790-812.  `this` is determined by the caller. -/
def direct (f : Fn) (body : Body) (vs : List Val) (this : Val) (cons : Bool) (s : Chk × Heap) : (Chk × Heap) × Option Val :=
  callSub f body (argArr s.2 vs).2 this cons (s.1, (argArr s.2 vs).1)

/-- `this` of `call` and `apply`: the first argument, unless there is none or it is undefined or null.
src/jsiProto.c:340-347, 459-465.  `toObj` is `Jsi_ValueToObject`, `top` the global object. -/
def pickThis (toObj : Val → Val) (top : Val) (a : Option Val) : Val :=
  match a with
  | none => top
  | some .undef => top
  | some .null => top
  | some v => toObj v

/-- `Jsi_ValueArrayShift`.  src/jsiArray.c:207-225. -/
def shift (h : Heap) (o : Nat) : Heap :=
  ⟨h.val, h.next, fun k => if k = o then ⟨(h.objs o).elems.drop 1, (h.objs o).names⟩ else h.objs k, h.nextObj⟩

/-- The value of an argument. -/
def argVal (h : Heap) (o : Nat) (i : Nat) : Option Val := (argCell h o i).map h.val

/-- `f.call(vs…)`.  `Jsi_FunctionCall`, src/jsiProto.c:327-355; the first value is `this`.  (`call` itself takes
anything as its arguments, src/jsiProto.c:722 with src/jsiFunc.c:206.) -/
def viaCall (toObj : Val → Val) (top : Val) (f : Fn) (body : Body) (vs : List Val) (s : Chk × Heap) : (Chk × Heap) × Option Val :=
  callSub f body (argArr s.2 vs).2 (pickThis toObj top (argVal (argArr s.2 vs).1 (argArr s.2 vs).2 0)) false
    (s.1, shift (argArr s.2 vs).1 (argArr s.2 vs).2)

/-- `f.apply(this, a)` for an array `a` that exists: it becomes the array of the arguments.
`Jsi_FunctionApply`, src/jsiProto.c:447-487. -/
def viaApply (toObj : Val → Val) (top : Val) (f : Fn) (body : Body) (th : Val) (a : Nat) (s : Chk × Heap) : (Chk × Heap) × Option Val :=
  callSub f body a (pickThis toObj top (some th)) false s

/-- A bound function: the array of the arguments of `bind`, and whether it has been called directly or by `call`
before (`funcPtr->fobj`). -/
structure Bound where
  args : Nat
  linked : Bool

/-- `f.bind(vs…)`.  src/jsiProto.c:307-325. -/
def bind (h : Heap) (vs : List Val) : Heap × Bound := ((argArr h vs).1, ⟨(argArr h vs).2, false⟩)

/-- `this` of the function called by a bound function: the first argument of `bind` unless there is none or it is
null.  src/jsiProto.c:287-290.  `th` is `this` of the bound function. -/
def boundThis (th : Val) (a : Option Val) : Val :=
  match a with
  | none => th
  | some .null => th
  | some v => v

/-- The array of arguments a bound function makes: none of its own when there is nothing to put before.
src/jsiProto.c:282-298. -/
def boundArr (h : Heap) (b o : Nat) : Heap × Nat :=
  if (h.objs b).elems.length > 1 then newArr h ((h.objs b).elems.drop 1 ++ (h.objs o).elems) else (h, o)

/-- `jsi_FuncBindCall` with the array `o` of arguments.  src/jsiProto.c:275-305.  `linked`: `funcPtr->fobj` is
set. -/
def boundCall (f : Fn) (body : Body) (b : Bound) (linked : Bool) (o : Nat) (th : Val) (s : Chk × Heap) : (Chk × Heap) × Option Val :=
  if linked = false then (s, none)
  else callSub f body (boundArr s.2 b.args o).2 (boundThis th (argVal s.2 b.args 0)) false (s.1, (boundArr s.2 b.args o).1)

/-- A direct call of a bound function.  src/jsiEval.c:790-796 sets `funcPtr->fobj`. -/
def boundDirect (f : Fn) (body : Body) (b : Bound) (vs : List Val) (th : Val) (s : Chk × Heap) : (Chk × Heap) × Option Val :=
  boundCall f body b true (argArr s.2 vs).2 th (s.1, (argArr s.2 vs).1)

/-- A bound function called by `apply`, a callback or a timer: nothing sets `funcPtr->fobj`.
src/jsiProto.c:447-487, src/jsiFunc.c:746-806. -/
def boundOther (f : Fn) (body : Body) (b : Bound) (o : Nat) (th : Val) (s : Chk × Heap) : (Chk × Heap) × Option Val :=
  boundCall f body b b.linked o th s

/-- The arguments of one round of `forEach`: the element itself (not a copy), its index and the array, as many as
the function has parameters, at most three.  src/jsiArray.c:523-532. -/
def eachArr (h : Heap) (c : Nat) (idx : UInt64) (arr : Val) (maa : Nat) : Heap × Nat :=
  newArr (newCell (newCell h (.num idx)).1 arr).1
    ([some c, some (newCell h (.num idx)).2, some (newCell (newCell h (.num idx)).1 arr).2].take maa)

/-- The number of arguments `forEach` passes to a function of the language. -/
def eachCnt (f : Fn) : Nat := if f.ps.args.length > 3 then 3 else f.ps.args.length

/-- One round of `forEach` over the array `a`, at place `i`.  src/jsiArray.c:527-538.  `num` is the number `i`
as a value. -/
def eachOne (f : Fn) (body : Body) (a : Nat) (num : Nat → UInt64) (this : Val) (i : Nat) (s : Chk × Heap) : (Chk × Heap) × Option Val :=
  match argCell s.2 a i with
  | none => (s, some .undef)
  | some c => callSub f body (eachArr s.2 c (num i) (.obj .object true a) (eachCnt f)).2 this false
      (s.1, (eachArr s.2 c (num i) (.obj .object true a) (eachCnt f)).1)

/-- `forEach` from place `i`, `n` rounds at most; `arrCnt` is read anew each round. -/
def eachFrom (f : Fn) (body : Body) (a : Nat) (num : Nat → UInt64) (this : Val) : Nat → Nat → Chk × Heap → (Chk × Heap) × Option Val
  | 0, _, s => (s, some .undef)
  | n + 1, i, s =>
    if i < (s.2.objs a).elems.length then
      match eachOne f body a num this i s with
      | (s', none) => (s', none)
      | (s', some _) => eachFrom f body a num this n (i + 1) s'
    else (s, some .undef)

end Verif.Call
