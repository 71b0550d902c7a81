import Verif.Basic
/-!
Model of the reference counts of values and objects: src/jsiValue.c:32-55, 57-80, 172-295, 1548-1675,
src/jsiObj.c:30-70, 175-191, 239-252, 304-365, 383-443, src/jsiEval.c:858-911.

The memory is a list of cells; a freed cell is `none` and its place is not used again, so that every use of
freed memory is seen: the operation then has the result `none`.  Values (`Jsi_Value`) and objects (`Jsi_Obj`)
are both cells: the functions that count references to them are the same line by line.  A number, a boolean, null
and a string key are contents without references.  An object has properties (a tree: here a list of pairs, the order
of which does not matter) and array elements.

Simplifications: an object's `__proto__`, getters, setters, functions, iterators and user objects are left out
(they hold no counted references here), as are the limits of arrays.  When a cell is released, its content is
taken out before, not after, the references in it are dropped; nothing looks at it in between.
-/

namespace Verif.Ref

/-- The content of a cell: `vt` and `d` of a value, or an object. -/
inductive Content where
  | undef
  /-- JSI_VT_NUMBER, JSI_VT_BOOL, JSI_VT_NULL, JSI_VT_STRING -/
  | prim (n : Nat)
  /-- JSI_VT_OBJECT, `d.obj` -/
  | ref (o : Nat)
  /-- JSI_VT_VARIABLE, `d.lval` -/
  | var (v : Nat)
  /-- a `Jsi_Obj`: `tree` and `arr` -/
  | object (props : List (List UInt8 × Nat)) (arr : List (Option Nat))
deriving DecidableEq, Repr

/-- A `Jsi_Value` (with `refCnt`) or a `Jsi_Obj` (with `refcnt`). -/
structure Cell where
  rc : Int
  content : Content
deriving DecidableEq, Repr

/-- The pointers in a cell, in the order in which they are dropped (src/jsiValue.c:176-183,
src/jsiObj.c:346-354: the tree, then the array). -/
def links : Content → List Nat
  | .undef => []
  | .prim _ => []
  | .ref o => [o]
  | .var v => [v]
  | .object props arr => props.map (·.2) ++ arr.filterMap id

/-- The memory. -/
abbrev Heap := List (Option Cell)

/-- A dereference. -/
def get (h : Heap) (a : Nat) : Option Cell := (h[a]?).join

/-- A store. -/
def put (h : Heap) (a : Nat) (c : Cell) : Heap := h.set a (some c)

/-- What is still to be done while references are dropped: the rest of the calls on the C stack. -/
inductive Work where
  /-- `Jsi_DecrRefCount`, `Jsi_ObjDecrRefCount` -/
  | dec (a : Nat)
  /-- the `Jsi_Free` at the end of `Jsi_ValueFree`, `Jsi_ObjFree` -/
  | free (a : Nat)
deriving DecidableEq, Repr

/-- src/jsiValue.c:40-55 `Jsi_DecrRefCount`, 172-210 `ValueFree`, `Jsi_ValueFree`; src/jsiObj.c:429-446
`Jsi_ObjDecrRefCount`, 304-365 `Jsi_ObjFree`, 175-183 `DeleteTreeValue`. -/
def step (h : Heap) : Work → Option (Heap × List Work)
  | .dec a =>
    match get h a with
    | none => none
    | some c =>
      if c.rc ≤ 0 then some (h, [])
      else if c.rc - 1 ≤ 0 then some (put h a ⟨-1, .undef⟩, (links c.content).map .dec ++ [.free a])
      else some (put h a ⟨c.rc - 1, c.content⟩, [])
  | .free a =>
    match get h a with
    | none => none
    | some _ => some (h.set a none, [])

/-- All that is to be done; `fuel` bounds the steps. -/
def drain : Nat → Heap → List Work → Option Heap
  | _, h, [] => some h
  | 0, _, _ :: _ => none
  | fuel + 1, h, x :: w =>
    match step h x with
    | none => none
    | some (h', w') => drain fuel h' (w' ++ w)

/-- A bound on the steps that one cell can give rise to. -/
def weight : Option Cell → Nat
  | none => 0
  | some c => if c.rc ≤ 0 then 0 else (links c.content).length + 1

/-- Enough fuel (proved in `Verif.Ref.Props`). -/
def enough (h : Heap) (w : List Work) : Nat := (h.map weight).sum + w.length

/-- The calls are made. -/
def run (h : Heap) (w : List Work) : Option Heap := drain (enough h w) h w

/-- src/jsiValue.c:32-38 `Jsi_IncrRefCount`, src/jsiObj.c:422-427 `Jsi_ObjIncrRefCount`. -/
def incr (h : Heap) (a : Nat) : Option Heap :=
  match get h a with
  | none => none
  | some c => some (put h a ⟨c.rc + 1, c.content⟩)

/-- `v->vt = ..., v->d = ...` -/
def setContent (h : Heap) (a : Nat) (x : Content) : Option Heap :=
  match get h a with
  | none => none
  | some c => some (put h a ⟨c.rc, x⟩)

/-- src/jsiValue.c:213-224 `Jsi_ValueReset` (and 1665-1674 `Jsi_ValueMakeUndef`). -/
def reset (h : Heap) (v : Nat) : Option Heap :=
  match get h v with
  | none => none
  | some c => run (put h v ⟨c.rc, .undef⟩) ((links c.content).map .dec)

/-- src/jsiValue.c:249-252: a variable is kept alive while the value is overwritten. -/
def keep (h : Heap) : Content → Option Heap
  | .var x => incr h x
  | _ => some h

/-- src/jsiValue.c:277-278, 281-282. -/
def unkeep (h : Heap) : Content → Option Heap
  | .var x => run h [.dec x]
  | _ => some h

/-- src/jsiValue.c:261-276: the count of what a copy refers to. -/
def share (h : Heap) : Content → Option Heap
  | .ref o => incr h o
  | .var x => incr h x
  | _ => some h

/-- src/jsiValue.c:238-295 `jsi_ValueCopyMove` for `from` other than NULL; a false assertion (247) is `none`.
Simplification: a moved value is emptied (284-292) before the old variable is dropped (281-282); if that should free
it, the result is `none`, since the C code then writes into it. -/
def copyMove (h : Heap) (to_ from_ : Nat) (isCopy : Bool) : Option Heap :=
  if to_ = from_ then some h
  else do
    let t ← get h to_
    if t.rc ≤ 0 then none
    else
      let h1 ← keep h t.content
      let h2 ← reset h1 to_
      let f ← get h2 from_
      let _ ← get h2 to_
      let h3 := put h2 to_ ⟨f.rc, f.content⟩
      if isCopy then
        let h4 ← if f.rc ≠ 0 then share h3 f.content else some h3
        let t4 ← get h4 to_
        unkeep (put h4 to_ ⟨t.rc, t4.content⟩) t.content
      else
        let h5 ← unkeep (put (put h3 to_ ⟨t.rc, f.content⟩) from_ ⟨f.rc, .undef⟩) t.content
        let _ ← get h5 from_
        some h5

/-- src/jsiValue.c:1548-1563 `Jsi_ValueMakeObject` for `v`, `o` other than NULL. -/
def makeObject (h : Heap) (v o : Nat) : Option Heap := do
  let c ← get h v
  if c.content = .ref o then some h
  else
    let h1 ← reset h v
    let h2 ← setContent h1 v (.ref o)
    incr h2 o

/-- src/jsiValue.c:1594-1663 `Jsi_ValueMakeNumber`, `Jsi_ValueMakeBool`, `Jsi_ValueMakeStringKey`,
`Jsi_ValueMakeNull`. -/
def makePrim (h : Heap) (v n : Nat) : Option Heap := do
  let h1 ← reset h v
  setContent h1 v (.prim n)

/-- src/jsiEval.c:897-908, the end of `jsiPushVar` for a variable that was looked up: `dv` is the place on the
stack. -/
def pushVar (h : Heap) (dv v : Nat) : Option Heap := do
  let h1 ← incr h v
  let d ← get h1 dv
  if dv ≠ v ∧ d.content ≠ .var v then
    let h2 ← reset h1 dv
    setContent h2 dv (.var v)
  else some h1

/-- The array with at least `n + 1` places (src/jsiObj.c:449-471 `Jsi_ObjArraySizer`). -/
def sizer (arr : List (Option Nat)) (n : Nat) : List (Option Nat) := arr ++ List.replicate (n + 1 - arr.length) none

/-- src/jsiObj.c:383-399 `Jsi_ObjArrayAdd` for an array and a value other than NULL. -/
def arrayAdd (h : Heap) (o v : Nat) : Option Heap := do
  let c ← get h o
  match c.content with
  | .object props arr =>
    let h1 := put h o ⟨c.rc, .object props (arr ++ [some v])⟩
    incr h1 v
  | _ => none

/-- src/jsiObj.c:409-413, src/jsiValue.c:230-234: the pointer that `set` writes into the object is replaced; `old` is
dropped first. -/
def swapIn (h : Heap) (o : Nat) (rc : Int) (cleared : Content) (old : List Nat) (set : Content → Option Content) (v : Nat) :
    Option Heap := do
  let h1 ← run (put h o ⟨rc, cleared⟩) (old.map .dec)
  let c ← get h1 o
  let x ← set c.content
  incr (put h1 o ⟨c.rc, x⟩) v

/-- A place of the array is written. -/
def setPlace (n : Nat) (v : Option Nat) : Content → Option Content
  | .object props arr => some (.object props (arr.set n v))
  | _ => none

/-- src/jsiObj.c:401-420 `Jsi_ObjArraySet` for an array and a value other than NULL. -/
def arraySet (h : Heap) (o v n : Nat) : Option Heap := do
  let c ← get h o
  match c.content with
  | .object props arr =>
    let arr1 := sizer arr n
    if arr1[n]? = some (some v) then some (put h o ⟨c.rc, .object props arr1⟩)
    else swapIn h o c.rc (.object props (arr1.set n none)) ((arr1[n]?).join.toList) (setPlace n (some v)) v
  | _ => none

/-- The value of a property. -/
def lookup (key : List UInt8) : List (List UInt8 × Nat) → Option Nat
  | [] => none
  | (k, v) :: l => if k = key then some v else lookup key l

/-- The properties without one. -/
def remove (key : List UInt8) : List (List UInt8 × Nat) → List (List UInt8 × Nat)
  | [] => []
  | (k, v) :: l => if k = key then l else (k, v) :: remove key l

/-- A property is added. -/
def addProp (key : List UInt8) (v : Nat) : Content → Option Content
  | .object props arr => some (.object ((key, v) :: props) arr)
  | _ => none

/-- src/jsiValue.c:1403-1434 `jsi_ObjValInsert` (no setters, not frozen), src/jsiObj.c:30-65
`jsi_TreeObjSetValue`, src/jsiValue.c:227-235 `Jsi_ValueReplace`: `Jsi_ObjInsert`. -/
def objInsert (h : Heap) (o : Nat) (key : List UInt8) (v : Nat) : Option Heap := do
  let c ← get h o
  match c.content with
  | .object props arr =>
    if lookup key props = some v then some h
    else swapIn h o c.rc (.object (remove key props) arr) (lookup key props).toList (addProp key v) v
  | _ => none

/-! ### A program that uses the library -/

/-- The memory, the references the program holds itself (`held`), and the cells it has made and nobody has
counted yet (`fresh`, count 0). -/
structure State where
  heap : Heap
  held : List Nat
  fresh : List Nat
deriving DecidableEq, Repr

/-- The calls. -/
inductive Op where
  /-- `Jsi_ValueNew` -/
  | new
  /-- `Jsi_ValueNew1` -/
  | new1
  /-- `Jsi_ObjNew` -/
  | newObj
  /-- `Jsi_IncrRefCount`, `Jsi_ObjIncrRefCount` -/
  | incr (a : Nat)
  /-- `Jsi_DecrRefCount`, `Jsi_ObjDecrRefCount` -/
  | decr (a : Nat)
  /-- `Jsi_ValueReset`, `Jsi_ValueMakeUndef` -/
  | reset (v : Nat)
  /-- `Jsi_ValueMakeNumber` and the like -/
  | makePrim (v n : Nat)
  /-- `Jsi_ValueMakeObject` -/
  | makeObject (v o : Nat)
  /-- `Jsi_ValueCopy` -/
  | copy (to_ from_ : Nat)
  /-- `Jsi_ValueMove` -/
  | move (to_ from_ : Nat)
  /-- `Jsi_ValueReplace` on a variable of the program that holds a reference to `old` -/
  | replace (old from_ : Nat)
  /-- `jsiPushVar` -/
  | pushVar (dv v : Nat)
  /-- `Jsi_ObjArrayAdd` -/
  | arrayAdd (o v : Nat)
  /-- `Jsi_ObjArraySet` -/
  | arraySet (o v n : Nat)
  /-- `Jsi_ObjInsert` -/
  | insert (o : Nat) (key : List UInt8) (v : Nat)
deriving DecidableEq, Repr

/-- `a` has been counted. -/
def State.count (s : State) (a : Nat) : List Nat := s.fresh.filter (· ≠ a)

/-- The effect of a call; `none`: freed memory is used, or an assertion fails. -/
def exec (s : State) : Op → Option State
  | .new => some ⟨s.heap ++ [some ⟨0, .undef⟩], s.held, s.heap.length :: s.fresh⟩
  /- src/jsiValue.c:67-72 -/
  | .new1 => some ⟨s.heap ++ [some ⟨1, .undef⟩], s.heap.length :: s.held, s.fresh⟩
  | .newObj => some ⟨s.heap ++ [some ⟨0, .object [] []⟩], s.held, s.heap.length :: s.fresh⟩
  | .incr a => (incr s.heap a).map fun h => ⟨h, a :: s.held, s.count a⟩
  | .decr a => (run s.heap [.dec a]).map fun h => ⟨h, s.held.erase a, s.fresh⟩
  | .reset v => (reset s.heap v).map fun h => ⟨h, s.held, s.fresh⟩
  | .makePrim v n => (makePrim s.heap v n).map fun h => ⟨h, s.held, s.fresh⟩
  | .makeObject v o => (makeObject s.heap v o).map fun h => ⟨h, s.held, s.count o⟩
  | .copy t f => (copyMove s.heap t f true).map fun h => ⟨h, s.held, s.fresh⟩
  | .move t f => (copyMove s.heap t f false).map fun h => ⟨h, s.held, s.fresh⟩
  | .replace old f =>
    if old = f then some s
    else do
      let h1 ← run s.heap [.dec old]
      let h2 ← incr h1 f
      some ⟨h2, f :: s.held.erase old, s.count f⟩
  | .pushVar dv v => (pushVar s.heap dv v).map fun h => ⟨h, s.held, s.count v⟩
  | .arrayAdd o v => (arrayAdd s.heap o v).map fun h => ⟨h, s.held, s.count v⟩
  | .arraySet o v n => (arraySet s.heap o v n).map fun h => ⟨h, s.held, s.count v⟩
  | .insert o key v => (objInsert s.heap o key v).map fun h => ⟨h, s.held, s.count v⟩

end Verif.Ref
