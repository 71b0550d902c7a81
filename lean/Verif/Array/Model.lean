/-!
Model of JavaScript arrays: the array part of `Jsi_Obj` (src/jsiObj.c:382-493, 714-744) and the
array methods of src/jsiArray.c.

An array object owns a C vector `arr` of `arrMaxSize` pointers to `Jsi_Value` cells, of which the
first `arrCnt` are the elements; a NULL pointer is a hole.  Value cells live on a heap, so that two
arrays, or an array and a callback parameter, can share a cell.  Every access to the vector is
checked: the functions return `Option`, and `none` is undefined behaviour (an access outside the
vector) or a failed `assert`.

Simplifications: reference counts are not modelled (a cell never dies); the contents of a cell are
an opaque value (`V`), so that copying a cell copies an opaque value; all arrays are in list form
(`isarrlist`, no entries in the property tree, in particular no property named "length", and
`Jsi_ObjListifyArray` is the identity); `modifying` is 0; the number arguments are given after the
conversion `(int)`; sizes are unbounded naturals (they stay below `maxArrayList`, an option whose
default is 100000, so that the C `uint`/`int` sums do not wrap).
-/

namespace Verif.Array

/-- The heap of `Jsi_Value` cells: the address of the next new cell, and the contents. -/
structure Heap (V : Type) where
  next : Nat
  val : Nat → V

/-- The array fields of `Jsi_Obj` (src/jsiInt.h): `arr` (whose length is `arrMaxSize`) and
`arrCnt`. -/
structure Arr where
  mem : List (Option Nat)
  cnt : Nat
deriving DecidableEq

/-- What a method leaves: the heap, `this`, the returned value, and whether it failed. -/
structure Out (V R : Type) where
  heap : Heap V
  arr : Arr
  ret : R
  error : Bool

variable {V : Type}

/-- `Jsi_ValueNew1` then `Jsi_ValueCopy`: a new cell holding `v` (src/jsiValue.c:58-82, 304-313). -/
def Heap.alloc (h : Heap V) (v : V) : Heap V :=
  ⟨h.next + 1, fun p => if p = h.next then v else h.val p⟩

/-- `Jsi_ValueCopy` into an existing cell (src/jsiValue.c:238-302). -/
def Heap.copy (h : Heap V) (p : Nat) (v : V) : Heap V :=
  ⟨h.next, fun q => if q = p then v else h.val q⟩

/-- A fresh `Jsi_Obj` of type array: `arr` is NULL. -/
def Arr.new : Arr := ⟨[], 0⟩

/-- `obj->arr[i]`. -/
def rd (m : List (Option Nat)) (i : Nat) : Option (Option Nat) := m[i]?

/-- `obj->arr[i] = c`. -/
def wr (m : List (Option Nat)) (i : Nat) (c : Option Nat) : Option (List (Option Nat)) :=
  if i < m.length then some (m.set i c) else none

/-- `memmove(arr+dst, arr+src, n*sizeof(Jsi_Value*))`. -/
def memmove (m : List (Option Nat)) (dst src n : Nat) : Option (List (Option Nat)) :=
  if src + n ≤ m.length ∧ dst + n ≤ m.length then
    some (m.take dst ++ (m.drop src).take n ++ m.drop (dst + n))
  else none

/-- src/jsiObj.c:451-454: `nsiz`, the size rounded up to `ALLOC_MOD_SIZE` (16, src/jsiInt.h). -/
def roundUp (len : Nat) : Nat :=
  let nsiz := len + 1
  nsiz + (15 - (nsiz + 15) % 16)

/-- src/jsiObj.c:449-472  `Jsi_ObjArraySizer`; `none` is the failure "array size too big". -/
def sizer (M : Nat) (a : Arr) (len : Nat) : Option Arr :=
  if len ≥ M ∨ roundUp len > M then none
  else
    let m := if len ≥ a.mem.length then
        a.mem ++ List.replicate (roundUp len - a.mem.length) none
      else a.mem
    some ⟨m, if len > a.cnt then len else a.cnt⟩

/-- src/jsiObj.c:714-720  `Jsi_ObjSetLength` on an array, with its `assert`. -/
def setLength (a : Arr) (len : Nat) : Option Arr :=
  if len ≤ a.mem.length then some ⟨a.mem, len⟩ else none

/-- src/jsiArray.c:10-14  `jsi_SizeOfArray`. -/
def sizeOf (a : Arr) : Nat := if a.mem = [] then 0 else a.cnt

/-- src/jsiValue.c:359-371  `Jsi_ValueArrayIndex` on an array in list form. -/
def index (a : Arr) (i : Nat) : Option (Option Nat) :=
  if i ≥ a.cnt then some none else rd a.mem i

/-- src/jsiEval.c:814-824: the argument array of a call holds fresh copies of the operands
(`Jsi_ValueNewArrayObj(..., copyflag 1)`). -/
def callArgs (h : Heap V) : List V → Heap V × List Nat
  | [] => (h, [])
  | v :: vs =>
    let (h', ps) := callArgs (h.alloc v) vs
    (h', h.next :: ps)

/-- src/jsiObj.c:402-420  `Jsi_ObjArraySet`.  A failed `Jsi_ObjArraySizer` leaves the array as it
was. -/
def objArraySet (M : Nat) (a : Arr) (p n : Nat) : Option Arr :=
  match sizer M a (n + 1) with
  | none => some a
  | some a1 => do
    let c ← rd a1.mem n
    if c = some p then return a1
    let m ← wr a1.mem n (some p)
    if n + 1 > a1.cnt then setLength ⟨m, a1.cnt⟩ (n + 1) else return ⟨m, a1.cnt⟩

/-- src/jsiValue.c:1298-1315  `Jsi_ValueInsertArray` on an array. -/
def insertArray (M : Nat) (a : Arr) (key p : Nat) : Option Arr :=
  if key < M then objArraySet M a p key else some a

/-- The loop of src/jsiArray.c:30-34; the result of `Jsi_ValueInsertArray` is ignored there. -/
def pushLoop (M curlen : Nat) : Arr → Nat → List Nat → Option Arr
  | a, _, [] => some a
  | a, i, p :: ps => do
    let a' ← insertArray M a (curlen + i) p
    pushLoop M curlen a' (i + 1) ps

/-- src/jsiArray.c:16-38  `push`. -/
def push (M : Nat) (h : Heap V) (a : Arr) (args : List Nat) : Option (Out V Nat) := do
  let a' ← pushLoop M (sizeOf a) a 0 args
  return ⟨h, a', sizeOf a', false⟩

/-- src/jsiArray.c:40-74  `pop`.  The result is the cell itself; `none` leaves the return value
`undefined`. -/
def pop (h : Heap V) (a : Arr) : Option (Out V (Option Nat)) :=
  if sizeOf a = 0 then some ⟨h, a, none, false⟩
  else do
    let i := sizeOf a - 1
    let v ← rd a.mem i
    let a1 ← if v.isSome then (wr a.mem i none).map (fun m => ⟨m, a.cnt - 1⟩) else some a
    let a2 ← setLength a1 i
    return ⟨h, a2, v, false⟩

/-- src/jsiArray.c:760-782  `shift`.  The result is a copy of the element, given here by its
contents; `none` leaves the return value `undefined`. -/
def shift (h : Heap V) (a : Arr) : Option (Out V (Option V)) :=
  if sizeOf a = 0 then some ⟨h, a, none, false⟩
  else do
    let n := sizeOf a - 1
    let v ← rd a.mem 0
    let m ← memmove a.mem 0 1 n
    let m ← wr m n none
    match v with
    | none => return ⟨h, ⟨m, a.cnt⟩, none, false⟩
    | some p => do
      let a' ← setLength ⟨m, a.cnt⟩ n
      return ⟨h, a', some (h.val p), false⟩

/-- The loop of src/jsiArray.c:802-808. -/
def storeLoop : List (Option Nat) → Nat → List Nat → Option (List (Option Nat))
  | m, _, [] => some m
  | m, i, p :: ps => do
    let m ← wr m i none
    let m ← wr m i (some p)
    storeLoop m (i + 1) ps

/-- src/jsiArray.c:784-814  `unshift`. -/
def unshift (M : Nat) (h : Heap V) (a : Arr) (args : List Nat) : Option (Out V Nat) :=
  let curlen := sizeOf a
  if args = [] then some ⟨h, a, 0, false⟩
  else
    match sizer M a (curlen + args.length) with
    | none => some ⟨h, a, 0, true⟩
    | some a1 => do
      let m ← memmove a1.mem args.length 0 curlen
      let m ← storeLoop m 0 args
      let a2 ← setLength ⟨m, a1.cnt + args.length⟩ (curlen + args.length)
      return ⟨h, a2, sizeOf a2, false⟩

/-- src/jsiEval.c:1045-1067  `jsi_ObjArraySetDup`, the assignment `a[n] = v`
(src/jsiEval.c:1076-1081; an index of `maxArrayList` or more becomes a property of the object,
which is not modelled). -/
def assign (M : Nat) (h : Heap V) (a : Arr) (n : Nat) (v : V) : Option (Out V Unit) :=
  match sizer M a n with
  | none => some ⟨h, a, (), true⟩
  | some a1 => do
    let c ← rd a1.mem n
    match c with
    | some p => return ⟨h.copy p v, a1, (), false⟩
    | none => do
      let m ← wr a1.mem n (some h.next)
      let a2 ← if n + 1 > a1.cnt then setLength ⟨m, a1.cnt⟩ (n + 1) else some ⟨m, a1.cnt⟩
      return ⟨h.alloc v, a2, (), false⟩

/-- The loop of src/jsiArray.c:487-491. -/
def reverseLoop : Nat → List (Option Nat) → Nat → Nat → Option (List (Option Nat))
  | 0, m, _, _ => some m
  | k + 1, m, i, n => do
    let tval ← rd m i
    let other ← rd m n
    let m ← wr m i other
    let m ← wr m n tval
    reverseLoop k m (i + 1) (n - 1)

/-- src/jsiArray.c:474-497  `reverse`. -/
def reverse (h : Heap V) (a : Arr) : Option (Out V Unit) := do
  let m ← reverseLoop (a.cnt / 2) a.mem 0 (a.cnt - 1)
  return ⟨h, ⟨m, a.cnt⟩, (), false⟩

/-- The copying loops of `slice` (src/jsiArray.c:931-936), `concat` (src/jsiArray.c:303-308,
320-325) and `Jsi_ValueArrayConcat`: `k` cells of `src` from index `i` are copied to `dst` from
index `j`; a hole is skipped. -/
def dupLoop (src : List (Option Nat)) :
    Nat → Heap V → Nat → List (Option Nat) → Nat → Option (Heap V × List (Option Nat))
  | 0, h, _, dst, _ => some (h, dst)
  | k + 1, h, i, dst, j => do
    let c ← rd src i
    match c with
    | none => dupLoop src k h (i + 1) dst (j + 1)
    | some p => do
      let dst ← wr dst j (some h.next)
      dupLoop src k (h.alloc (h.val p)) (i + 1) dst (j + 1)

/-- src/jsiArray.c:887-895 (and 832-840): the start index; `none` means that the method returns
at once. -/
def sliceStart (n : Nat) (start : Int) : Option Nat :=
  if start > n then none
  else
    let s := if start < 0 then n + start else start
    if s < 0 then none else some s.toNat

/-- src/jsiArray.c:900-909 (and 846-855): the index of the last element; `none` means that the
method returns at once. -/
def sliceEnd (n : Nat) (e : Option Int) : Option Nat :=
  match e with
  | none => some (n - 1)
  | some e =>
    let e : Int := if e ≥ n then (n : Int) - 1 else e
    let e : Int := if e < 0 then n + e else e
    if e < 0 then none else some e.toNat

/-- src/jsiArray.c:874-938  `slice`; `start` is required.  The result is the new array. -/
def slice (M : Nat) (h : Heap V) (a : Arr) (start : Int) (e : Option Int) :
    Option (Out V Arr) :=
  let n := sizeOf a
  match sliceStart n start with
  | none => some ⟨h, a, .new, false⟩
  | some istart =>
    if n = 0 then some ⟨h, a, .new, false⟩
    else match sliceEnd n e with
      | none => some ⟨h, a, .new, false⟩
      | some iend =>
        let nsiz := iend + 1 - istart
        if nsiz = 0 ∨ istart ≥ a.cnt then some ⟨h, a, .new, false⟩
        else match sizer M .new nsiz with
          | none => some ⟨h, a, .new, true⟩
          | some b => do
            let (h', m) ← dupLoop a.mem nsiz h istart b.mem 0
            let b' ← setLength ⟨m, b.cnt⟩ nsiz
            return ⟨h', a, b', false⟩

/-- The loop of src/jsiArray.c:862-868: `k` cells from index `i`. -/
def fillLoop (v : V) :
    Nat → Heap V → Nat → List (Option Nat) → Option (Heap V × List (Option Nat))
  | 0, h, _, m => some (h, m)
  | k + 1, h, i, m => do
    let c ← rd m i
    match c with
    | some p => fillLoop v k (h.copy p v) (i + 1) m
    | none => do
      let m ← wr m i (some h.next)
      fillLoop v k (h.alloc v) (i + 1) m

/-- src/jsiArray.c:829-840: `start` is optional in `fill`. -/
def fillStart (n : Nat) : Option Int → Option Nat
  | none => some 0
  | some s => sliceStart n s

/-- src/jsiArray.c:816-872  `fill`.  It returns `this` (src/jsiArray.c:869-870). -/
def fill (h : Heap V) (a : Arr) (v : V) (start : Option Int) (e : Option Int) :
    Option (Out V Unit) :=
  let n := sizeOf a
  match fillStart n start with
  | none => some ⟨h, a, (), false⟩
  | some istart =>
    if n = 0 then some ⟨h, a, (), false⟩
    else match sliceEnd n e with
      | none => some ⟨h, a, (), false⟩
      | some iend => do
        let (h', m) ← fillLoop v (iend + 1 - istart) h istart a.mem
        return ⟨h', ⟨m, a.cnt⟩, (), false⟩

/-- An argument of `concat`: an array, or the cell of any other value. -/
inductive CArg where
  | arr (a : Arr)
  | val (p : Nat)

/-- The loop of src/jsiArray.c:310-337. The state is the heap, `nobj`, `curlen` and `m`; the flag
is the failure "index too large". -/
def concatLoop (M : Nat) :
    List CArg → Heap V → Arr → Nat → Nat → Option (Heap V × Arr × Nat × Bool)
  | [], h, b, curlen, _ => some (h, b, curlen, false)
  | .arr a :: rest, h, b, curlen, m =>
    let margc := a.cnt
    match sizer M b (curlen + margc) with
    | none => some (h, b, curlen + margc, true)
    | some b1 => do
      let (h', mem) ← dupLoop a.mem margc h 0 b1.mem m
      concatLoop M rest h' ⟨mem, b1.cnt⟩ (curlen + margc) (m + margc)
  | .val p :: rest, h, b, curlen, m =>
    match sizer M b (curlen + 1) with
    | none => some (h, b, curlen + 1, true)
    | some b1 => do
      let mem ← wr b1.mem m (some h.next)
      concatLoop M rest (h.alloc (h.val p)) ⟨mem, b1.cnt⟩ (curlen + 1) (m + 1)

/-- src/jsiArray.c:285-343  `concat`. -/
def concat (M : Nat) (h : Heap V) (a : Arr) (args : List CArg) : Option (Out V Arr) :=
  let curlen := sizeOf a
  let nsiz := if a.mem.length = 0 then 100 else a.mem.length
  match sizer M .new (nsiz + 1) with
  | none => some ⟨h, a, .new, true⟩
  | some b => do
    let (h1, m) ← dupLoop a.mem curlen h 0 b.mem 0
    let (h2, b2, len, bad) ← concatLoop M args h1 ⟨m, b.cnt⟩ curlen curlen
    if bad then return ⟨h2, a, b2, true⟩
    let b3 ← setLength b2 len
    return ⟨h2, a, b3, false⟩

/-- src/jsiArray.c:1190-1196: `k` cells of `m` from index `i` are moved to `r` from index `j`; a
hole is skipped. -/
def moveLoop : Nat → List (Option Nat) → Nat → List (Option Nat) → Nat →
    Option (List (Option Nat) × List (Option Nat))
  | 0, m, _, r, _ => some (m, r)
  | k + 1, m, i, r, j => do
    let c ← rd m i
    if c.isNone then moveLoop k m (i + 1) r (j + 1)
    else do
      let r ← wr r j c
      let m ← wr m i none
      moveLoop k m (i + 1) r (j + 1)

/-- src/jsiArray.c:1200-1204 ("Shift remaining down"): `k` cells from index `i` move down by
`how`. -/
def downLoop (how : Nat) : Nat → List (Option Nat) → Nat → Option (List (Option Nat))
  | 0, m, _ => some m
  | k + 1, m, i => do
    let c ← rd m i
    let m ← wr m (i - how) c
    let m ← wr m i none
    downLoop how k m (i + 1)

/-- src/jsiArray.c:1212-1215: the `k` cells from index `start`, last first, move up by `ilen`. -/
def upLoop (ilen start : Nat) : Nat → List (Option Nat) → Option (List (Option Nat))
  | 0, m => some m
  | k + 1, m => do
    let c ← rd m (start + k)
    let m ← wr m (start + k + ilen) c
    let m ← wr m (start + k) none
    upLoop ilen start k m

/-- src/jsiArray.c:1216-1221: the new elements are copied in. -/
def insLoop : List Nat → Heap V → List (Option Nat) → Nat → Option (Heap V × List (Option Nat))
  | [], h, m, _ => some (h, m)
  | p :: ps, h, m, i => do
    let m ← wr m i (some h.next)
    insLoop ps (h.alloc (h.val p)) m (i + 1)

/-- src/jsiArray.c:1157-1163: the start index; `none` means that nothing is done. -/
def spliceStart (n : Nat) (start : Int) : Option Nat :=
  if start > n then none
  else
    let s := if start < 0 then n + start else start
    if s < 0 then some 0 else some s.toNat

/-- src/jsiArray.c:1165-1176: the number of elements removed. -/
def spliceCount (n istart : Nat) (howmany : Option Int) : Nat :=
  match howmany with
  | none => n - istart
  | some k =>
    if k ≥ ((n - istart : Nat) : Int) then n - istart
    else if k < 0 then n - istart
    else k.toNat

/-- src/jsiArray.c:1200-1204: the loop runs only when something was removed. -/
def spliceDown (how n istart : Nat) (m : List (Option Nat)) : Option (List (Option Nat)) :=
  if how = 0 then some m else downLoop how (n - (istart + how)) m (istart + how)

/-- src/jsiArray.c:1211-1222: room is made for the new elements and they are copied in. -/
def spliceIns (items : List Nat) (h : Heap V) (istart curlen : Nat) (m : List (Option Nat)) :
    Option (Heap V × List (Option Nat)) :=
  if items = [] then some (h, m)
  else (upLoop items.length istart (curlen - istart) m).bind fun m => insLoop items h m istart

/-- src/jsiArray.c:1184-1223: `splice` once the start index and the number `how` of elements to
remove are known; `n` is the length. -/
def spliceBody (M : Nat) (h : Heap V) (a : Arr) (n istart how : Nat) (items : List Nat) :
    Option (Out V (Option Arr)) :=
  match sizer M .new how with
  | none => some ⟨h, a, some .new, true⟩
  | some r => do
    let (m, rm) ← moveLoop how a.mem istart r.mem 0
    let r' ← setLength ⟨rm, r.cnt⟩ how
    let m ← spliceDown how n istart m
    let curlen := n - how
    let newlen := curlen + items.length
    match sizer M ⟨m, a.cnt⟩ (newlen + 3) with
    | none => return ⟨h, ⟨m, a.cnt⟩, none, true⟩
    | some a2 => do
      let (h', m) ← spliceIns items h istart curlen a2.mem
      let a3 ← setLength ⟨m, a2.cnt⟩ newlen
      return ⟨h', a3, some r', false⟩

/-- src/jsiArray.c:1129-1224  `splice(start, howmany, items...)`; `howmany = none` is the call with
one argument (then there are no items).  The result is the array of removed elements; `none` is
`undefined`. -/
def splice (M : Nat) (h : Heap V) (a : Arr) (start : Int) (howmany : Option Int)
    (items : List Nat) : Option (Out V (Option Arr)) :=
  let n := sizeOf a
  match spliceStart n start with
  | none => some ⟨h, a, some .new, false⟩
  | some istart => spliceBody M h a n istart (spliceCount n istart howmany) items

end Verif.Array
