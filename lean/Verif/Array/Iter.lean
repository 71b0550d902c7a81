import Verif.Array.Spec

/-!
Model of the array methods that call a function or search: `forEach`, `map`, `filter`, `find`, `some`,
`every`, `findIndex`, `reduce`, `reduceRight`, `indexOf`, `lastIndexOf`, `includes`
(src/jsiArray.c:345-472, 499-748).

A callback is a function of the model: it gets some state of the script, the heap, the array object, the
cell of the element and the index, and yields new ones and its return value.  It gets the *cell*: the
argument array of the call is made with `Jsi_ObjNewArray(interp, vobjs, maa, 0)`, whose last argument says
that the values are not copied.  Not modelled: callbacks that throw, the `this` argument, reference counts.
-/

namespace Verif.Array

variable {V S : Type}

/-- What stops a method: an access outside the vector or through NULL, or more iterations than the fuel. -/
inductive Bad where
  | ub | fuel
deriving DecidableEq

/-- A callback: state, heap, array, cell, index to state, heap, array, result. -/
abbrev CB (S V : Type) := S → Heap V → Arr → Nat → Nat → S × Heap V × Arr × V

/-- The loop of `forEach`, src/jsiArray.c:527-538; the bound is read again every time. -/
def forEachLoop (f : CB S V) : Nat → S → Heap V → Arr → Nat → Except Bad (S × Heap V × Arr)
  | 0, _, _, _, _ => .error .fuel
  | k + 1, s, h, a, i =>
    if i < a.cnt then
      match a.mem[i]? with
      | none => .error .ub
      | some none => forEachLoop f k s h a (i + 1)
      | some (some p) =>
        let r := f s h a p i
        forEachLoop f k r.1 r.2.1 r.2.2.1 (i + 1)
    else .ok (s, h, a)

/-- src/jsiArray.c:499-543  `forEach`. -/
def forEach (fuel : Nat) (f : CB S V) (s : S) (h : Heap V) (a : Arr) : Except Bad (S × Heap V × Arr) :=
  forEachLoop f fuel s h a 0

/-- The `op` of `jsi_ArrayFindSubCmd`, src/jsiArray.c:661-671. -/
inductive FindOp where
  | find | some | every | findIndex
deriving DecidableEq

/-- src/jsiArray.c:588-591: does the loop end after the result `b`? -/
def FindOp.stops (op : FindOp) (b : Bool) : Bool := if op = .every then !b else b

/-- The loop of src/jsiArray.c:573-592; the state also has `fval`, the result the last index. -/
def findLoop (truthy : V → Bool) (op : FindOp) (f : CB S V) :
    Nat → S → Heap V → Arr → Bool → Nat → Except Bad (S × Heap V × Arr × Bool × Nat)
  | 0, _, _, _, _, _ => .error .fuel
  | k + 1, s, h, a, fval, i =>
    if i < a.cnt then
      match a.mem[i]? with
      | none => .error .ub
      | some none => findLoop truthy op f k s h a fval (i + 1)
      | some (some p) =>
        let r := f s h a p i
        if op.stops (truthy r.2.2.2) then .ok (r.1, r.2.1, r.2.2.1, truthy r.2.2.2, i)
        else findLoop truthy op f k r.1 r.2.1 r.2.2.1 (truthy r.2.2.2) (i + 1)
    else .ok (s, h, a, fval, i)

/-- The results of the four methods. -/
inductive FRet (V : Type) where
  | undef
  | value (v : V)
  | bool (b : Bool)
  | index (i : Int)
deriving DecidableEq

/-- src/jsiArray.c:593-600: the return value.  `find` copies `obj->arr[i]`, which may be NULL or outside
the vector by then. -/
def findRet (op : FindOp) (h : Heap V) (a : Arr) (fval : Bool) (i : Nat) : Except Bad (FRet V) :=
  match op with
  | .find =>
    if fval then
      match a.mem[i]? with
      | some (some p) => .ok (.value (h.val p))
      | _ => .error .ub
    else .ok .undef
  | .some => .ok (.bool fval)
  | .every => .ok (.bool fval)
  | .findIndex => .ok (.index (if fval then (i : Int) else -1))

/-- src/jsiArray.c:545-607  `jsi_ArrayFindSubCmd`. -/
def find (fuel : Nat) (truthy : V → Bool) (op : FindOp) (f : CB S V) (s : S) (h : Heap V) (a : Arr) :
    Except Bad (S × FRet V) :=
  match findLoop truthy op f fuel s h a false 0 with
  | .error e => .error e
  | .ok r => (findRet op r.2.1 r.2.2.1 r.2.2.2.1 r.2.2.2.2).map fun v => (r.1, v)

/-- The loop of `map`, src/jsiArray.c:379-391: `k` more elements from index `i`; `m` is `nobj->arr`.  (The
result cell is made before the call and filled after it; here it is made after it.) -/
def mapLoop (f : CB S V) : Nat → S → Heap V → Arr → Nat → List (Option Nat) →
    Except Bad (S × Heap V × Arr × List (Option Nat))
  | 0, s, h, a, _, m => .ok (s, h, a, m)
  | k + 1, s, h, a, i, m =>
    match a.mem[i]? with
    | none => .error .ub
    | some none => mapLoop f k s h a (i + 1) m
    | some (some p) =>
      let r := f s h a p i
      match wr m i (some r.2.1.next) with
      | none => .error .ub
      | some m => mapLoop f k r.1 (r.2.1.alloc r.2.2.2) r.2.2.1 (i + 1) m

/-- src/jsiArray.c:345-399  `map`: the state, the heap, the array and the new array (`none`: "index too
large"). -/
def map (M : Nat) (f : CB S V) (s : S) (h : Heap V) (a : Arr) :
    Except Bad (S × Heap V × Arr × Option Arr) :=
  match sizer M .new (if a.cnt = 0 then 1 else a.cnt) with
  | none => .ok (s, h, a, none)
  | some b =>
    match mapLoop f (sizeOf a) s h a 0 b.mem with
    | .error e => .error e
    | .ok r =>
      match setLength ⟨r.2.2.2, b.cnt⟩ (sizeOf a) with
      | none => .error .ub
      | some b => .ok (r.1, r.2.1, r.2.2.1, some b)

/-- src/jsiArray.c:452-458: what `filter` stores: the cell of the element itself, or a copy of the result
if the element is gone. -/
def filterCell (h : Heap V) (a : Arr) (i : Nat) (v : V) : Heap V × Nat :=
  match (if i < a.cnt then a.mem[i]? else none) with
  | some (some p) => (h, p)
  | _ => (h.alloc v, h.next)

/-- The loop of `filter`, src/jsiArray.c:438-461; `n` elements were stored. -/
def filterLoop (truthy : V → Bool) (f : CB S V) : Nat → S → Heap V → Arr → Nat → List (Option Nat) → Nat →
    Except Bad (S × Heap V × Arr × List (Option Nat) × Nat)
  | 0, s, h, a, _, m, n => .ok (s, h, a, m, n)
  | k + 1, s, h, a, i, m, n =>
    match a.mem[i]? with
    | none => .error .ub
    | some none => filterLoop truthy f k s h a (i + 1) m n
    | some (some p) =>
      let r := f s h a p i
      if truthy r.2.2.2 then
        let c := filterCell r.2.1 r.2.2.1 i r.2.2.2
        match wr m n (some c.2) with
        | none => .error .ub
        | some m => filterLoop truthy f k r.1 c.1 r.2.2.1 (i + 1) m (n + 1)
      else filterLoop truthy f k r.1 r.2.1 r.2.2.1 (i + 1) m n

/-- src/jsiArray.c:401-472  `filter`. -/
def filter (M : Nat) (truthy : V → Bool) (f : CB S V) (s : S) (h : Heap V) (a : Arr) :
    Except Bad (S × Heap V × Arr × Option Arr) :=
  match sizer M .new (if a.cnt = 0 then 1 else a.cnt) with
  | none => .ok (s, h, a, none)
  | some b =>
    match filterLoop truthy f (sizeOf a) s h a 0 b.mem 0 with
    | .error e => .error e
    | .ok r =>
      match setLength ⟨r.2.2.2.1, b.cnt⟩ r.2.2.2.2 with
      | none => .error .ub
      | some b => .ok (r.1, r.2.1, r.2.2.1, some b)

/-- The callback of `reduce`: it also gets the cell of the accumulator; `none` is NULL, which the function
sees as `undefined`. -/
abbrev CB2 (S V : Type) := S → Heap V → Arr → Option Nat → Nat → Nat → S × Heap V × Arr × V

/-- The loop of src/jsiArray.c:634-655 over the indexes `is`; `q` is the cell `nrPtr`, `ini` the cell of the
accumulator, `first` is `n == 0`. -/
def reduceLoop (f : CB2 S V) (q : Nat) : List Nat → Bool → S → Heap V → Arr → Option Nat →
    Except Bad (S × Heap V × Arr × Option Nat)
  | [], _, s, h, a, ini => .ok (s, h, a, ini)
  | i :: is, first, s, h, a, ini =>
    match a.mem[i]? with
    | none => .error .ub
    | some none => reduceLoop f q is false s h a ini
    | some (some p) =>
      if first = true ∧ ini = none then reduceLoop f q is false s h a (some p)
      else
        let r := f s h a ini p i
        reduceLoop f q is false r.1 (r.2.1.copy q r.2.2.2) r.2.2.1 (some q)

/-- src/jsiArray.c:609-660  `reduce` and `reduceRight` (`rev`); `ini` is the cell of the second argument.
The result is the contents of the last accumulator, `none` for `undefined`. -/
def reduce (rev : Bool) (f : CB2 S V) (dflt : V) (s : S) (h : Heap V) (a : Arr) (ini : Option Nat) :
    Except Bad (S × Option V) :=
  let is := if rev then (List.range a.cnt).reverse else List.range a.cnt
  (reduceLoop f h.next is true s (h.alloc dflt) a ini).map fun r => (r.1, r.2.2.2.map r.2.1.val)

/-! ### Searching -/

/-- src/jsiArray.c:707-717: the start index; `none` gives up. -/
def idxStart (n : Nat) : Option Int → Option Nat
  | none => some 0
  | some i =>
    if i > n then none
    else
      let j := if i < 0 then n + i else i
      if j < 0 then none else some j.toNat

/-- The loop of src/jsiArray.c:724-732 upwards, from `i` with `k` more to go. -/
def upFrom (eq : V → Bool) (h : Heap V) (a : Arr) : Nat → Nat → Except Bad (Option Nat)
  | 0, _ => .ok none
  | k + 1, i =>
    match a.mem[i]? with
    | none => .error .ub
    | some none => upFrom eq h a k (i + 1)
    | some (some p) => if eq (h.val p) then .ok (some i) else upFrom eq h a k (i + 1)

/-- The same downwards: the `k` elements below `k`. -/
def downFrom (eq : V → Bool) (h : Heap V) (a : Arr) : Nat → Except Bad (Option Nat)
  | 0 => .ok none
  | k + 1 =>
    match a.mem[k]? with
    | none => .error .ub
    | some none => downFrom eq h a k
    | some (some p) => if eq (h.val p) then .ok (some k) else downFrom eq h a k

/-- src/jsiArray.c:687-738  `jsi_ArrayIndexSubCmd`: the index found.  `eq` is
`Jsi_ValueCmp(..., JSI_CMP_EXACT) == 0` with the value sought.  `last`: `lastIndexOf`, which overwrites the
start index. -/
def indexSub (last : Bool) (eq : V → Bool) (h : Heap V) (a : Arr) (start : Option Int) :
    Except Bad (Option Nat) :=
  let n := sizeOf a
  if n = 0 then .ok none
  else match idxStart n start with
    | none => .ok none
    | some i => if last then downFrom eq h a n else upFrom eq h a (n - i) i

/-! ### Specification

A callback that does not touch the array or its elements: it sees the value of the element and its index.
The elements visited, and their order, show in the state. -/

/-- The callback `g` as one of the model. -/
def pure (g : S → V → Nat → S × V) : CB S V := fun s h a p i => ((g s (h.val p) i).1, h, a, (g s (h.val p) i).2)

/-- The callback of `reduce`; `none` is `undefined`. -/
def pure2 (g : S → Option V → V → Nat → S × V) : CB2 S V := fun s h a acc p i =>
  ((g s (acc.map h.val) (h.val p) i).1, h, a, (g s (acc.map h.val) (h.val p) i).2)

namespace ES

/-- `forEach`: the elements in order, no holes. `i` is the index of the first one. -/
def forEach (g : S → V → Nat → S × V) : S → Nat → List (Option V) → S
  | s, _, [] => s
  | s, i, none :: l => forEach g s (i + 1) l
  | s, i, some v :: l => forEach g (g s v i).1 (i + 1) l

/-- `map`: holes stay. -/
def map (g : S → V → Nat → S × V) : S → Nat → List (Option V) → S × List (Option V)
  | s, _, [] => (s, [])
  | s, i, none :: l => ((map g s (i + 1) l).1, none :: (map g s (i + 1) l).2)
  | s, i, some v :: l =>
    ((map g (g s v i).1 (i + 1) l).1, some (g s v i).2 :: (map g (g s v i).1 (i + 1) l).2)

/-- `filter`: holes go. -/
def filter (t : V → Bool) (g : S → V → Nat → S × V) : S → Nat → List (Option V) → S × List V
  | s, _, [] => (s, [])
  | s, i, none :: l => filter t g s (i + 1) l
  | s, i, some v :: l =>
    let r := filter t g (g s v i).1 (i + 1) l
    (r.1, if t (g s v i).2 then v :: r.2 else r.2)

/-- The first element (with its index) whose result is `want`; holes are skipped. -/
def first (t : V → Bool) (want : Bool) (g : S → V → Nat → S × V) : S → Nat → List (Option V) →
    S × Option (V × Nat)
  | s, _, [] => (s, none)
  | s, i, none :: l => first t want g s (i + 1) l
  | s, i, some v :: l =>
    if t (g s v i).2 = want then ((g s v i).1, some (v, i)) else first t want g (g s v i).1 (i + 1) l

/-- `reduce` over the elements with their indexes, from an accumulator. -/
def foldAcc (g : S → Option V → V → Nat → S × V) : S → Option V → List (V × Nat) → S × Option V
  | s, acc, [] => (s, acc)
  | s, acc, (v, i) :: l => foldAcc g (g s acc v i).1 (some (g s acc v i).2) l

/-- `reduce`: without an initial value the first element is it. -/
def reduce (g : S → Option V → V → Nat → S × V) (s : S) (ini : Option V) (l : List (V × Nat)) : S × Option V :=
  match ini, l with
  | none, (v, _) :: l => foldAcc g s (some v) l
  | ini, l => foldAcc g s ini l

/-- The elements with their indexes, without holes. -/
def present : Nat → List (Option V) → List (V × Nat)
  | _, [] => []
  | i, none :: l => present (i + 1) l
  | i, some v :: l => (v, i) :: present (i + 1) l

/-- The position of the first element satisfying `p` at or after `i`. -/
def indexFrom (p : V → Bool) (i : Nat) (l : List (Option V)) : Option Nat :=
  ((present 0 l).find? fun x => decide (i ≤ x.2) && p x.1).map Prod.snd

/-- The position of the last element satisfying `p`. -/
def lastIndex (p : V → Bool) (l : List (Option V)) : Option Nat :=
  ((present 0 l).reverse.find? fun x => p x.1).map Prod.snd

end ES

end Verif.Array
