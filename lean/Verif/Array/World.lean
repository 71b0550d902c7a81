import Verif.Array.Spec

/-!
Scripts: several arrays on one heap, and a call of a method as the interpreter makes it
(src/jsiEval.c:814-856): the arguments are fresh copies, the results that are arrays are new arrays.
-/

namespace Verif.Array

variable {V : Type}

structure World (V : Type) where
  heap : Heap V
  arrs : List Arr

/-- The arguments of `concat`: an array argument is a reference to the array, another value is a
fresh cell. -/
def toArgs (arrs : List Arr) : List (Item V) → Heap V → Option (Heap V × List CArg)
  | [], h => some (h, [])
  | .arr i :: rest, h =>
    match arrs[i]? with
    | none => none
    | some a => (toArgs arrs rest h).map fun x => (x.1, .arr a :: x.2)
  | .val v :: rest, h => (toArgs arrs rest (h.alloc v)).map fun x => (x.1, .val h.next :: x.2)

/-- The result of a method that returns a number. -/
def retNum (o : Out V Nat) : Ret V := if o.error then .error else .num o.ret

/-- The result of `pop`: the contents of the cell. -/
def retCell (o : Out V (Option Nat)) : Ret V :=
  match o.ret with
  | none => .undef
  | some p => .value (o.heap.val p)

/-- The result of `shift`. -/
def retVal (o : Out V (Option V)) : Ret V :=
  match o.ret with
  | none => .undef
  | some v => .value v

/-- `this` was changed. -/
def World.upd {R : Type} (w : World V) (i : Nat) (r : Ret V) (o : Out V R) : World V × Ret V :=
  (⟨o.heap, w.arrs.set i o.arr⟩, r)

/-- A new array was returned (`slice`, `concat`). -/
def World.add (w : World V) (o : Out V Arr) : World V × Ret V :=
  if o.error then (⟨o.heap, w.arrs⟩, .error) else (⟨o.heap, w.arrs ++ [o.ret]⟩, .newArray)

/-- `this` was changed and a new array was returned (`splice`). -/
def World.updAdd (w : World V) (i : Nat) (o : Out V (Option Arr)) : World V × Ret V :=
  match o.error, o.ret with
  | false, some b => (⟨o.heap, w.arrs.set i o.arr ++ [b]⟩, .newArray)
  | _, _ => (⟨o.heap, w.arrs.set i o.arr⟩, .error)

/-- The array number an item mentions exists. -/
def Item.ok (n : Nat) : Item V → Bool
  | .arr j => decide (j < n)
  | .val _ => true

/-- The array numbers an operation mentions exist. -/
def Op.ok (n : Nat) : Op V → Bool
  | .create => true
  | .push i _ | .pop i | .shift i | .unshift i _ | .assign i _ _ | .reverse i | .slice i _ _
  | .fill i _ _ _ | .splice i _ _ _ => decide (i < n)
  | .concat i args => decide (i < n) && args.all (Item.ok n)

/-- One operation of a script on existing arrays; `none` is undefined behaviour. -/
def stepOk (M : Nat) (w : World V) : Op V → Option (World V × Ret V)
  | .create => some (⟨w.heap, w.arrs ++ [.new]⟩, .newArray)
  | .push i vs => (w.arrs[i]?).bind fun a =>
    let c := callArgs w.heap vs
    (push M c.1 a c.2).map fun o => w.upd i (retNum o) o
  | .pop i => (w.arrs[i]?).bind fun a => (pop w.heap a).map fun o => w.upd i (retCell o) o
  | .shift i => (w.arrs[i]?).bind fun a => (shift w.heap a).map fun o => w.upd i (retVal o) o
  | .unshift i vs => (w.arrs[i]?).bind fun a =>
    let c := callArgs w.heap vs
    (unshift M c.1 a c.2).map fun o => w.upd i (retNum o) o
  | .assign i n v => (w.arrs[i]?).bind fun a =>
    (assign M w.heap a n v).map fun o => w.upd i (if o.error then .error else .undef) o
  | .reverse i => (w.arrs[i]?).bind fun a => (reverse w.heap a).map fun o => w.upd i .this o
  | .slice i s e => (w.arrs[i]?).bind fun a => (slice M w.heap a s e).map fun o => w.add o
  | .fill i v s e => (w.arrs[i]?).bind fun a => (fill w.heap a v s e).map fun o => w.upd i .this o
  | .concat i args => (w.arrs[i]?).bind fun a =>
    (toArgs w.arrs args w.heap).bind fun c => (concat M c.1 a c.2).map fun o => w.add o
  | .splice i s how vs => (w.arrs[i]?).bind fun a =>
    let c := callArgs w.heap vs
    (splice M c.1 a s how c.2).map fun o => w.updAdd i o

/-- One operation of a script; on an array that does not exist it fails ("expected array object"),
and changes nothing. -/
def step (M : Nat) (w : World V) (op : Op V) : Option (World V × Ret V) :=
  if op.ok w.arrs.length then stepOk M w op else some (w, .error)

/-- A history, collecting the results; `none` is undefined behaviour. -/
def run (M : Nat) : World V → List (Op V) → Option (World V × List (Ret V))
  | w, [] => some (w, [])
  | w, op :: ops =>
    (step M w op).bind fun x => (run M x.1 ops).map fun y => (y.1, x.2 :: y.2)

/-- What a script sees of the arrays. -/
def World.view (w : World V) : List (List (Option V)) := w.arrs.map (elems w.heap)

end Verif.Array
