import Verif.Obj.Model

/-!
What ECMAScript says about objects: an object is a map from property keys (strings) to values, with a prototype.
A variable holds a value.  Nothing is shared but objects.

`sstep` gives the meaning of a step of a script; `none`: not described here (freezing and `Object.values`, which have
statements of their own).  The pair is the new state and whether the step succeeds.
-/

namespace Verif.Obj

/-- The position a key stands for if it is the decimal notation of a number. -/
def indexKey (k : Bytes) : Option Nat :=
  if k = Json.decNat (digits 10 0 k) then some (digits 10 0 k) else none

structure SSt where
  /-- own properties; the elements of an array are under the decimal notation of their positions -/
  own : Nat → Bytes → Option Val
  /-- length of an array -/
  len : Nat → Option Nat
  proto : Nat → Option Nat
  /-- number of objects -/
  n : Nat
  /-- variables in sight -/
  vars : List Val
  /-- how many of them each call has brought -/
  calls : List Nat

namespace SSt

/-- Reading through the prototypes. -/
def lookIn (t : SSt) (k : Bytes) : Nat → Nat → Option Val
  | 0, _ => none
  | fuel + 1, o =>
    match t.own o k with
    | some v => some v
    | none =>
      match t.proto o with
      | some p => lookIn t k fuel p
      | none => none

/-- `o[k]`: own property, length of an array, inherited property (a chain of different objects is not longer than the
number of objects), `undefined`. -/
def get (t : SSt) (o : Nat) (k : Bytes) : Option Val :=
  if k = kLength ∧ (t.len o).isSome then (t.len o).map fun n => .num (some n)
  else t.lookIn k (t.n + 1) o

/-- The property of one object gets a value; nothing else changes, but the length of an array may grow. -/
def set (t : SSt) (o : Nat) (k : Bytes) (v : Val) : SSt :=
  { t with
    own := fun o' k' => if o' = o ∧ k' = k then some v else t.own o' k',
    len := fun o' =>
      if o' = o then
        (t.len o).map fun n => match indexKey k with | some i => max n (i + 1) | none => n
      else t.len o' }

/-- A property is removed. -/
def erase (t : SSt) (o : Nat) (k : Bytes) : SSt :=
  { t with own := fun o' k' => if o' = o ∧ k' = k then none else t.own o' k' }

/-- A new object with these properties. -/
def new (t : SSt) (p : Option Nat) (props : Bytes → Option Val) (len : Option Nat) : SSt :=
  { t with
    own := fun o' k' => if o' = t.n then props k' else t.own o' k',
    len := fun o' => if o' = t.n then len else t.len o',
    proto := fun o' => if o' = t.n then p else t.proto o',
    n := t.n + 1 }

def var (t : SSt) (x : Nat) : Val := (t.vars[x]?).getD .undef

/-- `x = v` -/
def setVar (t : SSt) (x : Nat) (v : Val) : SSt × Bool :=
  if x < t.vars.length then ({ t with vars := t.vars.set x v }, true) else (t, false)

end SSt

/-- The properties of an object literal: of equal keys the last one counts. -/
def litProps (ps : List (Bytes × Val)) : Bytes → Option Val :=
  ps.foldl (fun m p => fun k => if k = p.1.takeWhile (· ≠ 0) then some p.2 else m k) (fun _ => none)

/-- The elements of an array literal. -/
def arrProps (vs : List Val) : Bytes → Option Val := fun k =>
  match indexKey k with
  | some i => vs[i]?
  | none => none

/-- The own properties of `p` are given to `q`. -/
def SSt.giveAll (t : SSt) (q p : Nat) : SSt :=
  { t with own := fun o' k => if o' = q then (t.own p k).or (t.own q k) else t.own o' k }

/-- One source after the other; stops (`false`) at the first value that is no object. -/
def sAssign (t : SSt) (q : Nat) : List Val → SSt × Bool
  | [] => (t, true)
  | .obj p :: r => sAssign (t.giveAll q p) q r
  | _ :: _ => (t, false)

/-- The variable gets the new object, if all went well. -/
def sBind (r : SSt × Bool) (x o : Nat) : SSt × Bool :=
  if r.2 then r.1.setVar x (.obj o) else r

/-- One more. -/
def succVal (E : Env) (v : Val) : Val :=
  match toNum E v with
  | some n => .num (some (n + 1))
  | none => .num none

/-- `++` of something that is not a number is an error in strict mode. -/
def incFails (E : Env) (v : Val) : Bool := E.strict && (toNum E v).isNone

/-- Number of objects reached through prototypes. -/
def protoReaches (t : SSt) (target : Nat) : Nat → Nat → Bool
  | 0, _ => false
  | fuel + 1, o => o == target || (match t.proto o with | some p => protoReaches t target fuel p | none => false)

/-- Steps on an object in a variable. -/
def sObj (t : SSt) (v : Val) (f : Nat → Option (SSt × Bool)) : Option (SSt × Bool) :=
  match v with
  | .obj o => f o
  | _ => some (t, false)

/-- The prototype given to `Object.create`. -/
def sProto : Val → Option (Option Nat)
  | .obj p => some (some p)
  | .null => some none
  | _ => none

def sstep (E : Env) (t : SSt) : Op → Option (SSt × Bool)
  | .lit x v => some (if isPrim v then t.setVar x v else (t, false))
  | .copy x y => some (t.setVar x (t.var y))
  | .incVar x =>
    if x < t.vars.length then some ((t.setVar x (succVal E (t.var x))).1, !incFails E (t.var x)) else some (t, false)
  | .mk x ps => some ((t.new (some objProto) (litProps (ps.map fun p => (p.1, t.var p.2))) none).setVar x (.obj t.n))
  | .mkArr x ys => some ((t.new (some arrProto) (arrProps (ys.map t.var)) (some ys.length)).setVar x (.obj t.n))
  | .get x o k => sObj t (t.var o) fun q => some (t.setVar x ((t.get q k.name).getD .undef))
  | .put o k y => sObj t (t.var o) fun q => some (t.set q k.name (t.var y), true)
  | .inc o k => sObj t (t.var o) fun q =>
    match t.get q k.name with
    | some v => some (t.set q k.name (succVal E v), !incFails E v)
    | none => some (t, false)
  | .del o k => sObj t (t.var o) fun q => some (t.erase q k.name, true)
  | .create x p props =>
    match sProto (t.var p) with
    | none => some (t, false)
    | some q => some (sBind (sAssign (t.new q (fun _ => none) none) t.n (props.map t.var)) x t.n)
  | .assign o ys => sObj t (t.var o) fun q =>
    if (t.len q).isSome then none else some (sAssign t q (ys.map t.var))
  | .merge x a b =>
    match t.var a, t.var b with
    | .obj p, .obj q => some (sBind (sAssign (t.new (some objProto) (fun _ => none) none) t.n [.obj p, .obj q]) x t.n)
    | _, _ => some (t, false)
  | .setProto o p => sObj t (t.var o) fun q => sObj t (t.var p) fun p =>
    if protoReaches t q (t.n + 1) p then some (t, false)
    else some ({ t with proto := fun o' => if o' = q then some p else t.proto o' }, true)
  | .filter x a sel => sObj t (t.var a) fun q =>
    match t.len q with
    | some n =>
      let vs := (List.range n).filterMap fun i => if sel i then t.own q (Json.decNat i) else none
      some ((t.new (some arrProto) (arrProps vs) (some vs.length)).setVar x (.obj t.n))
    | none => some (t, false)
  | .call ys => some ({ t with vars := ys.map t.var ++ t.vars, calls := ys.length :: t.calls }, true)
  | .each a i => sObj t (t.var a) fun q =>
    match t.len q, t.own q (Json.decNat i) with
    | some _, some v => some ({ t with vars := v :: t.vars, calls := 1 :: t.calls }, true)
    | _, _ => some (t, false)
  | .apply a ps => sObj t (t.var a) fun q =>
    if (t.len q).isSome then
      some ({ t with vars := ((List.range ps.length).map fun i => (t.own q (Json.decNat i)).getD .undef) ++ t.vars,
                     calls := ps.length :: t.calls }, true)
    else some (t, false)
  | .ret =>
    match t.calls with
    | k :: r => some ({ t with vars := t.vars.drop k, calls := r }, true)
    | [] => some (t, false)
  | .freeze .. => none
  | .values .. => none

/-- A history. -/
def srun (E : Env) : SSt → List Op → Option (SSt × List Bool)
  | t, [] => some (t, [])
  | t, op :: r =>
    match sstep E t op with
    | some (t', b) => (srun E t' r).map fun p => (p.1, b :: p.2)
    | none => none

/-- The start. -/
def sstart (n : Nat) : SSt :=
  { own := fun _ _ => none, len := fun _ => none,
    proto := fun o => if o = 1 then some objProto else none,
    n := 2, vars := List.replicate n .undef, calls := [] }

/-! ### What a script can see -/

/-- The value of a variable as a script sees it. -/
def Sees (s : St) (t : SSt) : Prop :=
  s.vars.map (fun c => (s.at c).val) = t.vars

end Verif.Obj
