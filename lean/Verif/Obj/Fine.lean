import Verif.Obj.Spec

/-!
The histories for which jsish does what ECMAScript says.  Two kinds:

* `false`: values may be shared by `Object.assign`, `merge`, `Object.create(p, props)` and `filter`, but nothing is changed
  in place: no `++` of properties, no assignment to elements of arrays; no calls (values that went through a parameter are
  not copied by `Object.assign`);
* `true`: elements are assigned, own properties are incremented, functions are called, but nothing shares values.

The conditions are about the states of the specification, not of the model.
-/

namespace Verif.Obj

/-- Names with a meaning of their own in jsish. -/
def special (k : Bytes) : Bool :=
  k == kThis || k == kLength || k == kPrototype || k == kCallee || k == kConstructor

def digitStart : Bytes → Bool
  | c :: _ => isdigit c
  | [] => false

/-- The decimal notation of a number below 2^31. -/
def canon (k : Bytes) : Bool :=
  match indexKey k with
  | some i => i < 2 ^ 31
  | none => false

def SSt.isArr (t : SSt) (o : Nat) : Bool := (t.len o).isSome

/-- The object in a variable satisfies this (other values: there is an error anyway). -/
def onObj (v : Val) (f : Nat → Bool) : Bool :=
  match v with
  | .obj o => f o
  | _ => true

/-- Elements of arrays are named by numbers in decimal notation. -/
def keyArr (t : SSt) (q : Nat) (k : Bytes) : Bool := !t.isArr q || !digitStart k || canon k

/-- Keys that may be read. -/
def keyGet (t : SSt) (q : Nat) (k : Bytes) : Bool :=
  (!special k || (k == kLength && t.isArr q)) && keyArr t q k

/-- A number that may be the position of an element. -/
def posOk (E : Env) : Key → Bool
  | .n i => decide (0 ≤ i) && decide (i.toNat < E.maxList) && E.fits i.toNat
  | .s _ => false

/-- Keys that may be assigned. -/
def keyPut (m : Bool) (E : Env) (t : SSt) (q : Nat) (k : Key) : Bool :=
  !special k.name && (!t.isArr q || !digitStart k.name || (m && posOk E k))

/-- The property is found in the object itself or nowhere. -/
def ownOrNone (t : SSt) (q : Nat) (k : Bytes) : Bool :=
  (t.own q k).isSome || (t.get q k).isNone

/-- Properties that may be incremented. -/
def keyInc (t : SSt) (q : Nat) (k : Bytes) : Bool := !special k && keyArr t q k && ownOrNone t q k

/-- No array. -/
def plainSrc (t : SSt) (v : Val) : Bool := onObj v fun q => !t.isArr q

def fine (m : Bool) (E : Env) (t : SSt) : Op → Bool
  | .lit .. => true
  | .copy .. => true
  | .incVar .. => true
  | .mk _ ps => ps.all fun p => !special (p.1.takeWhile (· ≠ 0))
  | .mkArr _ ys => decide (ys.length ≤ E.maxList)
  | .get _ o k => onObj (t.var o) fun q => keyGet t q k.name
  | .put o k _ => onObj (t.var o) fun q => keyPut m E t q k
  | .inc o k => m && onObj (t.var o) fun q => keyInc t q k.name
  | .del o _ => onObj (t.var o) fun q => !t.isArr q
  | .create _ p props => plainSrc t (t.var p) && t.var p != .null &&
      (props.isEmpty || (!m && props.all fun y => plainSrc t (t.var y)))
  | .assign o ys => !m && plainSrc t (t.var o) && ys.all fun y => plainSrc t (t.var y)
  | .merge _ a b => !m && plainSrc t (t.var a) && plainSrc t (t.var b)
  | .filter .. => !m
  | .call .. => m
  | .ret => true
  | .freeze .. => false
  | .setProto .. => false
  | .values .. => false
  | .each .. => false
  | .apply .. => false

/-- All steps of a history are fine in the state they are done in. -/
def fineRun (m : Bool) (E : Env) : SSt → List Op → Bool
  | _, [] => true
  | t, op :: r =>
    fine m E t op &&
      match sstep E t op with
      | some p => fineRun m E p.1 r
      | none => false

end Verif.Obj
