import Verif.Obj.Model

/-!
Asking for keys: `in`, `hasOwnProperty`, `Object.keys`, `for (x in o)`, `for (x of a)`.
-/

namespace Verif.Obj

/-- `(int)nval` of a whole number.  Beyond the range of int C says nothing; this is what x86 processors do. -/
def int32 (i : Int) : Int := if -2 ^ 31 ≤ i ∧ i < 2 ^ 31 then i else -2 ^ 31

/-- The left side of `in` as a name: jsiEval.c:1484-1515 (`"%d"` of an int). -/
def inName : Key → Bytes
  | .s b => b.takeWhile (· ≠ 0)
  | .n i => Json.dec (int32 i)

/-- `k in o`, jsiEval.c:1478-1525: only the object itself; of an array only the elements. -/
def inOp (s : St) (o : Nat) (k : Key) : Bool :=
  match s.objs[o]? with
  | none => false
  | some ob => if ob.arr.isSome then (arrLookup ob (inName k)).isSome else (treeGet ob.tree (inName k)).isSome

/-- `o.hasOwnProperty(k)`, jsiProto.c:585-593. -/
def hasOwn (s : St) (o : Nat) (k : Key) : Bool := (lookOwn s o k.name).isSome

/-- `IterObjInsertKey`, jsiValue.c:1319-1335: duplicates are looked for only behind the first object. -/
def addKey (depth : Nat) (ks : List Bytes) (k : Bytes) : List Bytes :=
  if depth ≠ 0 ∧ k ∈ ks then ks else ks ++ [k]

/-- `IterGetKeysCallback` for all entries, jsiValue.c:1451-1458. -/
def addKeys (depth : Nat) (ks : List Bytes) (t : List Ent) : List Bytes :=
  (t.filter (fun e => !e.hid)).foldl (fun ks e => addKey depth ks e.key) ks

/-- `Jsi_IterGetKeys`, jsiValue.c:1460-1499, for objects without C methods and accessors; `none`: the prototypes form a
circle (of more than one object) and the calls never end. -/
def iterKeys (s : St) : Nat → Nat → Nat → List Bytes → Option (List Bytes)
  | 0, _, _, _ => none
  | fuel + 1, depth, o, ks =>
    match s.objs[o]? with
    | none => some ks
    | some ob =>
      match ob.proto with
      | none => some (addKeys depth ks ob.tree)
      | some p => iterKeys s fuel (depth + 1) p (addKeys depth ks ob.tree)

def namesOf (s : St) (o : Nat) : Option (List Bytes) := iterKeys s (s.objs.length + 1) 0 o []

/-- The positions of an array that hold an element, jsiValue.c:1179-1194. -/
def indices (ob : Ob) : List Nat :=
  (List.range ob.cnt).filter (fun i => (((ob.arr.getD [])[i]?).getD none).isSome)

/-- What a list of keys consists of. -/
inductive KeyList where
  | names (l : List Bytes)
  | nums (l : List Nat)
  | crash
  deriving DecidableEq, Repr

/-- `Object.keys(o)`: `Jsi_ValueGetKeys`, jsiValue.c:1169-1214 (within the size limit of arrays). -/
def keysOf (s : St) (o : Nat) : KeyList :=
  match s.objs[o]? with
  | none => .names []
  | some ob =>
    if ob.arr.isSome then .nums (indices ob)
    else match namesOf s o with
      | some l => .names l
      | none => .crash

/-- `Jsi_ValueKeyPresent`, jsiValue.c:1133-1143: the trees of the object and its prototypes; `none`: a circle. -/
def present (s : St) (k : Bytes) : Nat → Nat → Option Bool
  | 0, _ => none
  | fuel + 1, o =>
    match s.objs[o]? with
    | none => some false
    | some ob =>
      if (treeGet ob.tree k).isSome then some true
      else match ob.proto with
        | none => some false
        | some p => present s k fuel p

/-- How a loop ends: normally, by an error, by a crash; with the keys for which the body was started. -/
inductive Loop (α : Type) where
  | done (s : St) (vis : List α)
  | failed (s : St) (vis : List α)
  | crash (vis : List α)

/-- The keys for which the body was started. -/
def Loop.vis {α : Type} : Loop α → List α
  | .done _ v => v
  | .failed _ v => v
  | .crash v => v

/-- One turn: the variable gets the key, the body is run. -/
def turn {α : Type} (E : Env) (x : Nat) (v : FV) (body : St → List Op) (s : St) (vis : List α) (next : St → Loop α) : Loop α :=
  match setVar s x v with
  | .ok s1 =>
    match run E s1 (body s1) with
    | some (s2, _) => next s2
    | none => .crash vis
  | .err s1 => .failed s1 vis
  | .crash => .crash vis

/-- `for (x in o)` over names: `OP_KEY` and `OP_NEXT`, jsiEval.c:1618-1703: the names are collected before the first turn;
names that are no longer there when their turn comes are skipped.  The body does what it likes: the steps it makes may
depend on the state it finds. -/
def forNames (E : Env) (x o : Nat) (body : St → List Op) : List Bytes → St → List Bytes → Loop Bytes
  | [], s, vis => .done s vis
  | k :: r, s, vis =>
    match present s k (s.objs.length + 1) o with
    | none => .crash vis
    | some false => forNames E x o body r s vis
    | some true => turn E x ⟨.str k, false, false⟩ body s (vis ++ [k]) fun s2 => forNames E x o body r s2 (vis ++ [k])

/-- The next position from `cur` on that holds an element. -/
def nextElem (ob : Ob) (cur : Nat) : Option Nat := (indices ob).find? (fun i => cur ≤ i)

/-- What the variable gets: the position, or for `of` the element. -/
def elemVal (s : St) (ob : Ob) (isof : Bool) (i : Nat) : FV :=
  if isof then
    match ((ob.arr.getD [])[i]?).getD none with
    | some c => s.at c
    | none => ⟨.null, false, false⟩
  else ⟨.num (some i), false, false⟩

/-- `for (x in a)` and `for (x of a)` over an array: at most as many turns as it was long at the beginning. -/
def forElems (E : Env) (x o : Nat) (isof : Bool) (body : St → List Op) : Nat → Nat → St → List Nat → Loop Nat
  | 0, _, s, vis => .done s vis
  | n + 1, cur, s, vis =>
    match s.objs[o]? with
    | none => .done s vis
    | some ob =>
      match nextElem ob cur with
      | none => .done s vis
      | some i => turn E x (elemVal s ob isof i) body s (vis ++ [i]) fun s2 => forElems E x o isof body n (i + 1) s2 (vis ++ [i])

end Verif.Obj
