import Verif.Pkg.Version

/-!
Model of the objects behind which the program keeps C data: files, databases, sockets, interpreters
(src/jsiUserObj.c, and `Info.named` in src/jsiCmds.c).

Simplifications: hash tables are lists of pairs, in no particular order (their code is the subject of C26-C31); a
`Jsi_Obj` is a number, which may be used again after the object has been freed, like an address; the data of an object
is a number given out by a counter, since every constructor allocates its data anew; all types have a `freefun` (all
types of the program do); one interpreter.
-/

namespace Verif.UObj

open Verif.Pkg (decN isDigit val)

/-- Bytes. -/
abbrev Str := List UInt8

/-- src/jsiInt.h:318-333  `Jsi_UserObj`: the name of its type (`reg->name`), `idx`, `data`, and whether `hPtr` is set. -/
structure UObj where
  type : Str
  idx : Nat
  data : Option Nat
  linked : Bool

/-- src/jsiInt.h:308-315  `UserObjReg`: the last number given and the table from numbers to objects. -/
structure Ty where
  idx : Nat
  tbl : List (Nat × Nat)

/-- The interpreter: `userdataTbl`, the objects that are user objects, the data made and the data freed so far, and
whether the interpreter has been deleted. -/
structure St where
  types : List (Str × Ty)
  objs : Nat → Option UObj
  nd : Nat
  freed : List Nat
  gone : Bool

/-- A new interpreter. -/
def start : St := ⟨[], fun _ => none, 0, [], false⟩

/-- An object becomes something else. -/
def upd (f : Nat → Option UObj) (o : Nat) (u : Option UObj) : Nat → Option UObj := fun x => if x = o then u else f x

/-- `Jsi_HashEntryFind(interp->userdataTbl, name)`. -/
def tyOf (l : List (Str × Ty)) (t : Str) : Option Ty := (l.find? fun p => decide (p.1 = t)).map fun p => p.2

/-- src/jsiUserObj.c:47-64  `Jsi_UserObjRegister`: fails if the name is taken. -/
def register (st : St) (t : Str) : St :=
  if st.gone then st
  else match tyOf st.types t with
    | some _ => st
    | none => { st with types := (t, ⟨0, []⟩) :: st.types }

/-- A new entry in the table of a type. -/
def addTo (t : Str) (o : Nat) (p : Str × Ty) : Str × Ty :=
  if p.1 = t then (p.1, ⟨p.2.idx + 1, (p.2.idx + 1, o) :: p.2.tbl⟩) else p

/-- src/jsiUserObj.c:92-118  `Jsi_UserObjNew`: the number, `none` for -1.  `o` is an object of the script, which must not
be a user object already. -/
def new (st : St) (t : Str) (o : Nat) : St × Option Nat :=
  if st.gone then (st, none)
  else match st.objs o with
    | some _ => (st, none)
    | none => match tyOf st.types t with
      | none => (st, none)
      | some ty => ({ st with types := st.types.map (addTo t o),
                              objs := upd st.objs o (some ⟨t, ty.idx + 1, some st.nd, true⟩), nd := st.nd + 1 },
                    some (ty.idx + 1))

/-- `Jsi_HashEntryDelete(uobj->hPtr)`. -/
def dropFrom (t : Str) (i : Nat) (p : Str × Ty) : Str × Ty :=
  if p.1 = t then (p.1, ⟨p.2.idx, p.2.tbl.filter fun e => decide (e.1 ≠ i)⟩) else p

/-- src/jsiUserObj.c:66-81  `jsi_UserObjFree`, when the last reference to the object goes. -/
def free (st : St) (o : Nat) : St :=
  match st.objs o with
  | none => st
  | some u => { st with types := if u.linked then st.types.map (dropFrom u.type u.idx) else st.types,
                        objs := upd st.objs o none, freed := u.data.toList ++ st.freed }

/-- One entry in the loop of src/jsiUserObj.c:28-42. -/
def dropEntry (st : St) (o : Nat) : St :=
  match st.objs o with
  | none => st
  | some u => { st with objs := upd st.objs o (some { u with data := none, linked := false }),
                        freed := u.data.toList ++ st.freed }

/-- src/jsiInterp.c:1930, 658-662, src/jsiUserObj.c:21-45: the end of the interpreter; all entries of all tables. -/
def delete (st : St) : St :=
  let st' := (st.types.flatMap fun p => p.2.tbl.map fun e => e.2).foldl dropEntry st
  { st' with types := [], gone := true }

/-- src/jsiUserObj.c:164-171  `jsi_UserObjToName`: what the object is as a string. -/
def toName (u : UObj) : Str := 35 :: (u.type ++ 95 :: decN u.idx)

/-- What a lookup by name gives. -/
inductive Look where
  | none
  | obj (o : Nat)
  | crash
deriving DecidableEq

/-- `strrchr(name, '_')`: what is before and after the last one. -/
def lastBar : Str → Option (Str × Str)
  | [] => none
  | c :: s => match lastBar s with
    | some q => some (c :: q.1, q.2)
    | none => if c = 95 then some ([], s) else none

/-- `isspace`. -/
def isSpace (c : UInt8) : Bool := c = 32 || (9 ≤ c && c ≤ 13)

/-- `strtol` behind the sign: the digits, held at the end of the range. -/
def strtol (neg : Bool) (s : Str) : Int :=
  if neg then -(min (val (s.takeWhile isDigit)) (2 ^ 63) : Nat) else (min (val (s.takeWhile isDigit)) (2 ^ 63 - 1) : Nat)

/-- The sign. -/
def signed : Str → Int
  | c :: s => if c = 45 then strtol true s else if c = 43 then strtol false s else strtol false (c :: s)
  | [] => strtol false []

/-- To 32 bits, signed. -/
def int32 (z : Int) : Int := (z + 2 ^ 31) % 2 ^ 32 - 2 ^ 31

/-- `atoi` of glibc: `(int)strtol(s, NULL, 10)`. -/
def atoi (s : Str) : Int := int32 (signed (s.dropWhile isSpace))

/-- The entry of a number in the table of a type. -/
def entry (ty : Ty) (i : Int) : Option Nat := (ty.tbl.find? fun e => decide ((e.1 : Int) = i)).map fun e => e.2

/-- src/jsiUserObj.c:182-211  `jsi_UserObjFromName`.  If there is no such type, `Jsi_HashValueGet` follows the null
pointer of the entry not found. -/
def fromName (st : St) (name : Str) : Look :=
  if name.headD 0 ≠ 35 then .none
  else match lastBar name with
    | none => .none
    | some q => match tyOf st.types (q.1.drop 1) with
      | none => .crash
      | some ty => match entry ty (atoi q.2) with
        | none => .none
        | some o => .obj o

/-- src/jsiCmds.c:3032-3052  `Info.named()`. -/
def namedTypes (st : St) : List Str := st.types.map fun p => p.1

/-- src/jsiCmds.c:3032-3052, src/jsiUserObj.c:214-250  `Info.named(type)`: the objects; `none` is an error. -/
def named (st : St) (t : Str) : Option (List Nat) := (tyOf st.types t).map fun ty => ty.tbl.map fun e => e.2

/-! ### Memory of `Jsi_UserObjUnregister` -/

/-- The blocks of memory of a type: its entry in `userdataTbl`, its `UserObjReg`, its table. -/
inductive Blk where
  | entry | reg | tbl
deriving DecidableEq

/-- Reading a block and giving it back. -/
inductive Mem where
  | read (x : Blk)
  | free (x : Blk)
deriving DecidableEq

/-- src/jsiUserObj.c:6-20  `Jsi_UserObjUnregister`: what is done with the blocks of the type.  `Jsi_HashEntryDelete`
calls the table's `freeHashProc`, `freeUserdataTbl` (src/jsiInterp.c:658-662), which is `jsi_UserObjDelete`. -/
def unregister (st : St) (t : Str) : List Mem :=
  if st.gone then []
  else match tyOf st.types t with
    | none => []
    | some _ => [.read .entry, .read .reg, .read .tbl, .free .tbl, .free .reg, .free .entry, .read .entry, .free .reg]

/-! ### Histories -/

/-- What happens to an interpreter. -/
inductive Op where
  | register (t : Str)
  | new (t : Str) (o : Nat)
  | free (o : Nat)
  | delete

/-- One step. -/
def step (st : St) : Op → St
  | .register t => register st t
  | .new t o => (new st t o).1
  | .free o => free st o
  | .delete => delete st

/-- All steps. -/
def run (st : St) (ops : List Op) : St := ops.foldl step st

/-- The names of the objects made by the steps. -/
def issued (st : St) : List Op → List Str
  | [] => []
  | .new t o :: l => match (new st t o).2 with
    | some i => toName ⟨t, i, none, true⟩ :: issued (new st t o).1 l
    | none => issued (new st t o).1 l
  | op :: l => issued (step st op) l

end Verif.UObj
