import Verif.Scope.Syntax

/-!
Model of how jsish finds variables: what the parser notes at each function (src/jsiPstate.c:69-172, the actions in
src/parser.y, src/jsiFunc.c:490-560) and what the interpreter does with it (src/jsiEval.c:858-935, 811-856, 1253-1302,
1384-1388, 1959-2008; src/jsiProto.c:113-200; src/jsiFunc.c:619-632; src/jsiValue.c:1226-1260).

The interpreter is modelled on the tree, not on the opcodes, with a bound `n` on the depth of the evaluation: `none` is
"more than `n` is needed".  Not modelled: `this`, properties, `eval`, `with`, `const`, default values and types of
parameters, warnings, the limits on depth and memory, reserved names of parameters.  A sum of anything but numbers is
the value `nan`.
-/

namespace Verif.Scope

/-! ### The parser -/

/-- `interp->scopes[0..cur_scope]`, the current one first. -/
abbrev Scopes := List (List Name)

/-- src/jsiInt.h:250, src/jsi.h:220 -/
def maxScope : Nat := 4096

/-- src/jsiPstate.c:125-133  `jsi_PstatePush`: at the limit only a message is written. -/
def push (s : Scopes) : Scopes := if maxScope ≤ s.length then s else [] :: s

/-- src/jsiPstate.c:135-145  `jsi_PstatePop` -/
def pop (s : Scopes) : Scopes := if s.length ≤ 1 then s else s.tail

/-- src/jsiPstate.c:147-166  `jsi_PstateAddVar` -/
def addVar (x : Name) : Scopes → Scopes
  | [] => []
  | l :: r => if x ∈ l then l :: r else (l ++ [x]) :: r

/-- src/jsiPstate.c:168-172  `jsi_ScopeGetVarlist` -/
def varlist (s : Scopes) : List Name := s.headD []

/-- src/jsiFunc.c:518-551: a parameter that is there twice or has the name of a local is an error. -/
def checkParams (params locals : List Name) : Bool := params.Nodup ∧ ∀ x ∈ params, x ∉ locals

/-- The scope in which the body is parsed: `args_opt` makes a new one (src/parser.y:508-511, src/jsiPstate.c:69-73),
and so does the `()` of an arrow function (src/parser.y:586). -/
def enter (k : Kind) (params : List Name) (s : Scopes) : Scopes :=
  match k with
  | .normal => push s
  | .arrow => if params = [] then push s else s
  | .getter => s
  | .setter => s

/-- The scope `jsi_FuncMake` takes the names of the locals from (src/parser.y:635-644, 933-939). -/
def atMake (k : Kind) (s : Scopes) : Scopes :=
  match k with
  | .normal => s
  | .arrow => push s
  | .getter => push s
  | .setter => s

/-- The scope afterwards. -/
def leave (k : Kind) (s : Scopes) : Scopes :=
  match k with
  | .normal => pop s
  | .arrow => pop s
  | .getter => s
  | .setter => s

mutual

/-- The parser on an expression: the tree with the names of the locals noted at each function, and the scopes. -/
def parseE : Expr Unit → Scopes → Option (Expr (List Name) × Scopes)
  | .undef, s => some (.undef, s)
  | .num n, s => some (.num n, s)
  | .var x, s => some (.var x, s)
  | .asg x e, s => (parseE e s).map fun r => (.asg x r.1, r.2)
  | .add a b, s => (parseE a s).bind fun r => (parseE b r.2).map fun q => (.add r.1 q.1, q.2)
  | .fn n f, s => (parseF f s).map fun r => (.fn n r.1, r.2)
  | .call f as, s => (parseE f s).bind fun r => (parseA as r.2).map fun q => (.call r.1 q.1, q.2)

def parseA : Args Unit → Scopes → Option (Args (List Name) × Scopes)
  | .nil, s => some (.nil, s)
  | .cons e as, s => (parseE e s).bind fun r => (parseA as r.2).map fun q => (.cons r.1 q.1, q.2)

/-- src/jsiFunc.c:490-560  `jsi_FuncMake` and the actions around it. -/
def parseF : Fn Unit → Scopes → Option (Fn (List Name) × Scopes)
  | .mk k ps b _, s =>
    (parseS b (enter k ps s)).bind fun r =>
      if checkParams ps (varlist (atMake k r.2)) then
        some (.mk k ps r.1 (varlist (atMake k r.2)), leave k (atMake k r.2))
      else none

/-- Statements: `var` enters its name behind the expression (src/parser.y:345-365), a function statement before the
function (src/parser.y:194-221). -/
def parseS : Stmt Unit → Scopes → Option (Stmt (List Name) × Scopes)
  | .skip, s => some (.skip, s)
  | .expr e, s => (parseE e s).map fun r => (.expr r.1, r.2)
  | .bare x, s => some (.bare x, addVar x s)
  | .init x e, s => (parseE e s).map fun r => (.init x r.1, addVar x r.2)
  | .func x f, s => (parseF f (addVar x s)).map fun r => (.func x r.1, r.2)
  | .seq a b, s => (parseS a s).bind fun r => (parseS b r.2).map fun q => (.seq r.1 q.1, q.2)
  | .ite c a b, s => (parseE c s).bind fun p => (parseS a p.2).bind fun r =>
      (parseS b r.2).map fun q => (.ite p.1 r.1 q.1, q.2)
  | .loop c a, s => (parseE c s).bind fun p => (parseS a p.2).map fun r => (.loop p.1 r.1, r.2)
  | .ret e, s => (parseE e s).map fun r => (.ret r.1, r.2)
  | .throw e, s => (parseE e s).map fun r => (.throw r.1, r.2)
  | .tryCatch a x b, s => (parseS a s).bind fun r => (parseS b r.2).map fun q => (.tryCatch r.1 x q.1, q.2)

end

/-! ### The interpreter -/

/-- Values.  A function object holds its code and `fo->scope`, the objects of its scope chain from the outermost to the
innermost (src/jsiEval.c:913-917). -/
inductive JVal where
  | undef
  | nan
  | err
  | num (n : Int)
  | clo (f : Fn (List Name)) (chain : List Nat)

def JVal.view : JVal → View
  | .undef => .undef
  | .nan => .nan
  | .err => .err
  | .num n => .num n
  | .clo _ _ => .func

/-- The objects used as scopes: object 0 is the global one.  A `Jsi_Value` that holds a variable is named by its
object and its name there. -/
structure JHeap where
  next : Nat
  obj : Nat → Name → Option JVal

/-- `Jsi_ValueInsert` -/
def JHeap.put (h : JHeap) (o : Nat) (x : Name) (v : JVal) : JHeap :=
  ⟨h.next, fun p y => if p = o ∧ y = x then some v else h.obj p y⟩

/-- A place of the stack: a value, or a variable not yet read (JSI_VT_VARIABLE). -/
inductive JOpd where
  | val (v : JVal)
  | ref (o : Nat) (x : Name)

/-- src/jsiEval.c:207-218  `jsiVarDeref` -/
def JHeap.deref (h : JHeap) : JOpd → JVal
  | .val v => v
  | .ref o x => (h.obj o x).getD .undef

/-- Has the object a property of this name? -/
def JHeap.has (h : JHeap) (x : Name) (o : Nat) : Bool := (h.obj o x).isSome

/-- The object in which a name is found: the current scope, then the chain from its end
(src/jsiEval.c:868-879, src/jsiValue.c:1226-1236). -/
def JHeap.find (h : JHeap) (chain : List Nat) (cur : Nat) (x : Name) : Option Nat :=
  if h.has x cur then some cur else chain.reverse.find? (h.has x)

/-- src/jsiEval.c:858-911  `jsiPushVar`: a name that is not found is made in the first object of the chain, or in the
current scope if the chain is empty.  (The cache of src/jsiEval.c:863 is never filled.) -/
def JHeap.pushVar (h : JHeap) (chain : List Nat) (cur : Nat) (x : Name) : Nat × JHeap :=
  match h.find chain cur x with
  | some o => (o, h)
  | none => (chain.headD cur, h.put (chain.headD cur) x .undef)

/-- `jsi_SharedArgs` (src/jsiProto.c:113-165): the parameters, undefined if there is no argument. -/
def JHeap.putParams (h : JHeap) (o : Nat) : List Name → List JVal → JHeap
  | [], _ => h
  | x :: ps, [] => (h.put o x .undef).putParams o ps []
  | x :: ps, v :: vs => (h.put o x v).putParams o ps vs

/-- src/jsiFunc.c:619-632  `jsi_InitLocalVar` -/
def JHeap.putLocals (h : JHeap) (o : Nat) : List Name → JHeap
  | [] => h
  | x :: l => (h.put o x .undef).putLocals o l

/-- A new object without properties. -/
def JHeap.alloc (h : JHeap) : JHeap := ⟨h.next + 1, fun o => if o = h.next then fun _ => none else h.obj o⟩

def JVal.plus : JVal → JVal → JVal
  | .num a, .num b => .num (a + b)
  | _, _ => .nan

def JVal.truth : JVal → Bool
  | .num n => n ≠ 0
  | .err => true
  | .clo _ _ => true
  | _ => false

/-- The result of an expression. -/
inductive JRes (α : Type) where
  | ok (a : α)
  | thr (v : JVal)

/-- The result of a statement. -/
inductive JOut where
  | norm
  | ret (v : JVal)
  | thr (v : JVal)

mutual

/-- Expressions.  OP_ASSIGN leaves the variable on the stack (src/jsiEval.c:1293-1302); the operands of `+` and of a
call are read when all are there (src/jsiEval.c:220-227, 811-815). -/
def jE : Nat → List Nat → Nat → JHeap → Expr (List Name) → Option (JRes JOpd × JHeap)
  | 0, _, _, _, _ => none
  | n + 1, ch, cur, h, e =>
    match e with
    | .undef => some (.ok (.val .undef), h)
    | .num k => some (.ok (.val (.num k)), h)
    | .var x => some (.ok (.ref (h.pushVar ch cur x).1 x), (h.pushVar ch cur x).2)
    | .asg x e =>
      match jE n ch cur (h.pushVar ch cur x).2 e with
      | none => none
      | some (.thr v, h1) => some (.thr v, h1)
      | some (.ok a, h1) => some (.ok (.ref (h.pushVar ch cur x).1 x), h1.put (h.pushVar ch cur x).1 x (h1.deref a))
    | .add a b =>
      match jE n ch cur h a with
      | none => none
      | some (.thr v, h1) => some (.thr v, h1)
      | some (.ok p, h1) =>
        match jE n ch cur h1 b with
        | none => none
        | some (.thr v, h2) => some (.thr v, h2)
        | some (.ok q, h2) => some (.ok (.val ((h2.deref p).plus (h2.deref q))), h2)
    | .fn _ f => some (.ok (.val (.clo f (ch ++ [cur]))), h)
    | .call f as =>
      match jE n ch cur h f with
      | none => none
      | some (.thr v, h1) => some (.thr v, h1)
      | some (.ok p, h1) =>
        match jA n ch cur h1 as with
        | none => none
        | some (.thr v, h2) => some (.thr v, h2)
        | some (.ok qs, h2) =>
          match jC n h2 (h2.deref p) (qs.map h2.deref) with
          | none => none
          | some (.thr v, h3) => some (.thr v, h3)
          | some (.ok v, h3) => some (.ok (.val v), h3)

/-- The arguments, from left to right. -/
def jA : Nat → List Nat → Nat → JHeap → Args (List Name) → Option (JRes (List JOpd) × JHeap)
  | 0, _, _, _, _ => none
  | n + 1, ch, cur, h, as =>
    match as with
    | .nil => some (.ok [], h)
    | .cons e as =>
      match jE n ch cur h e with
      | none => none
      | some (.thr v, h1) => some (.thr v, h1)
      | some (.ok p, h1) =>
        match jA n ch cur h1 as with
        | none => none
        | some (.thr v, h2) => some (.thr v, h2)
        | some (.ok qs, h2) => some (.ok (p :: qs), h2)

/-- A call (src/jsiProto.c:169-225): a new object with the parameters and locals is the current scope, the scope chain
is that of the function. -/
def jC : Nat → JHeap → JVal → List JVal → Option (JRes JVal × JHeap)
  | 0, _, _, _ => none
  | n + 1, h, v, args =>
    match v with
    | .clo f ch =>
      match jS n ch h.next (((h.alloc).putParams h.next f.params args).putLocals h.next f.note) f.body with
      | none => none
      | some (.norm, h1) => some (.ok .undef, h1)
      | some (.ret v, h1) => some (.ok v, h1)
      | some (.thr v, h1) => some (.thr v, h1)
    | _ => some (.thr .err, h)

/-- Statements.  `var x;` stores undefined (src/parser.y:346-354), a function statement makes the function when it is
reached (src/parser.y:204-212); catch makes a new object for its variable (src/jsiEval.c:1959-1990), and the scopes are
restored behind it (src/jsiEval.c:2000-2008). -/
def jS : Nat → List Nat → Nat → JHeap → Stmt (List Name) → Option (JOut × JHeap)
  | 0, _, _, _, _ => none
  | n + 1, ch, cur, h, s =>
    match s with
    | .skip => some (.norm, h)
    | .expr e =>
      match jE n ch cur h e with
      | none => none
      | some (.thr v, h1) => some (.thr v, h1)
      | some (.ok _, h1) => some (.norm, h1)
    | .bare x => some (.norm, (h.pushVar ch cur x).2.put (h.pushVar ch cur x).1 x .undef)
    | .init x e =>
      match jE n ch cur (h.pushVar ch cur x).2 e with
      | none => none
      | some (.thr v, h1) => some (.thr v, h1)
      | some (.ok a, h1) => some (.norm, h1.put (h.pushVar ch cur x).1 x (h1.deref a))
    | .func x f => some (.norm, (h.pushVar ch cur x).2.put (h.pushVar ch cur x).1 x (.clo f (ch ++ [cur])))
    | .seq a b =>
      match jS n ch cur h a with
      | none => none
      | some (.norm, h1) => jS n ch cur h1 b
      | some (.ret v, h1) => some (.ret v, h1)
      | some (.thr v, h1) => some (.thr v, h1)
    | .ite c a b =>
      match jE n ch cur h c with
      | none => none
      | some (.thr v, h1) => some (.thr v, h1)
      | some (.ok p, h1) => jS n ch cur h1 (if (h1.deref p).truth then a else b)
    | .loop c a =>
      match jE n ch cur h c with
      | none => none
      | some (.thr v, h1) => some (.thr v, h1)
      | some (.ok p, h1) =>
        if (h1.deref p).truth then
          match jS n ch cur h1 a with
          | none => none
          | some (.norm, h2) => jS n ch cur h2 (.loop c a)
          | some (.ret v, h2) => some (.ret v, h2)
          | some (.thr v, h2) => some (.thr v, h2)
        else some (.norm, h1)
    | .ret e =>
      match jE n ch cur h e with
      | none => none
      | some (.thr v, h1) => some (.thr v, h1)
      | some (.ok p, h1) => some (.ret (h1.deref p), h1)
    | .throw e =>
      match jE n ch cur h e with
      | none => none
      | some (.thr v, h1) => some (.thr v, h1)
      | some (.ok p, h1) => some (.thr (h1.deref p), h1)
    | .tryCatch a x b =>
      match jS n ch cur h a with
      | none => none
      | some (.norm, h1) => some (.norm, h1)
      | some (.ret v, h1) => some (.ret v, h1)
      | some (.thr v, h1) => jS n (ch ++ [cur]) h1.next ((h1.alloc).put h1.next x v) b

end

/-- An interpreter without any variables. -/
def JHeap.empty : JHeap := ⟨1, fun _ _ => none⟩

/-- What can be seen of a run: how it ends, and the global variables. -/
def jRun (n : Nat) (p : Stmt Unit) : Option (Option (End × (Name → View))) :=
  match parseS p [[]] with
  | none => none
  | some (c, _) =>
    some <| match jS n [] 0 .empty c with
    | none => none
    | some (.norm, h) => some (.normal, fun x => ((h.obj 0 x).getD .undef).view)
    | some (.ret _, h) => some (.normal, fun x => ((h.obj 0 x).getD .undef).view)
    | some (.thr v, h) => some (.thrown v.view, fun x => ((h.obj 0 x).getD .undef).view)

end Verif.Scope
