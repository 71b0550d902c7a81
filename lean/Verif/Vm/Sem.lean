import Verif.Vm.Machine

/-!
Structured (big-step) semantics of the source language, written over the syntax tree: no code, no
program counter, no jumps, no operand stack, no try list.

It describes what jsish does with a program in the usual structured terms.  Where jsish departs from
ECMAScript the departure is visible here and nowhere hidden: an expression can yield a *reference* to
a variable which is read only when it is used (`Prim.deref` at the point of use), `return` leaves the
function at once, and a `throw` statement directly inside a catch block aborts the function when no
other try is active (`depth`).  The ECMAScript reading is in `Ecma.lean`.
-/

namespace Verif.Vm

variable {P : Prim}

/-- Sequencing of operations that may fail. -/
def bindM {V H α β : Type} (x : MM V H α) (f : α → MM V H β) : MM V H β := fun s =>
  match x s with
  | (none, s') => (none, s')
  | (some a, s') => f a s'

/-- Success. -/
def pureM {V H α : Type} (a : α) : MM V H α := fun s => (some a, s)

/-- Read a stack entry now. -/
def now (P : Prim) (a : P.SV) : P.M P.V := fun s => (some (P.deref s.h a), s)

/-- The operation fails with an interpreter error message; a message already in the buffer stays
(src/jsiUtils.c:215). -/
def failM (P : Prim) {α : Type} (m : P.V) : P.M α := fun s =>
  (none, { s with msg := some (s.msg.getD m) })

local infixl:55 " ⟶ " => bindM

/-- `++`/`--` need a reference. -/
def incR (P : Prim) (up post : Bool) : P.SV → P.M P.SV
  | .ref r => P.inc up post r ⟶ fun v => pureM (.val v)
  | _ => failM P P.lvalueMsg

mutual
/-- Evaluation of an expression in scope `sc`. -/
def evalE (P : Prim) (sc : P.Sc) : Expr → P.M P.SV
  | .lit l => P.lit l sc ⟶ fun v => pureM (.val v)
  | .var x => P.lookup x sc ⟶ fun r => pureM (.ref r)
  | .un op e =>
    evalE P sc e ⟶ fun a => now P a ⟶ fun va => P.un op va ⟶ fun v => pureM (.val v)
  | .bin op a b =>
    evalE P sc a ⟶ fun x => evalE P sc b ⟶ fun y =>
      now P x ⟶ fun vx => now P y ⟶ fun vy => P.bin op vx vy ⟶ fun v => pureM (.val v)
  | .and a b =>
    evalE P sc a ⟶ fun x => now P x ⟶ fun vx =>
      if P.truthy vx then evalE P sc b else pureM (.val vx)
  | .or a b =>
    evalE P sc a ⟶ fun x => now P x ⟶ fun vx =>
      if P.truthy vx then pureM (.val vx) else evalE P sc b
  | .cond a b c =>
    evalE P sc a ⟶ fun x => now P x ⟶ fun vx =>
      if P.truthy vx then evalE P sc b else evalE P sc c
  | .comma a b => evalE P sc a ⟶ fun _ => evalE P sc b
  | .void e => evalE P sc e ⟶ fun _ => P.lit .undef sc ⟶ fun v => pureM (.val v)
  | .assign x e =>
    P.lookup x sc ⟶ fun r => evalE P sc e ⟶ fun y => now P y ⟶ fun v =>
      P.write r v ⟶ fun _ => pureM (.ref r)
  | .assignMem o k e =>
    evalE P sc o ⟶ fun x => evalE P sc k ⟶ fun y => evalE P sc e ⟶ fun z =>
      now P x ⟶ fun vx => now P y ⟶ fun vy => now P z ⟶ fun vz =>
        P.put vx vy vz ⟶ fun _ => pureM (.val vz)
  | .opAssign op x e =>
    P.lookup x sc ⟶ fun r => evalE P sc e ⟶ fun y =>
      now P (.ref r) ⟶ fun vx => now P y ⟶ fun vy => P.bin op vx vy ⟶ fun v =>
        P.write r v ⟶ fun _ => pureM (.ref r)
  | .opAssignMem op o k e =>
    evalE P sc o ⟶ fun x => evalE P sc k ⟶ fun y =>
      now P x ⟶ fun vx => now P y ⟶ fun vy => P.sub vx vy ⟶ fun old =>
        evalE P sc e ⟶ fun z => now P z ⟶ fun vz => P.bin op old vz ⟶ fun v =>
          now P x ⟶ fun vx' => now P y ⟶ fun vy' =>
            P.put vx' vy' v ⟶ fun _ => pureM (.val v)
  | .inc up post x => P.lookup x sc ⟶ fun r => incR P up post (.ref r)
  | .incMem up post o k =>
    evalE P sc o ⟶ fun x => evalE P sc k ⟶ fun y =>
      now P x ⟶ fun vx => now P y ⟶ fun vy => P.subref vx vy ⟶ fun r => incR P up post (ofSum r)
  | .sub o k =>
    evalE P sc o ⟶ fun x => evalE P sc k ⟶ fun y =>
      now P x ⟶ fun vx => now P y ⟶ fun vy => P.sub vx vy ⟶ fun v => pureM (.val v)
  | .call f args =>
    evalE P sc f ⟶ fun g => evalEs P sc args ⟶ fun as => now P g ⟶ fun vg =>
      nows P as ⟶ fun vs => P.call vg none vs ⟶ fun v => pureM (.val v)
  | .callMeth o k args =>
    evalE P sc o ⟶ fun x => evalE P sc k ⟶ fun y =>
      now P x ⟶ fun vx => P.toObj vx ⟶ fun this =>
        now P x ⟶ fun vx' => now P y ⟶ fun vy => P.sub vx' vy ⟶ fun g =>
          evalEs P sc args ⟶ fun as => nows P as ⟶ fun vs =>
            P.call g (some this) vs ⟶ fun v => pureM (.val v)
  | .new f args =>
    evalE P sc f ⟶ fun g => evalEs P sc args ⟶ fun as => now P g ⟶ fun vg =>
      nows P as ⟶ fun vs => P.new vg vs ⟶ fun v => pureM (.val v)
  | .array es =>
    evalEs P sc es ⟶ fun as => nows P as ⟶ fun vs => P.array vs ⟶ fun v => pureM (.val v)
  | .object kvs =>
    evalEs P sc kvs ⟶ fun as => nows P as ⟶ fun vs => P.object vs ⟶ fun v => pureM (.val v)
/-- Evaluation of an expression list, left to right. -/
def evalEs (P : Prim) (sc : P.Sc) : Exprs → P.M (List P.SV)
  | .nil => pureM []
  | .cons e es =>
    evalE P sc e ⟶ fun a => evalEs P sc es ⟶ fun as => pureM (a :: as)
/-- Read a list of entries now. -/
def nows (P : Prim) (as : List P.SV) : P.M (List P.V) := fun s => (some (as.map (P.deref s.h)), s)
end

/-- How a statement completes. -/
inductive Out (V : Type)
  | normal
  | brk (l : Option String)
  | cont (l : Option String)
  | ret (v : Option V)
  /-- an exception is propagating; the flag tells whether it was raised by a `throw` statement of
  this statement list (as opposed to a failing operation or a re-raise after `finally`) -/
  | thr (byThrow : Bool)
  /-- the function ends at once with an error -/
  | abort

/-- A loop or switch labelled `l` is the destination of a jump to `target`. -/
def hits (l target : Option String) : Bool := target.isNone || target == l

/-- The step of a loop, then the next round `k`. -/
def againW (P : Prim) (stp : P.M Unit) (k : P.State → Option (Out P.V × P.State)) (s : P.State) :
    Option (Out P.V × P.State) :=
  match stp s with
  | (none, s') => some (.thr false, s')
  | (some _, s') => k s'

/-- The loop shared by `while`, `for` and `for-in`: test, body, step.  The number bounds the
iterations; `none` means that the bound was reached. -/
def loopW (P : Prim) (l : Option String) (test : P.M Bool)
    (body : P.State → Option (Out P.V × P.State)) (stp : P.M Unit) :
    Nat → P.State → Option (Out P.V × P.State)
  | 0, _ => none
  | n + 1, s =>
    match test s with
    | (none, s1) => some (.thr false, s1)
    | (some false, s1) => some (.normal, s1)
    | (some true, s1) =>
      match body s1 with
      | none => none
      | some (.normal, s2) => againW P stp (loopW P l test body stp n) s2
      | some (.cont t, s2) =>
        if hits l t then againW P stp (loopW P l test body stp n) s2 else some (.cont t, s2)
      | some (.brk t, s2) => if hits l t then some (.normal, s2) else some (.brk t, s2)
      | some (o, s2) => some (o, s2)

/-- The test of a `do-while`, then the next round `k`. -/
def againD (P : Prim) (test : P.M Bool) (k : P.State → Option (Out P.V × P.State)) (s : P.State) :
    Option (Out P.V × P.State) :=
  match test s with
  | (none, s') => some (.thr false, s')
  | (some false, s') => some (.normal, s')
  | (some true, s') => k s'

/-- The `do-while` loop: body, test. -/
def loopD (P : Prim) (l : Option String) (test : P.M Bool)
    (body : P.State → Option (Out P.V × P.State)) :
    Nat → P.State → Option (Out P.V × P.State)
  | 0, _ => none
  | n + 1, s =>
    match body s with
    | none => none
    | some (.normal, s2) => againD P test (loopD P l test body n) s2
    | some (.cont t, s2) =>
      if hits l t then againD P test (loopD P l test body n) s2 else some (.cont t, s2)
    | some (.brk t, s2) => if hits l t then some (.normal, s2) else some (.brk t, s2)
    | some (o, s2) => some (o, s2)

/-- Truth value of an expression. -/
def testE (P : Prim) (sc : P.Sc) (e : Expr) : P.M Bool :=
  evalE P sc e ⟶ fun a => now P a ⟶ fun v => pureM (P.truthy v)

/-- An optional expression evaluated for its effect. -/
def effE (P : Prim) (sc : P.Sc) : Option Expr → P.M Unit
  | none => pureM ()
  | some e => evalE P sc e ⟶ fun _ => pureM ()

/-- The test of a `for`: a missing one is the literal `true`. -/
def testOpt (P : Prim) (sc : P.Sc) : Option Expr → P.M Bool
  | none => testE P sc (.lit (.bool true))
  | some e => testE P sc e

/-- Resolve a left-hand side to a reference. -/
def evalLV (P : Prim) (sc : P.Sc) : LV → P.M P.SV
  | .var x => P.lookup x sc ⟶ fun r => pureM (.ref r)
  | .mem o k =>
    evalE P sc o ⟶ fun x => evalE P sc k ⟶ fun y =>
      now P x ⟶ fun vx => now P y ⟶ fun vy => P.subref vx vy ⟶ fun r => pureM (ofSum r)

/-- One `for-in` step: store the next key and tell whether there was one. -/
def nextR (P : Prim) (o it : P.V) : P.SV → P.M Bool
  | .ref r => P.next o it r ⟶ fun v => pureM (P.truthy v)
  | _ => failM P P.lvalueMsg

/-- The value a catch clause receives, and the registers after it took it
(src/jsiEval.c:1974-1986). -/
def takeExc (P : Prim) (s : P.State) : P.V × P.State :=
  if P.isUndef s.last then (s.msg.getD P.emptyMsg, { s with msg := none })
  else (s.last, { s with last := P.undef })

/-- Outcome after a finally block that was entered with completion `o` pending. -/
def afterFin {V : Type} (o : Out V) : Out V → Out V
  | .normal =>
    match o with
    | .thr _ => .thr false
    | o => o
  | f => f

/-- The finally block, entered with completion `o` pending. -/
def finE {V S : Type} (hasF : Bool) (ef : S → Option (Out V × S)) (o : Out V) (s : S) :
    Option (Out V × S) :=
  if hasF then
    match ef s with
    | none => none
    | some (o', s') => some (afterFin o o', s')
  else some (afterFin o .normal, s)

/-- Leaving the try or catch block with completion `o`. -/
def leaveE {V S : Type} (hasF : Bool) (ef : S → Option (Out V × S)) (o : Out V) (s : S) :
    Option (Out V × S) :=
  match o with
  | .ret v => some (.ret v, s)
  | .abort => some (.abort, s)
  | o => finE hasF ef o s

/-- Index of the clause a `switch` on value `v` selects by testing the non-default clauses in
order. -/
def selectC (P : Prim) (sc : P.Sc) (v : P.V) : Cases → Nat → P.M (Option Nat)
  | .nil, _ => pureM none
  | .cons none _ r, i => selectC P sc v r (i + 1)
  | .cons (some e) _ r, i =>
    evalE P sc e ⟶ fun y => now P y ⟶ fun vy => P.bin .strictEq v vy ⟶ fun b =>
      if P.truthy b then pureM (some i) else selectC P sc v r (i + 1)

/-- A switch labelled `l` ends a `break` addressed to it. -/
def swOut {V S : Type} (l : Option String) : Option (Out V × S) → Option (Out V × S)
  | some (.brk t, s) => if hits l t then some (.normal, s) else some (.brk t, s)
  | r => r

/-- Index of the default clause. -/
def dfltIdx : Cases → Nat → Option Nat
  | .nil, _ => none
  | .cons none _ _, i => some i
  | .cons (some _) _ r, i => dfltIdx r (i + 1)

/-- After normal completion go on with `k`. -/
def thenS {V S : Type} (r : Option (Out V × S)) (k : S → Option (Out V × S)) : Option (Out V × S) :=
  match r with
  | none => none
  | some (.normal, s) => k s
  | some (o, s) => some (o, s)

/-- An operation as a statement. -/
def opS (P : Prim) {α : Type} (x : P.M α) (k : α → P.State → Option (Out P.V × P.State))
    (s : P.State) : Option (Out P.V × P.State) :=
  match x s with
  | (none, s') => some (.thr false, s')
  | (some a, s') => k a s'

mutual
/-- Execution of a statement.  `n` bounds the iterations of every loop (`none`: bound reached), `d`
is the number of active try statements, in this function and its callers. -/
def evalS (P : Prim) (n : Nat) : Stmt → (d : Nat) → P.Sc → P.State → Option (Out P.V × P.State)
  | .nop, _, _, s => some (.normal, s)
  | .expr e, _, sc, s => opS P (evalE P sc e) (fun _ s => some (.normal, s)) s
  | .seq a b, d, sc, s =>
    thenS (evalS P n a d sc s) (evalS P n b d sc)
  | .ifThen c a, d, sc, s =>
    opS P (testE P sc c) (fun b s => if b then evalS P n a d sc s else some (.normal, s)) s
  | .ifElse c a b, d, sc, s =>
    opS P (testE P sc c) (fun t s => if t then evalS P n a d sc s else evalS P n b d sc s) s
  | .whileS l c b, d, sc, s => loopW P l (testE P sc c) (evalS P n b d sc) (pureM ()) n s
  | .doWhile l b c, d, sc, s => loopD P l (testE P sc c) (evalS P n b d sc) n s
  | .forS l init cond step b, d, sc, s =>
    opS P (effE P sc init)
      (fun _ s => loopW P l (testOpt P sc cond) (evalS P n b d sc) (effE P sc step) n s) s
  | .forIn l lv isof e b, d, sc, s =>
    opS P (evalE P sc e ⟶ fun x => now P x ⟶ fun v => P.key isof v)
      (fun oi s => loopW P l (evalLV P sc lv ⟶ nextR P oi.1 oi.2) (evalS P n b d sc) (pureM ()) n s)
      s
  | .switch _ e .nil, _, sc, s => opS P (evalE P sc e) (fun _ s => some (.normal, s)) s
  | .switch l e (.cons t b r), d, sc, s =>
    opS P (evalE P sc e ⟶ fun x => now P x ⟶ fun v => selectC P sc v (.cons t b r) 0)
      (fun i s =>
        match i.or (dfltIdx (.cons t b r) 0) with
        | none => some (.normal, s)
        | some i => swOut l (evalC P n (.cons t b r) i d sc s)) s
  | .brk l, _, _, s => some (.brk l, s)
  | .cont l, _, _, s => some (.cont l, s)
  | .ret none, _, _, s => some (.ret none, s)
  | .ret (some e), _, sc, s =>
    opS P (evalE P sc e ⟶ fun a => now P a) (fun v s => some (.ret (some v), s)) s
  | .throw e, _, sc, s =>
    opS P (evalE P sc e ⟶ fun a => now P a)
      (fun v s => some (.thr true, { s with last := v })) s
  | .tryS b x c hasF f, d, sc, s =>
    match evalS P n b (d + 1) sc s with
    | none => none
    | some (.thr _, s1) =>
      match x with
      | none => finE hasF (evalS P n f (d + 1) sc) (.thr false) s1
      | some x =>
        match P.catchScope x (takeExc P s1).1 sc (takeExc P s1).2 with
        | (none, s2) => finE hasF (evalS P n f (d + 1) sc) (.thr false) s2
        | (some sc', s2) =>
          match evalS P n c (d + 1) sc' s2 with
          | none => none
          | some (.thr byThrow, s3) =>
            if byThrow = true ∧ d + 1 = 1 then some (.abort, s3)
            else finE hasF (evalS P n f (d + 1) sc) (.thr byThrow) s3
          | some (o, s3) => leaveE hasF (evalS P n f (d + 1) sc) o s3
    | some (o, s1) => leaveE hasF (evalS P n f (d + 1) sc) o s1
  | .del (.var x), _, sc, s =>
    opS P (P.lookup x sc ⟶ fun r => P.del1 (.ref r)) (fun _ s => some (.normal, s)) s
  | .del (.mem o k), _, sc, s =>
    opS P (evalE P sc o ⟶ fun x => evalE P sc k ⟶ fun y =>
      now P x ⟶ fun vx => now P y ⟶ fun vy => P.del2 vx vy) (fun _ s => some (.normal, s)) s
/-- The bodies of the clauses from the `i`-th on. -/
def evalC (P : Prim) (n : Nat) : Cases → (i d : Nat) → P.Sc → P.State → Option (Out P.V × P.State)
  | .nil, _, _, _, s => some (.normal, s)
  | .cons _ _ r, i + 1, d, sc, s => evalC P n r i d sc s
  | .cons _ b r, 0, d, sc, s =>
    thenS (evalS P n b d sc s) (evalC P n r 0 d sc)
end

end Verif.Vm
