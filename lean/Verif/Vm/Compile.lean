import Verif.Vm.Syntax

/-!
The code generator: the semantic actions of `src/parser.y` and the helpers of `src/jsiCode.c`.
Jump operands are relative to the jump instruction itself, as in the C code
(src/jsiEval.c:1768-1817: `off = data - 1`, then `ip += off`, then `ip++`).
-/

namespace Verif.Vm

/-- The jump that replaces a `RESERVED` instruction: `JMP` when nothing has to be popped, else
`JMPPOP` (src/jsiCode.c:425-447). -/
def mkJump (off : Int) (topop : Nat) : Instr :=
  if topop = 0 then .jmp off else .jmppop off topop

/-- What `code_reserved_replace` does to the instruction at index `i` of a code block of length
`len` (src/jsiCode.c:408-452). -/
def replace1 (len stepLen : Nat) (breakOnly : Bool) (label : Option String) (pops : Nat)
    (i : Nat) : Instr → Instr
  | .reserved ty l p =>
    if l.isSome ∧ l ≠ label then .reserved ty l (p + pops)
    else match ty with
      | .cont =>
        if breakOnly then .reserved ty l (p + pops)
        else mkJump ((len : Int) - i) p
      | .brk => mkJump ((stepLen : Int) + len - i) p
  | ins => ins

/-- `code_reserved_replace` (src/jsiCode.c:408-452). -/
def replace (code : List Instr) (stepLen : Nat) (breakOnly : Bool) (label : Option String)
    (pops : Nat) : List Instr :=
  code.mapIdx (replace1 code.length stepLen breakOnly label pops)

mutual
/-- Code of an expression (src/parser.y:592-790, `opassign` src/jsiCode.c:581-594). -/
def compE : Expr → List Instr
  | .lit l => [.lit l]
  | .var x => [.pushvar x]
  | .un op e => compE e ++ [.un op]
  | .bin op a b => compE a ++ compE b ++ [.bin op]
  | .and a b =>
    let e2 := .pop 1 :: compE b
    compE a ++ [.jfalseNp (e2.length + 1)] ++ e2
  | .or a b =>
    let e2 := .pop 1 :: compE b
    compE a ++ [.jtrueNp (e2.length + 1)] ++ e2
  | .cond a b c =>
    let e2 := compE b ++ [.jmp ((compE c).length + 1)]
    compE a ++ [.jfalse (e2.length + 1)] ++ e2 ++ compE c
  | .comma a b => compE a ++ [.pop 1] ++ compE b
  | .void e => compE e ++ [.pop 1] ++ [.lit .undef]
  | .assign x e => [.pushvar x] ++ compE e ++ [.assign1]
  | .assignMem o k e => compE o ++ compE k ++ compE e ++ [.assign2]
  | .opAssign op x e => [.pushvar x] ++ [.pushtop] ++ compE e ++ [.bin op] ++ [.assign1]
  | .opAssignMem op o k e =>
    compE o ++ compE k ++ [.pushtop2] ++ [.sub] ++ compE e ++ [.bin op] ++ [.assign2]
  | .inc up post x => [.pushvar x] ++ [.inc up post]
  | .incMem up post o k => compE o ++ compE k ++ [.subref] ++ [.inc up post]
  | .sub o k => compE o ++ compE k ++ [.sub]
  | .call f args => compE f ++ [.chthis false] ++ argCode args ++ [.fcall args.length]
  | .callMeth o k args =>
    compE o ++ compE k ++ [.chthis true] ++ [.sub] ++ argCode args ++ [.fcall args.length]
  | .new f args => compE f ++ argCode args ++ [.newfcall args.length]
  | .array es => compEs es ++ [.array es.length]
  | .object kvs => argCode kvs ++ [.object kvs.length]
/-- Code of an expression list: the codes in order (src/parser.y:826-848). -/
def compEs : Exprs → List Instr
  | .nil => []
  | .cons e es => compE e ++ compEs es
/-- `opl ? opl : code_nop()` (src/parser.y:741-785); the empty `items` is a `NOP` too
(src/parser.y:889). -/
def argCode : Exprs → List Instr
  | .nil => [.nop]
  | .cons e es => compE e ++ compEs es
/-- `expr_counter`. -/
def Exprs.length : Exprs → Nat
  | .nil => 0
  | .cons _ es => es.length + 1
end

/-- Code leaving a reference to the left-hand side on the stack (src/parser.y:424-446). -/
def compLV : LV → List Instr
  | .var x => [.pushvar x]
  | .mem o k => compE o ++ compE k ++ [.subref]

/-- Code of an optional expression used as a statement: `e; POP 1` or `NOP`
(src/parser.y:397, 449-456). -/
def compOpt : Option Expr → List Instr
  | none => [.nop]
  | some e => compE e ++ [.pop 1]

/-- `for_cond`: a missing condition is `PUSHBOO 1` (src/parser.y:459-461). -/
def compCond : Option Expr → List Instr
  | none => [.lit (.bool true)]
  | some e => compE e

mutual
/-- Code of a statement (src/parser.y:143-500, `make_forin` src/jsiCode.c:525-538). -/
def compS : Stmt → List Instr
  | .nop => [.nop]
  | .expr e => compE e ++ [.pop 1]
  | .seq a b => compS a ++ compS b
  | .ifThen c a => compE c ++ [.jfalse ((compS a).length + 1)] ++ compS a
  | .ifElse c a b =>
    let b1 := compS a ++ [.jmp ((compS b).length + 1)]
    compE c ++ [.jfalse (b1.length + 1)] ++ b1 ++ compS b
  | .whileS l c s =>
    let st := compS s
    compE c ++ [.jfalse (st.length + 2)] ++ replace st 1 false l 0
      ++ [.jmp (-(st.length + (compE c).length + 1))]
  | .doWhile l s c =>
    let st := compS s
    replace st ((compE c).length + 1) false l 0 ++ compE c
      ++ [.jtrue (-(st.length + (compE c).length))]
  | .forS l init cond step s =>
    let st := compS s
    let co := compCond cond
    let sp := compOpt step
    compOpt init ++ co ++ [.jfalse (sp.length + st.length + 2)]
      ++ replace st (sp.length + 1) false l 0 ++ sp
      ++ [.jmp (-(co.length + sp.length + st.length + 1))]
  | .forIn l lv isof e s =>
    let st := compS s
    let co := compLV lv ++ [.next] ++ [.jfalse (st.length + 2)]
    compE e ++ [.key isof] ++ co ++ replace st 1 false l 2
      ++ [.jmp (-(co.length + st.length))] ++ [.pop 2]
  | .switch _ e .nil => compE e ++ [.pop 1]
  | .switch l e (.cons t b r) =>
    let cs := Cases.cons t b r
    let all := compC cs
    let tail := (match dfltOff cs 0 with | some o => [.jmp (1 + o + 1)] | none => [])
      ++ [.jmp (all.length + 1)]
    compE e ++ [.unref] ++ headC cs 0 tail ++ replace all 0 true l 1 ++ [.pop 1]
  | .brk l => [.reserved .brk l 0]
  | .cont l => [.reserved .cont l 0]
  | .ret none => [.ret false]
  | .ret (some e) => compE e ++ [.ret true]
  | .throw e => compE e ++ [.throw]
  | .tryS b x c hasF f =>
    let tr := compS b ++ [.etry]
    let ca := [.scatch x] ++ (if x.isSome then compS c else []) ++ [.ecatch]
    let fi := [.sfinal] ++ (if hasF then compS f else []) ++ [.efinal]
    [.stry tr.length ca.length fi.length] ++ tr ++ ca ++ fi
  | .del (.var x) => [.pushvar x] ++ [.del 1]
  | .del (.mem o k) => compE o ++ compE k ++ [.del 2]
/-- `allstats`: the bodies of the clauses, one after the other (src/parser.y:246-249). -/
def compC : Cases → List Instr
  | .nil => []
  | .cons _ b r => compS b ++ compC r
/-- The dispatch code: for each non-default clause in order `PUSHTOP; test; STRICTEQU; JTRUE`,
then `tail` (src/parser.y:276-287; the C code builds it from the last clause backwards). -/
def headC : Cases → Nat → List Instr → List Instr
  | .nil, _, tail => tail
  | .cons none b r, off, tail => headC r (off + (compS b).length) tail
  | .cons (some e) b r, off, tail =>
    let rest := headC r (off + (compS b).length) tail
    [.pushtop] ++ compE e ++ [.bin .strictEq] ++ [.jtrue (rest.length + off + 1)] ++ rest
/-- `cldefault->off` (src/parser.y:246-262). -/
def dfltOff : Cases → Nat → Option Nat
  | .nil, _ => none
  | .cons none _ _, off => some off
  | .cons (some _) b r, off => dfltOff r (off + (compS b).length)
end

end Verif.Vm
