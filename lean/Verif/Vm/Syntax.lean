/-!
Abstract syntax of the part of the jsish language that the compiler model covers, and the
instruction set of the virtual machine.

Source: grammar `src/parser.y` (statements lines 143-500, expressions lines 592-790), opcode list
`src/jsiCode.c:25-98`.

Not covered: `with`, `eval`, `export`, `debugger`, `LOCAL` (only emitted inside `eval`), getters and
setters in object literals, the log-call masking of `LogDebug`/`assert` (`ip->logidx`).
-/

namespace Verif.Vm

/-- Literals and the other operand-less pushes: `PUSHUND`, `PUSHNULL`, `PUSHBOO`, `PUSHNUM`,
`PUSHSTR`/`PUSHVSTR`, `PUSHREG`, `PUSHFUN`, `PUSHTHS`, `PUSHARG` (src/jsiEval.c:1214-1262,
1319-1345).  Numbers are kept as an index: their value plays no role in compilation. -/
inductive Lit
  | undef | null | bool (b : Bool) | num (n : Int) | str (s : String)
  | regex (i : Nat) | func (i : Nat) | this | args
deriving DecidableEq, Repr

/-- Unary operators (src/parser.y:603-606, 625). -/
inductive UnOp
  | neg | pos | bnot | not | typeof
deriving DecidableEq, Repr

/-- Binary operators (src/parser.y:608-613, 651-664, 677). -/
inductive BinOp
  | mul | div | mod | add | sub | isIn | less | greater | lesseq | greatereq
  | equal | notequal | strictEq | strictNeq | band | bor | bxor | shl | shr | ushr | instanceof
deriving DecidableEq, Repr

mutual
/-- Expressions (src/parser.y:592-790). -/
inductive Expr
  | lit (l : Lit)
  | var (x : String)
  | un (op : UnOp) (e : Expr)
  | bin (op : BinOp) (a b : Expr)
  | and (a b : Expr)
  | or (a b : Expr)
  | cond (a b c : Expr)
  | comma (a b : Expr)
  | void (e : Expr)
  /-- `x = e` -/
  | assign (x : String) (e : Expr)
  /-- `o[k] = e` -/
  | assignMem (o k e : Expr)
  /-- `x op= e` -/
  | opAssign (op : BinOp) (x : String) (e : Expr)
  /-- `o[k] op= e` -/
  | opAssignMem (op : BinOp) (o k e : Expr)
  /-- `++x`, `--x`, `x++`, `x--` -/
  | inc (up post : Bool) (x : String)
  /-- `++o[k]` and so on -/
  | incMem (up post : Bool) (o k : Expr)
  /-- `o[k]` and `o.k` -/
  | sub (o k : Expr)
  /-- `f(args)` -/
  | call (f : Expr) (args : Exprs)
  /-- `o[k](args)` and `o.k(args)` -/
  | callMeth (o k : Expr) (args : Exprs)
  /-- `new f(args)` -/
  | new (f : Expr) (args : Exprs)
  | array (es : Exprs)
  /-- `{k1:v1, ...}`: the keys and values in order, keys being literals -/
  | object (kvs : Exprs)
/-- Expression lists (src/parser.y:826-848). -/
inductive Exprs
  | nil
  | cons (e : Expr) (es : Exprs)
end

/-- Left-hand sides of `for-in` and `delete` (src/parser.y:790-825). -/
inductive LV
  | var (x : String)
  | mem (o k : Expr)

mutual
/-- Statements (src/parser.y:143-500). -/
inductive Stmt
  | nop
  | expr (e : Expr)
  | seq (a b : Stmt)
  | ifThen (c : Expr) (a : Stmt)
  | ifElse (c : Expr) (a b : Stmt)
  | whileS (l : Option String) (c : Expr) (s : Stmt)
  | doWhile (l : Option String) (s : Stmt) (c : Expr)
  /-- `for (init; cond; step) s`; `var a=1,b=2` as initialiser is the comma expression -/
  | forS (l : Option String) (init cond step : Option Expr) (s : Stmt)
  /-- `for (lv in e) s`, `for (lv of e) s` -/
  | forIn (l : Option String) (lv : LV) (isof : Bool) (e : Expr) (s : Stmt)
  | switch (l : Option String) (e : Expr) (cs : Cases)
  | brk (l : Option String)
  | cont (l : Option String)
  | ret (e : Option Expr)
  | throw (e : Expr)
  /-- `try b [catch(x) c] [finally f]`: `x = none` means there is no catch clause (then `c` is
  unused); `hasF = false` means there is no finally clause (then `f` is unused). -/
  | tryS (b : Stmt) (x : Option String) (c : Stmt) (hasF : Bool) (f : Stmt)
  | del (lv : LV)
/-- The clauses of a `switch`; `none` is `default` (src/parser.y:301-311). -/
inductive Cases
  | nil
  | cons (test : Option Expr) (body : Stmt) (rest : Cases)
end

/-- `RES_BREAK` / `RES_CONTINUE` (src/jsiCode.c:390-398). -/
inductive Res
  | brk | cont
deriving DecidableEq, Repr

/-- The opcodes the compiler emits (src/jsiCode.c:25-98) with their operand. -/
inductive Instr
  | nop
  | lit (l : Lit)
  | pushvar (x : String)
  | pushtop | pushtop2 | unref
  | pop (n : Nat)
  | un (op : UnOp)
  | bin (op : BinOp)
  /-- `ASSIGN 1` (variable) -/
  | assign1
  /-- `ASSIGN 2` (member) -/
  | assign2
  /-- `SUBSCRIPT` with `right_val` set -/
  | sub
  /-- `SUBSCRIPT 0`: yields a reference -/
  | subref
  | inc (up post : Bool)
  | chthis (b : Bool)
  | fcall (n : Nat)
  | newfcall (n : Nat)
  | array (n : Nat)
  /-- `OBJECT`; here `n` counts stack entries, twice the operand of the C instruction -/
  | object (n : Nat)
  | key (isof : Bool)
  | next
  | jtrue (off : Int) | jfalse (off : Int) | jtrueNp (off : Int) | jfalseNp (off : Int)
  | jmp (off : Int)
  | jmppop (off : Int) (n : Nat)
  | ret (b : Bool)
  | del (n : Nat)
  | stry (trylen catchlen finlen : Nat)
  | etry
  | scatch (x : Option String)
  | ecatch | sfinal | efinal | throw
  | reserved (ty : Res) (l : Option String) (topop : Nat)
deriving DecidableEq, Repr

end Verif.Vm
