import Verif.Vm.Compile

/-!
The virtual machine: `jsiEvalCodeSub` (src/jsiEval.c:1112-2150), one function activation.

Values, objects, scopes and the effect of each primitive operation (arithmetic, property access,
calls, ...) are parameters (`Prim`), arbitrary functions of the whole interpreter state: nothing
about them is assumed.  What is modelled exactly is the control flow: the operand stack with its
variable references and their late dereferencing, the jumps, the try list, the exception register
and the error message buffer.

Not modelled: strict-mode type diagnostics, interruption (`interp->interrupted`), `maxOpCnt`, the
debugger hook, `exit()`, the `with` entries of the try list, and the fact that a `this` slot keeps
its value after an exception or an arrow call (`_jsi_THIS`, src/jsiEval.c:1368-1382, 826-838): here
the receiver travels with the stack entry.
-/

namespace Verif.Vm

/-- Interpreter state: the heap, `ps->last_exception` and `interp->errMsgBuf` (`none` when the
buffer is empty, src/jsiUtils.c:215-221). -/
structure St (V H : Type) where
  h : H
  last : V
  msg : Option V

/-- An operation on the interpreter state that may fail (`rc = JSI_ERROR`). -/
abbrev MM (V H α : Type) := St V H → Option α × St V H

/-- Stack entries: a value, a variable reference (`JSI_VT_VARIABLE`), or a method looked up on a
receiver (value plus its `_jsi_THIS` slot). -/
inductive SVal (V Ref : Type)
  | val (v : V)
  | ref (r : Ref)
  | meth (this v : V)

/-- The primitive operations of the interpreter: arbitrary. -/
structure Prim where
  V : Type
  H : Type
  Sc : Type
  Ref : Type
  undef : V
  /-- `vt == JSI_VT_UNDEF` -/
  isUndef : V → Bool
  /-- `Jsi_ValueIsTrue` -/
  truthy : V → Bool
  /-- the string built from an empty message buffer -/
  emptyMsg : V
  /-- `RESERVED` executed: the message -/
  reservedMsg : V
  /-- operand is not a left value: the message -/
  lvalueMsg : V
  /-- `PUSHxxx` -/
  lit : Lit → Sc → MM V H V
  /-- `jsiPushVar` (src/jsiEval.c:858-909) -/
  lookup : String → Sc → MM V H Ref
  /-- `Jsi_ValueCopy(vb, vb->d.lval)` of `jsiVarDeref` (src/jsiEval.c:198-210) -/
  read : Ref → H → V
  /-- `jsiValueAssign` (src/jsiEval.c:146-186) -/
  write : Ref → V → MM V H Unit
  un : UnOp → V → MM V H V
  bin : BinOp → V → V → MM V H V
  /-- `jsiEvalSubscript` with `right_val` (src/jsiEval.c:952-1027) -/
  sub : V → V → MM V H V
  /-- `jsiEvalSubscript` without: a reference, or a plain value for a read-only or missing one -/
  subref : V → V → MM V H (V ⊕ Ref)
  /-- `jsi_ValueObjKeyAssign` (src/jsiEval.c:1071-1108) -/
  put : V → V → V → MM V H Unit
  /-- `OP_INC`/`OP_DEC` on a reference (src/jsiEval.c:1701-1741) -/
  inc : Bool → Bool → Ref → MM V H V
  /-- `Jsi_ValueToObject` of `CHTHIS` -/
  toObj : V → MM V H V
  /-- `jsiEvalFunction` (src/jsiEval.c:814-856): function, receiver, arguments -/
  call : V → Option V → List V → MM V H V
  /-- the same for `NEWFCALL` -/
  new : V → List V → MM V H V
  array : List V → MM V H V
  object : List V → MM V H V
  /-- `OP_KEY`: object and iterator left on the stack -/
  key : Bool → V → MM V H (V × V)
  /-- `OP_NEXT`: object, iterator, loop variable; the result is the number 1 or 0 -/
  next : V → V → Ref → MM V H V
  /-- `DELETE 1`, `DELETE 2` -/
  del1 : SVal V Ref → MM V H Unit
  del2 : V → V → MM V H Unit
  /-- the scope of a catch block (src/jsiEval.c:1968-1990) -/
  catchScope : String → V → Sc → MM V H Sc

/-- Stack entry for the result of a reference lookup. -/
def ofSum {V Ref : Type} : V ⊕ Ref → SVal V Ref
  | .inl v => .val v
  | .inr r => .ref r

variable (P : Prim)

abbrev Prim.State := St P.V P.H
abbrev Prim.SV := SVal P.V P.Ref
abbrev Prim.M (α : Type) := MM P.V P.H α

/-- `jsiVarDeref` of one stack entry (src/jsiEval.c:198-210). -/
def Prim.deref (h : P.H) : P.SV → P.V
  | .val v => v
  | .ref r => P.read r h
  | .meth _ v => v

/-- `trylist->d.td.last_op` with its jump target (src/jsiEval.c:1800-1803). -/
inductive LastOp
  | noop
  | throw
  | jmp (target : Nat)
deriving DecidableEq, Repr

/-- An entry of the try list (src/jsiEval.c:1935-1950). -/
structure Try (Sc : Type) where
  tstart : Nat
  tend : Nat
  cstart : Nat
  cend : Nat
  fstart : Nat
  fend : Nat
  tsp : Nat
  sc : Sc
  last : LastOp

/-- A machine configuration.  The head of `stk` is the top of the stack. -/
structure Cfg where
  pc : Nat
  stk : List P.SV
  tl : List (Try P.Sc)
  st : P.State
  sc : P.Sc

/-- How an activation ends. -/
inductive Halt (V S : Type)
  /-- ran off the end of the code -/
  | done (s : S)
  /-- `RET` -/
  | ret (v : Option V) (s : S)
  /-- returned `JSI_ERROR` to the caller -/
  | error (s : S)
  /-- an internal inconsistency (`Jsi_LogBug`, stack underflow) -/
  | bug

/-- What one instruction asks for. -/
inductive Act
  | go (c : Cfg P)
  /-- `rc = JSI_ERROR` at the current instruction -/
  | raise (c : Cfg P)
  /-- `JMP`/`JMPPOP`, or the pending jump of `EFINAL` -/
  | jump (c : Cfg P) (target : Nat)
  | halt (h : Halt P.V P.State)

/-- `jsiPop(interp, Sp - n)`: pops down to `n` entries, or, when the stack is already lower, raises
`Sp` over cleared slots (src/jsiEval.c:184-195, 371-372). -/
def setSp (n : Nat) (stk : List P.SV) : List P.SV :=
  if n ≤ stk.length then stk.drop (stk.length - n)
  else List.replicate (n - stk.length) (.val P.undef) ++ stk

/-- `jsiDoThrow` (src/jsiEval.c:348-399).  `d0` is the try depth of the calling frame: the frame's
`tryDepth` is `d0` plus the length of the try list (src/jsiEval.c:311-326, 2204-2206). -/
def doThrow (F : List Instr) (d0 ip : Nat) : List (Try P.Sc) → List P.SV → P.State → P.Sc →
    Cfg P ⊕ Halt P.V P.State
  | [], _, st, _ => .inr (.error st)
  | t :: tl, stk, st, sc =>
    let stk' := setSp P t.tsp stk
    if t.tstart ≤ ip ∧ ip < t.tend then .inl ⟨t.cstart, stk', t :: tl, st, sc⟩
    else if t.cstart ≤ ip ∧ ip < t.cend then
      if F[ip]? = some .throw ∧ d0 + (tl.length + 1) = 1 then .inr (.error st)
      else .inl ⟨t.fstart, stk', { t with last := .throw } :: tl, st, sc⟩
    else if t.fstart ≤ ip ∧ ip < t.fend then doThrow F d0 ip tl stk' st sc
    else .inr .bug

/-- The loop of `OP_JMP` and of the pending jump in `OP_EFINAL` (src/jsiEval.c:1787-1817,
2018-2052); the C code compares `tojmp = target - 1`. -/
def doJmp (ip target : Nat) : List (Try P.Sc) → List P.SV → P.State → P.Sc →
    Cfg P ⊕ Halt P.V P.State
  | [], stk, st, sc => .inl ⟨target, stk, [], st, sc⟩
  | t :: tl, stk, st, sc =>
    if t.tstart + 1 ≤ target ∧ target ≤ t.fend then .inl ⟨target, stk, t :: tl, st, sc⟩
    else if t.tstart ≤ ip ∧ ip < t.cend then
      .inl ⟨t.fstart, stk, { t with last := .jmp target } :: tl, st, sc⟩
    else if t.fstart ≤ ip ∧ ip < t.fend then doJmp ip target tl stk st sc
    else .inr .bug

/-- Absolute target of a relative jump. -/
def tgt (pc : Nat) (off : Int) : Nat := ((pc : Int) + off).toNat

/-- Push the result of a primitive and go on, or raise. -/
def pushR (c : Cfg P) (stk : List P.SV) (r : Option P.V × P.State) : Act P :=
  match r with
  | (some v, s) => .go ⟨c.pc + 1, .val v :: stk, c.tl, s, c.sc⟩
  | (none, s) => .raise ⟨c.pc, c.stk, c.tl, s, c.sc⟩

/-- One instruction (src/jsiEval.c:1212-2129). -/
def exec (c : Cfg P) : Instr → Act P
  | .nop => .go { c with pc := c.pc + 1 }
  | .lit l => pushR P c c.stk (P.lit l c.sc c.st)
  | .pushvar x =>
    match P.lookup x c.sc c.st with
    | (some r, s) => .go ⟨c.pc + 1, .ref r :: c.stk, c.tl, s, c.sc⟩
    | (none, s) => .raise ⟨c.pc, c.stk, c.tl, s, c.sc⟩
  | .pushtop =>
    match c.stk with
    | a :: stk => .go { c with pc := c.pc + 1, stk := a :: a :: stk }
    | _ => .halt .bug
  | .pushtop2 =>
    match c.stk with
    | a :: b :: stk => .go { c with pc := c.pc + 1, stk := a :: b :: a :: b :: stk }
    | _ => .halt .bug
  | .unref =>
    match c.stk with
    | a :: stk => .go { c with pc := c.pc + 1, stk := .val (P.deref c.st.h a) :: stk }
    | _ => .halt .bug
  | .pop n => .go { c with pc := c.pc + 1, stk := c.stk.drop n }
  | .un op =>
    match c.stk with
    | a :: stk => pushR P c stk (P.un op (P.deref c.st.h a) c.st)
    | _ => .halt .bug
  | .bin op =>
    match c.stk with
    | b :: a :: stk => pushR P c stk (P.bin op (P.deref c.st.h a) (P.deref c.st.h b) c.st)
    | _ => .halt .bug
  | .assign1 =>
    match c.stk with
    | b :: .ref r :: stk =>
      match P.write r (P.deref c.st.h b) c.st with
      | (some _, s) => .go ⟨c.pc + 1, .ref r :: stk, c.tl, s, c.sc⟩
      | (none, s) => .raise ⟨c.pc, c.stk, c.tl, s, c.sc⟩
    | _ :: _ :: _ => .raise { c with st := { c.st with msg := some (c.st.msg.getD P.lvalueMsg) } }
    | _ => .halt .bug
  | .assign2 =>
    match c.stk with
    | v :: k :: o :: stk =>
      match P.put (P.deref c.st.h o) (P.deref c.st.h k) (P.deref c.st.h v) c.st with
      | (some _, s) => .go ⟨c.pc + 1, .val (P.deref c.st.h v) :: stk, c.tl, s, c.sc⟩
      | (none, s) => .raise ⟨c.pc, c.stk, c.tl, s, c.sc⟩
    | _ => .halt .bug
  | .sub =>
    match c.stk with
    | k :: .meth t o :: stk =>
      match P.sub o (P.deref c.st.h k) c.st with
      | (some v, s) => .go ⟨c.pc + 1, .meth t v :: stk, c.tl, s, c.sc⟩
      | (none, s) => .raise ⟨c.pc, c.stk, c.tl, s, c.sc⟩
    | k :: o :: stk => pushR P c stk (P.sub (P.deref c.st.h o) (P.deref c.st.h k) c.st)
    | _ => .halt .bug
  | .subref =>
    match c.stk with
    | k :: o :: stk =>
      match P.subref (P.deref c.st.h o) (P.deref c.st.h k) c.st with
      | (some v, s) => .go ⟨c.pc + 1, ofSum v :: stk, c.tl, s, c.sc⟩
      | (none, s) => .raise ⟨c.pc, c.stk, c.tl, s, c.sc⟩
    | _ => .halt .bug
  | .inc up post =>
    match c.stk with
    | .ref r :: stk => pushR P c stk (P.inc up post r c.st)
    | _ :: _ => .raise { c with st := { c.st with msg := some (c.st.msg.getD P.lvalueMsg) } }
    | _ => .halt .bug
  | .chthis false => .go { c with pc := c.pc + 1 }
  | .chthis true =>
    match c.stk with
    | k :: o :: stk =>
      match P.toObj (P.deref c.st.h o) c.st with
      | (some t, s) =>
        .go ⟨c.pc + 1, .val (P.deref s.h k) :: .meth t (P.deref s.h o) :: stk, c.tl, s, c.sc⟩
      | (none, s) => .raise ⟨c.pc, c.stk, c.tl, s, c.sc⟩
    | _ => .halt .bug
  | .fcall n =>
    match c.stk.drop n with
    | f :: stk =>
      let this := match f with | .meth t _ => some t | _ => none
      pushR P c stk (P.call (P.deref c.st.h f) this
        (((c.stk.take n).map (P.deref c.st.h)).reverse) c.st)
    | _ => .halt .bug
  | .newfcall n =>
    match c.stk.drop n with
    | f :: stk =>
      pushR P c stk (P.new (P.deref c.st.h f) (((c.stk.take n).map (P.deref c.st.h)).reverse) c.st)
    | _ => .halt .bug
  | .array n =>
    if n ≤ c.stk.length then
      pushR P c (c.stk.drop n) (P.array (((c.stk.take n).map (P.deref c.st.h)).reverse) c.st)
    else .halt .bug
  | .object n =>
    if n ≤ c.stk.length then
      pushR P c (c.stk.drop n) (P.object (((c.stk.take n).map (P.deref c.st.h)).reverse) c.st)
    else .halt .bug
  | .key isof =>
    match c.stk with
    | o :: stk =>
      match P.key isof (P.deref c.st.h o) c.st with
      | (some (o', it), s) => .go ⟨c.pc + 1, .val it :: .val o' :: stk, c.tl, s, c.sc⟩
      | (none, s) => .raise ⟨c.pc, c.stk, c.tl, s, c.sc⟩
    | _ => .halt .bug
  | .next =>
    match c.stk with
    | .ref r :: .val it :: .val o :: stk =>
      pushR P c (.val it :: .val o :: stk) (P.next o it r c.st)
    | .val _ :: _ :: _ => .raise { c with st := { c.st with msg := some (c.st.msg.getD P.lvalueMsg) } }
    | _ => .halt .bug
  | .jtrue off =>
    match c.stk with
    | a :: stk =>
      .go { c with pc := if P.truthy (P.deref c.st.h a) then tgt c.pc off else c.pc + 1,
                   stk := stk }
    | _ => .halt .bug
  | .jfalse off =>
    match c.stk with
    | a :: stk =>
      .go { c with pc := if P.truthy (P.deref c.st.h a) then c.pc + 1 else tgt c.pc off,
                   stk := stk }
    | _ => .halt .bug
  | .jtrueNp off =>
    match c.stk with
    | a :: stk =>
      .go { c with pc := if P.truthy (P.deref c.st.h a) then tgt c.pc off else c.pc + 1,
                   stk := .val (P.deref c.st.h a) :: stk }
    | _ => .halt .bug
  | .jfalseNp off =>
    match c.stk with
    | a :: stk =>
      .go { c with pc := if P.truthy (P.deref c.st.h a) then c.pc + 1 else tgt c.pc off,
                   stk := .val (P.deref c.st.h a) :: stk }
    | _ => .halt .bug
  | .jmp off => .jump c (tgt c.pc off)
  | .jmppop off n => .jump { c with stk := c.stk.drop n } (tgt c.pc off)
  | .ret false => .halt (.ret none c.st)
  | .ret true =>
    match c.stk with
    | a :: _ => .halt (.ret (some (P.deref c.st.h a)) c.st)
    | _ => .halt .bug
  | .del n =>
    if n = 1 then
      match c.stk with
      | a :: stk =>
        match P.del1 a c.st with
        | (some _, s) => .go ⟨c.pc + 1, stk, c.tl, s, c.sc⟩
        | (none, s) => .raise ⟨c.pc, c.stk, c.tl, s, c.sc⟩
      | _ => .halt .bug
    else
      match c.stk with
      | k :: o :: stk =>
        match P.del2 (P.deref c.st.h o) (P.deref c.st.h k) c.st with
        | (some _, s) => .go ⟨c.pc + 1, stk, c.tl, s, c.sc⟩
        | (none, s) => .raise ⟨c.pc, c.stk, c.tl, s, c.sc⟩
      | _ => .halt .bug
  | .stry a b f =>
    .go { c with
      pc := c.pc + 1
      tl := ⟨c.pc, c.pc + a, c.pc + a + 1, c.pc + a + b, c.pc + a + b + 1, c.pc + a + b + f,
        c.stk.length, c.sc, .noop⟩ :: c.tl }
  | .etry =>
    match c.tl with
    | t :: _ => .go { c with pc := t.fstart }
    | [] => .halt .bug
  | .scatch none => .raise c
  | .scatch (some x) =>
    match c.tl with
    | [] => .halt .bug
    | _ :: _ =>
      let (v, s) : P.V × P.State :=
        if P.isUndef c.st.last then (c.st.msg.getD P.emptyMsg, { c.st with msg := none })
        else (c.st.last, { c.st with last := P.undef })
      match P.catchScope x v c.sc s with
      | (some sc', s') => .go ⟨c.pc + 1, c.stk, c.tl, s', sc'⟩
      | (none, s') => .raise ⟨c.pc, c.stk, c.tl, s', c.sc⟩
  | .ecatch =>
    match c.tl with
    | t :: _ => .go { c with pc := t.fstart }
    | [] => .halt .bug
  | .sfinal =>
    match c.tl with
    | t :: _ => .go { c with pc := c.pc + 1, sc := t.sc }
    | [] => .halt .bug
  | .efinal =>
    match c.tl with
    | t :: tl =>
      match t.last with
      | .noop => .go { c with pc := c.pc + 1, tl := tl }
      | .throw => .raise { c with tl := tl }
      | .jmp target => .jump { c with tl := tl } target
    | [] => .halt .bug
  | .throw =>
    match c.stk with
    | a :: _ => .raise { c with st := { c.st with last := P.deref c.st.h a } }
    | _ => .halt .bug
  | .reserved _ _ _ => .raise { c with st := { c.st with msg := some (c.st.msg.getD P.reservedMsg) } }

/-- Finish an instruction: continue, run the throw or jump logic, or stop. -/
def finish (F : List Instr) (d0 : Nat) : Act P → Cfg P ⊕ Halt P.V P.State
  | .go c => .inl c
  | .raise c => doThrow P F d0 c.pc c.tl c.stk c.st c.sc
  | .jump c target => doJmp P c.pc target c.tl c.stk c.st c.sc
  | .halt h => .inr h

/-- One round of the interpreter loop (src/jsiEval.c:1134-2140). -/
def step (F : List Instr) (d0 : Nat) (c : Cfg P) : Cfg P ⊕ Halt P.V P.State :=
  match F[c.pc]? with
  | none => .inr (.done c.st)
  | some ins => finish P F d0 (exec P c ins)

/-- Run for at most `n` rounds. -/
def run (F : List Instr) (d0 : Nat) : Nat → Cfg P → Cfg P ⊕ Halt P.V P.State
  | 0, c => .inl c
  | n + 1, c =>
    match step P F d0 c with
    | .inl c' => run F d0 n c'
    | .inr h => .inr h

/-- The activation's initial configuration: empty stack and try list. -/
def start (st : P.State) (sc : P.Sc) : Cfg P := ⟨0, [], [], st, sc⟩

/-- The machine started on code `F` in state `st` stops with `h`. -/
def Halts (F : List Instr) (d0 : Nat) (st : P.State) (sc : P.Sc) (h : Halt P.V P.State) : Prop :=
  ∃ n, run P F d0 n (start P st sc) = .inr h

end Verif.Vm
