import Verif.Vm.Demo
import Verif.Vm.Regs

/-!
Properties C29-C33: what the code emitted by the compiler does on the virtual machine.

The theorems quantify over every instance `P` of the primitive operations (values, heap, operators,
calls), every program of the modelled language, every starting state and scope, and any number of
machine steps.  The specification is the structured semantics of `Sem.lean` (no code, jumps, operand
stack or try list) and, for the ECMAScript reading of expressions, `evalV` of `Ecma.lean`.
-/

namespace Verif.Vm

open Demo (DV s0 outcome setN)

variable {P : Prim}

/-! ### Placement of a code block inside a larger one -/

theorem fits_self {pre code post : List Instr} :
    Fits (pre ++ code ++ post) [] pre.length code := by
  rw [fits_iff]
  intro i hi
  have hF : (pre ++ code ++ post)[pre.length + i]? = some code[i] := by
    rw [List.append_assoc, List.getElem?_append_right (by omega),
      Nat.add_sub_cancel_left, List.getElem?_append_left hi]
    simp [hi]
  cases hc : code[i] with
  | reserved ty l p => simp [Fit1, lookupJ]
  | _ => rw [hc] at hF; exact hF

theorem fits_whole {code : List Instr} : Fits code [] 0 code := by
  have := fits_self (pre := []) (code := code) (post := [])
  simpa using this

theorem inside_nil {lo hi : Nat} : Inside ([] : List (Try P.Sc)) lo hi := by
  intro a ha; simp at ha

theorem tok_nil {hi : Nat} : TOk [] hi := by
  intro ty l t ex h; simp [lookupJ] at h

/-! ### C29: expressions -/

/-- **C29.**  The code of an expression, placed anywhere in any code (`pre`, `post`), run on any
stack `stk` and in any state, pushes what the expression denotes on top of the unchanged stack and
stops right behind the code; if the expression fails the function ends with that error. -/
theorem C29_expr_code (e : Expr) (pre post : List Instr) (d0 : Nat) (stk : List P.SV)
    (st : P.State) (sc : P.Sc) :
    (∀ a st', evalE P sc e st = (some a, st') →
      To P (pre ++ compE e ++ post) d0 ⟨pre.length, stk, [], st, sc⟩
        (.inl ⟨pre.length + (compE e).length, a :: stk, [], st', sc⟩)) ∧
    (∀ st', evalE P sc e st = (none, st') →
      To P (pre ++ compE e ++ post) d0 ⟨pre.length, stk, [], st, sc⟩ (.inr (.error st'))) := by
  have h := compE_ok (P := P) (F := pre ++ compE e ++ post) (d0 := d0) e []
    ⟨[], sc, pre.length, pre.length + (compE e).length, stk⟩ pre.length stk fits_self
    (Nat.le_refl _) (Nat.le_refl _) (List.suffix_refl _) inside_nil st
  constructor
  · intro a st' he
    rw [he] at h
    exact h
  · intro st' he
    rw [he] at h
    obtain ⟨ip, junk, _, _, _, h⟩ := h
    simpa only [doThrow] using h

/-- **C29.**  Inside an active try statement (`t` encloses the code) a failing expression hands over
to the unwinding logic with the operand stack below the expression intact. -/
theorem C29_expr_code_in_try (e : Expr) (pre post : List Instr) (d0 : Nat) (stk : List P.SV)
    (t : Try P.Sc) (tl : List (Try P.Sc)) (st : P.State) (sc : P.Sc)
    (ht : t.tstart < pre.length) (ht' : pre.length + (compE e).length ≤ t.tend)
    (hc : t.tend < t.cstart) (hf : t.cstart ≤ t.fend) (hs : t.tsp = stk.length) :
    (∀ a st', evalE P sc e st = (some a, st') →
      To P (pre ++ compE e ++ post) d0 ⟨pre.length, stk, t :: tl, st, sc⟩
        (.inl ⟨pre.length + (compE e).length, a :: stk, t :: tl, st', sc⟩)) ∧
    (∀ st', evalE P sc e st = (none, st') →
      To P (pre ++ compE e ++ post) d0 ⟨pre.length, stk, t :: tl, st, sc⟩
        (.inl ⟨t.cstart, stk, t :: tl, st', sc⟩)) := by
  have hin : Inside (t :: tl) pre.length (pre.length + (compE e).length) := by
    intro a ha
    simp only [List.head?_cons, Option.mem_def, Option.some.injEq] at ha
    subst ha
    omega
  have h := compE_ok (P := P) (F := pre ++ compE e ++ post) (d0 := d0) e []
    ⟨t :: tl, sc, pre.length, pre.length + (compE e).length, stk⟩ pre.length stk fits_self
    (Nat.le_refl _) (Nat.le_refl _) (List.suffix_refl _) hin st
  constructor
  · intro a st' he
    rw [he] at h
    exact h
  · intro st' he
    rw [he] at h
    obtain ⟨ip, junk, h1, h2, _, h⟩ := h
    simp only at h1 h2
    simp only [doThrow, hs, setSp_junk] at h
    rw [if_pos (by omega)] at h
    exact h

/-- **C29, partial.**  For expressions in which no variable operand is followed by an operand with
side effects (`steady`), the code computes the ECMAScript value.  Missing: the other expressions; see
the refutation below. -/
theorem C29_ecma_partial (hP : CalmPrim P) (e : Expr) (he : steady e = true)
    (pre post : List Instr) (d0 : Nat) (stk : List P.SV) (st : P.State) (sc : P.Sc) :
    (∀ v st', evalV P sc e st = (some v, st') →
      ∃ a, P.deref st'.h a = v ∧
      To P (pre ++ compE e ++ post) d0 ⟨pre.length, stk, [], st, sc⟩
        (.inl ⟨pre.length + (compE e).length, a :: stk, [], st', sc⟩)) ∧
    (∀ st', evalV P sc e st = (none, st') →
      To P (pre ++ compE e ++ post) d0 ⟨pre.length, stk, [], st, sc⟩ (.inr (.error st'))) := by
  obtain ⟨h1, h2⟩ := C29_expr_code (P := P) e pre post d0 stk st sc
  have heq := congrFun (evalE_evalV (P := P) hP sc e he (fun v => pureM v)) st
  rw [bindM_pure] at heq
  simp only [bindM] at heq
  constructor
  · intro v st' hv
    rw [hv] at heq
    rcases hx : evalE P sc e st with ⟨_ | a, s1⟩
    · rw [hx] at heq; simp at heq
    · rw [hx] at heq
      simp only [now, pureM, Prod.mk.injEq, Option.some.injEq] at heq
      obtain ⟨ha, rfl⟩ := heq
      exact ⟨a, ha, h1 a s1 hx⟩
  · intro st' hv
    rw [hv] at heq
    rcases hx : evalE P sc e st with ⟨_ | a, s1⟩
    · rw [hx] at heq
      simp only [Prod.mk.injEq] at heq
      obtain ⟨_, rfl⟩ := heq
      exact h2 s1 hx
    · rw [hx] at heq
      simp [now, pureM] at heq

/-- A steady expression with side effects in the concrete instance: `(x = 2) , x + x*...`. -/
example : steady (.comma (.assign "x" (.lit (.num 2))) (.bin .add (.var "x") (.var "x"))) = true ∧
    CalmPrim Demo.prim := ⟨by decide, Demo.calm⟩

/-- The program `x = 1; y = x + (x = 5)`. -/
def lateRead : Stmt :=
  .seq (setN "x" 1)
    (.expr (.assign "y" (.bin .add (.var "x") (.assign "x" (.lit (.num 5))))))

/-- **C29, refuted in general.**  `x = 1; y = x + (x = 5)` leaves 10 in `y`: the variable operand is
read after the right operand has run.  ECMAScript demands 6. -/
theorem C29_ecma_refuted :
    outcome (compS lateRead) 0 100 = some ⟨0, .undef, [("y", .num 10), ("x", .num 5)], .undef, none⟩ ∧
    (evalV Demo.prim () (.bin .add (.var "x") (.assign "x" (.lit (.num 5))))
      ⟨⟨[("x", .num 1)], 0⟩, DV.undef, none⟩).1 = some (.num 6) := by
  decide +kernel

/-! ### C30: statements -/

/-- How a program whose source execution ends with completion `o` ends on the machine. -/
def haltOf {V S : Type} : Out V → S → Halt V S
  | .normal, s => .done s
  | .ret v, s => .ret v s
  | .thr _, s => .error s
  | .abort, s => .error s
  | .brk _, _ => .bug
  | .cont _, _ => .bug

theorem good_program (s : Stmt) (hs : okS [] s = true) (d0 n : Nat) (st : P.State) (sc : P.Sc) :
    (evalS P n s d0 sc st = none → Long P (compS s) d0 n (start P st sc)) ∧
    (∀ o st', evalS P n s d0 sc st = some (o, st') →
      Halts P (compS s) d0 st sc (haltOf o st') ∧ (∀ l, o ≠ .brk l) ∧ (∀ l, o ≠ .cont l)) := by
  have h := compS_ok (P := P) (F := compS s) (d0 := d0) (n := n) s [] [] sc st 0 []
    (fits_whole) hs inside_nil tok_nil
  simp only [List.length_nil, Nat.add_zero, Nat.zero_add] at h
  constructor
  · intro he; rw [he] at h; exact h
  · intro o st' he
    rw [he] at h
    cases o with
    | normal =>
      refine ⟨?_, by simp, by simp⟩
      refine To.trans h (To.step ?_)
      simp [step, haltOf]
    | ret v => exact ⟨h, by simp, by simp⟩
    | abort => exact ⟨h, by simp, by simp⟩
    | thr b =>
      obtain ⟨ip, j, _, _, _, h⟩ := h
      exact ⟨h, by simp, by simp⟩
    | brk l => obtain ⟨ip, t, ex, _, _, h, _⟩ := h; simp [lookupJ] at h
    | cont l => obtain ⟨ip, t, ex, _, _, h, _⟩ := h; simp [lookupJ] at h

/-- **C30, partial.**  For every program whose `break`s and `continue`s have a destination and do not
leave a `for-in` or `switch` from inside a try statement with a finally block: the machine stops if
and only if the source execution ends, and then with the same result and the same state.  In
particular the machine runs forever exactly when the source program does.  Missing: programs outside
`okS`; see the refutations. -/
theorem C30_program_partial (s : Stmt) (hs : okS [] s = true) (d0 : Nat) (st : P.State) (sc : P.Sc)
    (h : Halt P.V P.State) :
    Halts P (compS s) d0 st sc h ↔
      ∃ n o st', evalS P n s d0 sc st = some (o, st') ∧ h = haltOf o st' := by
  constructor
  · intro hh
    obtain ⟨n, hn⟩ := hh
    obtain ⟨h1, h2⟩ := good_program (P := P) s hs d0 n st sc
    rcases he : evalS P n s d0 sc st with _ | ⟨o, st'⟩
    · obtain ⟨c, hc⟩ := h1 he
      rw [hn] at hc; cases hc
    · exact ⟨n, o, st', he, To.halt_unique ⟨n, hn⟩ (h2 o st' he).1⟩
  · rintro ⟨n, o, st', he, rfl⟩
    exact ((good_program (P := P) s hs d0 n st sc).2 o st' he).1

/-- **C30, partial.**  The machine never gets into an inconsistent state (operand stack underflow,
jump out of a try block that is not on the try list) on such a program. -/
theorem C30_no_bug_partial (s : Stmt) (hs : okS [] s = true) (d0 : Nat) (st : P.State) (sc : P.Sc) :
    ¬ Halts P (compS s) d0 st sc .bug := by
  rw [C30_program_partial s hs]
  rintro ⟨n, o, st', he, hh⟩
  obtain ⟨_, h1, h2⟩ := (good_program (P := P) s hs d0 n st sc).2 o st' he
  cases o with
  | brk l => exact h1 l rfl
  | cont l => exact h2 l rfl
  | normal => simp [haltOf] at hh
  | ret v => simp [haltOf] at hh
  | thr v => simp [haltOf] at hh
  | abort => simp [haltOf] at hh

/-- **C30, partial.**  Stack balance: a statement placed anywhere in any code and run on any operand
stack leaves, on normal completion, that very stack. -/
theorem C30_balanced_partial (s : Stmt) (hs : okS [] s = true) (pre post : List Instr) (d0 n : Nat)
    (stk : List P.SV) (st st' : P.State) (sc : P.Sc)
    (he : evalS P n s d0 sc st = some (.normal, st')) :
    To P (pre ++ compS s ++ post) d0 ⟨pre.length, stk, [], st, sc⟩
      (.inl ⟨pre.length + (compS s).length, stk, [], st', sc⟩) := by
  have h := compS_ok (P := P) (F := pre ++ compS s ++ post) (d0 := d0) (n := n) s [] [] sc st
    pre.length stk fits_self hs inside_nil tok_nil
  simp only [List.length_nil, Nat.add_zero] at h
  rw [he] at h
  exact h

/-- A program with nested loops, a labelled continue out of an inner `while`, a `switch` with fall
through, and a `for-in`, all within the hypothesis. -/
def nested : Stmt :=
  .seq (setN "i" 0)
  (.whileS (some "L") (.bin .less (.var "i") (.lit (.num 3)))
    (.seq (.expr (.inc true false "i"))
    (.forIn none (.var "k") false (.lit (.num 2))
      (.switch none (.var "k") (.cons (some (.lit (.num 1))) (.cont (some "L"))
        (.cons none (.brk none) .nil))))))

example : okS [] nested = true ∧
    outcome (compS nested) 0 400 =
      some ⟨0, .undef, [("k", .num 1), ("i", .num 3)], .undef, none⟩ := by decide +kernel

/-- `while (i < 1) { i = 1; for (k in o) { try { try { break L } finally { throw 1 } } catch(e){} } }`
with the label `L` on the `while`. -/
def crossing : Stmt :=
  .seq (setN "i" 0)
  (.whileS (some "L") (.bin .less (.var "i") (.lit (.num 1)))
    (.seq (setN "i" 1)
    (.forIn none (.var "k") false (.lit (.num 2))
      (.tryS (.tryS (.brk (some "L")) none .nop true (.throw (.lit (.num 1))))
        (some "e") .nop false .nop))))

/-- **C30, refuted in general.**  A `break` that leaves a `for-in` drops the iterator before the
finally block it crosses runs; when that finally block throws and the exception is caught inside the
loop, the next round finds no iterator.  The source execution completes normally; the machine stops
with an error. -/
theorem C30_crossing_refuted :
    (evalS Demo.prim 100 crossing 0 () s0).map (fun r => match r.1 with | .normal => true | _ => false)
      = some true ∧
    outcome (compS crossing) 0 400 =
      some ⟨2, .undef, [("e", .num 1), ("k", .num 1), ("i", .num 1)], .undef,
        some (.str "bad loop")⟩ := by
  decide +kernel

/-- **C30, refuted in general.**  A `break` outside any loop or switch is accepted by the compiler
and is an error only when it is executed. -/
theorem C30_stray_break_refuted :
    outcome (compS (.seq (setN "x" 1) (.brk none))) 0 100 =
      some ⟨2, .undef, [("x", .num 1)], .undef, some (.str "invalid cmd")⟩ := by
  decide +kernel

/-! ### C31: finally -/

/-- **C31, partial.**  A try statement with a finally block `f`, placed anywhere in any code, run on
any stack and with any try statements active around it.  If the try and catch blocks complete
normally, by an exception, `break` or `continue`, control reaches the code of `f`, in the state the
blocks left and with the operand stack of the start, and the whole statement completes as `f`
started in that state decides: with the pending completion when `f` completes normally, else as `f`
does.  Missing: leaving by `return`, and a `throw` statement in the catch block when no other try
statement is active; see the refutations. -/
theorem C31_finally_runs_partial {F : List Instr} {env : List EItem} (b : Stmt) (x : Option String)
    (c f : Stmt) (d0 n pc : Nat) (stk : List P.SV) (tl : List (Try P.Sc)) (st s1 : P.State)
    (sc : P.Sc) (o : Out P.V)
    (hF : Fits F env pc (compS (.tryS b x c true f)))
    (hok : okS (erase env) (.tryS b x c true f) = true)
    (hT : TOk env (pc + (compS (.tryS b x c true f)).length))
    (ho : tryPart P n b x c (d0 + tl.length) sc st = some (o, s1))
    (hr : ∀ v, o ≠ .ret v) (ha : o ≠ .abort) :
    (∃ pcf t, Fits F env pcf (compS f) ∧
      To P F d0 ⟨pc, stk, tl, st, sc⟩ (.inl ⟨pcf, stk, t :: tl, s1, sc⟩)) ∧
    evalS P n (.tryS b x c true f) (d0 + tl.length) sc st =
      (evalS P n f (d0 + tl.length + 1) sc s1).map (fun r => (afterFin o r.1, r.2)) := by
  constructor
  · have h := try_reach (P := P) (F := F) (d0 := d0) (n := n) (tl := tl) (stk := stk) (sc := sc)
      (st := st) (compS_ok n b) (compS_ok n c) hF hok hT
    rw [ho] at h
    have h' : ∃ lo' stk' sc', Pend env true stk o lo' stk' ∧
        To P F d0 ⟨pc, stk, tl, st, sc⟩ (.inl ⟨(entryOf b x c true f pc stk.length sc).fstart, stk',
          { (entryOf b x c true f pc stk.length sc) with last := lo' } :: tl, s1, sc'⟩) := by
      cases o with
      | ret v => exact absurd rfl (hr v)
      | abort => exact absurd rfl ha
      | normal => exact h
      | thr v => exact h
      | brk v => exact h
      | cont v => exact h
    obtain ⟨lo', stk', sc', hp, hto⟩ := h'
    have hstk := Pend.stk_eq hp rfl
    subst hstk
    simp only [compS, fits_append, List.length_append, List.length_cons, List.length_nil,
      Nat.zero_add, ← Nat.add_assoc, if_true] at hF
    obtain ⟨⟨⟨f1, f2, f3⟩, ⟨f4, f5⟩, f6⟩, ⟨f7, f8⟩, f9⟩ := hF
    have hpc : (entryOf b x c true f pc stk'.length sc).fstart
        = pc + 1 + (compS b).length + 1 + 1 + (if x.isSome then compS c else []).length + 1 := by
      simp only [entryOf, tryEntry]; omega
    refine ⟨(entryOf b x c true f pc stk'.length sc).fstart + 1,
      { (entryOf b x c true f pc stk'.length sc) with last := lo' }, ?_, hto.trans (To.step ?_)⟩
    · exact fits_at (by rw [hpc]) f8
    · have h7 : F[(entryOf b x c true f pc stk'.length sc).fstart]? = some .sfinal := by
        rw [hpc]; exact fits1 f7 (by simp)
      simp only [step, h7, exec, finish]
      rfl
  · rw [evalS_try, ho]
    cases o with
    | ret v => exact absurd rfl (hr v)
    | abort => exact absurd rfl ha
    | normal => simp only [leaveE, finE, if_true]; rcases evalS P n f _ sc s1 with _ | ⟨_, _⟩ <;> rfl
    | thr v => simp only [leaveE, finE, if_true]; rcases evalS P n f _ sc s1 with _ | ⟨_, _⟩ <;> rfl
    | brk v => simp only [leaveE, finE, if_true]; rcases evalS P n f _ sc s1 with _ | ⟨_, _⟩ <;> rfl
    | cont v => simp only [leaveE, finE, if_true]; rcases evalS P n f _ sc s1 with _ | ⟨_, _⟩ <;> rfl

/-- `while (1) { try { break } finally { g = 1 } }` leaves through the finally block. -/
def leaving : Stmt :=
  .whileS none (.lit (.num 1)) (.tryS (.brk none) none .nop true (setN "g" 1))

example : okS [] leaving = true ∧
    outcome (compS leaving) 0 100 = some ⟨0, .undef, [("g", .num 1)], .undef, none⟩ := by
  decide +kernel

/-- **C31, refuted for `return`.**  `try { return 1 } finally { g = 1 }` returns without running the
finally block. -/
theorem C31_return_refuted :
    outcome (compS (.tryS (.ret (some (.lit (.num 1)))) none .nop true (setN "g" 1))) 0 100
      = some ⟨1, .num 1, [], .undef, none⟩ := by
  decide +kernel

/-- **C31, refuted for `throw` in a catch block.**
`try { throw 1 } catch(e) { throw 2 } finally { g = 1 }` at the outermost level ends with the error
and the finally block does not run; inside another try statement it does. -/
theorem C31_throw_in_catch_refuted :
    outcome (compS (.tryS (.throw (.lit (.num 1))) (some "e") (.throw (.lit (.num 2))) true
      (setN "g" 1))) 0 100 = some ⟨2, .undef, [("e", .num 1)], .num 2, none⟩ ∧
    outcome (compS (.tryS (.throw (.lit (.num 1))) (some "e") (.throw (.lit (.num 2))) true
      (setN "g" 1))) 1 100 = some ⟨2, .undef, [("g", .num 1), ("e", .num 1)], .num 2, none⟩ := by
  decide +kernel

/-! ### C32: the exception value -/

/-- **C32, partial.**  `try { b } finally { f }` where `b` raises an exception and `f`, which contains
no try statement, completes normally: the statement raises the exception again, and an enclosing
catch clause receives the value it would have received without the `try`-`finally`.  Missing: finally
blocks that handle exceptions themselves, directly or in called functions; see the refutation. -/
theorem C32_value_kept_partial (hP : RegPrim P) (b f : Stmt) (hf : noTry f = true) (n d : Nat)
    (sc : P.Sc) (st s1 s2 : P.State) (bt : Bool)
    (hb : evalS P n b (d + 1) sc st = some (.thr bt, s1))
    (hfin : evalS P n f (d + 1) sc s1 = some (.normal, s2)) :
    evalS P n (.tryS b none .nop true f) d sc st = some (.thr false, s2) ∧
    (takeExc P s2).1 = (takeExc P s1).1 := by
  constructor
  · rw [evalS_try, tryPart, hb]
    simp only [leaveE, finE, if_true, hfin, afterFin]
  · obtain ⟨h1, h2⟩ := evalS_reg hP n f hf (d + 1) sc s1 _ _ hfin trivial
    unfold takeExc
    rw [h1, h2]
    split <;> rfl

/-- **C32, partial.**  A value other than `undefined` thrown by a `throw` statement is what the
catch clause receives. -/
theorem C32_thrown_value_partial (e : Expr) (n d : Nat) (sc : P.Sc) (st s1 : P.State) (v : P.V)
    (he : (bindM (evalE P sc e) fun a => now P a) st = (some v, s1)) (hv : P.isUndef v = false) :
    ∃ s2, evalS P n (.throw e) d sc st = some (.thr true, s2) ∧ (takeExc P s2).1 = v := by
  refine ⟨{ s1 with last := v }, ?_, ?_⟩
  · simp only [evalS, opS, he]
  · simp only [takeExc, hv]; rfl

theorem demo_reg : RegPrim Demo.prim where
  lit := fun _ _ s a s' h => by cases h; exact ⟨rfl, rfl⟩
  lookup := fun _ _ s a s' h => by cases h; exact ⟨rfl, rfl⟩
  write := fun _ _ s a s' h => by cases h; exact ⟨rfl, rfl⟩
  un := fun _ _ s a s' h => by cases h; exact ⟨rfl, rfl⟩
  bin := by
    intro op v w s a s' h
    have h : Demo.bin op v w s = (some a, s') := h
    have h2 : (Demo.bin op v w s).2 = s := by cases op <;> cases v <;> cases w <;> rfl
    rw [h] at h2
    exact h2 ▸ ⟨rfl, rfl⟩
  sub := by intro v w s a s' h; cases v <;> cases h <;> exact ⟨rfl, rfl⟩
  subref := fun _ _ s a s' h => by cases h; exact ⟨rfl, rfl⟩
  put := fun _ _ _ s a s' h => by cases h
  inc := by
    intro up post r s a s' h
    have h : (match Demo.get r s.h with
      | .num n => (some (.num n), Demo.set r (.num (if up then n + 1 else n - 1)) s)
      | _ => Demo.fail "not a number" s : Option DV × Demo.DS) = (some a, s') := h
    split at h <;> cases h
    exact ⟨rfl, rfl⟩
  toObj := fun _ s a s' h => by cases h; exact ⟨rfl, rfl⟩
  call := fun _ _ _ s a s' h => by cases h
  new := fun _ _ s a s' h => by cases h
  array := fun _ s a s' h => by cases h; exact ⟨rfl, rfl⟩
  object := fun _ s a s' h => by cases h; exact ⟨rfl, rfl⟩
  key := fun _ _ s a s' h => by cases h; exact ⟨rfl, rfl⟩
  next := by
    intro o it r s a s' h
    have h : Demo.next it r s = (some a, s') := h
    unfold Demo.next at h
    split at h
    · cases h
    · split at h <;> cases h <;> exact ⟨rfl, rfl⟩
  del1 := by
    intro v s a s' h
    cases v <;> cases h <;> exact ⟨rfl, rfl⟩
  del2 := fun _ _ s a s' h => by cases h; exact ⟨rfl, rfl⟩

/-- A concrete case of the hypotheses of `C32_value_kept_partial`. -/
example : RegPrim Demo.prim ∧ noTry (setN "g" 1) = true ∧
    (∃ s1, evalS Demo.prim 5 (.throw (.lit (.num 7))) 1 () s0 = some (.thr true, s1) ∧
      ∃ s2, evalS Demo.prim 5 (setN "g" 1) 1 () s1 = some (.normal, s2)) :=
  ⟨demo_reg, by decide, _, rfl, _, rfl⟩

/-- **C32, refuted in general.**  A finally block that completes normally after catching an exception
of its own loses the pending exception's value: the outer catch receives an empty string instead of
the 1 that was thrown.  And a thrown `undefined` arrives as an empty string. -/
theorem C32_value_lost_refuted :
    outcome (compS (.tryS (.tryS (.throw (.lit (.num 1))) none .nop true
        (.tryS (.throw (.lit (.num 2))) (some "i") .nop false .nop))
      (some "e") .nop false .nop)) 0 100
      = some ⟨0, .undef, [("e", .str ""), ("i", .num 2)], .undef, none⟩ ∧
    outcome (compS (.tryS (.throw (.lit .undef)) (some "e") .nop false .nop)) 0 100
      = some ⟨0, .undef, [("e", .str "")], .undef, none⟩ := by
  decide +kernel

/-! ### C33: the operand stack at a catch block -/

theorem setSp_length (n : Nat) (stk : List P.SV) : (setSp P n stk).length = n := by
  unfold setSp
  split
  · simp; omega
  · simp; omega

theorem doThrow_depth {F : List Instr} {d0 ip : Nat} {tl : List (Try P.Sc)} {stk : List P.SV}
    {st : P.State} {sc : P.Sc} {c : Cfg P} (h : doThrow P F d0 ip tl stk st sc = .inl c) :
    ∃ t r, c.tl = t :: r ∧ (t :: r).length ≤ tl.length ∧ c.stk.length = t.tsp := by
  induction tl generalizing stk with
  | nil => simp [doThrow] at h
  | cons t r ih =>
    simp only [doThrow] at h
    split at h
    · cases h
      exact ⟨t, r, rfl, Nat.le_refl _, setSp_length _ _⟩
    · split at h
      · split at h
        · cases h
        · cases h
          exact ⟨_, r, rfl, by simp, setSp_length _ _⟩
      · split at h
        · obtain ⟨t', r', h1, h2, h3⟩ := ih h
          exact ⟨t', r', h1, by simp only [List.length_cons] at h2 ⊢; omega, h3⟩
        · cases h

/-- **C33.**  Depth, for any code whatever: when an instruction raises an exception and the activation
goes on (in a catch or finally block), the operand stack has exactly the depth recorded by the try
statement that took it. -/
theorem C33_depth (F : List Instr) (d0 : Nat) (c c' : Cfg P) (ins : Instr) (c1 : Cfg P)
    (hF : F[c.pc]? = some ins) (hx : exec P c ins = .raise c1) (hs : step P F d0 c = .inl c') :
    ∃ t r, c'.tl = t :: r ∧ c'.stk.length = t.tsp := by
  simp only [step, hF, hx, finish] at hs
  obtain ⟨t, r, h1, _, h3⟩ := doThrow_depth hs
  exact ⟨t, r, h1, h3⟩

/-- Entry `t` is one of `old`, up to its pending completion. -/
def Kept (old : List (Try P.Sc)) (t : Try P.Sc) : Prop :=
  ∃ t' ∈ old, t.tsp = t'.tsp ∧ t.tstart = t'.tstart ∧ t.cstart = t'.cstart

theorem Kept.self {old : List (Try P.Sc)} {t : Try P.Sc} (h : t ∈ old) : Kept old t :=
  ⟨t, h, rfl, rfl, rfl⟩

/-- The configuration an instruction asks to go on with. -/
def Act.cfg : Act P → Option (Cfg P)
  | .go c => some c
  | .raise c => some c
  | .jump c _ => some c
  | .halt _ => none

theorem exec_tl (c c1 : Cfg P) (ins : Instr) (h : (exec P c ins).cfg = some c1) :
    ∀ t ∈ c1.tl, t ∈ c.tl ∨ (t.tsp = c.stk.length ∧ t.tstart = c.pc) := by
  cases ins <;> simp only [exec, pushR] at h
  all_goals (repeat' split at h)
  all_goals (first | (simp only [Act.cfg, Option.some.injEq] at h; subst h; intro t ht) |
    (simp [Act.cfg] at h))
  all_goals (first | exact Or.inl ht | skip)
  all_goals (first
    | (refine Or.inl ?_; rename_i heq _ _ _ _; simp_all; done)
    | (simp only [List.mem_cons] at ht
       rcases ht with rfl | ht
       · exact Or.inr ⟨rfl, rfl⟩
       · exact Or.inl ht)
    | (simp_all; done))

theorem doThrow_kept {F : List Instr} {d0 ip : Nat} {tl : List (Try P.Sc)} {stk : List P.SV}
    {st : P.State} {sc : P.Sc} {c : Cfg P} (h : doThrow P F d0 ip tl stk st sc = .inl c) :
    ∀ t ∈ c.tl, Kept tl t := by
  induction tl generalizing stk with
  | nil => simp [doThrow] at h
  | cons t r ih =>
    simp only [doThrow] at h
    split at h
    · cases h; exact fun t ht => Kept.self ht
    · split at h
      · split at h
        · cases h
        · cases h
          intro t' ht
          simp only [List.mem_cons] at ht
          rcases ht with rfl | ht
          · exact ⟨t, by simp, rfl, rfl, rfl⟩
          · exact Kept.self (by simp [ht])
      · split at h
        · intro t' ht
          obtain ⟨a, ha, hb⟩ := ih h t' ht
          exact ⟨a, by simp [ha], hb⟩
        · cases h

theorem doJmp_kept {ip target : Nat} {tl : List (Try P.Sc)} {stk : List P.SV}
    {st : P.State} {sc : P.Sc} {c : Cfg P} (h : doJmp P ip target tl stk st sc = .inl c) :
    ∀ t ∈ c.tl, Kept tl t := by
  induction tl generalizing stk with
  | nil => simp only [doJmp] at h; cases h; simp
  | cons t r ih =>
    simp only [doJmp] at h
    split at h
    · cases h; exact fun t ht => Kept.self ht
    · split at h
      · cases h
        intro t' ht
        simp only [List.mem_cons] at ht
        rcases ht with rfl | ht
        · exact ⟨t, by simp, rfl, rfl, rfl⟩
        · exact Kept.self (by simp [ht])
      · split at h
        · intro t' ht
          obtain ⟨a, ha, hb⟩ := ih h t' ht
          exact ⟨a, by simp [ha], hb⟩
        · cases h

/-- **C33.**  What the try statement records is the depth on its entry, and no instruction of any
code changes the recorded depth of an active try statement: each entry of the new try list is an old
one up to its pending completion, or is the one pushed on entry, which records the current depth. -/
theorem C33_recorded (F : List Instr) (d0 : Nat) (c c' : Cfg P) (hs : step P F d0 c = .inl c') :
    ∀ t ∈ c'.tl, (∃ t' ∈ c.tl, t.tsp = t'.tsp ∧ t.tstart = t'.tstart ∧ t.cstart = t'.cstart) ∨
      (t.tsp = c.stk.length ∧ t.tstart = c.pc) := by
  unfold step at hs
  rcases hF : F[c.pc]? with _ | ins
  · rw [hF] at hs; cases hs
  rw [hF] at hs
  simp only at hs
  have hx := exec_tl c
  have fin : ∀ c1 : Cfg P, (exec P c ins).cfg = some c1 → (∀ t ∈ c'.tl, Kept c1.tl t) →
      ∀ t ∈ c'.tl, Kept c.tl t ∨ (t.tsp = c.stk.length ∧ t.tstart = c.pc) := by
    intro c1 h1 h2 t ht
    obtain ⟨t', m1, m2, m3, m4⟩ := h2 t ht
    rcases hx c1 ins h1 t' m1 with h | ⟨h, h'⟩
    · exact Or.inl ⟨t', h, m2, m3, m4⟩
    · exact Or.inr ⟨m2.trans h, m3.trans h'⟩
  cases ha : exec P c ins with
  | go c1 =>
    rw [ha] at hs fin
    simp only [finish] at hs
    cases hs
    exact fin c' rfl fun t ht => Kept.self ht
  | raise c1 =>
    rw [ha] at hs fin
    exact fin c1 rfl (doThrow_kept hs)
  | jump c1 t =>
    rw [ha] at hs fin
    exact fin c1 rfl (doJmp_kept hs)
  | halt h => rw [ha] at hs; cases hs

/-- **C33, partial.**  For a try statement in a program within `okS`, placed anywhere, not only the
depth but the whole operand stack is the one on entry when control reaches the catch clause. -/
theorem C33_catch_stack_partial {F : List Instr} {env : List EItem} (b : Stmt) (x : Option String)
    (c : Stmt) (hasF : Bool) (f : Stmt) (d0 n pc : Nat) (stk : List P.SV) (tl : List (Try P.Sc))
    (st s1 : P.State) (sc : P.Sc) (bt : Bool)
    (hF : Fits F env pc (compS (.tryS b x c hasF f)))
    (hok : okS (erase env) (.tryS b x c hasF f) = true)
    (hT : TOk env (pc + (compS (.tryS b x c hasF f)).length))
    (hb : evalS P n b (d0 + tl.length + 1) sc st = some (.thr bt, s1)) :
    ∃ pcc t, F[pcc]? = some (.scatch x) ∧
      To P F d0 ⟨pc, stk, tl, st, sc⟩ (.inl ⟨pcc, stk, t :: tl, s1, sc⟩) := by
  obtain ⟨h1, h2⟩ := catch_reach (P := P) (F := F) (d0 := d0) (tl := tl) (stk := stk) (sc := sc)
    (compS_ok n b) hF hok hT hb
  exact ⟨_, _, h2, h1⟩

/-- A concrete case of the hypotheses: `try { throw 1 } catch(e) {}` with two entries on the stack. -/
example : Fits (compS (.tryS (.throw (.lit (.num 1))) (some "e") .nop false .nop)) [] 0
      (compS (.tryS (.throw (.lit (.num 1))) (some "e") .nop false .nop)) ∧
    okS [] (.tryS (.throw (.lit (.num 1))) (some "e") .nop false .nop) = true ∧
    TOk [] 9 ∧
    ∃ s1, evalS Demo.prim 3 (.throw (.lit (.num 1))) 1 () s0 = some (.thr true, s1) :=
  ⟨fits_whole, by decide, tok_nil, _, rfl⟩

/-- The operand stack when the machine first reaches a catch clause. -/
def atCatch (F : List Instr) : Nat → Cfg Demo.prim → Option (List (Option DV))
  | 0, _ => none
  | n + 1, c =>
    match F[c.pc]? with
    | some (.scatch (some _)) =>
      some (c.stk.map fun a => match a with | .val v => some v | _ => none)
    | _ =>
      match step Demo.prim F 0 c with
      | .inl c' => atCatch F n c'
      | .inr _ => none

/-- **C33, refuted for the contents.**  In the program of `C30_crossing_refuted` the try statement is
entered with the iterator and the object of the `for-in` on the stack; at the catch clause
these two are `undefined` and the thrown value.  (With an ordinary `throw` in place of the `break` they are there.) -/
theorem C33_contents_refuted :
    atCatch (compS crossing) 400 (start Demo.prim s0 ()) = some [some .undef, some (.num 1)] ∧
    atCatch (compS (.forIn none (.var "k") false (.lit (.num 2))
        (.tryS (.throw (.lit (.num 1))) (some "e") .nop false .nop))) 400 (start Demo.prim s0 ())
      = some [some (.str "iter"), some (.num 2)] := by
  decide +kernel

end Verif.Vm
