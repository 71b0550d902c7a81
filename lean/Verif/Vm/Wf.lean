import Verif.Vm.Syntax

/-!
Static conditions on programs, on the syntax tree only.
-/

namespace Verif.Vm

/-- What encloses a statement: a loop or switch (label, number of operand stack entries it keeps while
running: 2 for `for-in`, 1 for `switch`, else 0; whether only `break` may address it), or a try
statement that has a finally block. -/
inductive SItem
  | loop (label : Option String) (pops : Nat) (brkOnly : Bool)
  | fin

/-- Number of operand stack entries a `break`/`continue` has to drop to get to its destination, or
`none` when there is no destination. -/
def resolveS : List SItem → Res → Option String → Option Nat
  | [], _, _ => none
  | .fin :: r, ty, l => resolveS r ty l
  | .loop label pops bo :: r, ty, l =>
    if l.isSome ∧ l ≠ label then (resolveS r ty l).map (· + pops)
    else match ty with
      | .cont => if bo then (resolveS r ty l).map (· + pops) else some 0
      | .brk => some 0

/-- A `break`/`continue` has a destination, and it does not leave a `for-in` or `switch` that lies
outside a finally block it crosses. -/
def okJ : List SItem → Res → Option String → Bool
  | [], _, _ => false
  | .fin :: r, ty, l => okJ r ty l && resolveS r ty l == some 0
  | .loop label _ bo :: r, ty, l =>
    if l.isSome ∧ l ≠ label then okJ r ty l
    else match ty with
      | .cont => if bo then okJ r ty l else true
      | .brk => true

mutual
/-- Every `break`/`continue` in the statement satisfies `okJ`. -/
def okS : List SItem → Stmt → Bool
  | E, .seq a b => okS E a && okS E b
  | E, .ifThen _ a => okS E a
  | E, .ifElse _ a b => okS E a && okS E b
  | E, .whileS l _ s => okS (.loop l 0 false :: E) s
  | E, .doWhile l s _ => okS (.loop l 0 false :: E) s
  | E, .forS l _ _ _ s => okS (.loop l 0 false :: E) s
  | E, .forIn l _ _ _ s => okS (.loop l 2 false :: E) s
  | E, .switch l _ cs => okC (.loop l 1 true :: E) cs
  | E, .brk l => okJ E .brk l
  | E, .cont l => okJ E .cont l
  | E, .tryS b x c hasF f =>
    okS (if hasF then .fin :: E else E) b &&
    (x.isNone || okS (if hasF then .fin :: E else E) c) && (!hasF || okS E f)
  | _, _ => true
/-- The same for the clauses of a switch. -/
def okC : List SItem → Cases → Bool
  | _, .nil => true
  | E, .cons _ b r => okS E b && okC E r
end

end Verif.Vm
