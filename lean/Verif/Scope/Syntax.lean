import Verif.Basic

/-!
A part of the language: variables, functions, calls, exceptions (src/parser.y).  The trees carry at each function a
note of type `α`; `Unit` for a program as it is written.
-/

namespace Verif.Scope

abbrev Name := String

/-- How a function is written (src/parser.y:194-212, 487-506, 635-644, 928-939): `function (…) {…}`, an arrow
function, or the function of a `get` or `set` item of an object literal. -/
inductive Kind where
  | normal
  | arrow
  | getter
  | setter
deriving DecidableEq, Repr

mutual

/-- Expressions.  `fn self f` is a function expression, with its name if it has one.  An object literal with a getter
or setter is represented by the function alone: reading or setting the property is calling it. -/
inductive Expr (α : Type) where
  | undef
  | num (n : Int)
  | var (x : Name)
  | asg (x : Name) (e : Expr α)
  | add (a b : Expr α)
  | fn (self : Option Name) (f : Fn α)
  | call (f : Expr α) (args : Args α)

/-- The arguments of a call. -/
inductive Args (α : Type) where
  | nil
  | cons (e : Expr α) (r : Args α)

/-- A function with its kind, parameters, body and note. -/
inductive Fn (α : Type) where
  | mk (kind : Kind) (params : List Name) (body : Stmt α) (note : α)

/-- Statements: `bare x` is `var x;`, `init x e` is `var x = e;`, `func x f` is `function x(…) {…}`. -/
inductive Stmt (α : Type) where
  | skip
  | expr (e : Expr α)
  | bare (x : Name)
  | init (x : Name) (e : Expr α)
  | func (x : Name) (f : Fn α)
  | seq (s t : Stmt α)
  | ite (c : Expr α) (s t : Stmt α)
  | loop (c : Expr α) (s : Stmt α)
  | ret (e : Expr α)
  | throw (e : Expr α)
  | tryCatch (s : Stmt α) (x : Name) (t : Stmt α)

end

variable {α : Type}

def Fn.kind : Fn α → Kind
  | .mk k _ _ _ => k
def Fn.params : Fn α → List Name
  | .mk _ p _ _ => p
def Fn.body : Fn α → Stmt α
  | .mk _ _ b _ => b
def Fn.note : Fn α → α
  | .mk _ _ _ a => a

mutual

/-- The tree without its notes. -/
def Expr.erase : Expr α → Expr Unit
  | .undef => .undef
  | .num n => .num n
  | .var x => .var x
  | .asg x e => .asg x e.erase
  | .add a b => .add a.erase b.erase
  | .fn s f => .fn s f.erase
  | .call f as => .call f.erase as.erase

def Args.erase : Args α → Args Unit
  | .nil => .nil
  | .cons e r => .cons e.erase r.erase

def Fn.erase : Fn α → Fn Unit
  | .mk k p b _ => .mk k p b.erase ()

def Stmt.erase : Stmt α → Stmt Unit
  | .skip => .skip
  | .expr e => .expr e.erase
  | .bare x => .bare x
  | .init x e => .init x e.erase
  | .func x f => .func x f.erase
  | .seq s t => .seq s.erase t.erase
  | .ite c s t => .ite c.erase s.erase t.erase
  | .loop c s => .loop c.erase s.erase
  | .ret e => .ret e.erase
  | .throw e => .throw e.erase
  | .tryCatch s x t => .tryCatch s.erase x t.erase

end

/-- The names declared in a body by `var` and function statements, not counting those in functions inside it. -/
def Stmt.declared : Stmt α → List Name
  | .bare x => [x]
  | .init x _ => [x]
  | .func x _ => [x]
  | .seq s t => s.declared ++ t.declared
  | .ite _ s t => s.declared ++ t.declared
  | .loop _ s => s.declared
  | .tryCatch s _ t => s.declared ++ t.declared
  | _ => []

/-- The function statements of a body, in the order in which they are written. -/
def Stmt.funcs : Stmt α → List (Name × Fn α)
  | .func x f => [(x, f)]
  | .seq s t => s.funcs ++ t.funcs
  | .ite _ s t => s.funcs ++ t.funcs
  | .loop _ s => s.funcs
  | .tryCatch s _ t => s.funcs ++ t.funcs
  | _ => []

theorem Stmt.declared_erase : ∀ s : Stmt α, s.erase.declared = s.declared
  | .skip => rfl
  | .expr _ => rfl
  | .bare _ => rfl
  | .init _ _ => rfl
  | .func _ _ => rfl
  | .seq s t => by simp only [Stmt.erase, Stmt.declared, s.declared_erase, t.declared_erase]
  | .ite _ s t => by simp only [Stmt.erase, Stmt.declared, s.declared_erase, t.declared_erase]
  | .loop _ s => by simp only [Stmt.erase, Stmt.declared, s.declared_erase]
  | .ret _ => rfl
  | .throw _ => rfl
  | .tryCatch s _ t => by simp only [Stmt.erase, Stmt.declared, s.declared_erase, t.declared_erase]

/-- What a program can see of a value without calling it. -/
inductive View where
  | undef
  | nan
  | err
  | num (n : Int)
  | func
deriving DecidableEq, Repr

/-- How a program ends. -/
inductive End where
  | normal
  | thrown (v : View)
deriving DecidableEq, Repr

end Verif.Scope
