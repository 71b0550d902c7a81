import Verif.Vm.Ecma
import Verif.Vm.SwitchOk

/-!
A small concrete instance of the primitives: integers, strings, global variables, a counting
`for-in`.  It serves the concrete programs that meet the hypotheses of the theorems and the
counterexamples; the theorems themselves hold for every instance.
-/

namespace Verif.Vm.Demo

/-- Values. -/
inductive DV
  | undef
  | num (n : Int)
  | str (s : String)
deriving DecidableEq, Repr

/-- Global variables and the number of rounds the running `for-in` still has to make. -/
structure DH where
  vars : List (String × DV)
  cnt : Nat
deriving DecidableEq, Repr

abbrev DS := St DV DH

/-- The value of a variable. -/
def get (x : String) (h : DH) : DV := (h.vars.lookup x).getD .undef

/-- Set a variable. -/
def set (x : String) (v : DV) (s : DS) : DS :=
  { s with h := { s.h with vars := (x, v) :: s.h.vars.filter (fun p => p.1 != x) } }

/-- Success. -/
def ok {α : Type} (a : α) : MM DV DH α := fun s => (some a, s)

/-- Failure with a message. -/
def fail {α : Type} (m : String) : MM DV DH α := fun s =>
  (none, { s with msg := some (s.msg.getD (.str m)) })

/-- Truth value. -/
def truthy : DV → Bool
  | .undef => false
  | .num n => n != 0
  | .str s => s != ""

/-- Binary operators. -/
def bin : BinOp → DV → DV → MM DV DH DV
  | .add, .num a, .num b => ok (.num (a + b))
  | .sub, .num a, .num b => ok (.num (a - b))
  | .less, .num a, .num b => ok (.num (if a < b then 1 else 0))
  | .strictEq, a, b => ok (.num (if a = b then 1 else 0))
  | _, _, _ => ok .undef

/-- One round of a `for-in`. -/
def next (it : DV) (r : String) : MM DV DH DV := fun s =>
  if it ≠ .str "iter" then fail "bad loop" s else
  match s.h.cnt with
  | 0 => (some (.num 0), s)
  | n + 1 => (some (.num 1), { set r (.num n) s with h := { (set r (.num n) s).h with cnt := n } })

/-- The instance. -/
def prim : Prim where
  V := DV
  H := DH
  Sc := Unit
  Ref := String
  undef := .undef
  isUndef := fun v => v == .undef
  truthy := truthy
  emptyMsg := .str ""
  reservedMsg := .str "invalid cmd"
  lvalueMsg := .str "operand not left value"
  lit := fun l _ => ok (match l with
    | .num n => .num n
    | .bool b => .num (if b then 1 else 0)
    | .str s => .str s
    | _ => .undef)
  lookup := fun x _ => ok x
  read := get
  write := fun r v s => (some (), set r v s)
  un := fun _ v => ok v
  bin := bin
  sub := fun v _ => match v with
    | .undef => fail "subscript of undefined"
    | _ => ok .undef
  subref := fun _ _ => ok (.inl .undef)
  put := fun _ _ _ => fail "not an object"
  inc := fun up _ r s =>
    match get r s.h with
    | .num n => (some (.num n), set r (.num (if up then n + 1 else n - 1)) s)
    | _ => fail "not a number" s
  toObj := fun v => ok v
  call := fun _ _ _ => fail "not a function"
  new := fun _ _ => fail "not a function"
  array := fun _ => ok .undef
  object := fun _ => ok .undef
  key := fun _ o s => (some (o, .str "iter"),
    { s with h := { s.h with cnt := match o with | .num n => n.toNat | _ => 0 } })
  next := fun _ it r => next it r
  del1 := fun a s => match a with
    | .ref r => (some (), set r .undef s)
    | _ => (some (), s)
  del2 := fun _ _ => ok ()
  catchScope := fun x v _ s => (some (), set x v s)

theorem get_set (x : String) (v : DV) (s : DS) : get x (set x v s).h = v := by
  simp [get, set, List.lookup]

/-- The instance satisfies the assumption of the agreement theorem with ECMAScript. -/
theorem calm : CalmPrim prim where
  lit := fun _ _ _ _ => rfl
  lookup := fun _ _ _ _ => rfl
  un := fun _ _ _ _ => rfl
  bin := by
    intro op v w s r
    show get r (bin op v w s).2.h = get r s.h
    cases op <;> cases v <;> cases w <;> rfl
  sub := by intro v _ s r; cases v <;> rfl
  toObj := fun _ _ _ => rfl
  array := fun _ _ _ => rfl
  object := fun _ _ _ => rfl
  write_read := by
    intro r v s s' h
    have : s' = set r v s := by
      have := congrArg Prod.snd h
      exact this.symm
    rw [this]
    exact get_set r v s

/-- The starting state. -/
def s0 : prim.State := ⟨⟨[], 0⟩, .undef, none⟩

instance : DecidableEq prim.V := inferInstanceAs (DecidableEq DV)
instance : DecidableEq prim.H := inferInstanceAs (DecidableEq DH)

/-- What is observed of a run: how it stopped (0 end of code, 1 return, 2 error, 3 internal bug), the
returned value, the variables and the exception registers. -/
structure Obs where
  kind : Nat
  val : DV
  vars : List (String × DV)
  last : DV
  msg : Option DV
deriving DecidableEq, Repr

/-- A readable summary of how the machine stops within `n` rounds. -/
def outcome (F : List Instr) (d0 n : Nat) : Option Obs :=
  match run prim F d0 n (start prim s0 ()) with
  | .inl _ => none
  | .inr (.done s) => some ⟨0, .undef, s.h.vars, s.last, s.msg⟩
  | .inr (.ret v s) => some ⟨1, v.getD DV.undef, s.h.vars, s.last, s.msg⟩
  | .inr (.error s) => some ⟨2, .undef, s.h.vars, s.last, s.msg⟩
  | .inr .bug => some ⟨3, .undef, [], .undef, none⟩

/-- `x = n` -/
def setN (x : String) (n : Int) : Stmt := .expr (.assign x (.lit (.num n)))


end Verif.Vm.Demo
