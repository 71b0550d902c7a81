import Verif.Obj.Spec

/-! Concrete histories. -/

namespace Verif.Obj

def E0 : Env := ⟨100000, fun _ => true, fun _ => none, true, fun _ _ _ => none⟩

def kx : Key := .s (asc "x")

/-- The value of a variable after a history, and after it as ECMAScript says. -/
def seen (n x : Nat) (h : List Op) : Option Val := (run E0 (start n) h).map fun p => (p.1.var x).val
def wanted (n x : Nat) (h : List Op) : Option Val := (srun E0 (sstart n) h).map fun p => p.1.var x

/-- `p = {x: 1}; o = Object.create(p); o.x++; r = p.x` -/
def hInherit : List Op :=
  [.lit 2 (.num (some 1)), .mk 0 [(asc "x", 2)], .create 1 0 [], .inc 1 kx, .get 3 0 kx]

example : seen 4 3 hInherit = some (.num (some 2)) := by decide +kernel
example : wanted 4 3 hInherit = some (.num (some 1)) := by decide +kernel

/-- `a = {x: 1}; b = {}; Object.assign(b, a); b.x++; r = a.x` -/
def hAssign : List Op :=
  [.lit 2 (.num (some 1)), .mk 0 [(asc "x", 2)], .mk 1 [], .assign 1 [0], .inc 1 kx, .get 3 0 kx]

example : seen 4 3 hAssign = some (.num (some 2)) := by decide +kernel
example : wanted 4 3 hAssign = some (.num (some 1)) := by decide +kernel

/-- `a = [1, 1]; b = a.filter(function (x) { return true; }); b[0] = 5; r = a[0]` -/
def hFilter : List Op :=
  [.lit 2 (.num (some 1)), .mkArr 0 [2, 2], .filter 1 0 (fun _ => true), .lit 2 (.num (some 5)), .put 1 (.n 0) 2, .get 3 0 (.n 0)]

example : seen 4 3 hFilter = some (.num (some 5)) := by decide +kernel
example : wanted 4 3 hFilter = some (.num (some 1)) := by decide +kernel

end Verif.Obj
