import Verif.Scope.Syntax

/-!
What the language promises: lexical scope.  A variable belongs to an activation: number 0 is the program, and each call
(and each catch that is entered) makes a new one.  An environment says for each name to which activation it belongs
where it is used: inside a function the parameters and the names declared in its body belong to the activation of the
call, every other name means what it meant where the function was made.

`lE late hoist` with `late = false` and `hoist = true` is ECMAScript; the two switches separate questions:
* `hoist`: function statements take effect on entry, and `var x;` does nothing (ECMAScript), or both take effect when
  they are reached;
* `late`: an operand that is a variable is read at once (ECMAScript, `late = false`) or when the operation is done.
-/

namespace Verif.Scope

/-- Values: a function with its environment. -/
inductive Val where
  | undef
  | nan
  | err
  | num (n : Int)
  | clo (f : Fn Unit) (env : Name → Nat)

def Val.view : Val → View
  | .undef => .undef
  | .nan => .nan
  | .err => .err
  | .num n => .num n
  | .clo _ _ => .func

def Val.plus : Val → Val → Val
  | .num a, .num b => .num (a + b)
  | _, _ => .nan

def Val.truth : Val → Bool
  | .num n => n ≠ 0
  | .err => true
  | .clo _ _ => true
  | _ => false

/-- The activations made so far and the values of their variables. -/
structure St where
  next : Nat
  val : Nat → Name → Val

def St.set (st : St) (o : Nat) (x : Name) (v : Val) : St :=
  ⟨st.next, fun p y => if p = o ∧ y = x then v else st.val p y⟩

/-- A new activation, in which all variables are undefined. -/
def St.alloc (st : St) : St := ⟨st.next + 1, fun o => if o = st.next then fun _ => .undef else st.val o⟩

/-- The arguments are put in the parameters; those without an argument are undefined. -/
def St.args (st : St) (o : Nat) : List Name → List Val → St
  | [], _ => st
  | x :: ps, [] => (st.set o x .undef).args o ps []
  | x :: ps, v :: vs => (st.set o x v).args o ps vs

/-- The function statements of a body take effect. -/
def St.hoist (st : St) (env : Name → Nat) : List (Name × Fn Unit) → St
  | [] => st
  | (x, f) :: l => (st.set (env x) x (.clo f env)).hoist env l

/-- Names `l` belong to activation `k`. -/
def bind (env : Name → Nat) (k : Nat) (l : List Name) : Name → Nat := fun x => if x ∈ l then k else env x

inductive Opd where
  | val (v : Val)
  | ref (o : Nat) (x : Name)

def St.deref (st : St) : Opd → Val
  | .val v => v
  | .ref o x => st.val o x

inductive Res (α : Type) where
  | ok (a : α)
  | thr (v : Val)

inductive Out where
  | norm
  | ret (v : Val)
  | thr (v : Val)

/-- The operand a variable gives. -/
def St.opd (st : St) (late : Bool) (o : Nat) (x : Name) : Opd := if late then .ref o x else .val (st.val o x)

/-- On entry of a body. -/
def St.enter (st : St) (hoist : Bool) (env : Name → Nat) (b : Stmt Unit) : St :=
  if hoist then st.hoist env b.funcs else st

mutual

def lE (late hoist : Bool) : Nat → (Name → Nat) → St → Expr Unit → Option (Res Opd × St)
  | 0, _, _, _ => none
  | n + 1, env, st, e =>
    match e with
    | .undef => some (.ok (.val .undef), st)
    | .num k => some (.ok (.val (.num k)), st)
    | .var x => some (.ok (st.opd late (env x) x), st)
    | .asg x e =>
      match lE late hoist n env st e with
      | none => none
      | some (.thr v, s1) => some (.thr v, s1)
      | some (.ok a, s1) =>
        some (.ok ((s1.set (env x) x (s1.deref a)).opd late (env x) x), s1.set (env x) x (s1.deref a))
    | .add a b =>
      match lE late hoist n env st a with
      | none => none
      | some (.thr v, s1) => some (.thr v, s1)
      | some (.ok p, s1) =>
        match lE late hoist n env s1 b with
        | none => none
        | some (.thr v, s2) => some (.thr v, s2)
        | some (.ok q, s2) => some (.ok (.val ((s2.deref p).plus (s2.deref q))), s2)
    | .fn none f => some (.ok (.val (.clo f env)), st)
    | .fn (some y) f =>
      some (.ok (.val (.clo f (bind env st.next [y]))), st.alloc.set st.next y (.clo f (bind env st.next [y])))
    | .call f as =>
      match lE late hoist n env st f with
      | none => none
      | some (.thr v, s1) => some (.thr v, s1)
      | some (.ok p, s1) =>
        match lA late hoist n env s1 as with
        | none => none
        | some (.thr v, s2) => some (.thr v, s2)
        | some (.ok qs, s2) =>
          match lC late hoist n s2 (s2.deref p) (qs.map s2.deref) with
          | none => none
          | some (.thr v, s3) => some (.thr v, s3)
          | some (.ok v, s3) => some (.ok (.val v), s3)

def lA (late hoist : Bool) : Nat → (Name → Nat) → St → Args Unit → Option (Res (List Opd) × St)
  | 0, _, _, _ => none
  | n + 1, env, st, as =>
    match as with
    | .nil => some (.ok [], st)
    | .cons e as =>
      match lE late hoist n env st e with
      | none => none
      | some (.thr v, s1) => some (.thr v, s1)
      | some (.ok p, s1) =>
        match lA late hoist n env s1 as with
        | none => none
        | some (.thr v, s2) => some (.thr v, s2)
        | some (.ok qs, s2) => some (.ok (p :: qs), s2)

/-- A call: a new activation, to which the parameters and the declared names belong. -/
def lC (late hoist : Bool) : Nat → St → Val → List Val → Option (Res Val × St)
  | 0, _, _, _ => none
  | n + 1, st, v, args =>
    match v with
    | .clo f env =>
      match lS late hoist n (bind env st.next (f.params ++ f.body.declared))
          ((st.alloc.args st.next f.params args).enter hoist (bind env st.next (f.params ++ f.body.declared)) f.body)
          f.body with
      | none => none
      | some (.norm, s1) => some (.ok .undef, s1)
      | some (.ret v, s1) => some (.ok v, s1)
      | some (.thr v, s1) => some (.thr v, s1)
    | _ => some (.thr .err, st)

def lS (late hoist : Bool) : Nat → (Name → Nat) → St → Stmt Unit → Option (Out × St)
  | 0, _, _, _ => none
  | n + 1, env, st, s =>
    match s with
    | .skip => some (.norm, st)
    | .expr e =>
      match lE late hoist n env st e with
      | none => none
      | some (.thr v, s1) => some (.thr v, s1)
      | some (.ok _, s1) => some (.norm, s1)
    | .bare x => some (.norm, if hoist then st else st.set (env x) x .undef)
    | .init x e =>
      match lE late hoist n env st e with
      | none => none
      | some (.thr v, s1) => some (.thr v, s1)
      | some (.ok a, s1) => some (.norm, s1.set (env x) x (s1.deref a))
    | .func x f => some (.norm, if hoist then st else st.set (env x) x (.clo f env))
    | .seq a b =>
      match lS late hoist n env st a with
      | none => none
      | some (.norm, s1) => lS late hoist n env s1 b
      | some (.ret v, s1) => some (.ret v, s1)
      | some (.thr v, s1) => some (.thr v, s1)
    | .ite c a b =>
      match lE late hoist n env st c with
      | none => none
      | some (.thr v, s1) => some (.thr v, s1)
      | some (.ok p, s1) => lS late hoist n env s1 (if (s1.deref p).truth then a else b)
    | .loop c a =>
      match lE late hoist n env st c with
      | none => none
      | some (.thr v, s1) => some (.thr v, s1)
      | some (.ok p, s1) =>
        if (s1.deref p).truth then
          match lS late hoist n env s1 a with
          | none => none
          | some (.norm, s2) => lS late hoist n env s2 (.loop c a)
          | some (.ret v, s2) => some (.ret v, s2)
          | some (.thr v, s2) => some (.thr v, s2)
        else some (.norm, s1)
    | .ret e =>
      match lE late hoist n env st e with
      | none => none
      | some (.thr v, s1) => some (.thr v, s1)
      | some (.ok p, s1) => some (.ret (s1.deref p), s1)
    | .throw e =>
      match lE late hoist n env st e with
      | none => none
      | some (.thr v, s1) => some (.thr v, s1)
      | some (.ok p, s1) => some (.thr (s1.deref p), s1)
    | .tryCatch a x b =>
      match lS late hoist n env st a with
      | none => none
      | some (.norm, s1) => some (.norm, s1)
      | some (.ret v, s1) => some (.ret v, s1)
      | some (.thr v, s1) => lS late hoist n (bind env s1.next [x]) (s1.alloc.set s1.next x v) b

end

/-- Before the program: all global variables are undefined. -/
def St.empty : St := ⟨1, fun _ _ => .undef⟩

/-- What can be seen of a run: how it ends, and the global variables. -/
def lRun (late hoist : Bool) (n : Nat) (p : Stmt Unit) : Option (End × (Name → View)) :=
  match lS late hoist n (fun _ => 0) (St.empty.enter hoist (fun _ => 0) p) p with
  | none => none
  | some (.norm, st) => some (.normal, fun x => (st.val 0 x).view)
  | some (.ret _, st) => some (.normal, fun x => (st.val 0 x).view)
  | some (.thr v, st) => some (.thrown v.view, fun x => (st.val 0 x).view)

/-- ECMAScript. -/
def ecma (n : Nat) (p : Stmt Unit) : Option (End × (Name → View)) := lRun false true n p

/-! ### Conditions on programs -/

/-- What each function has to be for its scope to be right: written with `function`; or an arrow function with at
least one parameter and no declaration in its body. -/
def FnPlain (k : Kind) (ps ds : List Name) : Prop :=
  k = .normal ∨ (k = .arrow ∧ ps ≠ [] ∧ ds = [])

mutual
/-- All functions are plain, function expressions have no name, and functions are nested at most `d` deep. -/
def Expr.Plain : Nat → Expr Unit → Prop
  | d, .asg _ e => e.Plain d
  | d, .add a b => a.Plain d ∧ b.Plain d
  | d, .fn self f => self = none ∧ f.Plain d
  | d, .call f as => f.Plain d ∧ as.Plain d
  | _, _ => True
def Args.Plain : Nat → Args Unit → Prop
  | _, .nil => True
  | d, .cons e r => e.Plain d ∧ r.Plain d
def Fn.Plain : Nat → Fn Unit → Prop
  | d, .mk k ps b _ => FnPlain k ps b.declared ∧ 0 < d ∧ b.Plain (d - 1)
def Stmt.Plain : Nat → Stmt Unit → Prop
  | d, .expr e => e.Plain d
  | d, .init _ e => e.Plain d
  | d, .func _ f => f.Plain d
  | d, .seq s t => s.Plain d ∧ t.Plain d
  | d, .ite c s t => c.Plain d ∧ s.Plain d ∧ t.Plain d
  | d, .loop c s => c.Plain d ∧ s.Plain d
  | d, .ret e => e.Plain d
  | d, .throw e => e.Plain d
  | d, .tryCatch s _ t => s.Plain d ∧ t.Plain d
  | _, _ => True
end

/-- Where in a body a statement stands: 2 in the part for `var x;`, 1 in the part for function statements, 0 behind.
In which part is the next statement? -/
def Stmt.after : Nat → Stmt Unit → Nat
  | p, .bare _ => p
  | p, .func _ _ => min p 1
  | _, _ => 0

/-- The part in which the first statement of a sequence stands. -/
def Stmt.here : Nat → Stmt Unit → Nat
  | p, .bare _ => p
  | p, .func _ _ => p
  | _, _ => 0

mutual
/-- In all functions `var x;` comes first, then the function statements, then everything else, and no parameter is
declared again. -/
def Expr.Tidy : Expr Unit → Prop
  | .asg _ e => e.Tidy
  | .add a b => a.Tidy ∧ b.Tidy
  | .fn _ f => f.Tidy
  | .call f as => f.Tidy ∧ as.Tidy
  | _ => True
def Args.Tidy : Args Unit → Prop
  | .nil => True
  | .cons e r => e.Tidy ∧ r.Tidy
def Fn.Tidy : Fn Unit → Prop
  | .mk _ ps b _ => b.Tidy 2 ∧ ∀ x ∈ ps, x ∉ b.declared
def Stmt.Tidy : Nat → Stmt Unit → Prop
  | p, .bare _ => p = 2
  | p, .func _ f => 1 ≤ p ∧ f.Tidy
  | p, .seq s t => s.Tidy (s.here p) ∧ t.Tidy (s.after p)
  | _, .expr e => e.Tidy
  | _, .init _ e => e.Tidy
  | _, .ite c s t => c.Tidy ∧ s.Tidy 0 ∧ t.Tidy 0
  | _, .loop c s => c.Tidy ∧ s.Tidy 0
  | _, .ret e => e.Tidy
  | _, .throw e => e.Tidy
  | _, .tryCatch s _ t => s.Tidy 0 ∧ t.Tidy 0
  | _, .skip => True
end

/-- An expression that changes nothing. -/
def Expr.Pure : Expr Unit → Prop
  | .undef => True
  | .num _ => True
  | .var _ => True
  | .add a b => a.Pure ∧ b.Pure
  | .fn self _ => self = none
  | _ => False

def Args.Pure : Args Unit → Prop
  | .nil => True
  | .cons e r => e.Pure ∧ r.Pure

/-- The variable an operand is, if it is one. -/
def Expr.ref : Expr Unit → Option Name
  | .var x => some x
  | .asg x _ => some x
  | _ => none

mutual
/-- An operand that is a variable is one of the names `K`, to which nothing is assigned, or is followed only by
operands that change nothing. -/
def Expr.Calm (K : Name → Prop) : Expr Unit → Prop
  | .asg x e => ¬ K x ∧ e.Calm K
  | .add a b => a.Calm K ∧ b.Calm K ∧ ∀ x, a.ref = some x → K x ∨ b.Pure
  | .fn _ f => f.Calm K
  | .call f as => f.Calm K ∧ as.Calm K ∧ ∀ x, f.ref = some x → K x ∨ as.Pure
  | _ => True
def Args.Calm (K : Name → Prop) : Args Unit → Prop
  | .nil => True
  | .cons e r => e.Calm K ∧ r.Calm K ∧ ∀ x, e.ref = some x → K x ∨ r.Pure
def Fn.Calm (K : Name → Prop) : Fn Unit → Prop
  | .mk _ _ b _ => b.Calm K
def Stmt.Calm (K : Name → Prop) : Stmt Unit → Prop
  | .expr e => e.Calm K
  | .init x e => ¬ K x ∧ e.Calm K
  | .func _ f => f.Calm K
  | .seq s t => s.Calm K ∧ t.Calm K
  | .ite c s t => c.Calm K ∧ s.Calm K ∧ t.Calm K
  | .loop c s => c.Calm K ∧ s.Calm K
  | .ret e => e.Calm K
  | .throw e => e.Calm K
  | .tryCatch s _ t => s.Calm K ∧ t.Calm K
  | _ => True
end

end Verif.Scope
