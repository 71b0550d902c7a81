import Verif.Scope.Resolve
import Verif.Scope.Hoist
import Verif.Scope.Order

/-!
C141-C144: what programs with functions and variables mean, and the programs for which jsish differs.
-/

namespace Verif.Scope

/-! ### C142: which programs are accepted -/

mutual
/-- In each function the parameters are distinct and none of them is declared again in the body. -/
def Expr.Distinct : Expr Unit → Prop
  | .asg _ e => e.Distinct
  | .add a b => a.Distinct ∧ b.Distinct
  | .fn _ f => f.Distinct
  | .call f as => f.Distinct ∧ as.Distinct
  | _ => True
def Args.Distinct : Args Unit → Prop
  | .nil => True
  | .cons e r => e.Distinct ∧ r.Distinct
def Fn.Distinct : Fn Unit → Prop
  | .mk _ ps b _ => b.Distinct ∧ ps.Nodup ∧ ∀ x ∈ ps, x ∉ b.declared
def Stmt.Distinct : Stmt Unit → Prop
  | .expr e => e.Distinct
  | .init _ e => e.Distinct
  | .func _ f => f.Distinct
  | .seq s t => s.Distinct ∧ t.Distinct
  | .ite c s t => c.Distinct ∧ s.Distinct ∧ t.Distinct
  | .loop c s => c.Distinct ∧ s.Distinct
  | .ret e => e.Distinct
  | .throw e => e.Distinct
  | .tryCatch s _ t => s.Distinct ∧ t.Distinct
  | _ => True
end

theorem bind_some {α β γ : Type} {a : Option (α × Scopes)} {b : Scopes → Option (β × Scopes)} {f : α → β → γ}
    {s : Scopes} {P Q : Prop} (ha : a.isSome ↔ P) (hs : ∀ q, a = some q → q.2 = s) (hb : (b s).isSome ↔ Q) :
    (a.bind fun r => (b r.2).map fun q => (f r.1 q.1, q.2)).isSome ↔ P ∧ Q := by
  cases a with
  | none => simp at ha; simp [ha]
  | some q =>
    have := hs q rfl
    simp only [Option.bind_some, Option.isSome_map, this]
    simp at ha; simp [ha, hb]

mutual

theorem acceptE : ∀ (e : Expr Unit) (d : Nat) (l : List Name) (r : Scopes),
    e.Plain d → (l :: r).length + d ≤ maxScope → ((parseE e (l :: r)).isSome ↔ e.Distinct)
  | .undef, d, l, r, hp, hd => by simp [parseE, Expr.Distinct]
  | .num _, d, l, r, hp, hd => by simp [parseE, Expr.Distinct]
  | .var _, d, l, r, hp, hd => by simp [parseE, Expr.Distinct]
  | .asg x e, d, l, r, hp, hd => by
    simp only [Expr.Plain] at hp
    simp only [parseE, Option.isSome_map, Expr.Distinct]
    exact acceptE e d l r hp hd
  | .add a b, d, l, r, hp, hd => by
    simp only [Expr.Plain] at hp
    simp only [parseE, Expr.Distinct]
    exact bind_some (acceptE a d l r hp.1 hd) (fun q hq => (parseE_ok a d l r q.2 q.1 hp.1 hd hq).1)
      (acceptE b d l r hp.2 hd)
  | .fn _ f, d, l, r, hp, hd => by
    simp only [Expr.Plain] at hp
    simp only [parseE, Option.isSome_map, Expr.Distinct]
    exact acceptF f d l r hp.2 hd
  | .call f as, d, l, r, hp, hd => by
    simp only [Expr.Plain] at hp
    simp only [parseE, Expr.Distinct]
    exact bind_some (acceptE f d l r hp.1 hd) (fun q hq => (parseE_ok f d l r q.2 q.1 hp.1 hd hq).1)
      (acceptA as d l r hp.2 hd)

theorem acceptA : ∀ (e : Args Unit) (d : Nat) (l : List Name) (r : Scopes),
    e.Plain d → (l :: r).length + d ≤ maxScope → ((parseA e (l :: r)).isSome ↔ e.Distinct)
  | .nil, d, l, r, hp, hd => by simp [parseA, Args.Distinct]
  | .cons e as, d, l, r, hp, hd => by
    simp only [Args.Plain] at hp
    simp only [parseA, Args.Distinct]
    exact bind_some (acceptE e d l r hp.1 hd) (fun q hq => (parseE_ok e d l r q.2 q.1 hp.1 hd hq).1)
      (acceptA as d l r hp.2 hd)

theorem acceptF : ∀ (f : Fn Unit) (d : Nat) (l : List Name) (r : Scopes),
    f.Plain d → (l :: r).length + d ≤ maxScope → ((parseF f (l :: r)).isSome ↔ f.Distinct)
  | .mk k ps b u, d, l, r, hp, hd => by
    simp only [Fn.Plain] at hp
    obtain ⟨hk, hd0, hb⟩ := hp
    simp only [List.length_cons] at hd
    simp only [parseF, Fn.Distinct]
    have e1 : push (l :: r) = [] :: l :: r := by
      unfold push; rw [if_neg (by simp only [List.length_cons]; omega)]
    rcases hk with rfl | ⟨rfl, hne, hde⟩
    · simp only [enter, atMake, leave, e1]
      have hl : ([] :: l :: r : Scopes).length + (d - 1) ≤ maxScope := by simp only [List.length_cons]; omega
      have ha := acceptS b (d - 1) [] (l :: r) hb hl
      cases hq : parseS b ([] :: l :: r) with
      | none => rw [hq] at ha; simp at ha; simp [ha]
      | some q =>
        rw [hq] at ha
        simp only [Option.isSome_some, true_iff] at ha
        have := (parseS_ok b (d - 1) [] (l :: r) q.2 q.1 hb hl hq).1
        simp only [Option.bind_some, this, varlist, List.headD_cons, checkParams, decide_eq_true_eq, mem_addAll,
          List.not_mem_nil, false_or]
        split <;> simp_all
    · simp only [enter, if_neg hne, atMake, leave]
      have hl : (l :: r : Scopes).length + (d - 1) ≤ maxScope := by simp only [List.length_cons]; omega
      have ha := acceptS b (d - 1) l r hb hl
      cases hq : parseS b (l :: r) with
      | none => rw [hq] at ha; simp at ha; simp [ha]
      | some q =>
        rw [hq] at ha
        simp only [Option.isSome_some, true_iff] at ha
        have := (parseS_ok b (d - 1) l r q.2 q.1 hb hl hq).1
        rw [hde] at this
        change q.2 = l :: r at this
        simp only [Option.bind_some, this, e1, varlist, List.headD_cons, checkParams, decide_eq_true_eq, hde]
        split <;> simp_all

theorem acceptS : ∀ (s : Stmt Unit) (d : Nat) (l : List Name) (r : Scopes),
    s.Plain d → (l :: r).length + d ≤ maxScope → ((parseS s (l :: r)).isSome ↔ s.Distinct)
  | .skip, d, l, r, hp, hd => by simp [parseS, Stmt.Distinct]
  | .bare _, d, l, r, hp, hd => by simp [parseS, Stmt.Distinct]
  | .expr e, d, l, r, hp, hd => by
    simp only [Stmt.Plain] at hp
    simp only [parseS, Option.isSome_map, Stmt.Distinct]
    exact acceptE e d l r hp hd
  | .init x e, d, l, r, hp, hd => by
    simp only [Stmt.Plain] at hp
    simp only [parseS, Option.isSome_map, Stmt.Distinct]
    exact acceptE e d l r hp hd
  | .func x f, d, l, r, hp, hd => by
    simp only [Stmt.Plain] at hp
    simp only [parseS, Option.isSome_map, Stmt.Distinct, addVar_cons]
    exact acceptF f d _ r hp hd
  | .seq s t, d, l, r, hp, hd => by
    simp only [Stmt.Plain] at hp
    simp only [parseS, Stmt.Distinct]
    exact bind_some (acceptS s d l r hp.1 hd) (fun q hq => (parseS_ok s d l r q.2 q.1 hp.1 hd hq).1)
      (acceptS t d _ r hp.2 hd)
  | .ite c s t, d, l, r, hp, hd => by
    simp only [Stmt.Plain] at hp
    simp only [parseS, Stmt.Distinct]
    have ha := acceptE c d l r hp.1 hd
    cases hq : parseE c (l :: r) with
    | none => rw [hq] at ha; simp at ha; simp [ha]
    | some q =>
      rw [hq] at ha
      simp only [Option.isSome_some, true_iff] at ha
      have e1 := (parseE_ok c d l r q.2 q.1 hp.1 hd hq).1
      simp only [Option.bind_some, e1, ha, true_and]
      exact bind_some (f := fun x y => Stmt.ite q.1 x y) (acceptS s d l r hp.2.1 hd)
        (fun q hq => (parseS_ok s d l r q.2 q.1 hp.2.1 hd hq).1) (acceptS t d _ r hp.2.2 hd)
  | .loop c s, d, l, r, hp, hd => by
    simp only [Stmt.Plain] at hp
    simp only [parseS, Stmt.Distinct]
    exact bind_some (acceptE c d l r hp.1 hd) (fun q hq => (parseE_ok c d l r q.2 q.1 hp.1 hd hq).1)
      (acceptS s d l r hp.2 hd)
  | .ret e, d, l, r, hp, hd => by
    simp only [Stmt.Plain] at hp
    simp only [parseS, Option.isSome_map, Stmt.Distinct]
    exact acceptE e d l r hp hd
  | .throw e, d, l, r, hp, hd => by
    simp only [Stmt.Plain] at hp
    simp only [parseS, Option.isSome_map, Stmt.Distinct]
    exact acceptE e d l r hp hd
  | .tryCatch s x t, d, l, r, hp, hd => by
    simp only [Stmt.Plain] at hp
    simp only [parseS, Stmt.Distinct]
    exact bind_some (f := fun y z => Stmt.tryCatch y x z) (acceptS s d l r hp.1 hd) (fun q hq => (parseS_ok s d l r q.2 q.1 hp.1 hd hq).1)
      (acceptS t d _ r hp.2 hd)

end

/-- C142: a program of plain functions is accepted just when in each function the parameters are distinct and none is
declared again. -/
theorem C142_accepted_partial (p : Stmt Unit) (d n : Nat) (hd : d + 1 ≤ maxScope) (hp : p.Plain d) :
    (jRun n p).isSome ↔ p.Distinct := by
  rw [← acceptS p d [] [] hp (by simp only [List.length_cons, List.length_nil]; omega)]
  unfold jRun
  cases parseS p [[]] <;> simp

/-! ### C143, C144 -/

/-- C143: if moreover in each body `var x;` comes first, then the function statements, then the rest, the program does
what it does in the language in which function statements take effect on entry and `var x;` has no effect. -/
theorem C143_hoisting_partial (p : Stmt Unit) (d n : Nat) (hd : d + 1 ≤ maxScope) (hp : p.Plain d) (ht : p.Tidy 2)
    (r : Option (End × (Name → View))) (h : jRun n p = some r) : r = lRun true true n p := by
  rw [C141_lexical_scope_partial p d n hd hp r h, hoist_eq true n p ht]

/-- C144: if moreover no operand that is a variable can be changed while the operands behind it are evaluated, the
program does what ECMAScript says. -/
theorem C144_ecmascript_partial (K : Name → Prop) (p : Stmt Unit) (d n : Nat) (hd : d + 1 ≤ maxScope)
    (hp : p.Plain d) (ht : p.Tidy 2) (hk : p.Calm K) (r : Option (End × (Name → View))) (h : jRun n p = some r) :
    r = ecma n p := by
  rw [C143_hoisting_partial p d n hd hp ht r h, late_eq K n p hk]; rfl

/-! ### A program that meets all the conditions -/

def seqs : List (Stmt Unit) → Stmt Unit
  | [] => .skip
  | s :: l => .seq s (seqs l)

def fn (ps : List Name) (b : List (Stmt Unit)) : Fn Unit := .mk .normal ps (seqs b) ()

/-- What is seen of some variables at the end of a run. -/
def seen (xs : List Name) (r : Option (End × (Name → View))) : Option (End × List View) :=
  r.map fun q => (q.1, xs.map q.2)

/-- ```
var a; var b; var c;
function counter(k) { var n; function step() { n = n + k; return n; } n = 0; return step; }
function sum(i) { if (i) return i + sum(i + -1); return 0; }
a = counter(1); b = counter(10); a(); b(); c = a(); b = b(); a = sum(4);
try { throw c; } catch (n) { c = n + 100; }
``` -/
def sample : Stmt Unit := seqs
  [.bare "a", .bare "b", .bare "c",
   .func "counter" (fn ["k"] [.bare "n",
      .func "step" (fn [] [.expr (.asg "n" (.add (.var "n") (.var "k"))), .ret (.var "n")]),
      .expr (.asg "n" (.num 0)), .ret (.var "step")]),
   .func "sum" (fn ["i"] [.ite (.var "i")
      (.ret (.add (.var "i") (.call (.var "sum") (.cons (.add (.var "i") (.num (-1))) .nil)))) .skip, .ret (.num 0)]),
   .expr (.asg "a" (.call (.var "counter") (.cons (.num 1) .nil))),
   .expr (.asg "b" (.call (.var "counter") (.cons (.num 10) .nil))),
   .expr (.call (.var "a") .nil), .expr (.call (.var "b") .nil),
   .expr (.asg "c" (.call (.var "a") .nil)), .expr (.asg "b" (.call (.var "b") .nil)),
   .expr (.asg "a" (.call (.var "sum") (.cons (.num 4) .nil))),
   .tryCatch (.throw (.var "c")) "n" (.expr (.asg "c" (.add (.var "n") (.num 100))))]

example : sample.Plain 2 ∧ sample.Tidy 2 ∧ sample.Distinct ∧ sample.Calm (fun x => x = "i" ∨ x = "sum") := by
  simp [sample, seqs, fn, Stmt.Plain, Expr.Plain, Args.Plain, Fn.Plain, FnPlain, Stmt.Tidy, Expr.Tidy, Args.Tidy,
    Fn.Tidy, Stmt.here, Stmt.after, Stmt.declared, Stmt.Distinct, Expr.Distinct, Args.Distinct, Fn.Distinct, Stmt.Calm,
    Expr.Calm, Args.Calm, Fn.Calm, Expr.ref, Expr.Pure, Args.Pure]

example : (jRun 60 sample).map (seen ["a", "b", "c", "n"])
    = some (some (.normal, [.num 10, .num 20, .num 102, .undef])) := by decide +kernel

/-! ### What goes wrong -/

/-- `var x = 1; var f = (a, b) => { var x = 2; }; f();` -/
def arrowVar : Stmt Unit := seqs [.init "x" (.num 1),
  .init "f" (.fn none (.mk .arrow ["a", "b"] (.init "x" (.num 2)) ())), .expr (.call (.var "f") .nil)]

/-- C141 fails: a variable declared in an arrow function is that of the function around it. -/
theorem C141_arrow_var_refuted : (jRun 30 arrowVar).map (seen ["x"]) = some (some (.normal, [.num 2])) ∧
    seen ["x"] (lRun true false 30 arrowVar) = some (.normal, [.num 1]) ∧
    seen ["x"] (ecma 30 arrowVar) = some (.normal, [.num 1]) := by decide +kernel

/-- `var y = 5; function g() { var y = 1; var f = () => 2; } g();` -/
def arrowLeak : Stmt Unit := seqs [.init "y" (.num 5),
  .func "g" (fn [] [.init "y" (.num 1), .init "f" (.fn none (.mk .arrow [] (.ret (.num 2)) ()))]),
  .expr (.call (.var "g") .nil)]

/-- C141 fails: behind an arrow function with `()` the variables declared before it are no longer local. -/
theorem C141_arrow_leak_refuted : (jRun 30 arrowLeak).map (seen ["y"]) = some (some (.normal, [.num 1])) ∧
    seen ["y"] (lRun true false 30 arrowLeak) = some (.normal, [.num 5]) ∧
    seen ["y"] (ecma 30 arrowLeak) = some (.normal, [.num 5]) := by decide +kernel

/-- `var y = 5; function g() { var y = 1; var o = {get p() { return 2; }}; } g();` -/
def getterLeak : Stmt Unit := seqs [.init "y" (.num 5),
  .func "g" (fn [] [.init "y" (.num 1), .init "o" (.fn none (.mk .getter [] (.ret (.num 2)) ()))]),
  .expr (.call (.var "g") .nil)]

/-- C141 fails: the same behind a getter. -/
theorem C141_getter_refuted : (jRun 30 getterLeak).map (seen ["y"]) = some (some (.normal, [.num 1])) ∧
    seen ["y"] (lRun true false 30 getterLeak) = some (.normal, [.num 5]) ∧
    seen ["y"] (ecma 30 getterLeak) = some (.normal, [.num 5]) := by decide +kernel

/-- `var y = 1; var o = {set p(v) { y = v; }}; o.p = 2;` -/
def setterLocal : Stmt Unit := seqs [.init "y" (.num 1),
  .init "o" (.fn none (.mk .setter ["v"] (.expr (.asg "y" (.var "v"))) ())),
  .expr (.call (.var "o") (.cons (.num 2) .nil))]

/-- C141 fails: a setter has its own variables of the names declared so far around it. -/
theorem C141_setter_refuted : (jRun 30 setterLocal).map (seen ["y"]) = some (some (.normal, [.num 1])) ∧
    seen ["y"] (lRun true false 30 setterLocal) = some (.normal, [.num 2]) ∧
    seen ["y"] (ecma 30 setterLocal) = some (.normal, [.num 2]) := by decide +kernel

/-- `var f = function g() { return g; }; var x = f();` -/
def ownName : Stmt Unit := seqs [.init "f" (.fn (some "g") (fn [] [.ret (.var "g")])),
  .init "x" (.call (.var "f") .nil)]

/-- C141 fails: the name of a function expression means nothing inside it. -/
theorem C141_own_name_refuted : (jRun 30 ownName).map (seen ["x"]) = some (some (.normal, [.undef])) ∧
    seen ["x"] (lRun true false 30 ownName) = some (.normal, [.func]) ∧
    seen ["x"] (ecma 30 ownName) = some (.normal, [.func]) := by decide +kernel

/-- C142 fails: `function f(a) { var a; }` is not accepted, and neither is `var v = 1; var o = {set p(v) {}};`. -/
theorem C142_accepted_refuted :
    jRun 30 (.func "f" (fn ["a"] [.bare "a"])) = none ∧ (Fn.Distinct (.mk .setter ["v"] .skip ())) ∧
    jRun 30 (.seq (.init "v" (.num 1)) (.init "o" (.fn none (.mk .setter ["v"] .skip ())))) = none := by
  refine ⟨rfl, ?_, rfl⟩
  simp [Fn.Distinct, Stmt.Distinct, Stmt.declared]

/-- `x = f(); function f() { return 1; }` -/
def early : Stmt Unit := seqs [.expr (.asg "x" (.call (.var "f") .nil)), .func "f" (fn [] [.ret (.num 1)])]

/-- C143 fails: a function cannot be called above its statement. -/
theorem C143_function_refuted : (jRun 30 early).map (seen ["x"]) = some (some (.thrown .err, [.undef])) ∧
    seen ["x"] (lRun true true 30 early) = some (.normal, [.num 1]) ∧
    seen ["x"] (ecma 30 early) = some (.normal, [.num 1]) := by decide +kernel

/-- `var x = 1; var x;` -/
def again : Stmt Unit := seqs [.init "x" (.num 1), .bare "x"]

/-- C143 fails: `var x;` makes x undefined. -/
theorem C143_var_refuted : (jRun 30 again).map (seen ["x"]) = some (some (.normal, [.undef])) ∧
    seen ["x"] (lRun true true 30 again) = some (.normal, [.num 1]) ∧
    seen ["x"] (ecma 30 again) = some (.normal, [.num 1]) := by decide +kernel

/-- `x = 1; y = x + (x = 5);` -/
def lateSum : Stmt Unit := seqs [.expr (.asg "x" (.num 1)),
  .expr (.asg "y" (.add (.var "x") (.asg "x" (.num 5))))]

/-- C144 fails: the left operand is read when the right one is known. -/
theorem C144_sum_refuted : (jRun 30 lateSum).map (seen ["y"]) = some (some (.normal, [.num 10])) ∧
    seen ["y"] (ecma 30 lateSum) = some (.normal, [.num 6]) := by decide +kernel

/-- `function f(a, b) { return a; } x = 1; y = f(x, x = 5);` -/
def lateArg : Stmt Unit := seqs [.func "f" (fn ["a", "b"] [.ret (.var "a")]), .expr (.asg "x" (.num 1)),
  .expr (.asg "y" (.call (.var "f") (.cons (.var "x") (.cons (.asg "x" (.num 5)) .nil))))]

/-- C144 fails: so are the arguments of a call. -/
theorem C144_argument_refuted : (jRun 30 lateArg).map (seen ["y"]) = some (some (.normal, [.num 5])) ∧
    seen ["y"] (ecma 30 lateArg) = some (.normal, [.num 1]) := by decide +kernel

end Verif.Scope
