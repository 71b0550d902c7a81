import Verif.Vm.StmtProof

/-!
Correctness of the code generated for statements, for every statement.
-/

namespace Verif.Vm

variable {P : Prim} {F : List Instr} {d0 : Nat}

/-- The statement proved for every statement of the language. -/
def SOk (P : Prim) (F : List Instr) (d0 n : Nat) (s : Stmt) : Prop :=
  ∀ (env : List EItem) (tl : List (Try P.Sc)) (sc : P.Sc) (st : P.State) (pc : Nat)
    (stk : List P.SV),
    Fits F env pc (compS s) → okS (erase env) s = true → Inside tl pc (pc + (compS s).length) →
    TOk env (pc + (compS s).length) →
    Good P F d0 env tl sc stk stk pc (pc + (compS s).length) (pc + (compS s).length) n
      ⟨pc, stk, tl, st, sc⟩ (evalS P n s (d0 + tl.length) sc st)

/-- Length of the bodies before the `i`-th clause. -/
def offC : Cases → Nat → Nat
  | .nil, _ => 0
  | .cons _ _ _, 0 => 0
  | .cons _ b r, i + 1 => (compS b).length + offC r i

/-- The statement proved for the bodies of the clauses of a switch. -/
def COk (P : Prim) (F : List Instr) (d0 n : Nat) (cs : Cases) : Prop :=
  ∀ (env : List EItem) (tl : List (Try P.Sc)) (sc : P.Sc) (st : P.State) (pc : Nat)
    (stk : List P.SV) (i : Nat),
    Fits F env pc (compC cs) → okC (erase env) cs = true → Inside tl pc (pc + (compC cs).length) →
    TOk env (pc + (compC cs).length) →
    Good P F d0 env tl sc stk stk pc (pc + (compC cs).length) (pc + (compC cs).length) n
      ⟨pc + offC cs i, stk, tl, st, sc⟩ (evalC P n cs i (d0 + tl.length) sc st)

section
variable {env : List EItem} {tl : List (Try P.Sc)} {sc : P.Sc} {stk nstk : List P.SV}
  {lo hi pc' n : Nat}

/-- Sequencing. -/
theorem Good.seq {c : Cfg P} {r : Option (Out P.V × P.State)} {pc1 : Nat} {nstk1 : List P.SV}
    {k : P.State → Option (Out P.V × P.State)}
    (h1 : Good P F d0 env tl sc stk nstk1 lo hi pc1 n c r)
    (h2 : ∀ st, Good P F d0 env tl sc stk nstk lo hi pc' n ⟨pc1, nstk1, tl, st, sc⟩ (k st)) :
    Good P F d0 env tl sc stk nstk lo hi pc' n c (thenS r k) := by
  rcases r with _ | ⟨o, st'⟩
  · exact h1
  · cases o with
    | normal => exact Good.pre h1 (h2 st')
    | thr b => exact h1
    | brk l => exact h1
    | cont l => exact h1
    | ret v => exact h1
    | abort => exact h1

/-- The context of code in a statement. -/
def ctx (tl : List (Try P.Sc)) (sc : P.Sc) (stk : List P.SV) (lo hi : Nat) : Ctx P :=
  ⟨tl, sc, lo, hi, stk⟩

/-- A jump instruction whose target stays inside. -/
theorem jmp_to {pc t : Nat} {off : Int} {st : P.State} {cstk : List P.SV} (hin : Inside tl lo hi)
    (hF : F[pc]? = some (.jmp off)) (ht : (pc : Int) + off = t) (h1 : lo ≤ t) (h2 : t ≤ hi) :
    step P F d0 ⟨pc, cstk, tl, st, sc⟩ = .inl ⟨t, cstk, tl, st, sc⟩ := by
  simp only [step, hF, exec, finish, tgt_eq ht]
  exact doJmp_inside hin h1 h2

/-- `POP`. -/
theorem pop_to {pc k : Nat} {st : P.State} {cstk : List P.SV} (hF : F[pc]? = some (.pop k)) :
    step P F d0 ⟨pc, cstk, tl, st, sc⟩ = .inl ⟨pc + 1, cstk.drop k, tl, st, sc⟩ := by
  simp only [step, hF, exec, finish]

theorem nop_to {pc : Nat} {st : P.State} {cstk : List P.SV} (hF : F[pc]? = some .nop) :
    step P F d0 ⟨pc, cstk, tl, st, sc⟩ = .inl ⟨pc + 1, cstk, tl, st, sc⟩ := by
  simp only [step, hF, exec, finish]

/-- The code of a condition. -/
theorem test_jfalse {e : Expr} {pc pcF : Nat} {off : Int} {cstk : List P.SV} {X : Ctx P}
    (hF : Fits F env pc (compE e)) (hj : F[pc + (compE e).length]? = some (.jfalse off))
    (hlo : X.lo ≤ pc) (hhi : pc + (compE e).length < X.hi) (hin : Inside X.tl X.lo X.hi)
    (hb : X.base <:+ cstk)
    (ht : ((pc + (compE e).length : Nat) : Int) + off = pcF) :
    TestSpec F d0 X pc cstk (testE P X.sc e) (pc + (compE e).length + 1) pcF :=
  TestSpec.jfalse (compE_ok e env X pc cstk hF hlo (by omega) hb hin) rfl hj (tgt_eq ht)

/-- An expression run for its effect. -/
theorem spec_opt {e : Option Expr} {pc : Nat} {cstk : List P.SV} {X : Ctx P}
    (hF : Fits F env pc (compOpt e)) (hlo : X.lo ≤ pc) (hhi : pc + (compOpt e).length ≤ X.hi)
    (hin : Inside X.tl X.lo X.hi) (hb : X.base <:+ cstk) :
    Spec F d0 X pc cstk (effE P X.sc e) (pc + (compOpt e).length) (fun _ => cstk) := by
  cases e with
  | none =>
    have h1 : F[pc]? = some .nop := hF.1
    intro st
    simp only [effE, pureM]
    exact To.step (nop_to h1)
  | some e =>
    simp only [compOpt, fits_append, List.length_append, List.length_cons, List.length_nil,
      Nat.zero_add, ← Nat.add_assoc] at hF hhi ⊢
    rw [effE]
    refine (compE_ok e env X pc cstk hF.1 hlo (by omega) hb hin).bind fun a _ => ?_
    intro st
    simp only [pureM]
    exact To.step (pop_to (fits1 hF.2 (by simp)))

theorem test_opt {e : Option Expr} {pc pcF : Nat} {off : Int} {cstk : List P.SV} {X : Ctx P}
    (hF : Fits F env pc (compCond e)) (hj : F[pc + (compCond e).length]? = some (.jfalse off))
    (hlo : X.lo ≤ pc) (hhi : pc + (compCond e).length < X.hi) (hin : Inside X.tl X.lo X.hi)
    (hb : X.base <:+ cstk)
    (ht : ((pc + (compCond e).length : Nat) : Int) + off = pcF) :
    TestSpec F d0 X pc cstk (testOpt P X.sc e) (pc + (compCond e).length + 1) pcF := by
  cases e with
  | none =>
    exact test_jfalse (e := .lit (.bool true)) (env := env) (by simpa [compE, compCond] using hF)
      (by simpa [compE, compCond] using hj) hlo (by simpa [compE, compCond] using hhi) hin hb
      (by simpa [compE, compCond] using ht)
  | some e => exact test_jfalse hF hj hlo hhi hin hb ht

/-- A left-hand side. -/
theorem spec_lv {lv : LV} {pc : Nat} {cstk : List P.SV} {X : Ctx P}
    (hF : Fits F env pc (compLV lv)) (hlo : X.lo ≤ pc) (hhi : pc + (compLV lv).length ≤ X.hi)
    (hin : Inside X.tl X.lo X.hi) (hb : X.base <:+ cstk) :
    Spec F d0 X pc cstk (evalLV P X.sc lv) (pc + (compLV lv).length) (fun a => a :: cstk) := by
  cases lv with
  | var x =>
    rw [evalLV]
    exact (spec_pushvar x hF.1 hlo (by simp [compLV] at hhi; omega) hb).map SVal.ref fun _ => rfl
  | mem o k =>
    simp only [compLV, fits_append, List.length_append, List.length_cons, List.length_nil,
      Nat.zero_add, ← Nat.add_assoc] at hF hhi ⊢
    obtain ⟨⟨h1, h2⟩, h3⟩ := hF
    rw [evalLV]
    refine (compE_ok o env X pc cstk h1 hlo (by omega) hb hin).bind fun a _ => ?_
    refine (compE_ok k env X _ (a :: cstk) h2 (by omega) (by omega) (suffix2 _ hb) hin).bind
      fun b _ => ?_
    exact spec_subref a b (fits1 h3 (by simp)) (by omega) (by omega) hb

theorem evalLV_plain {lv : LV} {sc : P.Sc} {s s' : P.State} {sv : P.SV}
    (h : evalLV P sc lv s = (some sv, s')) : plain sv := by
  cases lv with
  | var x => rw [evalLV] at h; exact plain_tail (fun v => plain_ref v) h
  | mem o k =>
    rw [evalLV] at h
    obtain ⟨r, s1, _, h⟩ := bindM_some h
    obtain ⟨r, s1, _, h⟩ := bindM_some h
    obtain ⟨r, s1, _, h⟩ := bindM_some h
    obtain ⟨r, s1, _, h⟩ := bindM_some h
    exact plain_tail (fun v => by cases v <;> trivial) h

end

end Verif.Vm
