import Verif.Vm.Ecma
import Verif.Vm.TryOk

/-!
The exception registers (`ps->last_exception`, `interp->errMsgBuf`) over statements that complete
without an exception.
-/

namespace Verif.Vm

variable {P : Prim}

local infixl:55 " ⟶ " => bindM

/-- The registers are the same. -/
def SameReg (s s' : P.State) : Prop := s'.last = s.last ∧ s'.msg = s.msg

theorem SameReg.refl (s : P.State) : SameReg s s := ⟨rfl, rfl⟩
theorem SameReg.trans {a b c : P.State} (h : SameReg a b) (h' : SameReg b c) : SameReg a c :=
  ⟨h'.1.trans h.1, h'.2.trans h.2⟩

/-- An operation that leaves the registers alone when it succeeds. -/
def KeepsReg {α : Type} (m : P.M α) : Prop := ∀ s a s', m s = (some a, s') → SameReg s s'

/-- What is assumed of the primitives: an operation that succeeds leaves the exception registers
alone.  For calls this means that the called function caught no exception on the way. -/
structure RegPrim (P : Prim) : Prop where
  lit : ∀ l sc, KeepsReg (P.lit l sc)
  lookup : ∀ x sc, KeepsReg (P.lookup x sc)
  write : ∀ r v, KeepsReg (P.write r v)
  un : ∀ op v, KeepsReg (P.un op v)
  bin : ∀ op v w, KeepsReg (P.bin op v w)
  sub : ∀ v w, KeepsReg (P.sub v w)
  subref : ∀ v w, KeepsReg (P.subref v w)
  put : ∀ o k v, KeepsReg (P.put o k v)
  inc : ∀ a b r, KeepsReg (P.inc a b r)
  toObj : ∀ v, KeepsReg (P.toObj v)
  call : ∀ f t vs, KeepsReg (P.call f t vs)
  new : ∀ f vs, KeepsReg (P.new f vs)
  array : ∀ vs, KeepsReg (P.array vs)
  object : ∀ vs, KeepsReg (P.object vs)
  key : ∀ b v, KeepsReg (P.key b v)
  next : ∀ o i r, KeepsReg (P.next o i r)
  del1 : ∀ a, KeepsReg (P.del1 a)
  del2 : ∀ a b, KeepsReg (P.del2 a b)

mutual
/-- The statement contains no try statement. -/
def noTry : Stmt → Bool
  | .seq a b => noTry a && noTry b
  | .ifThen _ a => noTry a
  | .ifElse _ a b => noTry a && noTry b
  | .whileS _ _ s => noTry s
  | .doWhile _ s _ => noTry s
  | .forS _ _ _ _ s => noTry s
  | .forIn _ _ _ _ s => noTry s
  | .switch _ _ cs => noTryC cs
  | .tryS _ _ _ _ _ => false
  | _ => true
/-- The same for the clauses of a switch. -/
def noTryC : Cases → Bool
  | .nil => true
  | .cons _ b r => noTry b && noTryC r
end

theorem KeepsReg.bind {α β : Type} {m : P.M α} {k : α → P.M β} (h : KeepsReg m)
    (hk : ∀ a, KeepsReg (k a)) : KeepsReg (bindM m k) := by
  intro s a s' he
  obtain ⟨b, s1, h1, h2⟩ := bindM_some he
  exact (h _ _ _ h1).trans (hk b _ _ _ h2)

theorem KeepsReg.pure {α : Type} (a : α) : KeepsReg (P := P) (pureM a) := by
  intro s b s' h
  simp only [pureM, Prod.mk.injEq] at h
  rw [← h.2]; exact SameReg.refl s

theorem KeepsReg.map {α β : Type} {m : P.M α} {f : α → β} (h : KeepsReg m) :
    KeepsReg (bindM m fun a => pureM (f a)) := h.bind fun _ => KeepsReg.pure _

theorem keepsReg_now (a : P.SV) : KeepsReg (P := P) (now P a) := by
  intro s b s' h
  simp only [now, Prod.mk.injEq] at h
  rw [← h.2]; exact SameReg.refl s

theorem keepsReg_nows (a : List P.SV) : KeepsReg (P := P) (nows P a) := by
  intro s b s' h
  simp only [nows, Prod.mk.injEq] at h
  rw [← h.2]; exact SameReg.refl s

theorem keepsReg_fail {α : Type} (m : P.V) : KeepsReg (P := P) (failM P m : P.M α) := by
  intro s b s' h
  simp [failM] at h

theorem keepsReg_incR (hP : RegPrim P) (up post : Bool) (a : P.SV) : KeepsReg (incR P up post a) := by
  cases a with
  | ref r => exact (hP.inc _ _ _).map
  | val v => exact keepsReg_fail _
  | meth a b => exact keepsReg_fail _

mutual
theorem evalE_reg (hP : RegPrim P) (sc : P.Sc) : ∀ e, KeepsReg (evalE P sc e)
  | .lit l => by rw [evalE]; exact (hP.lit l sc).map
  | .var x => by rw [evalE]; exact (hP.lookup x sc).map
  | .un op e => by
    rw [evalE]
    exact (evalE_reg hP sc e).bind fun _ => (keepsReg_now _).bind fun _ => (hP.un _ _).map
  | .bin op a b => by
    rw [evalE]
    exact (evalE_reg hP sc a).bind fun _ => (evalE_reg hP sc b).bind fun _ =>
      (keepsReg_now _).bind fun _ => (keepsReg_now _).bind fun _ => (hP.bin _ _ _).map
  | .and a b => by
    rw [evalE]
    refine (evalE_reg hP sc a).bind fun _ => (keepsReg_now _).bind fun v => ?_
    split
    · exact evalE_reg hP sc b
    · exact KeepsReg.pure _
  | .or a b => by
    rw [evalE]
    refine (evalE_reg hP sc a).bind fun _ => (keepsReg_now _).bind fun v => ?_
    split
    · exact KeepsReg.pure _
    · exact evalE_reg hP sc b
  | .cond a b c => by
    rw [evalE]
    refine (evalE_reg hP sc a).bind fun _ => (keepsReg_now _).bind fun v => ?_
    split
    · exact evalE_reg hP sc b
    · exact evalE_reg hP sc c
  | .comma a b => by
    rw [evalE]
    exact (evalE_reg hP sc a).bind fun _ => evalE_reg hP sc b
  | .void e => by
    rw [evalE]
    exact (evalE_reg hP sc e).bind fun _ => (hP.lit _ _).map
  | .assign x e => by
    rw [evalE]
    exact (hP.lookup _ _).bind fun _ => (evalE_reg hP sc e).bind fun _ =>
      (keepsReg_now _).bind fun _ => (hP.write _ _).map
  | .assignMem o k e => by
    rw [evalE]
    exact (evalE_reg hP sc o).bind fun _ => (evalE_reg hP sc k).bind fun _ =>
      (evalE_reg hP sc e).bind fun _ => (keepsReg_now _).bind fun _ => (keepsReg_now _).bind fun _ =>
      (keepsReg_now _).bind fun _ => (hP.put _ _ _).map
  | .opAssign op x e => by
    rw [evalE]
    exact (hP.lookup _ _).bind fun _ => (evalE_reg hP sc e).bind fun _ =>
      (keepsReg_now _).bind fun _ => (keepsReg_now _).bind fun _ => (hP.bin _ _ _).bind fun _ =>
      (hP.write _ _).map
  | .opAssignMem op o k e => by
    rw [evalE]
    exact (evalE_reg hP sc o).bind fun _ => (evalE_reg hP sc k).bind fun _ =>
      (keepsReg_now _).bind fun _ => (keepsReg_now _).bind fun _ => (hP.sub _ _).bind fun _ =>
      (evalE_reg hP sc e).bind fun _ => (keepsReg_now _).bind fun _ => (hP.bin _ _ _).bind fun _ =>
      (keepsReg_now _).bind fun _ => (keepsReg_now _).bind fun _ => (hP.put _ _ _).map
  | .inc up post x => by
    rw [evalE]
    exact (hP.lookup _ _).bind fun _ => keepsReg_incR hP _ _ _
  | .incMem up post o k => by
    rw [evalE]
    exact (evalE_reg hP sc o).bind fun _ => (evalE_reg hP sc k).bind fun _ =>
      (keepsReg_now _).bind fun _ => (keepsReg_now _).bind fun _ => (hP.subref _ _).bind fun _ =>
      keepsReg_incR hP _ _ _
  | .sub o k => by
    rw [evalE]
    exact (evalE_reg hP sc o).bind fun _ => (evalE_reg hP sc k).bind fun _ =>
      (keepsReg_now _).bind fun _ => (keepsReg_now _).bind fun _ => (hP.sub _ _).map
  | .call f args => by
    rw [evalE]
    exact (evalE_reg hP sc f).bind fun _ => (evalEs_reg hP sc args).bind fun _ =>
      (keepsReg_now _).bind fun _ => (keepsReg_nows _).bind fun _ => (hP.call _ _ _).map
  | .callMeth o k args => by
    rw [evalE]
    exact (evalE_reg hP sc o).bind fun _ => (evalE_reg hP sc k).bind fun _ =>
      (keepsReg_now _).bind fun _ => (hP.toObj _).bind fun _ => (keepsReg_now _).bind fun _ =>
      (keepsReg_now _).bind fun _ => (hP.sub _ _).bind fun _ => (evalEs_reg hP sc args).bind fun _ =>
      (keepsReg_nows _).bind fun _ => (hP.call _ _ _).map
  | .new f args => by
    rw [evalE]
    exact (evalE_reg hP sc f).bind fun _ => (evalEs_reg hP sc args).bind fun _ =>
      (keepsReg_now _).bind fun _ => (keepsReg_nows _).bind fun _ => (hP.new _ _).map
  | .array es => by
    rw [evalE]
    exact (evalEs_reg hP sc es).bind fun _ => (keepsReg_nows _).bind fun _ => (hP.array _).map
  | .object es => by
    rw [evalE]
    exact (evalEs_reg hP sc es).bind fun _ => (keepsReg_nows _).bind fun _ => (hP.object _).map
theorem evalEs_reg (hP : RegPrim P) (sc : P.Sc) : ∀ es, KeepsReg (evalEs P sc es)
  | .nil => by rw [evalEs]; exact KeepsReg.pure _
  | .cons e es => by
    rw [evalEs]
    exact (evalE_reg hP sc e).bind fun _ => (evalEs_reg hP sc es).bind fun _ => KeepsReg.pure _
end

/-- No exception is on its way. -/
def Out.calm {V : Type} : Out V → Prop
  | .thr _ => False
  | .abort => False
  | _ => True

/-- The registers after a statement are those before it, unless it raised an exception. -/
def RegOut (s : P.State) (r : Option (Out P.V × P.State)) : Prop :=
  ∀ o s', r = some (o, s') → o.calm → SameReg s s'

theorem RegOut.op {α : Type} {x : P.M α} {k : α → P.State → Option (Out P.V × P.State)}
    (h : KeepsReg x) (hk : ∀ a s, RegOut s (k a s)) (s : P.State) : RegOut s (opS P x k s) := by
  intro o s' he hc
  simp only [opS] at he
  cases hx : x s with
  | mk r s1 =>
    rw [hx] at he
    cases r with
    | none =>
      simp only [Option.some.injEq, Prod.mk.injEq] at he
      rw [← he.1] at hc; exact hc.elim
    | some a => exact (h _ _ _ hx).trans (hk a s1 o s' he hc)

theorem RegOut.done (s : P.State) (o : Out P.V) : RegOut s (some (o, s)) := by
  intro o' s' h _
  simp only [Option.some.injEq, Prod.mk.injEq] at h
  rw [h.2]; exact SameReg.refl _

theorem RegOut.seq {s : P.State} {r : Option (Out P.V × P.State)}
    {k : P.State → Option (Out P.V × P.State)} (h : RegOut s r) (hk : ∀ s, RegOut s (k s)) :
    RegOut s (thenS r k) := by
  intro o s' he hc
  rcases r with _ | ⟨o1, s1⟩
  · simp [thenS] at he
  · cases o1 with
    | normal => exact (h _ _ rfl trivial).trans (hk s1 o s' he hc)
    | thr b => exact h o s' he hc
    | abort => exact h o s' he hc
    | brk l => exact h o s' he hc
    | cont l => exact h o s' he hc
    | ret l => exact h o s' he hc

theorem loopW_reg {l : Option String} {test : P.M Bool}
    {body : P.State → Option (Out P.V × P.State)} {stp : P.M Unit} (ht : KeepsReg test)
    (hb : ∀ s, RegOut s (body s)) (hs : KeepsReg stp) (n : Nat) :
    ∀ s, RegOut s (loopW P l test body stp n s) := by
  induction n with
  | zero => intro s o s' h; simp [loopW] at h
  | succ n ih =>
    have hagain : ∀ s, RegOut s (againW P stp (loopW P l test body stp n) s) := by
      intro s o s' he hc
      simp only [againW] at he
      cases hx : stp s with
      | mk r s1 =>
        rw [hx] at he
        cases r with
        | none =>
          simp only [Option.some.injEq, Prod.mk.injEq] at he
          rw [← he.1] at hc; exact hc.elim
        | some a => exact (hs _ _ _ hx).trans (ih s1 o s' he hc)
    intro s o s' he hc
    rw [loopW] at he
    cases hx : test s with
    | mk r s1 =>
      rw [hx] at he
      cases r with
      | none =>
        simp only [Option.some.injEq, Prod.mk.injEq] at he
        rw [← he.1] at hc; exact hc.elim
      | some b =>
        refine (ht _ _ _ hx).trans ?_
        cases b with
        | false =>
          simp only [Option.some.injEq, Prod.mk.injEq] at he
          rw [he.2]; exact SameReg.refl _
        | true =>
          have hb1 := hb s1
          simp only at he
          rcases hr : body s1 with _ | ⟨o1, s2⟩
          · rw [hr] at he; simp at he
          · rw [hr] at he hb1
            cases o1 with
            | normal => exact (hb1 _ _ rfl trivial).trans (hagain s2 o s' he hc)
            | cont t =>
              simp only at he
              split at he
              · exact (hb1 _ _ rfl trivial).trans (hagain s2 o s' he hc)
              · exact hb1 o s' he hc
            | brk t =>
              simp only at he
              split at he
              · simp only [Option.some.injEq, Prod.mk.injEq] at he
                rw [← he.2]; exact hb1 _ _ rfl trivial
              · exact hb1 o s' he hc
            | ret v => exact hb1 o s' he hc
            | thr v => exact hb1 o s' he hc
            | abort => exact hb1 o s' he hc

theorem loopD_reg {l : Option String} {test : P.M Bool}
    {body : P.State → Option (Out P.V × P.State)} (ht : KeepsReg test)
    (hb : ∀ s, RegOut s (body s)) (n : Nat) :
    ∀ s, RegOut s (loopD P l test body n s) := by
  induction n with
  | zero => intro s o s' h; simp [loopD] at h
  | succ n ih =>
    have hagain : ∀ s, RegOut s (againD P test (loopD P l test body n) s) := by
      intro s o s' he hc
      simp only [againD] at he
      cases hx : test s with
      | mk r s1 =>
        rw [hx] at he
        cases r with
        | none =>
          simp only [Option.some.injEq, Prod.mk.injEq] at he
          rw [← he.1] at hc; exact hc.elim
        | some b =>
          refine (ht _ _ _ hx).trans ?_
          cases b with
          | false =>
            simp only [Option.some.injEq, Prod.mk.injEq] at he
            rw [he.2]; exact SameReg.refl _
          | true => exact ih s1 o s' he hc
    intro s o s' he hc
    rw [loopD] at he
    have hb1 := hb s
    rcases hr : body s with _ | ⟨o1, s2⟩
    · rw [hr] at he; simp at he
    · rw [hr] at he hb1
      cases o1 with
      | normal => exact (hb1 _ _ rfl trivial).trans (hagain s2 o s' he hc)
      | cont t =>
        simp only at he
        split at he
        · exact (hb1 _ _ rfl trivial).trans (hagain s2 o s' he hc)
        · exact hb1 o s' he hc
      | brk t =>
        simp only at he
        split at he
        · simp only [Option.some.injEq, Prod.mk.injEq] at he
          rw [← he.2]; exact hb1 _ _ rfl trivial
        · exact hb1 o s' he hc
      | ret v => exact hb1 o s' he hc
      | thr v => exact hb1 o s' he hc
      | abort => exact hb1 o s' he hc

theorem testE_reg (hP : RegPrim P) (sc : P.Sc) (e : Expr) : KeepsReg (testE P sc e) :=
  (evalE_reg hP sc e).bind fun _ => (keepsReg_now _).bind fun _ => KeepsReg.pure _

theorem effE_reg (hP : RegPrim P) (sc : P.Sc) (e : Option Expr) : KeepsReg (effE P sc e) := by
  cases e with
  | none => exact KeepsReg.pure _
  | some e => exact (evalE_reg hP sc e).bind fun _ => KeepsReg.pure _

theorem testOpt_reg (hP : RegPrim P) (sc : P.Sc) (e : Option Expr) : KeepsReg (testOpt P sc e) := by
  cases e with
  | none => exact testE_reg hP sc _
  | some e => exact testE_reg hP sc e

theorem evalLV_reg (hP : RegPrim P) (sc : P.Sc) (lv : LV) : KeepsReg (evalLV P sc lv) := by
  cases lv with
  | var x => exact (hP.lookup _ _).map
  | mem o k =>
    exact (evalE_reg hP sc o).bind fun _ => (evalE_reg hP sc k).bind fun _ =>
      (keepsReg_now _).bind fun _ => (keepsReg_now _).bind fun _ => (hP.subref _ _).map

theorem nextR_reg (hP : RegPrim P) (o it : P.V) (a : P.SV) : KeepsReg (nextR P o it a) := by
  cases a with
  | ref r => exact (hP.next _ _ _).map
  | val v => exact keepsReg_fail _
  | meth a b => exact keepsReg_fail _

theorem selectC_reg (hP : RegPrim P) (sc : P.Sc) (v : P.V) : ∀ cs i, KeepsReg (selectC P sc v cs i)
  | .nil, _ => KeepsReg.pure _
  | .cons none _ r, i => by rw [selectC]; exact selectC_reg hP sc v r (i + 1)
  | .cons (some e) _ r, i => by
    rw [selectC]
    refine (evalE_reg hP sc e).bind fun _ => (keepsReg_now _).bind fun _ =>
      (hP.bin _ _ _).bind fun b => ?_
    split
    · exact KeepsReg.pure _
    · exact selectC_reg hP sc v r (i + 1)

mutual
/-- A statement without try statements leaves the exception registers alone unless it raises an
exception. -/
theorem evalS_reg (hP : RegPrim P) (n : Nat) : ∀ (f : Stmt), noTry f = true →
    ∀ (d : Nat) (sc : P.Sc) (s : P.State), RegOut s (evalS P n f d sc s)
  | .nop, _, d, sc, s => by rw [evalS]; exact RegOut.done _ _
  | .expr e, _, d, sc, s => by
    rw [evalS]; exact RegOut.op (evalE_reg hP sc e) (fun _ s => RegOut.done s _) s
  | .seq a b, h, d, sc, s => by
    rw [evalS]; simp only [noTry, Bool.and_eq_true] at h
    exact RegOut.seq (evalS_reg hP n a h.1 d sc s) (evalS_reg hP n b h.2 d sc)
  | .ifThen c a, h, d, sc, s => by
    rw [evalS]; simp only [noTry] at h
    refine RegOut.op (testE_reg hP sc c) (fun b s => ?_) s
    cases b
    · exact RegOut.done s _
    · exact evalS_reg hP n a h d sc s
  | .ifElse c a b, h, d, sc, s => by
    rw [evalS]; simp only [noTry, Bool.and_eq_true] at h
    refine RegOut.op (testE_reg hP sc c) (fun t s => ?_) s
    cases t
    · exact evalS_reg hP n b h.2 d sc s
    · exact evalS_reg hP n a h.1 d sc s
  | .whileS l c b, h, d, sc, s => by
    rw [evalS]; simp only [noTry] at h
    exact loopW_reg (testE_reg hP sc c) (evalS_reg hP n b h d sc) (KeepsReg.pure _) n s
  | .doWhile l b c, h, d, sc, s => by
    rw [evalS]; simp only [noTry] at h
    exact loopD_reg (testE_reg hP sc c) (evalS_reg hP n b h d sc) n s
  | .forS l i c st b, h, d, sc, s => by
    rw [evalS]; simp only [noTry] at h
    exact RegOut.op (effE_reg hP sc i) (fun _ s => loopW_reg (testOpt_reg hP sc c)
      (evalS_reg hP n b h d sc) (effE_reg hP sc st) n s) s
  | .forIn l lv o e b, h, d, sc, s => by
    rw [evalS]; simp only [noTry] at h
    exact RegOut.op ((evalE_reg hP sc e).bind fun _ => (keepsReg_now _).bind fun _ => hP.key _ _)
      (fun oi s => loopW_reg ((evalLV_reg hP sc lv).bind fun _ => nextR_reg hP _ _ _)
      (evalS_reg hP n b h d sc) (KeepsReg.pure _) n s) s
  | .switch l e .nil, h, d, sc, s => by
    rw [evalS]; exact RegOut.op (evalE_reg hP sc e) (fun _ s => RegOut.done s _) s
  | .switch l e (.cons t b r), h, d, sc, s => by
    rw [evalS]; simp only [noTry] at h
    refine RegOut.op ((evalE_reg hP sc e).bind fun _ => (keepsReg_now _).bind fun _ =>
      selectC_reg hP sc _ _ _) (fun i s => ?_) s
    generalize i.or (dfltIdx (.cons t b r) 0) = j
    cases j with
    | none => exact RegOut.done s _
    | some j =>
      simp only
      have := evalC_reg hP n (.cons t b r) h j d sc s
      generalize evalC P n (.cons t b r) j d sc s = x at this
      intro o s' he hc
      rcases x with _ | ⟨o1, s1⟩
      · simp [swOut] at he
      · cases o1 with
        | brk t =>
          simp only [swOut] at he
          split at he
          · simp only [Option.some.injEq, Prod.mk.injEq] at he
            rw [← he.2]; exact this _ _ rfl trivial
          · exact this o s' he hc
        | normal => exact this o s' he hc
        | cont l => exact this o s' he hc
        | ret v => exact this o s' he hc
        | thr v => exact this o s' he hc
        | abort => exact this o s' he hc
  | .brk l, _, d, sc, s => by rw [evalS]; exact RegOut.done _ _
  | .cont l, _, d, sc, s => by rw [evalS]; exact RegOut.done _ _
  | .ret none, _, d, sc, s => by rw [evalS]; exact RegOut.done _ _
  | .ret (some e), _, d, sc, s => by
    rw [evalS]; exact RegOut.op ((evalE_reg hP sc e).bind fun _ => keepsReg_now _)
      (fun _ s => RegOut.done s _) s
  | .throw e, _, d, sc, s => by
    rw [evalS]
    refine RegOut.op ((evalE_reg hP sc e).bind fun _ => keepsReg_now _) (fun v s => ?_) s
    intro o s' he hc
    simp only [Option.some.injEq, Prod.mk.injEq] at he
    rw [← he.1] at hc; exact hc.elim
  | .del (.var x), _, d, sc, s => by
    rw [evalS]; exact RegOut.op ((hP.lookup _ _).bind fun _ => hP.del1 _)
      (fun _ s => RegOut.done s _) s
  | .del (.mem o k), _, d, sc, s => by
    rw [evalS]; exact RegOut.op ((evalE_reg hP sc o).bind fun _ => (evalE_reg hP sc k).bind fun _ =>
      (keepsReg_now _).bind fun _ => (keepsReg_now _).bind fun _ => hP.del2 _ _)
      (fun _ s => RegOut.done s _) s
  | .tryS _ _ _ _ _, h, d, sc, s => by simp [noTry] at h
theorem evalC_reg (hP : RegPrim P) (n : Nat) : ∀ (cs : Cases), noTryC cs = true →
    ∀ (i d : Nat) (sc : P.Sc) (s : P.State), RegOut s (evalC P n cs i d sc s)
  | .nil, _, i, d, sc, s => by rw [evalC]; exact RegOut.done _ _
  | .cons t b r, h, i + 1, d, sc, s => by
    rw [evalC]; simp only [noTryC, Bool.and_eq_true] at h
    exact evalC_reg hP n r h.2 i d sc s
  | .cons t b r, h, 0, d, sc, s => by
    rw [evalC]; simp only [noTryC, Bool.and_eq_true] at h
    exact RegOut.seq (evalS_reg hP n b h.1 d sc s) (evalC_reg hP n r h.2 0 d sc)
end

end Verif.Vm
