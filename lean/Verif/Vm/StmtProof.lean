import Verif.Vm.ExprOk
import Verif.Vm.Wf

/-!
Correctness of the code generated for statements: definitions and the loop lemma.
-/

namespace Verif.Vm

variable {P : Prim} {F : List Instr} {d0 : Nat}

/-- Forget the addresses. -/
def erase1 : EItem → SItem
  | .loop l p b _ _ => .loop l p b
  | .fin => .fin

/-- Forget the addresses. -/
def erase (env : List EItem) : List SItem := env.map erase1

theorem resolve_erase (env : List EItem) (ty : Res) (l : Option String) :
    resolveS (erase env) ty l = (lookupJ env ty l).map Prod.snd := by
  induction env with
  | nil => rfl
  | cons a r ih =>
    cases a with
    | fin => simpa [erase, erase1, resolveS, lookupJ] using ih
    | loop label pops bo bt ct =>
      simp only [erase, List.map_cons, erase1, resolveS, lookupJ] at ih ⊢
      split
      · rw [ih]; cases lookupJ r ty l <;> rfl
      · cases ty with
        | brk => rfl
        | cont =>
          cases bo with
          | false => rfl
          | true => simp only [if_true]; rw [ih]; cases lookupJ r .cont l <;> rfl

theorem okJ_lookup {env : List EItem} {ty : Res} {l : Option String}
    (h : okJ (erase env) ty l = true) : ∃ t ex, lookupJ env ty l = some (t, ex) := by
  induction env with
  | nil => simp [erase, okJ] at h
  | cons a r ih =>
    cases a with
    | fin =>
      simp only [erase, List.map_cons, erase1, okJ, Bool.and_eq_true] at h
      simpa [lookupJ] using ih h.1
    | loop label pops bo bt ct =>
      simp only [erase, List.map_cons, erase1, okJ] at h ih
      simp only [lookupJ]
      split at h
      · obtain ⟨t, ex, h2⟩ := ih h
        next hc => rw [if_pos hc, h2]; exact ⟨_, _, rfl⟩
      · next hc =>
        rw [if_neg hc]
        cases ty with
        | brk => exact ⟨_, _, rfl⟩
        | cont =>
          cases bo with
          | false => exact ⟨_, _, rfl⟩
          | true =>
            simp only [if_true] at h ⊢
            obtain ⟨t, ex, h2⟩ := ih h
            rw [h2]; exact ⟨_, _, rfl⟩

/-- All destinations lie at or after `hi`. -/
def TOk (env : List EItem) (hi : Nat) : Prop :=
  ∀ ty l t ex, lookupJ env ty l = some (t, ex) → hi ≤ t

theorem TOk.mono {env : List EItem} {a b : Nat} (h : TOk env b) (hab : a ≤ b) : TOk env a :=
  fun ty l t ex hl => Nat.le_trans hab (h ty l t ex hl)

theorem TOk.fin {env : List EItem} {a : Nat} (h : TOk env a) : TOk (.fin :: env) a :=
  fun ty l t ex hl => h ty l t ex hl

theorem TOk.loop {env : List EItem} {a bt ct : Nat} {l : Option String} {p : Nat} {bo : Bool}
    (h : TOk env a) (h1 : a ≤ bt) (h2 : a ≤ ct) : TOk (.loop l p bo bt ct :: env) a := by
  intro ty l' t ex hl
  simp only [lookupJ] at hl
  have aux : ∀ ty, (lookupJ env ty l').map (fun x => (x.1, x.2 + p)) = some (t, ex) → a ≤ t := by
    intro ty hh
    cases hx : lookupJ env ty l' with
    | none => rw [hx] at hh; simp at hh
    | some x =>
      rw [hx] at hh
      simp only [Option.map_some, Option.some.injEq, Prod.mk.injEq] at hh
      rw [← hh.1]
      exact h ty l' x.1 x.2 hx
  split at hl
  · exact aux ty hl
  · cases ty with
    | brk => simp only [Option.some.injEq, Prod.mk.injEq] at hl; omega
    | cont =>
      cases bo with
      | false =>
        simp only [Bool.false_eq_true, if_false, Option.some.injEq, Prod.mk.injEq] at hl
        omega
      | true =>
        simp only [if_true] at hl
        exact aux _ hl

/-- The machine is about to perform a `break`/`continue` to a destination outside. -/
def JumpOut (P : Prim) (F : List Instr) (d0 : Nat) (env : List EItem) (tl : List (Try P.Sc))
    (sc : P.Sc) (stk : List P.SV) (lo hi : Nat) (c : Cfg P) (ty : Res) (l : Option String)
    (st : P.State) : Prop :=
  ∃ ip t ex, lo ≤ ip ∧ ip < hi ∧ lookupJ env ty l = some (t, ex) ∧ okJ (erase env) ty l = true ∧
    To P F d0 c (doJmp P ip t tl (stk.drop ex) st sc)

/-- What the machine does for each outcome of a statement placed in `[lo, hi)`: `nstk` is the stack
on normal completion at `pc'`, `stk` the stack of the surrounding statement. -/
def Good (P : Prim) (F : List Instr) (d0 : Nat) (env : List EItem) (tl : List (Try P.Sc))
    (sc : P.Sc) (stk nstk : List P.SV) (lo hi pc' n : Nat) (c : Cfg P) :
    Option (Out P.V × P.State) → Prop
  | none => Long P F d0 n c
  | some (.normal, st') => To P F d0 c (.inl ⟨pc', nstk, tl, st', sc⟩)
  | some (.thr b, st') => ∃ ip junk, lo ≤ ip ∧ ip < hi ∧ (F[ip]? = some .throw ↔ b = true) ∧
      To P F d0 c (doThrow P F d0 ip tl (junk ++ stk) st' sc)
  | some (.brk l, st') => JumpOut P F d0 env tl sc stk lo hi c .brk l st'
  | some (.cont l, st') => JumpOut P F d0 env tl sc stk lo hi c .cont l st'
  | some (.ret v, st') => To P F d0 c (.inr (.ret v st'))
  | some (.abort, st') => To P F d0 c (.inr (.error st'))

section
variable {env : List EItem} {tl : List (Try P.Sc)} {sc : P.Sc} {stk nstk : List P.SV}
  {lo hi pc' n : Nat}

theorem Good.pre {c c1 : Cfg P} {r} (h1 : To P F d0 c (.inl c1))
    (h2 : Good P F d0 env tl sc stk nstk lo hi pc' n c1 r) :
    Good P F d0 env tl sc stk nstk lo hi pc' n c r := by
  rcases r with _ | ⟨o, st'⟩
  · exact Long.of_to h1 h2
  · cases o with
    | normal => exact h1.trans h2
    | thr b =>
      obtain ⟨ip, j, a1, a2, a3, a4⟩ := h2
      exact ⟨ip, j, a1, a2, a3, h1.trans a4⟩
    | brk l =>
      obtain ⟨ip, t, ex, a1, a2, a3, a5, a4⟩ := h2
      exact ⟨ip, t, ex, a1, a2, a3, a5, h1.trans a4⟩
    | cont l =>
      obtain ⟨ip, t, ex, a1, a2, a3, a5, a4⟩ := h2
      exact ⟨ip, t, ex, a1, a2, a3, a5, h1.trans a4⟩
    | ret v => exact h1.trans h2
    | abort => exact h1.trans h2

theorem Good.mono {c : Cfg P} {r} {lo' hi' : Nat} (h1 : lo' ≤ lo) (h2 : hi ≤ hi')
    (h : Good P F d0 env tl sc stk nstk lo hi pc' n c r) :
    Good P F d0 env tl sc stk nstk lo' hi' pc' n c r := by
  rcases r with _ | ⟨o, st'⟩
  · exact h
  · cases o with
    | normal => exact h
    | thr b =>
      obtain ⟨ip, j, a1, a2, a3, a4⟩ := h
      exact ⟨ip, j, by omega, by omega, a3, a4⟩
    | brk l =>
      obtain ⟨ip, t, ex, a1, a2, a3, a5, a4⟩ := h
      exact ⟨ip, t, ex, by omega, by omega, a3, a5, a4⟩
    | cont l =>
      obtain ⟨ip, t, ex, a1, a2, a3, a5, a4⟩ := h
      exact ⟨ip, t, ex, by omega, by omega, a3, a5, a4⟩
    | ret v => exact h
    | abort => exact h

/-- Continue after normal completion. -/
theorem Good.post {c : Cfg P} {r} {pc'' : Nat} {nstk' : List P.SV}
    (h : Good P F d0 env tl sc stk nstk lo hi pc' n c r)
    (h2 : ∀ st, To P F d0 ⟨pc', nstk, tl, st, sc⟩ (.inl ⟨pc'', nstk', tl, st, sc⟩)) :
    Good P F d0 env tl sc stk nstk' lo hi pc'' n c r := by
  rcases r with _ | ⟨o, st'⟩
  · exact h
  · cases o with
    | normal => exact To.trans h (h2 st')
    | thr b => exact h
    | brk l => exact h
    | cont l => exact h
    | ret v => exact h
    | abort => exact h

/-- An operation followed by a statement. -/
theorem Good.op {X : Ctx P} {pc pc1 : Nat} {cstk : List P.SV} {α : Type} {m : P.M α}
    {post : α → List P.SV} {k : α → P.State → Option (Out P.V × P.State)} {st : P.State}
    (hX : X.tl = tl) (hsc : X.sc = sc) (hb : X.base = stk) (hlo : lo ≤ X.lo) (hhi : X.hi ≤ hi)
    (h : Spec F d0 X pc cstk m pc1 post)
    (hk : ∀ a st', m st = (some a, st') →
      Good P F d0 env tl sc stk nstk lo hi pc' n ⟨pc1, post a, tl, st', sc⟩ (k a st')) :
    Good P F d0 env tl sc stk nstk lo hi pc' n ⟨pc, cstk, tl, st, sc⟩ (opS P m k st) := by
  have h := h st
  subst hX hsc hb
  unfold opS
  cases hm : m st with
  | mk r s =>
    rw [hm] at h
    cases r with
    | none =>
      obtain ⟨ip, j, a1, a2, a3, a4⟩ := h
      exact ⟨ip, j, by omega, by omega, by simpa using a3, a4⟩
    | some a => exact Good.pre h (hk a s hm)

/-- Running a test from `pc`: the machine ends at `pcT` or `pcF` with an unchanged stack. -/
def TestSpec (F : List Instr) (d0 : Nat) (X : Ctx P) (pc : Nat) (cstk : List P.SV) (m : P.M Bool)
    (pcT pcF : Nat) : Prop :=
  ∀ st, match m st with
    | (some b, st') => To P F d0 ⟨pc, cstk, X.tl, st, X.sc⟩
        (.inl ⟨if b then pcT else pcF, cstk, X.tl, st', X.sc⟩)
    | (none, st') => ∃ ip junk, X.lo ≤ ip ∧ ip < X.hi ∧ F[ip]? ≠ some .throw ∧
        To P F d0 ⟨pc, cstk, X.tl, st, X.sc⟩ (doThrow P F d0 ip X.tl (junk ++ X.base) st' X.sc)

/-- A test followed by one of two statements. -/
theorem Good.test {X : Ctx P} {pc pcT pcF : Nat} {cstk : List P.SV} {m : P.M Bool}
    {k : Bool → P.State → Option (Out P.V × P.State)} {st : P.State}
    (hX : X.tl = tl) (hsc : X.sc = sc) (hb : X.base = stk) (hlo : lo ≤ X.lo) (hhi : X.hi ≤ hi)
    (h : TestSpec F d0 X pc cstk m pcT pcF)
    (hT : ∀ st', Good P F d0 env tl sc stk nstk lo hi pc' n ⟨pcT, cstk, tl, st', sc⟩ (k true st'))
    (hF : ∀ st', Good P F d0 env tl sc stk nstk lo hi pc' n ⟨pcF, cstk, tl, st', sc⟩ (k false st')) :
    Good P F d0 env tl sc stk nstk lo hi pc' n ⟨pc, cstk, tl, st, sc⟩ (opS P m k st) := by
  have h := h st
  subst hX hsc hb
  unfold opS
  cases hm : m st with
  | mk r s =>
    rw [hm] at h
    cases r with
    | none =>
      obtain ⟨ip, j, a1, a2, a3, a4⟩ := h
      exact ⟨ip, j, by omega, by omega, by simpa using a3, a4⟩
    | some b =>
      cases b with
      | true => exact Good.pre h (hT s)
      | false => exact Good.pre h (hF s)

/-- A value-producing operation followed by `JFALSE`. -/
theorem TestSpec.jfalse {X : Ctx P} {pc pc1 : Nat} {cstk : List P.SV} {α : Type} {m : P.M α}
    {post : α → P.SV} {m' : P.M Bool} {off : Int} {pcF : Nat}
    (h : Spec F d0 X pc cstk m pc1 (fun a => post a :: cstk))
    (hm : m' = bindM m fun a => bindM (now P (post a)) fun v => pureM (P.truthy v))
    (hF : F[pc1]? = some (.jfalse off)) (ht : tgt pc1 off = pcF) :
    TestSpec F d0 X pc cstk m' (pc1 + 1) pcF := by
  intro st
  have h := h st
  rw [hm]
  simp only [bindM, now, pureM]
  cases hm : m st with
  | mk r s =>
    rw [hm] at h
    cases r with
    | none => exact h
    | some a =>
      refine To.trans h (To.step ?_)
      simp only [step, hF, exec, finish, ht]

/-- A value-producing operation followed by `JTRUE`. -/
theorem TestSpec.jtrue {X : Ctx P} {pc pc1 : Nat} {cstk : List P.SV} {α : Type} {m : P.M α}
    {post : α → P.SV} {m' : P.M Bool} {off : Int} {pcT : Nat}
    (h : Spec F d0 X pc cstk m pc1 (fun a => post a :: cstk))
    (hm : m' = bindM m fun a => bindM (now P (post a)) fun v => pureM (P.truthy v))
    (hF : F[pc1]? = some (.jtrue off)) (ht : tgt pc1 off = pcT) :
    TestSpec F d0 X pc cstk m' pcT (pc1 + 1) := by
  intro st
  have h := h st
  rw [hm]
  simp only [bindM, now, pureM]
  cases hm : m st with
  | mk r s =>
    rw [hm] at h
    cases r with
    | none => exact h
    | some a =>
      refine To.trans h (To.step ?_)
      simp only [step, hF, exec, finish, ht]

theorem hits_iff (l t : Option String) : hits l t = true ↔ ¬(t.isSome ∧ t ≠ l) := by
  cases t <;> simp [hits]

/-- Leaving a loop or switch by a jump that it does not take. -/
theorem JumpOut.leave {l : Option String} {bo : Bool} {bt ct : Nat} {pre : List P.SV}
    {c : Cfg P} {ty : Res} {t : Option String} {st : P.State} {lo' hi' : Nat}
    (h : JumpOut P F d0 (.loop l pre.length bo bt ct :: env) tl sc (pre ++ stk) lo hi c ty t st)
    (hm : hits l t = false ∨ (ty = .cont ∧ bo = true)) (h1 : lo' ≤ lo) (h2 : hi ≤ hi') :
    JumpOut P F d0 env tl sc stk lo' hi' c ty t st := by
  obtain ⟨ip, tt, ex, a1, a2, a3, a5, a4⟩ := h
  have key : (lookupJ env ty t).map (fun x => (x.1, x.2 + pre.length)) = some (tt, ex) ∧
      okJ (erase env) ty t = true := by
    simp only [lookupJ] at a3
    simp only [erase, List.map_cons, erase1, okJ] at a5
    by_cases hh : t.isSome ∧ t ≠ l
    · rw [if_pos hh] at a3 a5
      exact ⟨a3, a5⟩
    · rw [if_neg hh] at a3 a5
      have hb : hits l t = true := (hits_iff l t).2 hh
      rcases hm with hm | ⟨rfl, rfl⟩
      · rw [hb] at hm; cases hm
      · exact ⟨a3, a5⟩
  obtain ⟨k1, k2⟩ := key
  cases hx : lookupJ env ty t with
  | none => rw [hx] at k1; simp at k1
  | some x =>
    rw [hx] at k1
    simp only [Option.map_some, Option.some.injEq, Prod.mk.injEq] at k1
    refine ⟨ip, x.1, x.2, by omega, by omega, hx, k2, ?_⟩
    rw [k1.1]
    rw [← k1.2, Nat.add_comm, ← List.drop_drop, List.drop_left] at a4
    exact a4

/-- A jump taken by the loop. -/
theorem JumpOut.brk_hit {l : Option String} {p : Nat} {bo : Bool} {bt ct : Nat} {lstk : List P.SV}
    {c : Cfg P} {t : Option String} {st : P.State} {lo' hi' : Nat}
    (h : JumpOut P F d0 (.loop l p bo bt ct :: env) tl sc lstk lo hi c .brk t st)
    (hm : hits l t = true) (hin : Inside tl lo' hi') (h1 : lo' ≤ bt) (h2 : bt ≤ hi') :
    To P F d0 c (.inl ⟨bt, lstk, tl, st, sc⟩) := by
  obtain ⟨ip, tt, ex, a1, a2, a3, a5, a4⟩ := h
  simp only [lookupJ, if_neg ((hits_iff l t).1 hm), Option.some.injEq, Prod.mk.injEq] at a3
  rw [← a3.1, ← a3.2, doJmp_inside hin h1 h2] at a4
  simpa using a4

theorem JumpOut.cont_hit {l : Option String} {p : Nat} {bt ct : Nat} {lstk : List P.SV}
    {c : Cfg P} {t : Option String} {st : P.State} {lo' hi' : Nat}
    (h : JumpOut P F d0 (.loop l p false bt ct :: env) tl sc lstk lo hi c .cont t st)
    (hm : hits l t = true) (hin : Inside tl lo' hi') (h1 : lo' ≤ ct) (h2 : ct ≤ hi') :
    To P F d0 c (.inl ⟨ct, lstk, tl, st, sc⟩) := by
  obtain ⟨ip, tt, ex, a1, a2, a3, a5, a4⟩ := h
  simp only [lookupJ, if_neg ((hits_iff l t).1 hm), Bool.false_eq_true, if_false,
    Option.some.injEq, Prod.mk.injEq] at a3
  rw [← a3.1, ← a3.2, doJmp_inside hin h1 h2] at a4
  simpa using a4

/-- The `while`/`for`/`for-in` loop. -/
theorem loopW_ok {l : Option String} {X : Ctx P} {pre : List P.SV} {ph pcB ct ex pcJ blo bhi : Nat}
    {test : P.M Bool} {body : P.State → Option (Out P.V × P.State)} {stp : P.M Unit}
    (hX : X.tl = tl) (hsc : X.sc = sc) (hb : X.base = stk) (hlo : lo ≤ X.lo) (hhi : X.hi ≤ hi)
    (hin : Inside tl lo hi) (hct : lo ≤ ct ∧ ct ≤ hi) (hex : lo ≤ ex ∧ ex ≤ hi)
    (hblo : lo ≤ blo) (hbhi : bhi ≤ hi)
    (htest : TestSpec F d0 X ph (pre ++ stk) test pcB ex)
    (hbody : ∀ st, Good P F d0 (.loop l pre.length false ex ct :: env) tl sc (pre ++ stk)
      (pre ++ stk) blo bhi ct n ⟨pcB, pre ++ stk, tl, st, sc⟩ (body st))
    (hstep : Spec F d0 X ct (pre ++ stk) stp pcJ (fun _ => pre ++ stk))
    (hjmp : ∀ st, step P F d0 ⟨pcJ, pre ++ stk, tl, st, sc⟩ = .inl ⟨ph, pre ++ stk, tl, st, sc⟩)
    (k : Nat) (hk : k ≤ n) : ∀ st,
    Good P F d0 env tl sc stk (pre ++ stk) lo hi ex k ⟨ph, pre ++ stk, tl, st, sc⟩
      (loopW P l test body stp k st) := by
  subst hX hsc hb
  induction k with
  | zero => intro st; unfold loopW; exact Long.zero _
  | succ k ih =>
    have ih := ih (by omega)
    have hagain : ∀ st, Good P F d0 env X.tl X.sc X.base (pre ++ X.base) lo hi ex (k + 1)
        ⟨ct, pre ++ X.base, X.tl, st, X.sc⟩ (againW P stp (loopW P l test body stp k) st) := by
      intro st
      unfold againW
      have hs := hstep st
      cases hm : stp st with
      | mk r s3 =>
        rw [hm] at hs
        cases r with
        | none =>
          obtain ⟨ip, j, a1, a2, a3, a4⟩ := hs
          exact ⟨ip, j, by omega, by omega, by simpa using a3, a4⟩
        | some u =>
          have h1 := hjmp s3
          have h2 := ih s3
          refine Good.pre hs ?_
          simp only
          cases hr : loopW P l test body stp k s3 with
          | none =>
            rw [hr] at h2
            exact Long.of_step h1 h2
          | some x =>
            rw [hr] at h2
            have := Good.pre (To.step h1) h2
            rcases x with ⟨o, s⟩
            cases o <;> exact this
    intro st
    unfold loopW
    have ht := htest st
    cases hm : test st with
    | mk r s1 =>
      rw [hm] at ht
      cases r with
      | none =>
        obtain ⟨ip, j, a1, a2, a3, a4⟩ := ht
        exact ⟨ip, j, by omega, by omega, by simpa using a3, a4⟩
      | some b =>
        cases b with
        | false => exact ht
        | true =>
          simp only [if_true] at ht
          have hb := hbody s1
          refine Good.pre ht ?_
          simp only
          cases hr : body s1 with
          | none =>
            rw [hr] at hb
            obtain ⟨c', hc'⟩ := hb
            exact run_mono_inl hk hc'
          | some x =>
            rcases x with ⟨o, s2⟩
            rw [hr] at hb
            cases o with
            | normal => exact Good.pre hb (hagain s2)
            | cont t =>
              simp only
              cases hh : hits l t with
              | true =>
                simp only [if_true]
                exact Good.pre (JumpOut.cont_hit hb hh hin hct.1 hct.2) (hagain s2)
              | false => exact JumpOut.leave hb (Or.inl hh) hblo hbhi
            | brk t =>
              simp only
              cases hh : hits l t with
              | true =>
                simp only [if_true]
                exact JumpOut.brk_hit hb hh hin hex.1 hex.2
              | false => exact JumpOut.leave hb (Or.inl hh) hblo hbhi
            | thr b =>
              obtain ⟨ip, j, a1, a2, a3, a4⟩ := hb
              exact ⟨ip, j ++ pre, by omega, by omega, a3, by simpa using a4⟩
            | ret v => exact hb
            | abort => exact hb

/-- The `do-while` loop. -/
theorem loopD_ok {l : Option String} {X : Ctx P} {ph ct ex blo bhi : Nat}
    {test : P.M Bool} {body : P.State → Option (Out P.V × P.State)}
    (hX : X.tl = tl) (hsc : X.sc = sc) (hb : X.base = stk) (hlo : lo ≤ X.lo) (hhi : X.hi ≤ hi)
    (hin : Inside tl lo hi) (hct : lo ≤ ct ∧ ct ≤ hi) (hex : lo ≤ ex ∧ ex ≤ hi)
    (hblo : lo ≤ blo) (hbhi : bhi ≤ hi)
    (htest : ∀ st, match test st with
      | (some b, st') => ∃ c1, To P F d0 ⟨ct, stk, X.tl, st, X.sc⟩ (.inl c1) ∧
          step P F d0 c1 = .inl ⟨if b then ph else ex, stk, X.tl, st', X.sc⟩
      | (none, st') => ∃ ip junk, X.lo ≤ ip ∧ ip < X.hi ∧ F[ip]? ≠ some .throw ∧
        To P F d0 ⟨ct, stk, X.tl, st, X.sc⟩ (doThrow P F d0 ip X.tl (junk ++ X.base) st' X.sc))
    (hbody : ∀ st, Good P F d0 (.loop l 0 false ex ct :: env) tl sc stk
      stk blo bhi ct n ⟨ph, stk, tl, st, sc⟩ (body st))
    (k : Nat) (hk : k ≤ n) : ∀ st,
    Good P F d0 env tl sc stk stk lo hi ex k ⟨ph, stk, tl, st, sc⟩ (loopD P l test body k st) := by
  subst hX hsc hb
  induction k with
  | zero => intro st; unfold loopD; exact Long.zero _
  | succ k ih =>
    have ih := ih (by omega)
    have hagain : ∀ st, Good P F d0 env X.tl X.sc X.base X.base lo hi ex (k + 1)
        ⟨ct, X.base, X.tl, st, X.sc⟩ (againD P test (loopD P l test body k) st) := by
      intro st
      unfold againD
      have hs := htest st
      cases hm : test st with
      | mk r s3 =>
        rw [hm] at hs
        cases r with
        | none =>
          obtain ⟨ip, j, a1, a2, a3, a4⟩ := hs
          exact ⟨ip, j, by omega, by omega, by simpa using a3, a4⟩
        | some b =>
          obtain ⟨c1, b1, b2⟩ := hs
          cases b with
          | false => exact To.trans b1 (To.step (by simpa using b2))
          | true =>
            simp only [if_true] at b2
            have h2 := ih s3
            refine Good.pre b1 ?_
            simp only
            cases hr : loopD P l test body k s3 with
            | none =>
              rw [hr] at h2
              exact Long.of_step b2 h2
            | some x =>
              rw [hr] at h2
              have := Good.pre (To.step b2) h2
              rcases x with ⟨o, s⟩
              cases o <;> exact this
    intro st
    unfold loopD
    have hb := hbody st
    cases hr : body st with
    | none =>
      rw [hr] at hb
      obtain ⟨c', hc'⟩ := hb
      exact run_mono_inl hk hc'
    | some x =>
      rcases x with ⟨o, s2⟩
      rw [hr] at hb
      cases o with
      | normal => exact Good.pre hb (hagain s2)
      | cont t =>
        simp only
        cases hh : hits l t with
        | true =>
          simp only [if_true]
          exact Good.pre (JumpOut.cont_hit hb hh hin hct.1 hct.2) (hagain s2)
        | false => exact JumpOut.leave (pre := []) hb (Or.inl hh) hblo hbhi
      | brk t =>
        simp only
        cases hh : hits l t with
        | true =>
          simp only [if_true]
          exact JumpOut.brk_hit hb hh hin hex.1 hex.2
        | false => exact JumpOut.leave (pre := []) hb (Or.inl hh) hblo hbhi
      | thr b =>
        obtain ⟨ip, j, a1, a2, a3, a4⟩ := hb
        exact ⟨ip, j, by omega, by omega, a3, by simpa using a4⟩
      | ret v => exact hb
      | abort => exact hb

end

end Verif.Vm
