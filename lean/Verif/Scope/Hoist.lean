import Verif.Scope.Spec

/-!
Where `var x;` comes first in each function, then the function statements, then the rest, it makes no difference
whether these take effect on entry or when they are reached (C143).
-/

namespace Verif.Scope

/-- All functions in it are tidy. -/
def VT : Val → Prop
  | .clo f _ => f.Tidy
  | _ => True

def StT (st : St) : Prop := ∀ o x, VT (st.val o x)

def OT : Opd → Prop
  | .val v => VT v
  | .ref _ _ => True

theorem deref_T {st : St} (h : StT st) : ∀ {p : Opd}, OT p → VT (st.deref p)
  | .val _, h => h
  | .ref o x, _ => h o x

theorem set_T {st : St} (h : StT st) {o : Nat} {x : Name} {v : Val} (hv : VT v) : StT (st.set o x v) := by
  intro p y
  simp only [St.set]
  split
  · exact hv
  · exact h p y

theorem alloc_T {st : St} (h : StT st) : StT st.alloc := by
  intro p y
  simp only [St.alloc]
  split
  · trivial
  · exact h p y

theorem args_T : ∀ (ps : List Name) (vs : List Val) {st : St} {o : Nat}, StT st → (∀ v ∈ vs, VT v) →
    StT (st.args o ps vs)
  | [], _, _, _, h, _ => h
  | _ :: ps, [], _, _, h, _ => args_T ps [] (set_T h trivial) (by simp)
  | _ :: ps, v :: vs, _, _, h, hv =>
    args_T ps vs (set_T h (hv v (by simp))) fun u hu => hv u (by simp [hu])

theorem opd_T {st : St} (h : StT st) (late : Bool) (o : Nat) (x : Name) : OT (st.opd late o x) := by
  unfold St.opd
  split
  · trivial
  · exact h o x

/-- The results are tidy. -/
inductive PE {α : Type} (R : α → Prop) : Option (Res α × St) → Prop
  | none : PE R none
  | ok {a s} : StT s → R a → PE R (some (.ok a, s))
  | thr {v s} : StT s → VT v → PE R (some (.thr v, s))

inductive PS : Option (Out × St) → Prop
  | none : PS none
  | norm {s} : StT s → PS (some (.norm, s))
  | ret {v s} : StT s → VT v → PS (some (.ret v, s))
  | thr {v s} : StT s → VT v → PS (some (.thr v, s))

def LT (l : List Opd) : Prop := ∀ p ∈ l, OT p

structure HSim (late : Bool) (n : Nat) : Prop where
  E : ∀ (env : Name → Nat) (st : St) (e : Expr Unit), e.Tidy → StT st →
    lE late false n env st e = lE late true n env st e ∧ PE OT (lE late true n env st e)
  A : ∀ (env : Name → Nat) (st : St) (e : Args Unit), e.Tidy → StT st →
    lA late false n env st e = lA late true n env st e ∧ PE LT (lA late true n env st e)
  C : ∀ (st : St) (v : Val) (vs : List Val), VT v → (∀ u ∈ vs, VT u) → StT st →
    lC late false n st v vs = lC late true n st v vs ∧ PE VT (lC late true n st v vs)
  S : ∀ (env : Name → Nat) (st : St) (s : Stmt Unit), s.Tidy 0 → StT st →
    lS late false n env st s = lS late true n env st s ∧ PS (lS late true n env st s)
  B : ∀ (p : Nat) (env : Name → Nat) (st : St) (s : Stmt Unit), s.Tidy p →
    (p = 2 → ∀ x ∈ s.declared, st.val (env x) x = .undef) → StT st →
    lS late false n env st s = lS late true n env (st.hoist env s.funcs) s ∧
      PS (lS late true n env (st.hoist env s.funcs) s)

theorem hE {late : Bool} {n : Nat} (I : HSim late n) (env : Name → Nat) (st : St) (e : Expr Unit) (ht : e.Tidy)
    (hs : StT st) :
    lE late false (n + 1) env st e = lE late true (n + 1) env st e ∧ PE OT (lE late true (n + 1) env st e) := by
  cases e with
  | undef => exact ⟨by trivial, .ok hs trivial⟩
  | num k => exact ⟨by trivial, .ok hs trivial⟩
  | var x => exact ⟨by trivial, .ok hs (opd_T hs ..)⟩
  | asg x e =>
    simp only [Expr.Tidy] at ht
    obtain ⟨e1, p1⟩ := I.E env st e ht hs
    simp only [lE, e1]
    generalize lE late true n env st e = r at p1
    cases p1 with
    | none => exact ⟨by trivial, .none⟩
    | thr h v => exact ⟨by trivial, .thr h v⟩
    | ok h v => exact ⟨by trivial, .ok (set_T h (deref_T h v)) (opd_T (set_T h (deref_T h v)) ..)⟩
  | add a b =>
    simp only [Expr.Tidy] at ht
    obtain ⟨e1, p1⟩ := I.E env st a ht.1 hs
    simp only [lE, e1]
    generalize lE late true n env st a = r at p1
    cases p1 with
    | none => exact ⟨by trivial, .none⟩
    | thr h v => exact ⟨by trivial, .thr h v⟩
    | ok h v =>
      rename_i p s1
      obtain ⟨e2, p2⟩ := I.E env s1 b ht.2 h
      simp only [e2]
      generalize lE late true n env s1 b = r at p2
      cases p2 with
      | none => exact ⟨by trivial, .none⟩
      | thr h v => exact ⟨by trivial, .thr h v⟩
      | ok h2 v2 =>
        refine ⟨by trivial, .ok h2 ?_⟩
        simp only [OT]
        generalize St.deref _ p = u
        generalize St.deref _ _ = w
        cases u <;> cases w <;> trivial
  | fn s f =>
    simp only [Expr.Tidy] at ht
    cases s with
    | none => exact ⟨by trivial, .ok hs ht⟩
    | some y => exact ⟨by trivial, .ok (set_T (alloc_T hs) ht) ht⟩
  | call f as =>
    simp only [Expr.Tidy] at ht
    obtain ⟨e1, p1⟩ := I.E env st f ht.1 hs
    simp only [lE, e1]
    generalize lE late true n env st f = r at p1
    cases p1 with
    | none => exact ⟨by trivial, .none⟩
    | thr h v => exact ⟨by trivial, .thr h v⟩
    | ok h v =>
      rename_i p s1
      obtain ⟨e2, p2⟩ := I.A env s1 as ht.2 h
      simp only [e2]
      generalize lA late true n env s1 as = r at p2
      cases p2 with
      | none => exact ⟨by trivial, .none⟩
      | thr h v => exact ⟨by trivial, .thr h v⟩
      | ok h2 v2 =>
        rename_i qs s2
        obtain ⟨e3, p3⟩ := I.C s2 (s2.deref p) (qs.map s2.deref) (deref_T h2 v) (by
          intro u hu
          obtain ⟨q, hq, rfl⟩ := List.mem_map.1 hu
          exact deref_T h2 (v2 q hq)) h2
        simp only [e3]
        generalize lC late true n s2 (s2.deref p) (qs.map s2.deref) = r at p3
        cases p3 with
        | none => exact ⟨by trivial, .none⟩
        | thr h v => exact ⟨by trivial, .thr h v⟩
        | ok h v => exact ⟨by trivial, .ok h v⟩

theorem hA {late : Bool} {n : Nat} (I : HSim late n) (env : Name → Nat) (st : St) (e : Args Unit) (ht : e.Tidy)
    (hs : StT st) :
    lA late false (n + 1) env st e = lA late true (n + 1) env st e ∧ PE LT (lA late true (n + 1) env st e) := by
  cases e with
  | nil => exact ⟨by trivial, .ok hs (by intro p hp; simp at hp)⟩
  | cons a b =>
    simp only [Args.Tidy] at ht
    obtain ⟨e1, p1⟩ := I.E env st a ht.1 hs
    simp only [lA, e1]
    generalize lE late true n env st a = r at p1
    cases p1 with
    | none => exact ⟨by trivial, .none⟩
    | thr h v => exact ⟨by trivial, .thr h v⟩
    | ok h v =>
      rename_i p s1
      obtain ⟨e2, p2⟩ := I.A env s1 b ht.2 h
      simp only [e2]
      generalize lA late true n env s1 b = r at p2
      cases p2 with
      | none => exact ⟨by trivial, .none⟩
      | thr h v => exact ⟨by trivial, .thr h v⟩
      | ok h2 v2 =>
        refine ⟨by trivial, .ok h2 ?_⟩
        intro q hq
        rcases List.mem_cons.1 hq with rfl | hq
        · exact v
        · exact v2 q hq

theorem args_val : ∀ (ps : List Name) (ws : List Val) (s : St) (o : Nat) (x : Name), x ∉ ps →
    (s.args o ps ws).val o x = s.val o x
  | [], _, s, o, x, _ => rfl
  | y :: ps, [], s, o, x, h => by
    simp only [List.mem_cons, not_or] at h
    rw [St.args, args_val ps _ _ _ _ h.2]
    simp [St.set, h.1]
  | y :: ps, v :: vs, s, o, x, h => by
    simp only [List.mem_cons, not_or] at h
    rw [St.args, args_val ps _ _ _ _ h.2]
    simp [St.set, h.1]

theorem hC {late : Bool} {n : Nat} (I : HSim late n) (st : St) (v : Val) (vs : List Val) (hv : VT v)
    (ha : ∀ u ∈ vs, VT u) (hs : StT st) :
    lC late false (n + 1) st v vs = lC late true (n + 1) st v vs ∧ PE VT (lC late true (n + 1) st v vs) := by
  cases v with
  | clo f env =>
    obtain ⟨k, ps, b, u⟩ := f
    simp only [VT, Fn.Tidy] at hv
    obtain ⟨e1, p1⟩ := I.B 2 (bind env st.next (ps ++ b.declared)) (st.alloc.args st.next ps vs) b hv.1 (by
      intro _ x hx
      have : bind env st.next (ps ++ b.declared) x = st.next := by
        unfold bind; rw [if_pos (by simp [hx])]
      rw [this, args_val _ _ _ _ _ (fun hm => hv.2 x hm hx)]
      simp [St.alloc]) (args_T _ _ (alloc_T hs) ha)
    simp only [lC, St.enter, Fn.params, Fn.body, Bool.false_eq_true, if_false, if_true, e1]
    generalize lS late true n _ _ b = r at p1
    cases p1 with
    | none => exact ⟨by trivial, .none⟩
    | norm h => exact ⟨by trivial, .ok h trivial⟩
    | ret h v => exact ⟨by trivial, .ok h v⟩
    | thr h v => exact ⟨by trivial, .thr h v⟩
  | undef => exact ⟨by trivial, .thr hs trivial⟩
  | nan => exact ⟨by trivial, .thr hs trivial⟩
  | err => exact ⟨by trivial, .thr hs trivial⟩
  | num n => exact ⟨by trivial, .thr hs trivial⟩

theorem after_zero (s : Stmt Unit) : s.after 0 = 0 := by cases s <;> simp [Stmt.after]

theorem here_zero (s : Stmt Unit) : s.here 0 = 0 := by cases s <;> simp [Stmt.here]

theorem hS {late : Bool} {n : Nat} (I : HSim late n) (env : Name → Nat) (st : St) (s : Stmt Unit) (ht : s.Tidy 0)
    (hs : StT st) :
    lS late false (n + 1) env st s = lS late true (n + 1) env st s ∧ PS (lS late true (n + 1) env st s) := by
  cases s with
  | skip => exact ⟨by trivial, .norm hs⟩
  | bare x => simp [Stmt.Tidy] at ht
  | func x f => simp [Stmt.Tidy] at ht
  | expr e =>
    simp only [Stmt.Tidy] at ht
    obtain ⟨e1, p1⟩ := I.E env st e ht hs
    simp only [lS, e1]
    generalize lE late true n env st e = r at p1
    cases p1 with
    | none => exact ⟨by trivial, .none⟩
    | thr h v => exact ⟨by trivial, .thr h v⟩
    | ok h v => exact ⟨by trivial, .norm h⟩
  | init x e =>
    simp only [Stmt.Tidy] at ht
    obtain ⟨e1, p1⟩ := I.E env st e ht hs
    simp only [lS, e1]
    generalize lE late true n env st e = r at p1
    cases p1 with
    | none => exact ⟨by trivial, .none⟩
    | thr h v => exact ⟨by trivial, .thr h v⟩
    | ok h v => exact ⟨by trivial, .norm (set_T h (deref_T h v))⟩
  | seq a b =>
    simp only [Stmt.Tidy, after_zero, here_zero] at ht
    obtain ⟨e1, p1⟩ := I.S env st a ht.1 hs
    simp only [lS, e1]
    generalize lS late true n env st a = r at p1
    cases p1 with
    | none => exact ⟨by trivial, .none⟩
    | ret h v => exact ⟨by trivial, .ret h v⟩
    | thr h v => exact ⟨by trivial, .thr h v⟩
    | norm h => exact I.S env _ b ht.2 h
  | ite c a b =>
    simp only [Stmt.Tidy] at ht
    obtain ⟨e1, p1⟩ := I.E env st c ht.1 hs
    simp only [lS, e1]
    generalize lE late true n env st c = r at p1
    cases p1 with
    | none => exact ⟨by trivial, .none⟩
    | thr h v => exact ⟨by trivial, .thr h v⟩
    | ok h v =>
      simp only
      split
      · exact I.S env _ a ht.2.1 h
      · exact I.S env _ b ht.2.2 h
  | loop c a =>
    have ht' := ht
    simp only [Stmt.Tidy] at ht
    obtain ⟨e1, p1⟩ := I.E env st c ht.1 hs
    simp only [lS, e1]
    generalize lE late true n env st c = r at p1
    cases p1 with
    | none => exact ⟨by trivial, .none⟩
    | thr h v => exact ⟨by trivial, .thr h v⟩
    | ok h v =>
      rename_i p s1
      simp only
      split
      · obtain ⟨e2, p2⟩ := I.S env s1 a ht.2 h
        simp only [e2]
        generalize lS late true n env s1 a = r at p2
        cases p2 with
        | none => exact ⟨by trivial, .none⟩
        | ret h v => exact ⟨by trivial, .ret h v⟩
        | thr h v => exact ⟨by trivial, .thr h v⟩
        | norm h => exact I.S env _ _ ht' h
      · exact ⟨by trivial, .norm h⟩
  | ret e =>
    simp only [Stmt.Tidy] at ht
    obtain ⟨e1, p1⟩ := I.E env st e ht hs
    simp only [lS, e1]
    generalize lE late true n env st e = r at p1
    cases p1 with
    | none => exact ⟨by trivial, .none⟩
    | thr h v => exact ⟨by trivial, .thr h v⟩
    | ok h v => exact ⟨by trivial, .ret h (deref_T h v)⟩
  | throw e =>
    simp only [Stmt.Tidy] at ht
    obtain ⟨e1, p1⟩ := I.E env st e ht hs
    simp only [lS, e1]
    generalize lE late true n env st e = r at p1
    cases p1 with
    | none => exact ⟨by trivial, .none⟩
    | thr h v => exact ⟨by trivial, .thr h v⟩
    | ok h v => exact ⟨by trivial, .thr h (deref_T h v)⟩
  | tryCatch a x b =>
    simp only [Stmt.Tidy] at ht
    obtain ⟨e1, p1⟩ := I.S env st a ht.1 hs
    simp only [lS, e1]
    generalize lS late true n env st a = r at p1
    cases p1 with
    | none => exact ⟨by trivial, .none⟩
    | norm h => exact ⟨by trivial, .norm h⟩
    | ret h v => exact ⟨by trivial, .ret h v⟩
    | thr h v => exact I.S _ _ b ht.2 (set_T (alloc_T h) v)

theorem funcs_nil : ∀ s : Stmt Unit, s.Tidy 0 → s.funcs = []
  | .skip, _ => rfl
  | .expr _, _ => rfl
  | .bare _, h => by simp [Stmt.Tidy] at h
  | .init _ _, _ => rfl
  | .func _ _, h => by simp [Stmt.Tidy] at h
  | .seq s t, h => by
    simp only [Stmt.Tidy, after_zero, here_zero] at h
    rw [Stmt.funcs, funcs_nil s h.1, funcs_nil t h.2]; rfl
  | .ite _ s t, h => by
    simp only [Stmt.Tidy] at h
    rw [Stmt.funcs, funcs_nil s h.2.1, funcs_nil t h.2.2]; rfl
  | .loop _ s, h => by
    simp only [Stmt.Tidy] at h
    rw [Stmt.funcs, funcs_nil s h.2]
  | .ret _, _ => rfl
  | .throw _, _ => rfl
  | .tryCatch s _ t, h => by
    simp only [Stmt.Tidy] at h
    rw [Stmt.funcs, funcs_nil s h.1, funcs_nil t h.2]; rfl

theorem set_undef {s : St} {o : Nat} {x : Name} {w : Val} (h : s.val o x = w) : s.set o x w = s := by
  cases s with
  | mk n v =>
    unfold St.set
    congr 1
    funext p y
    split
    · rename_i c; rw [c.1, c.2]; exact h.symm
    · rfl

/-- A body whose first part is over. -/
theorem hB0 {late : Bool} {n : Nat}
    (S : ∀ (env : Name → Nat) (st : St) (s : Stmt Unit), s.Tidy 0 → StT st →
      lS late false n env st s = lS late true n env st s ∧ PS (lS late true n env st s))
    (env : Name → Nat) (st : St) (s : Stmt Unit) (ht : s.Tidy 0) (hs : StT st) :
    lS late false n env st s = lS late true n env (st.hoist env s.funcs) s ∧
      PS (lS late true n env (st.hoist env s.funcs) s) := by
  rw [funcs_nil s ht]
  exact S env st s ht hs

theorem hB {late : Bool} {n : Nat} (I : HSim late n)
    (S : ∀ (env : Name → Nat) (st : St) (s : Stmt Unit), s.Tidy 0 → StT st →
      lS late false (n + 1) env st s = lS late true (n + 1) env st s ∧ PS (lS late true (n + 1) env st s))
    (p : Nat) (env : Name → Nat) (st : St) (s : Stmt Unit) (ht : s.Tidy p)
    (hu : p = 2 → ∀ x ∈ s.declared, st.val (env x) x = .undef) (hs : StT st) :
    lS late false (n + 1) env st s = lS late true (n + 1) env (st.hoist env s.funcs) s ∧
      PS (lS late true (n + 1) env (st.hoist env s.funcs) s) := by
  cases s with
  | bare x =>
    simp only [Stmt.Tidy] at ht
    simp only [lS, Stmt.funcs, St.hoist, Bool.false_eq_true, if_false, if_true]
    rw [set_undef (hu ht x (by simp [Stmt.declared]))]
    exact ⟨by trivial, .norm hs⟩
  | func x f =>
    simp only [Stmt.Tidy] at ht
    simp only [lS, Stmt.funcs, St.hoist, Bool.false_eq_true, if_false, if_true]
    exact ⟨trivial, .norm (set_T hs ht.2)⟩
  | seq a b =>
    have h0 : (a.here p = 0 ∧ a.after p = 0) ∨ (∃ x, a = .bare x) ∨ ∃ x f, a = .func x f := by
      cases a <;> simp [Stmt.here, Stmt.after]
    rcases h0 with ⟨q1, q2⟩ | ⟨x, rfl⟩ | ⟨x, f, rfl⟩
    · simp only [Stmt.Tidy, q1, q2] at ht
      exact hB0 S env st _ (by simp only [Stmt.Tidy, after_zero, here_zero]; exact ht) hs
    · simp only [Stmt.Tidy, Stmt.here, Stmt.after] at ht
      simp only [lS, Stmt.funcs, List.nil_append]
      cases n with
      | zero => exact ⟨by trivial, .none⟩
      | succ m =>
        have := I.B p env st b ht.2 (fun e y hy => hu e y (by simp [Stmt.declared, hy])) hs
        simp only [lS, Bool.false_eq_true, if_false, if_true]
        rw [set_undef (hu ht.1 x (by simp [Stmt.declared]))]
        exact this
    · simp only [Stmt.Tidy, Stmt.here, Stmt.after] at ht
      simp only [lS, Stmt.funcs, List.cons_append, List.nil_append, St.hoist]
      cases n with
      | zero => exact ⟨by trivial, .none⟩
      | succ m =>
        have := I.B (min p 1) env (st.set (env x) x (.clo f env)) b ht.2 (by omega) (set_T hs ht.1.2)
        simp only [lS, Bool.false_eq_true, if_false, if_true]
        exact this
  | skip => exact hB0 S env st _ ht hs
  | expr e => exact hB0 S env st _ ht hs
  | init x e => exact hB0 S env st _ ht hs
  | ite c a b => exact hB0 S env st _ ht hs
  | loop c a => exact hB0 S env st _ ht hs
  | ret e => exact hB0 S env st _ ht hs
  | throw e => exact hB0 S env st _ ht hs
  | tryCatch a x b => exact hB0 S env st _ ht hs

theorem hsim (late : Bool) : ∀ n, HSim late n
  | 0 => ⟨fun _ _ _ _ _ => ⟨by trivial, .none⟩, fun _ _ _ _ _ => ⟨rfl, .none⟩, fun _ _ _ _ _ _ => ⟨rfl, .none⟩,
      fun _ _ _ _ _ => ⟨by trivial, .none⟩, fun _ _ _ _ _ _ _ => ⟨rfl, .none⟩⟩
  | n + 1 => ⟨hE (hsim late n), hA (hsim late n), hC (hsim late n), hS (hsim late n),
      hB (hsim late n) (hS (hsim late n))⟩

/-- Where declarations come first, it makes no difference when they take effect. -/
theorem hoist_eq (late : Bool) (n : Nat) (p : Stmt Unit) (hp : p.Tidy 2) : lRun late false n p = lRun late true n p := by
  have := ((hsim late n).B 2 (fun _ => 0) .empty p hp (fun _ _ _ => rfl) (fun _ _ => trivial)).1
  unfold lRun
  simp only [St.enter, Bool.false_eq_true, if_false, if_true]
  rw [this]

end Verif.Scope
