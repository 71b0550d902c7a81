import Verif.Scope.Spec

/-!
Reading the operands late makes no difference if each operand that is a variable is a name to which nothing is ever
assigned, or is followed only by operands that change nothing (C144).
-/

namespace Verif.Scope

variable {K : Name → Prop}

/-- All functions in it are calm, and their environments are of activations that exist. -/
def VK (K : Name → Prop) (n : Nat) : Val → Prop
  | .clo f env => f.Calm K ∧ ∀ x, env x < n
  | _ => True

def StK (K : Name → Prop) (st : St) : Prop := ∀ o x, VK K st.next (st.val o x)

theorem VK.mono {n m : Nat} (h : n ≤ m) : ∀ {v : Val}, VK K n v → VK K m v
  | .clo _ _, r => ⟨r.1, fun x => Nat.lt_of_lt_of_le (r.2 x) h⟩
  | .undef, _ => trivial
  | .nan, _ => trivial
  | .err, _ => trivial
  | .num _, _ => trivial

/-- The variables to which nothing is assigned keep their values. -/
def Stable (K : Name → Prop) (st st' : St) : Prop :=
  st.next ≤ st'.next ∧ ∀ o x, o < st.next → K x → st'.val o x = st.val o x

theorem Stable.refl (st : St) : Stable K st st := ⟨Nat.le_refl _, fun _ _ _ _ => rfl⟩

theorem Stable.trans {a b c : St} (h1 : Stable K a b) (h2 : Stable K b c) : Stable K a c :=
  ⟨Nat.le_trans h1.1 h2.1, fun o x ho hx => (h2.2 o x (Nat.lt_of_lt_of_le ho h1.1) hx).trans (h1.2 o x ho hx)⟩

theorem set_stable {st : St} {o : Nat} {x : Name} {v : Val} (h : ¬ K x) : Stable K st (st.set o x v) := by
  refine ⟨Nat.le_refl _, fun p y hp hy => ?_⟩
  simp only [St.set]
  rw [if_neg]
  rintro ⟨_, rfl⟩
  exact h hy

theorem set_K {st : St} (h : StK K st) {o : Nat} {x : Name} {v : Val} (hv : VK K st.next v) : StK K (st.set o x v) := by
  intro p y
  simp only [St.set]
  split
  · exact hv
  · exact h p y

/-- Setting a variable of an activation made later. -/
theorem set_new {st0 st : St} (s : Stable K st0 st) {x : Name} {o : Nat} (ho : st0.next ≤ o) {v : Val} :
    Stable K st0 (st.set o x v) := by
  refine ⟨s.1, fun p y hp hy => ?_⟩
  simp only [St.set]
  rw [if_neg (by omega)]
  exact s.2 p y hp hy

theorem alloc_K {st : St} (h : StK K st) : StK K st.alloc := by
  intro p y
  simp only [St.alloc]
  split
  · trivial
  · exact (h p y).mono (Nat.le_succ _)

theorem alloc_stable (st : St) : Stable K st st.alloc := by
  refine ⟨Nat.le_succ _, fun p y hp _ => ?_⟩
  simp only [St.alloc]
  rw [if_neg (by omega)]

theorem args_K {st0 : St} {o : Nat} (ho : st0.next ≤ o) : ∀ (ps : List Name) (vs : List Val) {st : St}, Stable K st0 st →
    StK K st → (∀ v ∈ vs, VK K st.next v) →
    StK K (st.args o ps vs) ∧ Stable K st0 (st.args o ps vs) ∧ (st.args o ps vs).next = st.next
  | [], _, _, s, h, _ => ⟨h, s, rfl⟩
  | _ :: ps, [], _, s, h, _ => args_K ho ps [] (set_new s ho) (set_K h trivial) (by simp)
  | _ :: ps, v :: vs, _, s, h, hv =>
    args_K ho ps vs (set_new s ho) (set_K h (hv v (by simp))) fun u hu => hv u (by simp [hu])

theorem hoist_K {st0 : St} {env : Name → Nat} : ∀ (l : List (Name × Fn Unit)) {st : St}, Stable K st0 st → StK K st →
    (∀ q ∈ l, q.2.Calm K ∧ st0.next ≤ env q.1) → (∀ x, env x < st.next) →
    StK K (st.hoist env l) ∧ Stable K st0 (st.hoist env l) ∧ (st.hoist env l).next = st.next
  | [], _, s, h, _, _ => ⟨h, s, rfl⟩
  | (x, f) :: l, _, s, h, hl, he =>
    hoist_K l (set_new s (hl (x, f) (by simp)).2) (set_K h ⟨(hl (x, f) (by simp)).1, he⟩)
      (fun q hq => hl q (by simp [hq])) he

theorem funcs_calm : ∀ s : Stmt Unit, s.Calm K → ∀ q ∈ s.funcs, q.2.Calm K ∧ q.1 ∈ s.declared
  | .skip, _, q, hq => by simp [Stmt.funcs] at hq
  | .expr _, _, q, hq => by simp [Stmt.funcs] at hq
  | .bare _, _, q, hq => by simp [Stmt.funcs] at hq
  | .init _ _, _, q, hq => by simp [Stmt.funcs] at hq
  | .ret _, _, q, hq => by simp [Stmt.funcs] at hq
  | .throw _, _, q, hq => by simp [Stmt.funcs] at hq
  | .func x f, h, q, hq => by
    simp only [Stmt.funcs, List.mem_singleton] at hq
    subst hq
    simp only [Stmt.Calm] at h
    exact ⟨h, by simp [Stmt.declared]⟩
  | .seq s t, h, q, hq => by
    simp only [Stmt.Calm] at h
    simp only [Stmt.funcs, List.mem_append] at hq
    simp only [Stmt.declared, List.mem_append]
    rcases hq with hq | hq
    · exact ⟨(funcs_calm s h.1 q hq).1, .inl (funcs_calm s h.1 q hq).2⟩
    · exact ⟨(funcs_calm t h.2 q hq).1, .inr (funcs_calm t h.2 q hq).2⟩
  | .ite _ s t, h, q, hq => by
    simp only [Stmt.Calm] at h
    simp only [Stmt.funcs, List.mem_append] at hq
    simp only [Stmt.declared, List.mem_append]
    rcases hq with hq | hq
    · exact ⟨(funcs_calm s h.2.1 q hq).1, .inl (funcs_calm s h.2.1 q hq).2⟩
    · exact ⟨(funcs_calm t h.2.2 q hq).1, .inr (funcs_calm t h.2.2 q hq).2⟩
  | .loop _ s, h, q, hq => by
    simp only [Stmt.Calm] at h
    simp only [Stmt.funcs] at hq
    exact funcs_calm s h.2 q hq
  | .tryCatch s _ t, h, q, hq => by
    simp only [Stmt.Calm] at h
    simp only [Stmt.funcs, List.mem_append] at hq
    simp only [Stmt.declared, List.mem_append]
    rcases hq with hq | hq
    · exact ⟨(funcs_calm s h.1 q hq).1, .inl (funcs_calm s h.1 q hq).2⟩
    · exact ⟨(funcs_calm t h.2 q hq).1, .inr (funcs_calm t h.2 q hq).2⟩

/-! ### Expressions that change nothing -/

theorem pure_E {late hoist : Bool} : ∀ (n : Nat) (env : Name → Nat) (st : St) (e : Expr Unit), e.Pure → ∀ r s',
    lE late hoist n env st e = some (r, s') → s' = st ∧ ∃ a, r = .ok a
  | 0, _, _, _, _, _, _, h => by simp [lE] at h
  | n + 1, env, st, e, hp, r, s', h => by
    cases e with
    | undef => simp only [lE, Option.some.injEq, Prod.mk.injEq] at h; exact ⟨h.2.symm, _, h.1.symm⟩
    | num k => simp only [lE, Option.some.injEq, Prod.mk.injEq] at h; exact ⟨h.2.symm, _, h.1.symm⟩
    | var x => simp only [lE, Option.some.injEq, Prod.mk.injEq] at h; exact ⟨h.2.symm, _, h.1.symm⟩
    | asg x e => exact False.elim hp
    | call f as => exact False.elim hp
    | fn s f =>
      simp only [Expr.Pure] at hp
      subst hp
      simp only [lE, Option.some.injEq, Prod.mk.injEq] at h
      exact ⟨h.2.symm, _, h.1.symm⟩
    | add a b =>
      simp only [Expr.Pure] at hp
      simp only [lE] at h
      cases e1 : lE late hoist n env st a with
      | none => rw [e1] at h; simp at h
      | some q =>
        obtain ⟨r1, s1⟩ := q
        obtain ⟨rfl, a1, rfl⟩ := pure_E n env st a hp.1 r1 s1 e1
        rw [e1] at h
        simp only at h
        cases e2 : lE late hoist n env s1 b with
        | none => rw [e2] at h; simp at h
        | some q =>
          obtain ⟨r2, s2⟩ := q
          obtain ⟨rfl, a2, rfl⟩ := pure_E n env s1 b hp.2 r2 s2 e2
          rw [e2] at h
          simp only [Option.some.injEq, Prod.mk.injEq] at h
          exact ⟨h.2.symm, _, h.1.symm⟩

theorem pure_A {late hoist : Bool} : ∀ (n : Nat) (env : Name → Nat) (st : St) (e : Args Unit), e.Pure → ∀ r s',
    lA late hoist n env st e = some (r, s') → s' = st
  | 0, _, _, _, _, _, _, h => by simp [lA] at h
  | n + 1, env, st, .nil, _, r, s', h => by simp only [lA, Option.some.injEq, Prod.mk.injEq] at h; exact h.2.symm
  | n + 1, env, st, .cons a b, hp, r, s', h => by
    simp only [Args.Pure] at hp
    simp only [lA] at h
    cases e1 : lE late hoist n env st a with
    | none => rw [e1] at h; simp at h
    | some q =>
      obtain ⟨r1, s1⟩ := q
      obtain ⟨rfl, a1, rfl⟩ := pure_E n env st a hp.1 r1 s1 e1
      rw [e1] at h
      simp only at h
      cases e2 : lA late hoist n env s1 b with
      | none => rw [e2] at h; simp at h
      | some q =>
        obtain ⟨r2, s2⟩ := q
        have := pure_A n env s1 b hp.2 r2 s2 e2
        rw [e2] at h
        cases r2 <;> simp only [Option.some.injEq, Prod.mk.injEq] at h <;> rw [← h.2, this]

/-! ### Reading late and at once -/

/-- What is known of an operand that is a variable. -/
def RefIs (K : Name → Prop) (e : Option Name) (n : Nat) : Opd → Prop
  | .ref o x => e = some x ∧ o < n
  | .val _ => True

/-- The late run and the other one, for an expression. -/
inductive QE (K : Name → Prop) (st : St) (e : Option Name) : Option (Res Opd × St) → Option (Res Opd × St) → Prop
  | none : QE K st e none none
  | ok {p s} : Stable K st s → StK K s → VK K s.next (s.deref p) → RefIs K e s.next p →
      QE K st e (some (.ok p, s)) (some (.ok (.val (s.deref p)), s))
  | thr {v s} : Stable K st s → StK K s → VK K s.next v → QE K st e (some (.thr v, s)) (some (.thr v, s))

/-- The same for arguments. -/
inductive QA (K : Name → Prop) (st : St) : Option (Res (List Opd) × St) → Option (Res (List Opd) × St) → Prop
  | none : QA K st none none
  | ok {ps s} : Stable K st s → StK K s → (∀ p ∈ ps, VK K s.next (s.deref p)) →
      QA K st (some (.ok ps, s)) (some (.ok (ps.map fun p => .val (s.deref p)), s))
  | thr {v s} : Stable K st s → StK K s → VK K s.next v → QA K st (some (.thr v, s)) (some (.thr v, s))

inductive QC (K : Name → Prop) (st : St) : Option (Res Val × St) → Prop
  | none : QC K st none
  | ok {v s} : Stable K st s → StK K s → VK K s.next v → QC K st (some (.ok v, s))
  | thr {v s} : Stable K st s → StK K s → VK K s.next v → QC K st (some (.thr v, s))

inductive QS (K : Name → Prop) (st : St) : Option (Out × St) → Prop
  | none : QS K st none
  | norm {s} : Stable K st s → StK K s → QS K st (some (.norm, s))
  | ret {v s} : Stable K st s → StK K s → VK K s.next v → QS K st (some (.ret v, s))
  | thr {v s} : Stable K st s → StK K s → VK K s.next v → QS K st (some (.thr v, s))

theorem QS.trans {a b : St} (h : Stable K a b) : ∀ {r}, QS K b r → QS K a r
  | _, .none => .none
  | _, .norm s k => .norm (h.trans s) k
  | _, .ret s k v => .ret (h.trans s) k v
  | _, .thr s k v => .thr (h.trans s) k v

/-- An operand still reads as before after the operands behind it. -/
theorem deref_stable {s1 s2 : St} {e : Option Name} {p : Opd} (hr : RefIs K e s1.next p) (hst : Stable K s1 s2)
    (h : ∀ x, e = some x → K x ∨ s2 = s1) : s2.deref p = s1.deref p := by
  cases p with
  | val v => rfl
  | ref o x =>
    obtain ⟨he, ho⟩ := hr
    rcases h x he with hk | rfl
    · exact hst.2 o x ho hk
    · rfl

structure OSim (K : Name → Prop) (n : Nat) : Prop where
  E : ∀ (env : Name → Nat) (st : St) (e : Expr Unit), e.Calm K → StK K st → (∀ x, env x < st.next) →
    QE K st e.ref (lE true true n env st e) (lE false true n env st e)
  A : ∀ (env : Name → Nat) (st : St) (e : Args Unit), e.Calm K → StK K st → (∀ x, env x < st.next) →
    QA K st (lA true true n env st e) (lA false true n env st e)
  C : ∀ (st : St) (v : Val) (vs : List Val), VK K st.next v → (∀ u ∈ vs, VK K st.next u) → StK K st →
    lC true true n st v vs = lC false true n st v vs ∧ QC K st (lC false true n st v vs)
  S : ∀ (env : Name → Nat) (st : St) (s : Stmt Unit), s.Calm K → StK K st → (∀ x, env x < st.next) →
    lS true true n env st s = lS false true n env st s ∧ QS K st (lS false true n env st s)

theorem plus_K (n : Nat) (a b : Val) : VK K n (a.plus b) := by
  cases a <;> cases b <;> trivial

theorem oE {n : Nat} (I : OSim K n) (env : Name → Nat) (st : St) (e : Expr Unit) (hc : e.Calm K) (hk : StK K st)
    (he : ∀ x, env x < st.next) :
    QE K st e.ref (lE true true (n + 1) env st e) (lE false true (n + 1) env st e) := by
  cases e with
  | undef => exact QE.ok (p := .val .undef) (Stable.refl st) hk trivial trivial
  | num k => exact QE.ok (p := .val (.num k)) (Stable.refl st) hk trivial trivial
  | var x => exact QE.ok (p := .ref (env x) x) (Stable.refl st) hk (hk _ _) ⟨rfl, he x⟩
  | asg x e =>
    simp only [Expr.Calm] at hc
    have i := I.E env st e hc.2 hk he
    simp only [lE]
    generalize lE true true n env st e = a at i
    generalize lE false true n env st e = b at i
    cases i with
    | none => exact .none
    | thr s k v => exact .thr s k v
    | ok s k v r =>
      rename_i p s1
      have e1 : (s1.set (env x) x (s1.deref p)).val (env x) x = s1.deref p := by simp [St.set]
      have := QE.ok (K := K) (st := st) (e := some x) (p := .ref (env x) x) (s := s1.set (env x) x (s1.deref p))
        (s.trans (set_stable hc.1)) (set_K k v) (by
          show VK K s1.next ((s1.set (env x) x (s1.deref p)).val (env x) x)
          rw [e1]; exact v)
        ⟨rfl, Nat.lt_of_lt_of_le (he x) s.1⟩
      exact this
  | add a b =>
    simp only [Expr.Calm] at hc
    have i := I.E env st a hc.1 hk he
    simp only [lE]
    generalize lE true true n env st a = p at i
    generalize lE false true n env st a = q at i
    cases i with
    | none => exact .none
    | thr s k v => exact .thr s k v
    | ok s k v r =>
      rename_i p s1
      have hpure := pure_E (late := true) (hoist := true) n env s1 b
      have i := I.E env s1 b hc.2.1 k fun x => Nat.lt_of_lt_of_le (he x) s.1
      simp only
      generalize lE true true n env s1 b = p' at i hpure
      generalize lE false true n env s1 b = q' at i
      cases i with
      | none => exact .none
      | thr s' k' v' => exact .thr (s.trans s') k' v'
      | ok s' k' v' r' =>
        rename_i p2 s2
        have hd := deref_stable r s' (fun x hx => (hc.2.2 x hx).imp_right fun hb => (hpure hb _ _ rfl).1)
        have := QE.ok (K := K) (st := st) (e := (Expr.add a b).ref) (p := .val ((s2.deref p).plus (s2.deref p2)))
          (s.trans s') k' (plus_K _ _ _) trivial
        simp only [St.deref] at this hd ⊢
        rw [← hd]
        exact this
  | fn y f =>
    simp only [Expr.Calm] at hc
    cases y with
    | none => exact QE.ok (p := .val (.clo f env)) (Stable.refl st) hk ⟨hc, he⟩ trivial
    | some y =>
      have hv : VK K (st.next + 1) (.clo f (bind env st.next [y])) := by
        refine ⟨hc, fun x => ?_⟩
        unfold bind
        split
        · omega
        · have := he x; omega
      exact QE.ok (p := .val (.clo f (bind env st.next [y]))) (set_new (alloc_stable st) (Nat.le_refl _))
        (set_K (alloc_K hk) hv) hv trivial
  | call f as =>
    simp only [Expr.Calm] at hc
    have i := I.E env st f hc.1 hk he
    simp only [lE]
    generalize lE true true n env st f = p at i
    generalize lE false true n env st f = q at i
    cases i with
    | none => exact .none
    | thr s k v => exact .thr s k v
    | ok s k v r =>
      rename_i p s1
      have hpure := pure_A (late := true) (hoist := true) n env s1 as
      have i := I.A env s1 as hc.2.1 k fun x => Nat.lt_of_lt_of_le (he x) s.1
      simp only
      generalize lA true true n env s1 as = p' at i hpure
      generalize lA false true n env s1 as = q' at i
      cases i with
      | none => exact .none
      | thr s' k' v' => exact .thr (s.trans s') k' v'
      | ok s' k' v' =>
        rename_i ps s2
        have hd := deref_stable r s' (fun x hx => (hc.2.2 x hx).imp_right fun hb => hpure hb _ _ rfl)
        simp only
        have e1 : (ps.map fun p => Opd.val (s2.deref p)).map s2.deref = ps.map s2.deref := by
          rw [List.map_map]; rfl
        have e2 : s2.deref (.val (s1.deref p)) = s2.deref p := hd.symm
        rw [e1, e2]
        obtain ⟨e3, q⟩ := I.C s2 (s2.deref p) (ps.map s2.deref) (by rw [hd]; exact v.mono s'.1) (by
          intro u hu
          obtain ⟨a, ha, rfl⟩ := List.mem_map.1 hu
          exact v' a ha) k'
        rw [e3]
        generalize lC false true n s2 (s2.deref p) (ps.map s2.deref) = r at q
        cases q with
        | none => exact .none
        | thr a b c => exact .thr (s.trans (s'.trans a)) b c
        | ok a b c =>
          rename_i w s3
          exact QE.ok (p := .val w) (s.trans (s'.trans a)) b c trivial

theorem oA {n : Nat} (I : OSim K n) (env : Name → Nat) (st : St) (e : Args Unit) (hc : e.Calm K) (hk : StK K st)
    (he : ∀ x, env x < st.next) :
    QA K st (lA true true (n + 1) env st e) (lA false true (n + 1) env st e) := by
  cases e with
  | nil => exact QA.ok (ps := []) (Stable.refl st) hk (by simp)
  | cons a b =>
    simp only [Args.Calm] at hc
    have i := I.E env st a hc.1 hk he
    simp only [lA]
    generalize lE true true n env st a = p at i
    generalize lE false true n env st a = q at i
    cases i with
    | none => exact .none
    | thr s k v => exact .thr s k v
    | ok s k v r =>
      rename_i p s1
      have hpure := pure_A (late := true) (hoist := true) n env s1 b
      have i := I.A env s1 b hc.2.1 k fun x => Nat.lt_of_lt_of_le (he x) s.1
      simp only
      generalize lA true true n env s1 b = p' at i hpure
      generalize lA false true n env s1 b = q' at i
      cases i with
      | none => exact .none
      | thr s' k' v' => exact .thr (s.trans s') k' v'
      | ok s' k' v' =>
        rename_i ps s2
        have hd := deref_stable r s' (fun x hx => (hc.2.2 x hx).imp_right fun hb => hpure hb _ _ rfl)
        have := QA.ok (K := K) (st := st) (ps := p :: ps) (s.trans s') k' (by
          intro u hu
          rcases List.mem_cons.1 hu with rfl | hu
          · rw [hd]; exact v.mono s'.1
          · exact v' u hu)
        simp only [List.map_cons] at this
        rw [hd] at this
        exact this

theorem oC {n : Nat} (I : OSim K n) (st : St) (v : Val) (vs : List Val) (hv : VK K st.next v)
    (ha : ∀ u ∈ vs, VK K st.next u) (hk : StK K st) :
    lC true true (n + 1) st v vs = lC false true (n + 1) st v vs ∧ QC K st (lC false true (n + 1) st v vs) := by
  cases v with
  | clo f env =>
    obtain ⟨k, ps, b, u⟩ := f
    simp only [VK, Fn.Calm] at hv
    obtain ⟨a1, a2, a3⟩ := args_K (K := K) (st0 := st) (Nat.le_refl _) ps vs (alloc_stable st) (alloc_K hk)
      (fun u hu => (ha u hu).mono (Nat.le_succ _))
    have henv : ∀ x, bind env st.next (ps ++ b.declared) x < st.alloc.next := by
      intro x
      simp only [St.alloc]
      unfold bind
      split
      · omega
      · have := hv.2 x; omega
    obtain ⟨b1, b2, b3⟩ := hoist_K (K := K) (st0 := st) (env := bind env st.next (ps ++ b.declared)) b.funcs a2 a1
      (fun q hq => by
        obtain ⟨c1, c2⟩ := funcs_calm b hv.1 q hq
        refine ⟨c1, ?_⟩
        unfold bind
        rw [if_pos (by simp [c2])]
        exact Nat.le_refl _) (by rw [a3]; exact henv)
    obtain ⟨e1, p1⟩ := I.S (bind env st.next (ps ++ b.declared)) _ b hv.1 b1 (by rw [b3, a3]; exact henv)
    have p1 := p1.trans b2
    simp only [lC, St.enter, Fn.params, Fn.body, if_true, e1]
    generalize lS false true n _ _ b = r at p1
    cases p1 with
    | none => exact ⟨by trivial, .none⟩
    | norm s k => exact ⟨by trivial, .ok s k trivial⟩
    | ret s k v => exact ⟨by trivial, .ok s k v⟩
    | thr s k v => exact ⟨by trivial, .thr s k v⟩
  | undef => exact ⟨rfl, .thr (Stable.refl st) hk trivial⟩
  | nan => exact ⟨rfl, .thr (Stable.refl st) hk trivial⟩
  | err => exact ⟨rfl, .thr (Stable.refl st) hk trivial⟩
  | num n => exact ⟨rfl, .thr (Stable.refl st) hk trivial⟩

theorem oS {n : Nat} (I : OSim K n) (env : Name → Nat) (st : St) (s : Stmt Unit) (hc : s.Calm K) (hk : StK K st)
    (he : ∀ x, env x < st.next) :
    lS true true (n + 1) env st s = lS false true (n + 1) env st s ∧ QS K st (lS false true (n + 1) env st s) := by
  cases s with
  | skip => exact ⟨rfl, .norm (Stable.refl st) hk⟩
  | bare x => exact ⟨rfl, .norm (Stable.refl st) hk⟩
  | func x f => exact ⟨rfl, .norm (Stable.refl st) hk⟩
  | expr e =>
    simp only [Stmt.Calm] at hc
    have i := I.E env st e hc hk he
    simp only [lS]
    generalize lE true true n env st e = a at i
    generalize lE false true n env st e = b at i
    cases i with
    | none => exact ⟨by trivial, .none⟩
    | thr s k v => exact ⟨by trivial, .thr s k v⟩
    | ok s k v r => exact ⟨by trivial, .norm s k⟩
  | init x e =>
    simp only [Stmt.Calm] at hc
    have i := I.E env st e hc.2 hk he
    simp only [lS]
    generalize lE true true n env st e = a at i
    generalize lE false true n env st e = b at i
    cases i with
    | none => exact ⟨by trivial, .none⟩
    | thr s k v => exact ⟨by trivial, .thr s k v⟩
    | ok s k v r => exact ⟨by trivial, .norm (s.trans (set_stable hc.1)) (set_K k v)⟩
  | seq a b =>
    simp only [Stmt.Calm] at hc
    obtain ⟨e1, p1⟩ := I.S env st a hc.1 hk he
    simp only [lS, e1]
    generalize lS false true n env st a = r at p1
    cases p1 with
    | none => exact ⟨by trivial, .none⟩
    | ret s k v => exact ⟨by trivial, .ret s k v⟩
    | thr s k v => exact ⟨by trivial, .thr s k v⟩
    | norm s k =>
      obtain ⟨e2, p2⟩ := I.S env _ b hc.2 k fun x => Nat.lt_of_lt_of_le (he x) s.1
      exact ⟨e2, p2.trans s⟩
  | ite c a b =>
    simp only [Stmt.Calm] at hc
    have i := I.E env st c hc.1 hk he
    simp only [lS]
    generalize lE true true n env st c = a' at i
    generalize lE false true n env st c = b' at i
    cases i with
    | none => exact ⟨by trivial, .none⟩
    | thr s k v => exact ⟨by trivial, .thr s k v⟩
    | ok s k v r =>
      rename_i p s1
      have he1 : ∀ x, env x < s1.next := fun x => Nat.lt_of_lt_of_le (he x) s.1
      have e0 : s1.deref (.val (s1.deref p)) = s1.deref p := rfl
      simp only [e0]
      split
      · exact ⟨(I.S env s1 a hc.2.1 k he1).1, (I.S env s1 a hc.2.1 k he1).2.trans s⟩
      · exact ⟨(I.S env s1 b hc.2.2 k he1).1, (I.S env s1 b hc.2.2 k he1).2.trans s⟩
  | loop c a =>
    have hc' := hc
    simp only [Stmt.Calm] at hc
    have i := I.E env st c hc.1 hk he
    simp only [lS]
    generalize lE true true n env st c = a' at i
    generalize lE false true n env st c = b' at i
    cases i with
    | none => exact ⟨by trivial, .none⟩
    | thr s k v => exact ⟨by trivial, .thr s k v⟩
    | ok s k v r =>
      rename_i p s1
      have he1 : ∀ x, env x < s1.next := fun x => Nat.lt_of_lt_of_le (he x) s.1
      have e0 : s1.deref (.val (s1.deref p)) = s1.deref p := rfl
      simp only [e0]
      split
      · obtain ⟨e1, p1⟩ := I.S env s1 a hc.2 k he1
        simp only [e1]
        generalize lS false true n env s1 a = r at p1
        cases p1 with
        | none => exact ⟨by trivial, .none⟩
        | ret s' k v => exact ⟨by trivial, .ret (s.trans s') k v⟩
        | thr s' k v => exact ⟨by trivial, .thr (s.trans s') k v⟩
        | norm s' k' =>
          obtain ⟨e2, p2⟩ := I.S env _ _ hc' k' fun x => Nat.lt_of_lt_of_le (he1 x) s'.1
          exact ⟨e2, p2.trans (s.trans s')⟩
      · exact ⟨by trivial, .norm s k⟩
  | ret e =>
    simp only [Stmt.Calm] at hc
    have i := I.E env st e hc hk he
    simp only [lS]
    generalize lE true true n env st e = a at i
    generalize lE false true n env st e = b at i
    cases i with
    | none => exact ⟨by trivial, .none⟩
    | thr s k v => exact ⟨by trivial, .thr s k v⟩
    | ok s k v r => exact ⟨by trivial, .ret s k v⟩
  | throw e =>
    simp only [Stmt.Calm] at hc
    have i := I.E env st e hc hk he
    simp only [lS]
    generalize lE true true n env st e = a at i
    generalize lE false true n env st e = b at i
    cases i with
    | none => exact ⟨by trivial, .none⟩
    | thr s k v => exact ⟨by trivial, .thr s k v⟩
    | ok s k v r => exact ⟨by trivial, .thr s k v⟩
  | tryCatch a x b =>
    simp only [Stmt.Calm] at hc
    obtain ⟨e1, p1⟩ := I.S env st a hc.1 hk he
    simp only [lS, e1]
    generalize lS false true n env st a = r at p1
    cases p1 with
    | none => exact ⟨by trivial, .none⟩
    | norm s k => exact ⟨by trivial, .norm s k⟩
    | ret s k v => exact ⟨by trivial, .ret s k v⟩
    | thr s k v =>
      rename_i w s1
      have h2 : Stable K s1 (s1.alloc.set s1.next x w) := set_new (alloc_stable s1) (Nat.le_refl _)
      obtain ⟨e2, p2⟩ := I.S (bind env s1.next [x]) (s1.alloc.set s1.next x w) b hc.2
        (set_K (alloc_K k) (v.mono (Nat.le_succ _))) (by
          intro y
          show bind env s1.next [x] y < s1.next + 1
          unfold bind
          split
          · omega
          · have := he y; have := s.1; omega)
      exact ⟨e2, p2.trans (s.trans h2)⟩

theorem osim (K : Name → Prop) : ∀ n, OSim K n
  | 0 => ⟨fun _ _ _ _ _ _ => .none, fun _ _ _ _ _ _ => .none, fun _ _ _ _ _ _ => ⟨rfl, .none⟩,
      fun _ _ _ _ _ _ => ⟨rfl, .none⟩⟩
  | n + 1 => ⟨oE (osim K n), oA (osim K n), oC (osim K n), oS (osim K n)⟩

theorem hoist_empty (f : St) : ∀ (l : List (Name × Fn Unit)) {st : St}, StK K st → (∀ q ∈ l, q.2.Calm K) →
    0 < st.next → StK K (st.hoist (fun _ => 0) l) ∧ (st.hoist (fun _ => 0) l).next = st.next
  | [], _, h, _, _ => ⟨h, rfl⟩
  | (x, g) :: l, _, h, hl, hn =>
    hoist_empty f l (set_K h ⟨hl (x, g) (by simp), fun _ => hn⟩) (fun q hq => hl q (by simp [hq])) hn

/-- Where the program is calm, it makes no difference when operands are read. -/
theorem late_eq (K : Name → Prop) (n : Nat) (p : Stmt Unit) (hp : p.Calm K) : lRun true true n p = lRun false true n p := by
  obtain ⟨h1, h2⟩ := hoist_empty (K := K) .empty p.funcs (st := .empty) (fun _ _ => trivial)
    (fun q hq => (funcs_calm p hp q hq).1) Nat.one_pos
  have := ((osim K n).S (fun _ => 0) _ p hp h1 (fun _ => by rw [h2]; exact Nat.one_pos)).1
  unfold lRun
  simp only [St.enter, if_true]
  rw [this]

end Verif.Scope
