import Verif.Vm.ExprProof

/-!
Correctness of `compE` with respect to `evalE`, for every expression, placement and state.
-/

namespace Verif.Vm

variable {P : Prim} {F : List Instr} {d0 : Nat}

/-- The statement proved for every expression. -/
def EOk (P : Prim) (F : List Instr) (d0 : Nat) (e : Expr) : Prop :=
  ∀ (env : List EItem) (X : Ctx P) (pc : Nat) (stk : List P.SV),
    Fits F env pc (compE e) → X.lo ≤ pc → pc + (compE e).length ≤ X.hi → X.base <:+ stk →
    Inside X.tl X.lo X.hi →
    Spec F d0 X pc stk (evalE P X.sc e) (pc + (compE e).length) (fun sv => sv :: stk)

/-- The statement proved for every expression list. -/
def EsOk (P : Prim) (F : List Instr) (d0 : Nat) (es : Exprs) : Prop :=
  ∀ (env : List EItem) (X : Ctx P) (pc : Nat) (stk : List P.SV),
    Fits F env pc (compEs es) → X.lo ≤ pc → pc + (compEs es).length ≤ X.hi → X.base <:+ stk →
    Inside X.tl X.lo X.hi →
    Spec F d0 X pc stk (evalEs P X.sc es) (pc + (compEs es).length) (fun as => as.reverse ++ stk)

theorem suffix2 {α : Type} {a b : List α} (x : α) (h : a <:+ b) : a <:+ x :: b :=
  h.trans (List.suffix_cons _ _)

theorem tgt_eq {pc t : Nat} {off : Int} (h : (pc : Int) + off = t) : tgt pc off = t := by
  unfold tgt
  omega

theorem argOk {es : Exprs} (h : EsOk P F d0 es) (env : List EItem) (X : Ctx P) (pc : Nat)
    (stk : List P.SV) (hF : Fits F env pc (argCode es)) (hlo : X.lo ≤ pc)
    (hhi : pc + (argCode es).length ≤ X.hi) (hb : X.base <:+ stk) (hin : Inside X.tl X.lo X.hi) :
    Spec F d0 X pc stk (evalEs P X.sc es) (pc + (argCode es).length)
      (fun as => as.reverse ++ stk) := by
  cases es with
  | nil =>
    simp only [argCode, Fits, Fit1, List.length_cons, List.length_nil] at hF hhi ⊢
    rw [evalEs]
    refine Spec.instr _ hF.1 (by simp) hlo (by omega) hb fun st => ?_
    simp [exec, pureM]
  | cons e es =>
    have := h env X pc stk
    simp only [argCode, compEs] at *
    exact this hF hlo hhi hb hin

/-- Pieces of placed code. -/
theorem fits1 {env : List EItem} {pc : Nat} {i : Instr} (h : Fits F env pc [i])
    (hr : ∀ a b c, i ≠ .reserved a b c) : F[pc]? = some i := by
  have := h.1
  cases i <;> simp_all [Fit1]

theorem bindM_assoc {V H α β γ : Type} (m : MM V H α) (f : α → MM V H β) (g : β → MM V H γ) :
    bindM (bindM m f) g = bindM m fun a => bindM (f a) g := by
  funext s
  simp only [bindM]
  rcases m s with ⟨_ | a, s1⟩ <;> rfl

theorem pureM_bind {V H α β : Type} (a : α) (f : α → MM V H β) : bindM (pureM a) f = f a := rfl

theorem now_val {β : Type} (v : P.V) (f : P.V → P.M β) : bindM (now P (.val v)) f = f v := rfl

theorem Spec.congr {X : Ctx P} {pc pc' : Nat} {stk : List P.SV} {α : Type} {m m' : P.M α}
    {post : α → List P.SV} (h : m = m') (hs : Spec F d0 X pc stk m' pc' post) :
    Spec F d0 X pc stk m pc' post := h ▸ hs

set_option maxHeartbeats 1000000 in
theorem compE_ok (e : Expr) : EOk P F d0 e := by
  induction e using Expr.rec (motive_2 := EsOk P F d0) with
  | nil =>
    intro env X pc stk hF hlo hhi hb hin
    rw [evalEs]
    exact Spec.pure rfl
  | cons e es ihe ihes =>
    intro env X pc stk hF hlo hhi hb hin
    simp only [compEs, fits_append, List.length_append] at hF hhi
    rw [evalEs]
    refine (ihe env X pc stk hF.1 hlo (by omega) hb hin).bind fun a _ => ?_
    have := ihes env X _ (a :: stk) hF.2 (by omega) (by omega) (suffix2 _ hb) hin
    refine Spec.then (pc' := pc + (compE e).length + (compEs es).length)
      (Spec.map _ this (g := fun as => as.reverse ++ stk) ?_) ?_
    · intro as; simp
    · intro as
      simp only [compEs, List.length_append, Nat.add_assoc]
      exact Spec.pure rfl
  | lit l =>
    intro env X pc stk hF hlo hhi hb hin
    rw [evalE]
    exact spec_lit l (fits1 hF (by simp)) hlo (by simp [compE] at hhi; omega) hb
  | var x =>
    intro env X pc stk hF hlo hhi hb hin
    rw [evalE]
    exact (spec_pushvar x (fits1 hF (by simp)) hlo (by simp [compE] at hhi; omega) hb).map _ fun r => rfl
  | un op e ih =>
    intro env X pc stk hF hlo hhi hb hin
    simp only [compE, fits_append, List.length_append, List.length_cons, List.length_nil] at hF hhi ⊢
    rw [evalE]
    refine (ih env X pc stk hF.1 hlo (by omega) hb hin).bind fun a _ => ?_
    exact spec_un op a (fits1 hF.2 (by simp)) (by omega) (by omega) hb
  | bin op a b iha ihb =>
    intro env X pc stk hF hlo hhi hb hin
    simp only [compE, fits_append, List.length_append, List.length_cons, List.length_nil, Nat.zero_add, ← Nat.add_assoc] at hF hhi ⊢
    rw [evalE]
    refine (iha env X pc stk hF.1.1 hlo (by omega) hb hin).bind fun x _ => ?_
    refine (ihb env X _ (x :: stk) hF.1.2 (by omega) (by omega) (suffix2 _ hb) hin).bind fun y _ => ?_
    exact spec_bin op x y (fits1 hF.2 (by simp)) (by omega) (by omega) hb
  | and a b iha ihb =>
    intro env X pc stk hF hlo hhi hb hin
    simp only [compE, fits_append, List.length_append, List.length_cons, List.length_nil, Nat.zero_add, ← Nat.add_assoc] at hF hhi ⊢
    obtain ⟨⟨h1, h2⟩, h3⟩ := hF
    have h2 := fits1 h2 (by simp)
    obtain ⟨h3, h4⟩ := h3
    have h3 : F[pc + (compE a).length + 1]? = some (.pop 1) := by simpa [Fit1, ← Nat.add_assoc] using h3
    rw [evalE]
    refine (iha env X pc stk h1 hlo (by omega) hb hin).bind fun x _ => ?_
    refine Spec.branch (pc + (compE a).length + 1) (pc + (compE a).length + 1 + (compE b).length + 1)
      (fun v => .val v :: stk) (fun v => .val v :: stk) (fun v => .val v :: stk)
      ?_ (fun _ _ => rfl) (fun _ _ => rfl) ?_ ?_
    · intro st
      simp only [step, h2, exec, finish]
      congr 3
      exact tgt_eq (by push_cast; omega)
    · intro v hv
      simp only [hv, if_true]
      refine Spec.after (spec_move (.pop 1) h3 (by simp) (by omega) (by omega) (suffix2 _ hb)
        (stk' := stk) fun st => ?_) ?_
      · simp [exec]
      · have := ihb env X (pc + (compE a).length + 1 + 1) stk (by simpa [← Nat.add_assoc] using h4) (by omega) (by omega) hb hin
        refine Spec.then this fun sv => ?_
        rw [show pc + (compE a).length + 1 + (compE b).length + 1
          = pc + (compE a).length + 1 + 1 + (compE b).length by omega]
        exact Spec.pure rfl
    · intro v hv
      simp only [hv]
      exact Spec.pure rfl
  | or a b iha ihb =>
    intro env X pc stk hF hlo hhi hb hin
    simp only [compE, fits_append, List.length_append, List.length_cons, List.length_nil, Nat.zero_add, ← Nat.add_assoc] at hF hhi ⊢
    obtain ⟨⟨h1, h2⟩, h3⟩ := hF
    have h2 := fits1 h2 (by simp)
    obtain ⟨h3, h4⟩ := h3
    have h3 : F[pc + (compE a).length + 1]? = some (.pop 1) := by simpa [Fit1, ← Nat.add_assoc] using h3
    rw [evalE]
    refine (iha env X pc stk h1 hlo (by omega) hb hin).bind fun x _ => ?_
    refine Spec.branch (pc + (compE a).length + 1 + (compE b).length + 1) (pc + (compE a).length + 1)
      (fun v => .val v :: stk) (fun v => .val v :: stk) (fun v => .val v :: stk)
      ?_ (fun _ _ => rfl) (fun _ _ => rfl) ?_ ?_
    · intro st
      simp only [step, h2, exec, finish]
      congr 3
      exact tgt_eq (by push_cast; omega)
    · intro v hv
      simp only [hv]
      exact Spec.pure rfl
    · intro v hv
      simp only [hv]
      refine Spec.after (spec_move (.pop 1) h3 (by simp) (by omega) (by omega) (suffix2 _ hb)
        (stk' := stk) fun st => ?_) ?_
      · simp [exec]
      · have := ihb env X (pc + (compE a).length + 1 + 1) stk (by simpa [← Nat.add_assoc] using h4) (by omega) (by omega) hb hin
        refine Spec.then this fun sv => ?_
        rw [show pc + (compE a).length + 1 + (compE b).length + 1
          = pc + (compE a).length + 1 + 1 + (compE b).length by omega]
        exact Spec.pure rfl
  | cond a b c iha ihb ihc =>
    intro env X pc stk hF hlo hhi hb hin
    simp only [compE, fits_append, List.length_append, List.length_cons, List.length_nil, Nat.zero_add, ← Nat.add_assoc] at hF hhi ⊢
    obtain ⟨⟨⟨h1, h2⟩, h3, h4⟩, h5⟩ := hF
    have h2 := fits1 h2 (by simp)
    have h4 := fits1 h4 (by simp)
    rw [evalE]
    refine (iha env X pc stk h1 hlo (by omega) hb hin).bind fun x _ => ?_
    refine Spec.branch (pc + (compE a).length + 1) (pc + (compE a).length + 1 + (compE b).length + 1)
      (fun v => stk) (fun v => stk) (fun v => stk)
      ?_ (fun _ _ => rfl) (fun _ _ => rfl) ?_ ?_
    · intro st
      simp only [step, h2, exec, finish]
      congr 3
      exact tgt_eq (by push_cast; omega)
    · intro v hv
      simp only [hv, if_true]
      have := ihb env X _ stk h3 (by omega) (by omega) hb hin
      refine Spec.then this fun sv => ?_
      intro st
      simp only [pureM]
      refine To.step ?_
      simp only [step, h4, exec, finish]
      rw [tgt_eq (t := pc + (compE a).length + 1 + (compE b).length + 1 + (compE c).length)
        (by push_cast; omega)]
      exact doJmp_inside hin (by omega) (by omega)
    · intro v hv
      simp only [hv]
      have := ihc env X _ stk h5 (by omega) (by omega) hb hin
      refine Spec.then this fun sv => ?_
      exact Spec.pure rfl
  | comma a b iha ihb =>
    intro env X pc stk hF hlo hhi hb hin
    simp only [compE, fits_append, List.length_append, List.length_cons, List.length_nil, Nat.zero_add, ← Nat.add_assoc] at hF hhi ⊢
    obtain ⟨⟨h1, h2⟩, h3⟩ := hF
    have h2 := fits1 h2 (by simp)
    rw [evalE]
    refine (iha env X pc stk h1 hlo (by omega) hb hin).bind fun x _ => ?_
    refine Spec.after (spec_move (.pop 1) h2 (by simp) (by omega) (by omega) (suffix2 _ hb)
        (stk' := stk) fun st => ?_) ?_
    · simp [exec]
    · exact ihb env X _ stk h3 (by omega) (by omega) hb hin
  | void a iha =>
    intro env X pc stk hF hlo hhi hb hin
    simp only [compE, fits_append, List.length_append, List.length_cons, List.length_nil, Nat.zero_add, ← Nat.add_assoc] at hF hhi ⊢
    obtain ⟨⟨h1, h2⟩, h3⟩ := hF
    have h2 := fits1 h2 (by simp)
    rw [evalE]
    refine (iha env X pc stk h1 hlo (by omega) hb hin).bind fun x _ => ?_
    refine Spec.after (spec_move (.pop 1) h2 (by simp) (by omega) (by omega) (suffix2 _ hb)
        (stk' := stk) fun st => ?_) ?_
    · simp [exec]
    · exact spec_lit _ (fits1 h3 (by simp)) (by omega) (by omega) hb
  | assign x e ih =>
    intro env X pc stk hF hlo hhi hb hin
    simp only [compE, fits_append, List.length_append, List.length_cons, List.length_nil, Nat.zero_add, ← Nat.add_assoc] at hF hhi ⊢
    obtain ⟨⟨h1, h2⟩, h3⟩ := hF
    rw [evalE]
    refine (spec_pushvar x (fits1 h1 (by simp)) hlo (by omega) hb).bind fun r _ => ?_
    refine (ih env X _ _ h2 (by omega) (by omega) (suffix2 _ hb) hin).bind fun y _ => ?_
    have := spec_assign1 (F := F) (d0 := d0) (X := X) (stk := stk) r y (fits1 h3 (by simp)) (by omega) (by omega) hb
    refine Spec.then this fun sv => ?_
    exact Spec.pure rfl
  | assignMem o k e iho ihk ihe =>
    intro env X pc stk hF hlo hhi hb hin
    simp only [compE, fits_append, List.length_append, List.length_cons, List.length_nil, Nat.zero_add, ← Nat.add_assoc] at hF hhi ⊢
    obtain ⟨⟨⟨h1, h2⟩, h3⟩, h4⟩ := hF
    rw [evalE]
    refine (iho env X pc stk h1 hlo (by omega) hb hin).bind fun x _ => ?_
    refine (ihk env X _ (x :: stk) h2 (by omega) (by omega) (suffix2 _ hb) hin).bind fun y _ => ?_
    refine (ihe env X _ (y :: x :: stk) h3 (by omega) (by omega) (suffix2 _ (suffix2 _ hb)) hin).bind fun z _ => ?_
    exact spec_assign2 x y z (fits1 h4 (by simp)) (by omega) (by omega) hb
  | opAssign op x e ih =>
    intro env X pc stk hF hlo hhi hb hin
    simp only [compE, fits_append, List.length_append, List.length_cons, List.length_nil, Nat.zero_add, ← Nat.add_assoc] at hF hhi ⊢
    obtain ⟨⟨⟨⟨h1, h2⟩, h3⟩, h4⟩, h5⟩ := hF
    rw [evalE]
    refine (spec_pushvar x (fits1 h1 (by simp)) hlo (by omega) hb).bind fun r _ => ?_
    refine Spec.after (spec_move .pushtop (fits1 h2 (by simp)) (by simp) (by omega) (by omega)
      (suffix2 _ hb) (stk' := .ref r :: .ref r :: stk) fun st => rfl) ?_
    refine (ih env X _ _ h3 (by omega) (by omega) (suffix2 _ (suffix2 _ hb)) hin).bind fun y _ => ?_
    have hbin := spec_bin (F := F) (d0 := d0) (X := X) (stk := .ref r :: stk) op (.ref r) y
      (fits1 h4 (by simp)) (by omega) (by omega) (suffix2 _ hb)
    have has := fun w => spec_assign1 (F := F) (d0 := d0) (X := X) (stk := stk) r w
      (fits1 h5 (by simp)) (by omega) (by omega) hb
    refine Spec.congr ?_ (hbin.bind (fun w _ => has w))
    simp only [bindM_assoc, pureM_bind, now_val]
  | opAssignMem op o k e iho ihk ihe =>
    intro env X pc stk hF hlo hhi hb hin
    simp only [compE, fits_append, List.length_append, List.length_cons, List.length_nil, Nat.zero_add, ← Nat.add_assoc] at hF hhi ⊢
    obtain ⟨⟨⟨⟨⟨⟨h1, h2⟩, h3⟩, h4⟩, h5⟩, h6⟩, h7⟩ := hF
    rw [evalE]
    refine (iho env X pc stk h1 hlo (by omega) hb hin).bind fun x hx => ?_
    refine (ihk env X _ (x :: stk) h2 (by omega) (by omega) (suffix2 _ hb) hin).bind fun y _ => ?_
    refine Spec.after (spec_move .pushtop2 (fits1 h3 (by simp)) (by simp) (by omega) (by omega)
      (suffix2 _ (suffix2 _ hb)) (stk' := y :: x :: y :: x :: stk) fun st => rfl) ?_
    obtain ⟨_, _, hx⟩ := hx
    have hsub := spec_sub (F := F) (d0 := d0) (X := X) (stk := y :: x :: stk) x y (evalE_plain o hx)
      (fits1 h4 (by simp)) (by omega) (by omega) (suffix2 _ (suffix2 _ hb))
    have he := fun w => ihe env X _ (w :: y :: x :: stk) h5 (by omega) (by omega)
      (suffix2 _ (suffix2 _ (suffix2 _ hb))) hin
    have hbin := fun w z => spec_bin (F := F) (d0 := d0) (X := X) (stk := y :: x :: stk) op w z
      (fits1 h6 (by simp)) (by omega) (by omega) (suffix2 _ (suffix2 _ hb))
    have has := fun w => spec_assign2 (F := F) (d0 := d0) (X := X) (stk := stk) x y w
      (fits1 h7 (by simp)) (by omega) (by omega) hb
    refine Spec.congr ?_ (hsub.bind fun w _ => (he w).bind fun z _ => (hbin w z).bind fun u _ => has u)
    simp only [bindM_assoc, pureM_bind, now_val]
  | inc up post x =>
    intro env X pc stk hF hlo hhi hb hin
    simp only [compE, fits_append, List.length_append, List.length_cons, List.length_nil, Nat.zero_add, ← Nat.add_assoc] at hF hhi ⊢
    rw [evalE]
    refine (spec_pushvar x (fits1 hF.1 (by simp)) hlo (by omega) hb).bind fun r _ => ?_
    exact spec_inc up post _ (fits1 hF.2 (by simp)) (by omega) (by omega) hb
  | incMem up post o k iho ihk =>
    intro env X pc stk hF hlo hhi hb hin
    simp only [compE, fits_append, List.length_append, List.length_cons, List.length_nil, Nat.zero_add, ← Nat.add_assoc] at hF hhi ⊢
    obtain ⟨⟨⟨h1, h2⟩, h3⟩, h4⟩ := hF
    rw [evalE]
    refine (iho env X pc stk h1 hlo (by omega) hb hin).bind fun x hx => ?_
    refine (ihk env X _ (x :: stk) h2 (by omega) (by omega) (suffix2 _ hb) hin).bind fun y _ => ?_
    have hs := spec_subref (F := F) (d0 := d0) (X := X) (stk := stk) x y (fits1 h3 (by simp))
      (by omega) (by omega) hb
    have hi := fun w => spec_inc (F := F) (d0 := d0) (X := X) (stk := stk) up post w
      (fits1 h4 (by simp)) (by omega) (by omega) hb
    refine Spec.congr ?_ (hs.bind fun w _ => hi w)
    simp only [bindM_assoc, pureM_bind]
  | sub o k iho ihk =>
    intro env X pc stk hF hlo hhi hb hin
    simp only [compE, fits_append, List.length_append, List.length_cons, List.length_nil, Nat.zero_add, ← Nat.add_assoc] at hF hhi ⊢
    obtain ⟨⟨h1, h2⟩, h3⟩ := hF
    rw [evalE]
    refine (iho env X pc stk h1 hlo (by omega) hb hin).bind fun x hx => ?_
    obtain ⟨_, _, hx⟩ := hx
    refine (ihk env X _ (x :: stk) h2 (by omega) (by omega) (suffix2 _ hb) hin).bind fun y _ => ?_
    exact spec_sub x y (evalE_plain o hx) (fits1 h3 (by simp)) (by omega) (by omega) hb
  | call f args ihf iha =>
    intro env X pc stk hF hlo hhi hb hin
    simp only [compE, fits_append, List.length_append, List.length_cons, List.length_nil, Nat.zero_add, ← Nat.add_assoc] at hF hhi ⊢
    obtain ⟨⟨⟨h1, h2⟩, h3⟩, h4⟩ := hF
    rw [evalE]
    refine (ihf env X pc stk h1 hlo (by omega) hb hin).bind fun x hx => ?_
    obtain ⟨_, _, hx⟩ := hx
    refine Spec.after (spec_move _ (fits1 h2 (by simp)) (by simp) (by omega) (by omega)
      (suffix2 _ hb) (stk' := x :: stk) fun st => rfl) ?_
    refine (argOk iha env X _ (x :: stk) h3 (by omega) (by omega) (suffix2 _ hb) hin).bind fun as has => ?_
    obtain ⟨_, _, has⟩ := has
    refine spec_fcall as x (evalE_plain f hx) ?_ (by omega) (by omega) hb
    rw [evalEs_length args has]
    exact fits1 h4 (by simp)
  | callMeth o k args iho ihk iha =>
    intro env X pc stk hF hlo hhi hb hin
    simp only [compE, fits_append, List.length_append, List.length_cons, List.length_nil, Nat.zero_add, ← Nat.add_assoc] at hF hhi ⊢
    obtain ⟨⟨⟨⟨⟨h1, h2⟩, h3⟩, h4⟩, h5⟩, h6⟩ := hF
    rw [evalE]
    refine (iho env X pc stk h1 hlo (by omega) hb hin).bind fun x hx => ?_
    refine (ihk env X _ (x :: stk) h2 (by omega) (by omega) (suffix2 _ hb) hin).bind fun y _ => ?_
    have hc := spec_chthis (F := F) (d0 := d0) (X := X) (stk := stk) x y (fits1 h3 (by simp))
      (by omega) (by omega) hb
    have hs := fun t o k => spec_subMeth (F := F) (d0 := d0) (X := X) (stk := stk) t o k
      (fits1 h4 (by simp)) (by omega) (by omega) hb
    have ha := fun g => argOk iha env X _ (g :: stk) h5 (by omega) (by omega) (suffix2 _ hb) hin
    have hf := fun (as : List P.SV) (t g : P.V) (has : as.length = args.length) =>
      spec_fcallMeth (F := F) (d0 := d0) (X := X) (stk := stk)
      (pc := pc + (compE o).length + (compE k).length + 1 + 1 + (argCode args).length) as t g
      (by rw [has]; exact fits1 h6 (by simp)) (by omega) (by omega) hb
    refine Spec.congr ?_ (hc.bind fun w _ => (hs w.1 w.2.1 w.2.2).bind fun g _ =>
      (ha (.meth w.1 g)).bind fun as has => hf as w.1 g ?_)
    · simp only [bindM_assoc, pureM_bind]
    · obtain ⟨_, _, has⟩ := has
      exact evalEs_length args has
  | new f args ihf iha =>
    intro env X pc stk hF hlo hhi hb hin
    simp only [compE, fits_append, List.length_append, List.length_cons, List.length_nil, Nat.zero_add, ← Nat.add_assoc] at hF hhi ⊢
    obtain ⟨⟨h1, h3⟩, h4⟩ := hF
    rw [evalE]
    refine (ihf env X pc stk h1 hlo (by omega) hb hin).bind fun x hx => ?_
    refine (argOk iha env X _ (x :: stk) h3 (by omega) (by omega) (suffix2 _ hb) hin).bind fun as has => ?_
    obtain ⟨_, _, has⟩ := has
    refine spec_newfcall as x ?_ (by omega) (by omega) hb
    rw [evalEs_length args has]
    exact fits1 h4 (by simp)
  | array es ih =>
    intro env X pc stk hF hlo hhi hb hin
    simp only [compE, fits_append, List.length_append, List.length_cons, List.length_nil, Nat.zero_add, ← Nat.add_assoc] at hF hhi ⊢
    rw [evalE]
    refine (ih env X pc stk hF.1 hlo (by omega) hb hin).bind fun as has => ?_
    obtain ⟨_, _, has⟩ := has
    refine spec_array as ?_ (by omega) (by omega) hb
    rw [evalEs_length es has]
    exact fits1 hF.2 (by simp)
  | object es ih =>
    intro env X pc stk hF hlo hhi hb hin
    simp only [compE, fits_append, List.length_append, List.length_cons, List.length_nil, Nat.zero_add, ← Nat.add_assoc] at hF hhi ⊢
    rw [evalE]
    refine (argOk ih env X pc stk hF.1 hlo (by omega) hb hin).bind fun as has => ?_
    obtain ⟨_, _, has⟩ := has
    refine spec_object as ?_ (by omega) (by omega) hb
    rw [evalEs_length es has]
    exact fits1 hF.2 (by simp)

end Verif.Vm
