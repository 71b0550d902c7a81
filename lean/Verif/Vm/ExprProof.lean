import Verif.Vm.Steps

/-!
Correctness of the code generated for expressions.
-/

namespace Verif.Vm

variable {P : Prim} {F : List Instr} {d0 : Nat}

/-- Not a method lookup. -/
def plain {V Ref : Type} : SVal V Ref → Prop
  | .meth _ _ => False
  | _ => True

theorem bindM_some {V H α β : Type} {m : MM V H α} {k : α → MM V H β} {s s' : St V H} {b : β}
    (h : bindM m k s = (some b, s')) : ∃ a s1, m s = (some a, s1) ∧ k a s1 = (some b, s') := by
  unfold bindM at h
  split at h
  · simp at h
  · next a s1 hm => exact ⟨a, s1, hm, h⟩

theorem plain_tail {V H α Ref : Type} {m : MM V H α} {f : α → SVal V Ref} (hf : ∀ a, plain (f a))
    {s s' : St V H} {sv : SVal V Ref} (h : bindM m (fun a => pureM (f a)) s = (some sv, s')) :
    plain sv := by
  obtain ⟨a, s1, _, h2⟩ := bindM_some h
  simp only [pureM, Prod.mk.injEq, Option.some.injEq] at h2
  rw [← h2.1]
  exact hf a

theorem plain_val {V Ref : Type} (v : V) : plain (SVal.val (Ref := Ref) v) := trivial
theorem plain_ref {V Ref : Type} (v : Ref) : plain (SVal.ref (V := V) v) := trivial

theorem incR_plain {up post : Bool} {a : P.SV} {s s' : P.State} {sv : P.SV}
    (h : incR P up post a s = (some sv, s')) : plain sv := by
  cases a with
  | ref r => exact plain_tail (fun v => plain_val v) h
  | val v => simp [incR, failM] at h
  | meth a b => simp [incR, failM] at h

/-- The value of an expression is never a method lookup. -/
theorem evalE_plain (e : Expr) : ∀ {sc : P.Sc} {s s' : P.State} {sv : P.SV},
    evalE P sc e s = (some sv, s') → plain sv := by
  induction e using Expr.rec (motive_2 := fun _ => True) with
  | nil => trivial
  | cons => trivial
  | lit l => intro sc s s' sv h; rw [evalE] at h; exact plain_tail (fun v => plain_val v) h
  | var l => intro sc s s' sv h; rw [evalE] at h; exact plain_tail (fun v => plain_ref v) h
  | un op e ih =>
    intro sc s s' sv h; rw [evalE] at h
    obtain ⟨a, s1, _, h⟩ := bindM_some h
    obtain ⟨a, s1, _, h⟩ := bindM_some h
    exact plain_tail (fun v => plain_val v) h
  | bin op a b iha ihb =>
    intro sc s s' sv h; rw [evalE] at h
    obtain ⟨a, s1, _, h⟩ := bindM_some h
    obtain ⟨a, s1, _, h⟩ := bindM_some h
    obtain ⟨a, s1, _, h⟩ := bindM_some h
    obtain ⟨a, s1, _, h⟩ := bindM_some h
    exact plain_tail (fun v => plain_val v) h
  | and a b iha ihb =>
    intro sc s s' sv h; rw [evalE] at h
    obtain ⟨x, s1, _, h⟩ := bindM_some h
    obtain ⟨v, s2, _, h⟩ := bindM_some h
    split at h
    · exact ihb h
    · simp only [pureM, Prod.mk.injEq, Option.some.injEq] at h
      rw [← h.1]; trivial
  | or a b iha ihb =>
    intro sc s s' sv h; rw [evalE] at h
    obtain ⟨x, s1, _, h⟩ := bindM_some h
    obtain ⟨v, s2, _, h⟩ := bindM_some h
    split at h
    · simp only [pureM, Prod.mk.injEq, Option.some.injEq] at h
      rw [← h.1]; trivial
    · exact ihb h
  | cond a b c iha ihb ihc =>
    intro sc s s' sv h; rw [evalE] at h
    obtain ⟨x, s1, _, h⟩ := bindM_some h
    obtain ⟨v, s2, _, h⟩ := bindM_some h
    split at h
    · exact ihb h
    · exact ihc h
  | comma a b iha ihb =>
    intro sc s s' sv h; rw [evalE] at h
    obtain ⟨x, s1, _, h⟩ := bindM_some h
    exact ihb h
  | void e ih =>
    intro sc s s' sv h; rw [evalE] at h
    obtain ⟨x, s1, _, h⟩ := bindM_some h
    exact plain_tail (fun v => plain_val v) h
  | assign x e ih =>
    intro sc s s' sv h; rw [evalE] at h
    obtain ⟨r, s1, _, h⟩ := bindM_some h
    obtain ⟨x, s1, _, h⟩ := bindM_some h
    obtain ⟨x, s1, _, h⟩ := bindM_some h
    exact plain_tail (fun _ => plain_ref r) h
  | assignMem o k e iho ihk ihe =>
    intro sc s s' sv h; rw [evalE] at h
    obtain ⟨x, s1, _, h⟩ := bindM_some h
    obtain ⟨x, s1, _, h⟩ := bindM_some h
    obtain ⟨x, s1, _, h⟩ := bindM_some h
    obtain ⟨x, s1, _, h⟩ := bindM_some h
    obtain ⟨x, s1, _, h⟩ := bindM_some h
    obtain ⟨x, s1, _, h⟩ := bindM_some h
    exact plain_tail (fun _ => plain_val _) h
  | opAssign op x e ih =>
    intro sc s s' sv h; rw [evalE] at h
    obtain ⟨r, s1, _, h⟩ := bindM_some h
    obtain ⟨x, s1, _, h⟩ := bindM_some h
    obtain ⟨x, s1, _, h⟩ := bindM_some h
    obtain ⟨x, s1, _, h⟩ := bindM_some h
    obtain ⟨x, s1, _, h⟩ := bindM_some h
    exact plain_tail (fun _ => plain_ref r) h
  | opAssignMem op o k e iho ihk ihe =>
    intro sc s s' sv h; rw [evalE] at h
    obtain ⟨x, s1, _, h⟩ := bindM_some h
    obtain ⟨x, s1, _, h⟩ := bindM_some h
    obtain ⟨x, s1, _, h⟩ := bindM_some h
    obtain ⟨x, s1, _, h⟩ := bindM_some h
    obtain ⟨x, s1, _, h⟩ := bindM_some h
    obtain ⟨x, s1, _, h⟩ := bindM_some h
    obtain ⟨x, s1, _, h⟩ := bindM_some h
    obtain ⟨x, s1, _, h⟩ := bindM_some h
    obtain ⟨x, s1, _, h⟩ := bindM_some h
    obtain ⟨x, s1, _, h⟩ := bindM_some h
    exact plain_tail (fun _ => plain_val _) h
  | inc up post x =>
    intro sc s s' sv h; rw [evalE] at h
    obtain ⟨r, s1, _, h⟩ := bindM_some h
    exact incR_plain h
  | incMem up post o k iho ihk =>
    intro sc s s' sv h; rw [evalE] at h
    obtain ⟨r, s1, _, h⟩ := bindM_some h
    obtain ⟨r, s1, _, h⟩ := bindM_some h
    obtain ⟨r, s1, _, h⟩ := bindM_some h
    obtain ⟨r, s1, _, h⟩ := bindM_some h
    obtain ⟨r, s1, _, h⟩ := bindM_some h
    exact incR_plain h
  | sub o k iho ihk =>
    intro sc s s' sv h; rw [evalE] at h
    obtain ⟨r, s1, _, h⟩ := bindM_some h
    obtain ⟨r, s1, _, h⟩ := bindM_some h
    obtain ⟨r, s1, _, h⟩ := bindM_some h
    obtain ⟨r, s1, _, h⟩ := bindM_some h
    exact plain_tail (fun _ => plain_val _) h
  | call f args ihf _ =>
    intro sc s s' sv h; rw [evalE] at h
    obtain ⟨r, s1, _, h⟩ := bindM_some h
    obtain ⟨r, s1, _, h⟩ := bindM_some h
    obtain ⟨r, s1, _, h⟩ := bindM_some h
    obtain ⟨r, s1, _, h⟩ := bindM_some h
    exact plain_tail (fun _ => plain_val _) h
  | callMeth o k args iho ihk _ =>
    intro sc s s' sv h; rw [evalE] at h
    obtain ⟨r, s1, _, h⟩ := bindM_some h
    obtain ⟨r, s1, _, h⟩ := bindM_some h
    obtain ⟨r, s1, _, h⟩ := bindM_some h
    obtain ⟨r, s1, _, h⟩ := bindM_some h
    obtain ⟨r, s1, _, h⟩ := bindM_some h
    obtain ⟨r, s1, _, h⟩ := bindM_some h
    obtain ⟨r, s1, _, h⟩ := bindM_some h
    obtain ⟨r, s1, _, h⟩ := bindM_some h
    obtain ⟨r, s1, _, h⟩ := bindM_some h
    exact plain_tail (fun _ => plain_val _) h
  | new f args ihf _ =>
    intro sc s s' sv h; rw [evalE] at h
    obtain ⟨r, s1, _, h⟩ := bindM_some h
    obtain ⟨r, s1, _, h⟩ := bindM_some h
    obtain ⟨r, s1, _, h⟩ := bindM_some h
    obtain ⟨r, s1, _, h⟩ := bindM_some h
    exact plain_tail (fun _ => plain_val _) h
  | array es _ =>
    intro sc s s' sv h; rw [evalE] at h
    obtain ⟨r, s1, _, h⟩ := bindM_some h
    obtain ⟨r, s1, _, h⟩ := bindM_some h
    exact plain_tail (fun _ => plain_val _) h
  | object es _ =>
    intro sc s s' sv h; rw [evalE] at h
    obtain ⟨r, s1, _, h⟩ := bindM_some h
    obtain ⟨r, s1, _, h⟩ := bindM_some h
    exact plain_tail (fun _ => plain_val _) h

theorem evalEs_length (es : Exprs) : ∀ {sc : P.Sc} {s s' : P.State} {as : List P.SV},
    evalEs P sc es s = (some as, s') → as.length = es.length := by
  induction es using Exprs.rec (motive_1 := fun _ => True) with
  | nil => intro sc s s' as h; simp [evalEs, pureM] at h; simp [← h.1, Exprs.length]
  | cons e es _ ih =>
    intro sc s s' as h
    rw [evalEs] at h
    obtain ⟨a, s1, _, h⟩ := bindM_some h
    obtain ⟨bs, s2, h3, h⟩ := bindM_some h
    simp only [pureM, Prod.mk.injEq, Option.some.injEq] at h
    rw [← h.1]
    simp [Exprs.length, ih h3]
  | _ => trivial

/-! ### Single instructions as operations -/

section instrs
variable {X : Ctx P} {pc : Nat} {stk : List P.SV}

theorem spec_lit (l : Lit) (hF : F[pc]? = some (.lit l)) (hlo : X.lo ≤ pc) (hhi : pc < X.hi)
    (hb : X.base <:+ stk) :
    Spec F d0 X pc stk (bindM (P.lit l X.sc) fun v => pureM (.val v)) (pc + 1)
      (fun sv => sv :: stk) := by
  refine Spec.instr _ hF (by simp) hlo hhi hb fun st => ?_
  simp only [exec, pushR, bindM, pureM]
  rcases P.lit l X.sc st with ⟨_ | v, s⟩ <;> rfl

theorem spec_pushvar (x : String) (hF : F[pc]? = some (.pushvar x)) (hlo : X.lo ≤ pc)
    (hhi : pc < X.hi) (hb : X.base <:+ stk) :
    Spec F d0 X pc stk (P.lookup x X.sc) (pc + 1) (fun r => .ref r :: stk) := by
  refine Spec.instr _ hF (by simp) hlo hhi hb fun st => ?_
  simp only [exec]
  rcases P.lookup x X.sc st with ⟨_ | v, s⟩ <;> rfl

theorem spec_un (op : UnOp) (a : P.SV) (hF : F[pc]? = some (.un op)) (hlo : X.lo ≤ pc)
    (hhi : pc < X.hi) (hb : X.base <:+ stk) :
    Spec F d0 X pc (a :: stk)
      (bindM (now P a) fun va => bindM (P.un op va) fun v => pureM (.val v)) (pc + 1)
      (fun sv => sv :: stk) := by
  refine Spec.instr _ hF (by simp) hlo hhi (hb.trans (List.suffix_cons _ _)) fun st => ?_
  simp only [exec, pushR, bindM, pureM, now]
  rcases P.un op _ st with ⟨_ | v, s⟩ <;> rfl

theorem spec_bin (op : BinOp) (a b : P.SV) (hF : F[pc]? = some (.bin op)) (hlo : X.lo ≤ pc)
    (hhi : pc < X.hi) (hb : X.base <:+ stk) :
    Spec F d0 X pc (b :: a :: stk)
      (bindM (now P a) fun va => bindM (now P b) fun vb => bindM (P.bin op va vb) fun v =>
        pureM (.val v)) (pc + 1)
      (fun sv => sv :: stk) := by
  refine Spec.instr _ hF (by simp) hlo hhi
    (hb.trans ((List.suffix_cons _ _).trans (List.suffix_cons _ _))) fun st => ?_
  simp only [exec, pushR, bindM, pureM, now]
  rcases P.bin op _ _ st with ⟨_ | v, s⟩ <;> rfl

theorem spec_sub (a b : P.SV) (ha : plain a) (hF : F[pc]? = some .sub) (hlo : X.lo ≤ pc)
    (hhi : pc < X.hi) (hb : X.base <:+ stk) :
    Spec F d0 X pc (b :: a :: stk)
      (bindM (now P a) fun va => bindM (now P b) fun vb => bindM (P.sub va vb) fun v =>
        pureM (.val v)) (pc + 1)
      (fun sv => sv :: stk) := by
  refine Spec.instr _ hF (by simp) hlo hhi
    (hb.trans ((List.suffix_cons _ _).trans (List.suffix_cons _ _))) fun st => ?_
  cases a with
  | meth t v => exact ha.elim
  | val v =>
    simp only [exec, pushR, bindM, pureM, now]
    rcases P.sub _ _ st with ⟨_ | v, s⟩ <;> rfl
  | ref v =>
    simp only [exec, pushR, bindM, pureM, now]
    rcases P.sub _ _ st with ⟨_ | v, s⟩ <;> rfl

theorem spec_subref (a b : P.SV) (hF : F[pc]? = some .subref) (hlo : X.lo ≤ pc)
    (hhi : pc < X.hi) (hb : X.base <:+ stk) :
    Spec F d0 X pc (b :: a :: stk)
      (bindM (now P a) fun va => bindM (now P b) fun vb => bindM (P.subref va vb) fun r =>
        pureM (ofSum r)) (pc + 1)
      (fun sv => sv :: stk) := by
  refine Spec.instr _ hF (by simp) hlo hhi
    (hb.trans ((List.suffix_cons _ _).trans (List.suffix_cons _ _))) fun st => ?_
  simp only [exec, bindM, pureM, now]
  rcases P.subref _ _ st with ⟨_ | v, s⟩ <;> rfl

theorem spec_inc (up post : Bool) (a : P.SV) (hF : F[pc]? = some (.inc up post)) (hlo : X.lo ≤ pc)
    (hhi : pc < X.hi) (hb : X.base <:+ stk) :
    Spec F d0 X pc (a :: stk) (incR P up post a) (pc + 1) (fun sv => sv :: stk) := by
  refine Spec.instr _ hF (by simp) hlo hhi (hb.trans (List.suffix_cons _ _)) fun st => ?_
  cases a with
  | ref r =>
    simp only [exec, pushR, bindM, pureM, incR]
    rcases P.inc up post r st with ⟨_ | v, s⟩ <;> rfl
  | val v => rfl
  | meth t v => rfl

theorem spec_assign1 (r : P.Ref) (b : P.SV) (hF : F[pc]? = some .assign1) (hlo : X.lo ≤ pc)
    (hhi : pc < X.hi) (hb : X.base <:+ stk) :
    Spec F d0 X pc (b :: .ref r :: stk)
      (bindM (now P b) fun v => bindM (P.write r v) fun _ => pureM (.ref r)) (pc + 1)
      (fun sv => sv :: stk) := by
  refine Spec.instr _ hF (by simp) hlo hhi
    (hb.trans ((List.suffix_cons _ _).trans (List.suffix_cons _ _))) fun st => ?_
  simp only [exec, bindM, pureM, now]
  rcases P.write r _ st with ⟨_ | v, s⟩ <;> rfl

theorem spec_assign2 (o k v : P.SV) (hF : F[pc]? = some .assign2) (hlo : X.lo ≤ pc)
    (hhi : pc < X.hi) (hb : X.base <:+ stk) :
    Spec F d0 X pc (v :: k :: o :: stk)
      (bindM (now P o) fun vo => bindM (now P k) fun vk => bindM (now P v) fun vv =>
        bindM (P.put vo vk vv) fun _ => pureM (.val vv)) (pc + 1)
      (fun sv => sv :: stk) := by
  refine Spec.instr _ hF (by simp) hlo hhi
    (hb.trans ((List.suffix_cons _ _).trans ((List.suffix_cons _ _).trans (List.suffix_cons _ _))))
    fun st => ?_
  simp only [exec, bindM, pureM, now]
  rcases P.put _ _ _ st with ⟨_ | v, s⟩ <;> rfl

/-- An instruction that only moves stack entries. -/
theorem spec_move {stk' : List P.SV} (ins : Instr) (hF : F[pc]? = some ins) (hne : ins ≠ .throw)
    (hlo : X.lo ≤ pc) (hhi : pc < X.hi) (hb : X.base <:+ stk)
    (h : ∀ st, exec P ⟨pc, stk, X.tl, st, X.sc⟩ ins = .go ⟨pc + 1, stk', X.tl, st, X.sc⟩) :
    Spec F d0 X pc stk (pureM ()) (pc + 1) (fun _ => stk') :=
  Spec.instr ins hF hne hlo hhi hb fun st => by rw [h]; rfl

theorem spec_chthis (o k : P.SV) (hF : F[pc]? = some (.chthis true)) (hlo : X.lo ≤ pc)
    (hhi : pc < X.hi) (hb : X.base <:+ stk) :
    Spec F d0 X pc (k :: o :: stk)
      (bindM (now P o) fun vo => bindM (P.toObj vo) fun t => bindM (now P o) fun vo' =>
        bindM (now P k) fun vk => pureM (t, vo', vk)) (pc + 1)
      (fun x => .val x.2.2 :: .meth x.1 x.2.1 :: stk) := by
  refine Spec.instr _ hF (by simp) hlo hhi
    (hb.trans ((List.suffix_cons _ _).trans (List.suffix_cons _ _))) fun st => ?_
  simp only [exec, bindM, pureM, now]
  rcases P.toObj _ st with ⟨_ | v, s⟩ <;> rfl

theorem spec_subMeth (t o k : P.V) (hF : F[pc]? = some .sub) (hlo : X.lo ≤ pc)
    (hhi : pc < X.hi) (hb : X.base <:+ stk) :
    Spec F d0 X pc (.val k :: .meth t o :: stk) (P.sub o k) (pc + 1)
      (fun v => .meth t v :: stk) := by
  refine Spec.instr _ hF (by simp) hlo hhi
    (hb.trans ((List.suffix_cons _ _).trans (List.suffix_cons _ _))) fun st => ?_
  simp only [exec, Prim.deref]
  rcases P.sub _ _ st with ⟨_ | v, s⟩ <;> rfl

theorem spec_fcall (as : List P.SV) (g : P.SV) (hg : plain g)
    (hF : F[pc]? = some (.fcall as.length)) (hlo : X.lo ≤ pc)
    (hhi : pc < X.hi) (hb : X.base <:+ stk) :
    Spec F d0 X pc (as.reverse ++ g :: stk)
      (bindM (now P g) fun vg => bindM (nows P as) fun vs => bindM (P.call vg none vs) fun v =>
        pureM (.val v)) (pc + 1)
      (fun sv => sv :: stk) := by
  refine Spec.instr _ hF (by simp) hlo hhi
    ((hb.trans (List.suffix_cons _ _)).trans (List.suffix_append _ _)) fun st => ?_
  have h1 : (as.reverse ++ g :: stk).drop as.length = g :: stk := by
    rw [← List.length_reverse (as := as), List.drop_left]
  have h2 : (as.reverse ++ g :: stk).take as.length = as.reverse := by
    rw [← List.length_reverse (as := as), List.take_left]
  simp only [exec, pushR, bindM, pureM, now, nows, h1, h2, ← List.map_reverse, List.reverse_reverse]
  cases g with
  | meth t v => exact hg.elim
  | val v => simp only []; rcases P.call _ _ _ st with ⟨_ | v, s⟩ <;> rfl
  | ref v => simp only []; rcases P.call _ _ _ st with ⟨_ | v, s⟩ <;> rfl

theorem spec_fcallMeth (as : List P.SV) (t g : P.V)
    (hF : F[pc]? = some (.fcall as.length)) (hlo : X.lo ≤ pc)
    (hhi : pc < X.hi) (hb : X.base <:+ stk) :
    Spec F d0 X pc (as.reverse ++ .meth t g :: stk)
      (bindM (nows P as) fun vs => bindM (P.call g (some t) vs) fun v => pureM (.val v)) (pc + 1)
      (fun sv => sv :: stk) := by
  refine Spec.instr _ hF (by simp) hlo hhi
    ((hb.trans (List.suffix_cons _ _)).trans (List.suffix_append _ _)) fun st => ?_
  have h1 : (as.reverse ++ .meth t g :: stk).drop as.length = .meth t g :: stk := by
    rw [← List.length_reverse (as := as), List.drop_left]
  have h2 : (as.reverse ++ .meth t g :: stk).take as.length = as.reverse := by
    rw [← List.length_reverse (as := as), List.take_left]
  simp only [exec, pushR, bindM, pureM, nows, h1, h2, ← List.map_reverse, List.reverse_reverse,
    Prim.deref]
  rcases P.call _ _ _ st with ⟨_ | v, s⟩ <;> rfl

theorem spec_newfcall (as : List P.SV) (g : P.SV)
    (hF : F[pc]? = some (.newfcall as.length)) (hlo : X.lo ≤ pc)
    (hhi : pc < X.hi) (hb : X.base <:+ stk) :
    Spec F d0 X pc (as.reverse ++ g :: stk)
      (bindM (now P g) fun vg => bindM (nows P as) fun vs => bindM (P.new vg vs) fun v =>
        pureM (.val v)) (pc + 1)
      (fun sv => sv :: stk) := by
  refine Spec.instr _ hF (by simp) hlo hhi
    ((hb.trans (List.suffix_cons _ _)).trans (List.suffix_append _ _)) fun st => ?_
  have h1 : (as.reverse ++ g :: stk).drop as.length = g :: stk := by
    rw [← List.length_reverse (as := as), List.drop_left]
  have h2 : (as.reverse ++ g :: stk).take as.length = as.reverse := by
    rw [← List.length_reverse (as := as), List.take_left]
  simp only [exec, pushR, bindM, pureM, now, nows, h1, h2, ← List.map_reverse, List.reverse_reverse]
  rcases P.new _ _ st with ⟨_ | v, s⟩ <;> rfl

theorem spec_array (as : List P.SV)
    (hF : F[pc]? = some (.array as.length)) (hlo : X.lo ≤ pc)
    (hhi : pc < X.hi) (hb : X.base <:+ stk) :
    Spec F d0 X pc (as.reverse ++ stk)
      (bindM (nows P as) fun vs => bindM (P.array vs) fun v => pureM (.val v)) (pc + 1)
      (fun sv => sv :: stk) := by
  refine Spec.instr _ hF (by simp) hlo hhi (hb.trans (List.suffix_append _ _)) fun st => ?_
  have h1 : (as.reverse ++ stk).drop as.length = stk := by
    rw [← List.length_reverse (as := as), List.drop_left]
  have h2 : (as.reverse ++ stk).take as.length = as.reverse := by
    rw [← List.length_reverse (as := as), List.take_left]
  have h3 : as.length ≤ (as.reverse ++ stk).length := by simp
  simp only [exec, pushR, bindM, pureM, nows, h1, h2, h3, if_true, ← List.map_reverse,
    List.reverse_reverse]
  rcases P.array _ st with ⟨_ | v, s⟩ <;> rfl

theorem spec_object (as : List P.SV)
    (hF : F[pc]? = some (.object as.length)) (hlo : X.lo ≤ pc)
    (hhi : pc < X.hi) (hb : X.base <:+ stk) :
    Spec F d0 X pc (as.reverse ++ stk)
      (bindM (nows P as) fun vs => bindM (P.object vs) fun v => pureM (.val v)) (pc + 1)
      (fun sv => sv :: stk) := by
  refine Spec.instr _ hF (by simp) hlo hhi (hb.trans (List.suffix_append _ _)) fun st => ?_
  have h1 : (as.reverse ++ stk).drop as.length = stk := by
    rw [← List.length_reverse (as := as), List.drop_left]
  have h2 : (as.reverse ++ stk).take as.length = as.reverse := by
    rw [← List.length_reverse (as := as), List.take_left]
  have h3 : as.length ≤ (as.reverse ++ stk).length := by simp
  simp only [exec, pushR, bindM, pureM, nows, h1, h2, h3, if_true, ← List.map_reverse,
    List.reverse_reverse]
  rcases P.object _ st with ⟨_ | v, s⟩ <;> rfl

/-- Change of the program point of success along a run that leaves the state alone. -/
theorem Spec.then {pc' pc'' : Nat} {α : Type} {m : P.M α} {f g : α → List P.SV}
    (h1 : Spec F d0 X pc stk m pc' f)
    (h2 : ∀ a, Spec F d0 X pc' (f a) (pureM ()) pc'' (fun _ => g a)) :
    Spec F d0 X pc stk m pc'' g := by
  intro st
  have h1 := h1 st
  cases hm : m st with
  | mk r s =>
    rw [hm] at h1
    cases r with
    | none => exact h1
    | some a => exact h1.trans (h2 a s)

/-- Leading instruction that only moves stack entries. -/
theorem Spec.after {pc' pc'' : Nat} {α : Type} {m : P.M α} {stk' : List P.SV}
    {g : α → List P.SV}
    (h1 : Spec F d0 X pc stk (pureM ()) pc' (fun _ => stk'))
    (h2 : Spec F d0 X pc' stk' m pc'' g) :
    Spec F d0 X pc stk m pc'' g := by
  have := h1.bind (k := fun _ => m) (g := g) (pc2 := pc'') fun _ _ => h2
  exact this

/-- A configuration-level branch: from `pc` the machine moves, without touching the state, to a point
chosen by the value of `a`. -/
theorem Spec.branch {pc' : Nat} {a : P.SV} {α : Type} {m : P.V → P.M α}
    {g : α → List P.SV} (pcT pcF : Nat) (stk1 stkT stkF : P.V → List P.SV)
    (hstep : ∀ st : P.State,
      step P F d0 ⟨pc, stk, X.tl, st, X.sc⟩ = .inl ⟨if P.truthy (P.deref st.h a) then pcT else pcF,
        stk1 (P.deref st.h a), X.tl, st, X.sc⟩)
    (hsT : ∀ v, P.truthy v = true → stk1 v = stkT v)
    (hsF : ∀ v, P.truthy v = false → stk1 v = stkF v)
    (hT : ∀ v, P.truthy v = true → Spec F d0 X pcT (stkT v) (m v) pc' g)
    (hF : ∀ v, P.truthy v = false → Spec F d0 X pcF (stkF v) (m v) pc' g) :
    Spec F d0 X pc stk (bindM (now P a) m) pc' g := by
  have key : ∀ (st : P.State) pc1 stk1, Spec F d0 X pc1 stk1 (m (P.deref st.h a)) pc' g →
      step P F d0 ⟨pc, stk, X.tl, st, X.sc⟩ = .inl ⟨pc1, stk1, X.tl, st, X.sc⟩ →
      match bindM (now P a) m st with
      | (some a, st') => To P F d0 ⟨pc, stk, X.tl, st, X.sc⟩ (.inl ⟨pc', g a, X.tl, st', X.sc⟩)
      | (none, st') => ∃ ip junk, X.lo ≤ ip ∧ ip < X.hi ∧ F[ip]? ≠ some .throw ∧
        To P F d0 ⟨pc, stk, X.tl, st, X.sc⟩ (doThrow P F d0 ip X.tl (junk ++ X.base) st' X.sc) := by
    intro st pc1 stk1 hs hst
    have h1 := hs st
    simp only [bindM, now]
    cases hm : m (P.deref st.h a) st with
    | mk r s =>
      rw [hm] at h1
      cases r with
      | none =>
        obtain ⟨ip, junk, a1, a2, a3, a4⟩ := h1
        exact ⟨ip, junk, a1, a2, a3, To.of_step hst a4⟩
      | some b => exact To.of_step hst h1
  intro st
  have hst := hstep st
  cases ht : P.truthy (P.deref st.h a) with
  | true =>
    rw [ht, hsT _ ht] at hst
    exact key st _ _ (hT _ ht) (by simpa using hst)
  | false =>
    rw [ht, hsF _ ht] at hst
    exact key st _ _ (hF _ ht) (by simpa using hst)

end instrs

end Verif.Vm
