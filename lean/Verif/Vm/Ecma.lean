import Verif.Vm.ExprOk

/-!
The ECMAScript reading of expressions: every operand is reduced to its value as soon as it has been
evaluated, left to right.  And a condition under which jsish, which reads variable operands only when
the operator runs, agrees with it.
-/

namespace Verif.Vm

variable {P : Prim}

local infixl:55 " ⟶ " => bindM

mutual
/-- ECMAScript evaluation of an expression to a value. -/
def evalV (P : Prim) (sc : P.Sc) : Expr → P.M P.V
  | .lit l => P.lit l sc
  | .var x => P.lookup x sc ⟶ fun r => now P (.ref r)
  | .un op e => evalV P sc e ⟶ fun v => P.un op v
  | .bin op a b => evalV P sc a ⟶ fun v => evalV P sc b ⟶ fun w => P.bin op v w
  | .and a b => evalV P sc a ⟶ fun v => if P.truthy v then evalV P sc b else pureM v
  | .or a b => evalV P sc a ⟶ fun v => if P.truthy v then pureM v else evalV P sc b
  | .cond a b c => evalV P sc a ⟶ fun v => if P.truthy v then evalV P sc b else evalV P sc c
  | .comma a b => evalV P sc a ⟶ fun _ => evalV P sc b
  | .void e => evalV P sc e ⟶ fun _ => P.lit .undef sc
  | .assign x e =>
    P.lookup x sc ⟶ fun r => evalV P sc e ⟶ fun v => P.write r v ⟶ fun _ => pureM v
  | .assignMem o k e =>
    evalV P sc o ⟶ fun vo => evalV P sc k ⟶ fun vk => evalV P sc e ⟶ fun v =>
      P.put vo vk v ⟶ fun _ => pureM v
  | .opAssign op x e =>
    P.lookup x sc ⟶ fun r => now P (.ref r) ⟶ fun old => evalV P sc e ⟶ fun v =>
      P.bin op old v ⟶ fun w => P.write r w ⟶ fun _ => pureM w
  | .opAssignMem op o k e =>
    evalV P sc o ⟶ fun vo => evalV P sc k ⟶ fun vk => P.sub vo vk ⟶ fun old =>
      evalV P sc e ⟶ fun v => P.bin op old v ⟶ fun w => P.put vo vk w ⟶ fun _ => pureM w
  | .inc up post x => P.lookup x sc ⟶ fun r => P.inc up post r
  | .incMem up post o k =>
    evalV P sc o ⟶ fun vo => evalV P sc k ⟶ fun vk => P.subref vo vk ⟶ fun r =>
      match r with
      | .inr r => P.inc up post r
      | .inl _ => failM P P.lvalueMsg
  | .sub o k => evalV P sc o ⟶ fun vo => evalV P sc k ⟶ fun vk => P.sub vo vk
  | .call f args => evalV P sc f ⟶ fun g => evalVs P sc args ⟶ fun vs => P.call g none vs
  | .callMeth o k args =>
    evalV P sc o ⟶ fun vo => evalV P sc k ⟶ fun vk => P.toObj vo ⟶ fun this =>
      P.sub vo vk ⟶ fun g => evalVs P sc args ⟶ fun vs => P.call g (some this) vs
  | .new f args => evalV P sc f ⟶ fun g => evalVs P sc args ⟶ fun vs => P.new g vs
  | .array es => evalVs P sc es ⟶ fun vs => P.array vs
  | .object kvs => evalVs P sc kvs ⟶ fun vs => P.object vs
/-- ECMAScript evaluation of a list. -/
def evalVs (P : Prim) (sc : P.Sc) : Exprs → P.M (List P.V)
  | .nil => pureM []
  | .cons e es => evalV P sc e ⟶ fun v => evalVs P sc es ⟶ fun vs => pureM (v :: vs)
end

/-- The operation changes no variable or property slot that a reference may denote. -/
def Quiet {α : Type} (m : P.M α) : Prop := ∀ s r, P.read r (m s).2.h = P.read r s.h

/-- What is assumed of the primitives: literals, lookups, operators, property reads and the creation
of arrays and objects change no existing slot, and a successful write to a slot is what a read of it
then yields. -/
structure CalmPrim (P : Prim) : Prop where
  lit : ∀ l sc, Quiet (P.lit l sc)
  lookup : ∀ x sc, Quiet (P.lookup x sc)
  un : ∀ op v, Quiet (P.un op v)
  bin : ∀ op v w, Quiet (P.bin op v w)
  sub : ∀ v w, Quiet (P.sub v w)
  toObj : ∀ v, Quiet (P.toObj v)
  array : ∀ vs, Quiet (P.array vs)
  object : ∀ vs, Quiet (P.object vs)
  write_read : ∀ r v s s', P.write r v s = (some (), s') → P.read r s'.h = v

mutual
/-- The expression contains no assignment, increment or call. -/
def calm : Expr → Bool
  | .lit _ => true
  | .var _ => true
  | .un _ e => calm e
  | .bin _ a b => calm a && calm b
  | .and a b => calm a && calm b
  | .or a b => calm a && calm b
  | .cond a b c => calm a && calm b && calm c
  | .comma a b => calm a && calm b
  | .void e => calm e
  | .sub o k => calm o && calm k
  | .array es => calmEs es
  | .object es => calmEs es
  | _ => false
/-- The same for a list. -/
def calmEs : Exprs → Bool
  | .nil => true
  | .cons e es => calm e && calmEs es
end

/-- The expression never yields a reference: it is not a variable, an assignment to one, or a
selection of such. -/
def isVal : Expr → Bool
  | .var _ => false
  | .assign _ _ => false
  | .opAssign _ _ _ => false
  | .and _ b => isVal b
  | .or _ b => isVal b
  | .cond _ b c => isVal b && isVal c
  | .comma _ b => isVal b
  | _ => true

mutual
/-- No variable operand can change between its evaluation and its use: each operand of each operator
either is no reference or is followed by calm operands only. -/
def steady : Expr → Bool
  | .lit _ => true
  | .var _ => true
  | .un _ e => steady e
  | .bin _ a b => steady a && steady b && (isVal a || calm b)
  | .and a b => steady a && steady b
  | .or a b => steady a && steady b
  | .cond a b c => steady a && steady b && steady c
  | .comma a b => steady a && steady b
  | .void e => steady e
  | .assign _ e => steady e
  | .assignMem o k e =>
    steady o && steady k && steady e && (isVal o || (calm k && calm e)) && (isVal k || calm e)
  | .opAssign _ _ e => steady e && calm e
  | .opAssignMem _ o k e =>
    steady o && steady k && steady e && (isVal o || (calm k && calm e)) && (isVal k || calm e)
  | .inc _ _ _ => true
  | .incMem _ _ o k => steady o && steady k && (isVal o || calm k)
  | .sub o k => steady o && steady k && (isVal o || calm k)
  | .call f args => steady f && steadyEs args && (isVal f || calmEs args)
  | .callMeth o k args => steady o && steady k && steadyEs args && (isVal o || calm k)
  | .new f args => steady f && steadyEs args && (isVal f || calmEs args)
  | .array es => steadyEs es
  | .object es => steadyEs es
/-- The same for a list. -/
def steadyEs : Exprs → Bool
  | .nil => true
  | .cons e es => steady e && steadyEs es && (isVal e || calmEs es)
end

/-! ### Algebra -/

theorem bindM_congr {V H α β : Type} {m : MM V H α} {f g : α → MM V H β} (h : ∀ a, f a = g a) :
    bindM m f = bindM m g := by
  congr 1; funext a; exact h a

theorem bindM_congr' {V H α β : Type} {m : MM V H α} {f g : α → MM V H β}
    (h : ∀ a, (∃ s s', m s = (some a, s')) → f a = g a) : bindM m f = bindM m g := by
  funext s
  simp only [bindM]
  cases hm : m s with
  | mk r s1 =>
    cases r with
    | none => rfl
    | some a => exact congrFun (h a ⟨_, _, hm⟩) s1

theorem bindM_pure {V H α : Type} (m : MM V H α) : bindM m pureM = m := by
  funext s
  simp only [bindM]
  rcases m s with ⟨_ | a, s1⟩ <;> rfl

theorem Quiet.bind {α β : Type} {m : P.M α} {k : α → P.M β} (h : Quiet m) (hk : ∀ a, Quiet (k a)) :
    Quiet (bindM m k) := by
  intro s r
  have h1 := h s r
  simp only [bindM]
  rcases hm : m s with ⟨_ | a, s1⟩
  · rw [hm] at h1; exact h1
  · rw [hm] at h1; exact (hk a s1 r).trans h1

theorem Quiet.pure {α : Type} (a : α) : Quiet (P := P) (pureM a) := fun _ _ => rfl
theorem quiet_now (a : P.SV) : Quiet (P := P) (now P a) := fun _ _ => rfl

theorem Quiet.deref {α : Type} {m : P.M α} (h : Quiet m) (s : P.State) (x : P.SV) :
    P.deref (m s).2.h x = P.deref s.h x := by
  cases x with
  | val v => rfl
  | ref r => exact h s r
  | meth a b => rfl

/-- Reading an operand may be moved before a quiet operation. -/
theorem Quiet.swap {α β : Type} {m : P.M α} (h : Quiet m) (x : P.SV) (k : P.V → α → P.M β) :
    (m ⟶ fun a => now P x ⟶ fun v => k v a) = (now P x ⟶ fun v => m ⟶ fun a => k v a) := by
  funext s
  have h1 := h.deref s x
  simp only [bindM, now]
  rcases hm : m s with ⟨_ | a, s1⟩
  · rfl
  · rw [hm] at h1
    simp only at h1 ⊢
    rw [h1]

/-- The same for an operand that is no reference. -/
theorem swap_val {α β : Type} {m : P.M α} (w : P.V) (k : P.V → α → P.M β) :
    (m ⟶ fun a => now P (.val w) ⟶ fun v => k v a)
      = (now P (.val w) ⟶ fun v => m ⟶ fun a => k v a) := rfl

/-- An operand that stays the same over `m`. -/
def Keeps {α : Type} (x : P.SV) (m : P.M α) : Prop := (∃ v, x = .val v) ∨ Quiet m

theorem Keeps.swap {α β : Type} {m : P.M α} {x : P.SV} (h : Keeps x m) (k : P.V → α → P.M β) :
    (m ⟶ fun a => now P x ⟶ fun v => k v a) = (now P x ⟶ fun v => m ⟶ fun a => k v a) := by
  rcases h with ⟨v, rfl⟩ | h
  · rfl
  · exact h.swap x k

mutual
theorem calm_quiet (hP : CalmPrim P) (sc : P.Sc) : ∀ e, calm e = true → Quiet (evalE P sc e)
  | .lit l, _ => by rw [evalE]; exact (hP.lit l sc).bind fun _ => Quiet.pure _
  | .var x, _ => by rw [evalE]; exact (hP.lookup x sc).bind fun _ => Quiet.pure _
  | .un op e, h => by
    rw [evalE]
    exact (calm_quiet hP sc e (by simpa [calm] using h)).bind fun _ => (quiet_now _).bind fun _ =>
      (hP.un _ _).bind fun _ => Quiet.pure _
  | .bin op a b, h => by
    rw [evalE]
    simp only [calm, Bool.and_eq_true] at h
    exact (calm_quiet hP sc a h.1).bind fun _ => (calm_quiet hP sc b h.2).bind fun _ =>
      (quiet_now _).bind fun _ => (quiet_now _).bind fun _ => (hP.bin _ _ _).bind fun _ =>
      Quiet.pure _
  | .and a b, h => by
    rw [evalE]
    simp only [calm, Bool.and_eq_true] at h
    refine (calm_quiet hP sc a h.1).bind fun _ => (quiet_now _).bind fun v => ?_
    split
    · exact calm_quiet hP sc b h.2
    · exact Quiet.pure _
  | .or a b, h => by
    rw [evalE]
    simp only [calm, Bool.and_eq_true] at h
    refine (calm_quiet hP sc a h.1).bind fun _ => (quiet_now _).bind fun v => ?_
    split
    · exact Quiet.pure _
    · exact calm_quiet hP sc b h.2
  | .cond a b c, h => by
    rw [evalE]
    simp only [calm, Bool.and_eq_true] at h
    refine (calm_quiet hP sc a h.1.1).bind fun _ => (quiet_now _).bind fun v => ?_
    split
    · exact calm_quiet hP sc b h.1.2
    · exact calm_quiet hP sc c h.2
  | .comma a b, h => by
    rw [evalE]
    simp only [calm, Bool.and_eq_true] at h
    exact (calm_quiet hP sc a h.1).bind fun _ => calm_quiet hP sc b h.2
  | .void e, h => by
    rw [evalE]
    exact (calm_quiet hP sc e (by simpa [calm] using h)).bind fun _ =>
      (hP.lit _ _).bind fun _ => Quiet.pure _
  | .sub o k, h => by
    rw [evalE]
    simp only [calm, Bool.and_eq_true] at h
    exact (calm_quiet hP sc o h.1).bind fun _ => (calm_quiet hP sc k h.2).bind fun _ =>
      (quiet_now _).bind fun _ => (quiet_now _).bind fun _ => (hP.sub _ _).bind fun _ =>
      Quiet.pure _
  | .array es, h => by
    rw [evalE]
    exact (calmEs_quiet hP sc es (by simpa [calm] using h)).bind fun _ =>
      Quiet.bind (fun _ _ => rfl) fun _ => (hP.array _).bind fun _ => Quiet.pure _
  | .object es, h => by
    rw [evalE]
    exact (calmEs_quiet hP sc es (by simpa [calm] using h)).bind fun _ =>
      Quiet.bind (fun _ _ => rfl) fun _ => (hP.object _).bind fun _ => Quiet.pure _
  | .assign _ _, h => by simp [calm] at h
  | .assignMem _ _ _, h => by simp [calm] at h
  | .opAssign _ _ _, h => by simp [calm] at h
  | .opAssignMem _ _ _ _, h => by simp [calm] at h
  | .inc _ _ _, h => by simp [calm] at h
  | .incMem _ _ _ _, h => by simp [calm] at h
  | .call _ _, h => by simp [calm] at h
  | .callMeth _ _ _, h => by simp [calm] at h
  | .new _ _, h => by simp [calm] at h
theorem calmEs_quiet (hP : CalmPrim P) (sc : P.Sc) : ∀ es, calmEs es = true →
    Quiet (evalEs P sc es)
  | .nil, _ => by rw [evalEs]; exact Quiet.pure _
  | .cons e es, h => by
    rw [evalEs]
    simp only [calmEs, Bool.and_eq_true] at h
    exact (calm_quiet hP sc e h.1).bind fun _ => (calmEs_quiet hP sc es h.2).bind fun _ =>
      Quiet.pure _
end


theorem isVal_val (e : Expr) : isVal e = true → ∀ {sc : P.Sc} {s s' : P.State} {sv : P.SV},
    evalE P sc e s = (some sv, s') → ∃ v, sv = .val v := by
  have tail : ∀ {α : Type} {m : P.M α} {f : α → P.V} {s s' : P.State} {sv : P.SV},
      bindM m (fun a => pureM (SVal.val (f a))) s = (some sv, s') → ∃ v, sv = .val v := by
    intro α m f s s' sv h
    obtain ⟨a, s1, _, h2⟩ := bindM_some h
    simp only [pureM, Prod.mk.injEq, Option.some.injEq] at h2
    exact ⟨_, h2.1.symm⟩
  have htinc : ∀ {up post : Bool} {a : P.SV} {s s' : P.State} {sv : P.SV},
      incR P up post a s = (some sv, s') → ∃ v, sv = .val v := by
    intro up post a s s' sv h
    cases a with
    | ref r => exact tail (f := id) h
    | val v => simp [incR, failM] at h
    | meth a b => simp [incR, failM] at h
  induction e using Expr.rec (motive_2 := fun _ => True) with
  | nil => trivial
  | cons => trivial
  | lit l => intro _ sc s s' sv h; rw [evalE] at h; exact tail (f := id) h
  | var l => intro h; simp [isVal] at h
  | assign => intro h; simp [isVal] at h
  | opAssign => intro h; simp [isVal] at h
  | un op e ih =>
    intro _ sc s s' sv h; rw [evalE] at h
    obtain ⟨a, s1, _, h⟩ := bindM_some h
    obtain ⟨a, s1, _, h⟩ := bindM_some h
    exact tail (f := id) h
  | and a b iha ihb =>
    intro hv sc s s' sv h; rw [evalE] at h
    obtain ⟨x, s1, _, h⟩ := bindM_some h
    obtain ⟨v, s2, _, h⟩ := bindM_some h
    split at h
    · exact ihb (by simpa [isVal] using hv) h
    · simp only [pureM, Prod.mk.injEq, Option.some.injEq] at h
      exact ⟨_, h.1.symm⟩
  | or a b iha ihb =>
    intro hv sc s s' sv h; rw [evalE] at h
    obtain ⟨x, s1, _, h⟩ := bindM_some h
    obtain ⟨v, s2, _, h⟩ := bindM_some h
    split at h
    · simp only [pureM, Prod.mk.injEq, Option.some.injEq] at h
      exact ⟨_, h.1.symm⟩
    · exact ihb (by simpa [isVal] using hv) h
  | cond a b c iha ihb ihc =>
    intro hv sc s s' sv h; rw [evalE] at h
    simp only [isVal, Bool.and_eq_true] at hv
    obtain ⟨x, s1, _, h⟩ := bindM_some h
    obtain ⟨v, s2, _, h⟩ := bindM_some h
    split at h
    · exact ihb hv.1 h
    · exact ihc hv.2 h
  | comma a b iha ihb =>
    intro hv sc s s' sv h; rw [evalE] at h
    obtain ⟨x, s1, _, h⟩ := bindM_some h
    exact ihb (by simpa [isVal] using hv) h
  | inc up post x =>
    intro _ sc s s' sv h; rw [evalE] at h
    obtain ⟨r, s1, _, h⟩ := bindM_some h
    exact htinc h
  | incMem up post o k _ _ =>
    intro _ sc s s' sv h; rw [evalE] at h
    obtain ⟨r, s1, _, h⟩ := bindM_some h
    obtain ⟨r, s1, _, h⟩ := bindM_some h
    obtain ⟨r, s1, _, h⟩ := bindM_some h
    obtain ⟨r, s1, _, h⟩ := bindM_some h
    obtain ⟨r, s1, _, h⟩ := bindM_some h
    exact htinc h
  | assignMem o k e =>
    intro _ sc s s' sv h; rw [evalE] at h
    obtain ⟨r, s1, _, h⟩ := bindM_some h
    obtain ⟨r, s1, _, h⟩ := bindM_some h
    obtain ⟨r, s1, _, h⟩ := bindM_some h
    obtain ⟨r, s1, _, h⟩ := bindM_some h
    obtain ⟨r, s1, _, h⟩ := bindM_some h
    obtain ⟨r, s1, _, h⟩ := bindM_some h
    exact tail (f := fun _ => _) h
  | opAssignMem op o k e =>
    intro _ sc s s' sv h; rw [evalE] at h
    obtain ⟨r, s1, _, h⟩ := bindM_some h
    obtain ⟨r, s1, _, h⟩ := bindM_some h
    obtain ⟨r, s1, _, h⟩ := bindM_some h
    obtain ⟨r, s1, _, h⟩ := bindM_some h
    obtain ⟨r, s1, _, h⟩ := bindM_some h
    obtain ⟨r, s1, _, h⟩ := bindM_some h
    obtain ⟨r, s1, _, h⟩ := bindM_some h
    obtain ⟨r, s1, _, h⟩ := bindM_some h
    obtain ⟨r, s1, _, h⟩ := bindM_some h
    obtain ⟨r, s1, _, h⟩ := bindM_some h
    exact tail (f := fun _ => _) h
  | void e _ =>
    intro _ sc s s' sv h; rw [evalE] at h
    obtain ⟨r, s1, _, h⟩ := bindM_some h
    exact tail (f := id) h
  | bin op a b _ _ =>
    intro _ sc s s' sv h; rw [evalE] at h
    obtain ⟨r, s1, _, h⟩ := bindM_some h
    obtain ⟨r, s1, _, h⟩ := bindM_some h
    obtain ⟨r, s1, _, h⟩ := bindM_some h
    obtain ⟨r, s1, _, h⟩ := bindM_some h
    exact tail (f := id) h
  | sub a b _ _ =>
    intro _ sc s s' sv h; rw [evalE] at h
    obtain ⟨r, s1, _, h⟩ := bindM_some h
    obtain ⟨r, s1, _, h⟩ := bindM_some h
    obtain ⟨r, s1, _, h⟩ := bindM_some h
    obtain ⟨r, s1, _, h⟩ := bindM_some h
    exact tail (f := id) h
  | call f args _ _ =>
    intro _ sc s s' sv h; rw [evalE] at h
    obtain ⟨r, s1, _, h⟩ := bindM_some h
    obtain ⟨r, s1, _, h⟩ := bindM_some h
    obtain ⟨r, s1, _, h⟩ := bindM_some h
    obtain ⟨r, s1, _, h⟩ := bindM_some h
    exact tail (f := id) h
  | callMeth o k args _ _ _ =>
    intro _ sc s s' sv h; rw [evalE] at h
    obtain ⟨r, s1, _, h⟩ := bindM_some h
    obtain ⟨r, s1, _, h⟩ := bindM_some h
    obtain ⟨r, s1, _, h⟩ := bindM_some h
    obtain ⟨r, s1, _, h⟩ := bindM_some h
    obtain ⟨r, s1, _, h⟩ := bindM_some h
    obtain ⟨r, s1, _, h⟩ := bindM_some h
    obtain ⟨r, s1, _, h⟩ := bindM_some h
    obtain ⟨r, s1, _, h⟩ := bindM_some h
    obtain ⟨r, s1, _, h⟩ := bindM_some h
    exact tail (f := id) h
  | new f args _ _ =>
    intro _ sc s s' sv h; rw [evalE] at h
    obtain ⟨r, s1, _, h⟩ := bindM_some h
    obtain ⟨r, s1, _, h⟩ := bindM_some h
    obtain ⟨r, s1, _, h⟩ := bindM_some h
    obtain ⟨r, s1, _, h⟩ := bindM_some h
    exact tail (f := id) h
  | array es _ =>
    intro _ sc s s' sv h; rw [evalE] at h
    obtain ⟨r, s1, _, h⟩ := bindM_some h
    obtain ⟨r, s1, _, h⟩ := bindM_some h
    exact tail (f := id) h
  | object es _ =>
    intro _ sc s s' sv h; rw [evalE] at h
    obtain ⟨r, s1, _, h⟩ := bindM_some h
    obtain ⟨r, s1, _, h⟩ := bindM_some h
    exact tail (f := id) h

/-- Steady operands keep their value over what follows. -/
theorem keeps_of {e : Expr} {b : Bool} {α : Type} {m : P.M α} (h : (isVal e || b) = true)
    (hq : b = true → Quiet m) {sc : P.Sc} {x : P.SV}
    (hx : ∃ s s', evalE P sc e s = (some x, s')) : Keeps x m := by
  obtain ⟨s, s', hx⟩ := hx
  rw [Bool.or_eq_true] at h
  rcases h with h | h
  · exact Or.inl (isVal_val e h hx)
  · exact Or.inr (hq h)

theorem Keeps.mono_bind {α β : Type} {x : P.SV} {m : P.M α} {k : α → P.M β} (h : Keeps x m)
    (hk : ∀ a, Keeps x (k a)) : Keeps x (bindM m k) := by
  rcases h with h | h
  · exact Or.inl h
  · by_cases hv : ∃ v, x = .val v
    · exact Or.inl hv
    · exact Or.inr (h.bind fun a => (hk a).resolve_left hv)

theorem now_twice {β : Type} (x : P.SV) (k : P.V → P.V → P.M β) :
    (now P x ⟶ fun v => now P x ⟶ fun w => k v w) = (now P x ⟶ fun v => k v v) := rfl

theorem now_comm {β : Type} (x y : P.SV) (k : P.V → P.V → P.M β) :
    (now P x ⟶ fun v => now P y ⟶ fun w => k v w) = (now P y ⟶ fun w => now P x ⟶ fun v => k v w) :=
  rfl

theorem pure_val_now {α : Type} (m : P.M P.V) (k : P.V → P.M α) :
    (m ⟶ fun v => pureM (SVal.val v) ⟶ fun x => now P x ⟶ k) = (m ⟶ k) := rfl

set_option maxHeartbeats 1000000 in
/-- On steady expressions jsish's evaluation followed by reading the result is ECMAScript's. -/
theorem evalE_evalV (hP : CalmPrim P) (sc : P.Sc) (e : Expr) : steady e = true →
    ∀ {β : Type} (k : P.V → P.M β),
      (evalE P sc e ⟶ fun x => now P x ⟶ k) = (evalV P sc e ⟶ k) := by
  induction e using Expr.rec (motive_2 := fun es => steadyEs es = true →
    ∀ {β : Type} (k : List P.V → P.M β),
      (evalEs P sc es ⟶ fun xs => nows P xs ⟶ k) = (evalVs P sc es ⟶ k)) with
  | nil => rw [evalEs, evalVs]; rfl
  | cons e es ihe ihes =>
    rename_i h β k
    simp only [steadyEs, Bool.and_eq_true] at h
    rw [evalEs, evalVs]
    simp only [bindM_assoc, pureM_bind]
    have h1 : ∀ (a : P.SV) (as : List P.SV), (nows P (a :: as) ⟶ k)
        = (now P a ⟶ fun v => nows P as ⟶ fun vs => k (v :: vs)) := fun _ _ => rfl
    simp only [h1]
    rw [← ihe h.1.1]
    refine bindM_congr' fun x hx => ?_
    rw [Keeps.swap (keeps_of h.2 (calmEs_quiet hP sc es) hx)
      (fun v as => nows P as ⟶ fun vs => k (v :: vs))]
    refine bindM_congr fun v => ?_
    exact ihes h.1.2 _
  | lit l => intro _ β k; rw [evalE, evalV, bindM_assoc]; rfl
  | var x => intro _ β k; rw [evalE, evalV, bindM_assoc, bindM_assoc]; rfl
  | un op e ih =>
    intro h β k
    rw [evalE, evalV]
    simp only [bindM_assoc, pureM_bind, now_val]
    exact ih (by simpa [steady] using h) _
  | bin op a b iha ihb =>
    intro h β k
    simp only [steady, Bool.and_eq_true] at h
    rw [evalE, evalV]
    simp only [bindM_assoc, pureM_bind, now_val]
    rw [← iha h.1.1]
    refine bindM_congr' fun x hx => ?_
    rw [Keeps.swap (keeps_of h.2 (calm_quiet hP sc b) hx)
      (fun vx y => now P y ⟶ fun vy => P.bin op vx vy ⟶ k)]
    refine bindM_congr fun v => ?_
    exact ihb h.1.2 _
  | and a b iha ihb =>
    intro h β k
    simp only [steady, Bool.and_eq_true] at h
    rw [evalE, evalV]
    simp only [bindM_assoc]
    rw [← iha h.1]
    refine bindM_congr fun x => bindM_congr fun v => ?_
    split
    · exact ihb h.2 k
    · rfl
  | or a b iha ihb =>
    intro h β k
    simp only [steady, Bool.and_eq_true] at h
    rw [evalE, evalV]
    simp only [bindM_assoc]
    rw [← iha h.1]
    refine bindM_congr fun x => bindM_congr fun v => ?_
    split
    · rfl
    · exact ihb h.2 k
  | cond a b c iha ihb ihc =>
    intro h β k
    simp only [steady, Bool.and_eq_true] at h
    rw [evalE, evalV]
    simp only [bindM_assoc]
    rw [← iha h.1.1]
    refine bindM_congr fun x => bindM_congr fun v => ?_
    split
    · exact ihb h.1.2 k
    · exact ihc h.2 k
  | comma a b iha ihb =>
    intro h β k
    simp only [steady, Bool.and_eq_true] at h
    rw [evalE, evalV]
    simp only [bindM_assoc]
    rw [← iha h.1]
    refine bindM_congr fun x => ?_
    rw [ihb h.2 k]
    rfl
  | void e ih =>
    intro h β k
    rw [evalE, evalV]
    simp only [bindM_assoc, pureM_bind, now_val]
    rw [← ih (by simpa [steady] using h)]
    rfl
  | assign x e ih =>
    intro h β k
    rw [evalE, evalV]
    simp only [bindM_assoc, pureM_bind]
    refine bindM_congr fun r => ?_
    rw [← ih (by simpa [steady] using h)]
    refine bindM_congr fun y => bindM_congr fun v => ?_
    funext s
    simp only [bindM, now]
    rcases hw : P.write r v s with ⟨_ | u, s1⟩
    · rfl
    · simp only [Prim.deref]
      rw [hP.write_read r v s s1 hw]
  | assignMem o k e iho ihk ihe =>
    intro h β f
    simp only [steady, Bool.and_eq_true] at h
    obtain ⟨⟨⟨⟨h1, h2⟩, h3⟩, h4⟩, h5⟩ := h
    rw [evalE, evalV]
    simp only [bindM_assoc, pureM_bind, now_val]
    rw [← iho h1]
    refine bindM_congr' fun x hx => ?_
    have kx : Keeps x (evalE P sc k) := keeps_of h4 (fun h => calm_quiet hP sc k (by
      simp only [Bool.and_eq_true] at h; exact h.1)) hx
    have kx2 : Keeps x (evalE P sc e) := keeps_of h4 (fun h => calm_quiet hP sc e (by
      simp only [Bool.and_eq_true] at h; exact h.2)) hx
    have s1 : ∀ y, (evalE P sc e ⟶ fun z => now P x ⟶ fun vx => now P y ⟶ fun vy => now P z ⟶ fun vz =>
        P.put vx vy vz ⟶ fun _ => f vz) = (now P x ⟶ fun vx => evalE P sc e ⟶ fun z =>
          now P y ⟶ fun vy => now P z ⟶ fun vz => P.put vx vy vz ⟶ fun _ => f vz) := fun y =>
      kx2.swap fun vx z => now P y ⟶ fun vy => now P z ⟶ fun vz => P.put vx vy vz ⟶ fun _ => f vz
    simp only [s1]
    rw [kx.swap fun vx y => evalE P sc e ⟶ fun z =>
          now P y ⟶ fun vy => now P z ⟶ fun vz => P.put vx vy vz ⟶ fun _ => f vz]
    refine bindM_congr fun vx => ?_
    rw [← ihk h2]
    refine bindM_congr' fun y hy => ?_
    rw [Keeps.swap (keeps_of h5 (calm_quiet hP sc e) hy)
      fun vy z => now P z ⟶ fun vz => P.put vx vy vz ⟶ fun _ => f vz]
    refine bindM_congr fun vy => ?_
    exact ihe h3 _
  | opAssign op x e ih =>
    intro h β k
    simp only [steady, Bool.and_eq_true] at h
    rw [evalE, evalV]
    simp only [bindM_assoc, pureM_bind]
    refine bindM_congr fun r => ?_
    have hw : ∀ w, (P.write r w ⟶ fun _ => now P (.ref r) ⟶ k) = (P.write r w ⟶ fun _ => k w) := by
      intro w
      funext s
      simp only [bindM, now]
      rcases hw : P.write r w s with ⟨_ | u, s1⟩
      · rfl
      · simp only [Prim.deref]
        rw [hP.write_read r w s s1 hw]
    simp only [hw]
    rw [Quiet.swap (calm_quiet hP sc e h.2) (.ref r)
      fun vx y => now P y ⟶ fun vy => P.bin op vx vy ⟶ fun w => P.write r w ⟶ fun _ => k w]
    refine bindM_congr fun v => ?_
    exact ih h.1 _
  | opAssignMem op o k e iho ihk ihe =>
    intro h β f
    simp only [steady, Bool.and_eq_true] at h
    obtain ⟨⟨⟨⟨h1, h2⟩, h3⟩, h4⟩, h5⟩ := h
    rw [evalE, evalV]
    simp only [bindM_assoc, pureM_bind, now_val]
    rw [← iho h1]
    refine bindM_congr' fun x hx => ?_
    have kx : Keeps x (evalE P sc k) := keeps_of h4 (fun h => calm_quiet hP sc k (by
      simp only [Bool.and_eq_true] at h; exact h.1)) hx
    have kx2 : Keeps x (evalE P sc e) := keeps_of h4 (fun h => calm_quiet hP sc e (by
      simp only [Bool.and_eq_true] at h; exact h.2)) hx
    rw [kx.swap fun vx y => now P y ⟶ fun vy => P.sub vx vy ⟶ fun old => evalE P sc e ⟶ fun z =>
      now P z ⟶ fun vz => P.bin op old vz ⟶ fun v => now P x ⟶ fun vx' => now P y ⟶ fun vy' =>
        P.put vx' vy' v ⟶ fun _ => f v]
    -- read `x` again where it was read first
    have s1 : ∀ (y z : P.SV) (old : P.V), (now P z ⟶ fun vz => P.bin op old vz ⟶ fun v => now P x ⟶ fun vx' =>
        now P y ⟶ fun vy' => P.put vx' vy' v ⟶ fun _ => f v) =
        (now P x ⟶ fun vx' => now P z ⟶ fun vz => P.bin op old vz ⟶ fun v =>
          now P y ⟶ fun vy' => P.put vx' vy' v ⟶ fun _ => f v) := by
      intro y z old
      have : ∀ vz, (P.bin op old vz ⟶ fun v => now P x ⟶ fun vx' =>
          now P y ⟶ fun vy' => P.put vx' vy' v ⟶ fun _ => f v) =
          (now P x ⟶ fun vx' => P.bin op old vz ⟶ fun v =>
          now P y ⟶ fun vy' => P.put vx' vy' v ⟶ fun _ => f v) := fun vz =>
        Quiet.swap (hP.bin op old vz) x fun vx' v => now P y ⟶ fun vy' => P.put vx' vy' v ⟶ fun _ => f v
      simp only [this]
      rfl
    simp only [s1]
    have s2 : ∀ (y : P.SV) (old : P.V), (evalE P sc e ⟶ fun z => now P x ⟶ fun vx' => now P z ⟶ fun vz =>
        P.bin op old vz ⟶ fun v => now P y ⟶ fun vy' => P.put vx' vy' v ⟶ fun _ => f v) =
        (now P x ⟶ fun vx' => evalE P sc e ⟶ fun z => now P z ⟶ fun vz =>
        P.bin op old vz ⟶ fun v => now P y ⟶ fun vy' => P.put vx' vy' v ⟶ fun _ => f v) := fun y old =>
      kx2.swap fun vx' z => now P z ⟶ fun vz =>
        P.bin op old vz ⟶ fun v => now P y ⟶ fun vy' => P.put vx' vy' v ⟶ fun _ => f v
    simp only [s2]
    have s3 : ∀ (y : P.SV) (vx vy : P.V), (P.sub vx vy ⟶ fun old => now P x ⟶ fun vx' => evalE P sc e ⟶ fun z =>
        now P z ⟶ fun vz => P.bin op old vz ⟶ fun v => now P y ⟶ fun vy' => P.put vx' vy' v ⟶ fun _ => f v) =
        (now P x ⟶ fun vx' => P.sub vx vy ⟶ fun old => evalE P sc e ⟶ fun z =>
        now P z ⟶ fun vz => P.bin op old vz ⟶ fun v => now P y ⟶ fun vy' => P.put vx' vy' v ⟶ fun _ => f v) :=
      fun y vx vy => Quiet.swap (hP.sub vx vy) x fun vx' old => evalE P sc e ⟶ fun z =>
        now P z ⟶ fun vz => P.bin op old vz ⟶ fun v => now P y ⟶ fun vy' => P.put vx' vy' v ⟶ fun _ => f v
    simp only [s3]
    have s4 : (now P x ⟶ fun vx => evalE P sc k ⟶ fun y => now P y ⟶ fun vy => now P x ⟶ fun vx' =>
        P.sub vx vy ⟶ fun old => evalE P sc e ⟶ fun z =>
        now P z ⟶ fun vz => P.bin op old vz ⟶ fun v => now P y ⟶ fun vy' => P.put vx' vy' v ⟶ fun _ => f v) =
        (now P x ⟶ fun vx => evalE P sc k ⟶ fun y => now P y ⟶ fun vy =>
        P.sub vx vy ⟶ fun old => evalE P sc e ⟶ fun z =>
        now P z ⟶ fun vz => P.bin op old vz ⟶ fun v => now P y ⟶ fun vy' => P.put vx vy' v ⟶ fun _ => f v) := by
      have : ∀ vx, (evalE P sc k ⟶ fun y => now P y ⟶ fun vy => now P x ⟶ fun vx' =>
          P.sub vx vy ⟶ fun old => evalE P sc e ⟶ fun z =>
          now P z ⟶ fun vz => P.bin op old vz ⟶ fun v => now P y ⟶ fun vy' => P.put vx' vy' v ⟶ fun _ => f v) =
          (now P x ⟶ fun vx' => evalE P sc k ⟶ fun y => now P y ⟶ fun vy =>
          P.sub vx vy ⟶ fun old => evalE P sc e ⟶ fun z =>
          now P z ⟶ fun vz => P.bin op old vz ⟶ fun v => now P y ⟶ fun vy' => P.put vx' vy' v ⟶ fun _ => f v) :=
        fun vx => kx.swap fun vx' y => now P y ⟶ fun vy =>
          P.sub vx vy ⟶ fun old => evalE P sc e ⟶ fun z =>
          now P z ⟶ fun vz => P.bin op old vz ⟶ fun v => now P y ⟶ fun vy' => P.put vx' vy' v ⟶ fun _ => f v
      simp only [this]
      rfl
    rw [s4]
    refine bindM_congr fun vx => ?_
    rw [← ihk h2]
    refine bindM_congr' fun y hy => ?_
    have ky : Keeps y (evalE P sc e) := keeps_of h5 (calm_quiet hP sc e) hy
    have t1 : ∀ (z : P.SV) (old : P.V), (now P z ⟶ fun vz => P.bin op old vz ⟶ fun v => now P y ⟶ fun vy' =>
        P.put vx vy' v ⟶ fun _ => f v) =
        (now P y ⟶ fun vy' => now P z ⟶ fun vz => P.bin op old vz ⟶ fun v =>
        P.put vx vy' v ⟶ fun _ => f v) := by
      intro z old
      have : ∀ vz, (P.bin op old vz ⟶ fun v => now P y ⟶ fun vy' =>
          P.put vx vy' v ⟶ fun _ => f v) = (now P y ⟶ fun vy' => P.bin op old vz ⟶ fun v =>
          P.put vx vy' v ⟶ fun _ => f v) := fun vz =>
        Quiet.swap (hP.bin op old vz) y fun vy' v => P.put vx vy' v ⟶ fun _ => f v
      simp only [this]
      rfl
    simp only [t1]
    have t2 : ∀ (old : P.V), (evalE P sc e ⟶ fun z => now P y ⟶ fun vy' => now P z ⟶ fun vz =>
        P.bin op old vz ⟶ fun v => P.put vx vy' v ⟶ fun _ => f v) =
        (now P y ⟶ fun vy' => evalE P sc e ⟶ fun z => now P z ⟶ fun vz =>
        P.bin op old vz ⟶ fun v => P.put vx vy' v ⟶ fun _ => f v) := fun old =>
      ky.swap fun vy' z => now P z ⟶ fun vz =>
        P.bin op old vz ⟶ fun v => P.put vx vy' v ⟶ fun _ => f v
    simp only [t2]
    have t3 : ∀ vy, (P.sub vx vy ⟶ fun old => now P y ⟶ fun vy' => evalE P sc e ⟶ fun z => now P z ⟶ fun vz =>
        P.bin op old vz ⟶ fun v => P.put vx vy' v ⟶ fun _ => f v) =
        (now P y ⟶ fun vy' => P.sub vx vy ⟶ fun old => evalE P sc e ⟶ fun z => now P z ⟶ fun vz =>
        P.bin op old vz ⟶ fun v => P.put vx vy' v ⟶ fun _ => f v) := fun vy =>
      Quiet.swap (hP.sub vx vy) y fun vy' old => evalE P sc e ⟶ fun z => now P z ⟶ fun vz =>
        P.bin op old vz ⟶ fun v => P.put vx vy' v ⟶ fun _ => f v
    simp only [t3]
    have t4 : (now P y ⟶ fun vy => now P y ⟶ fun vy' => P.sub vx vy ⟶ fun old => evalE P sc e ⟶ fun z =>
        now P z ⟶ fun vz => P.bin op old vz ⟶ fun v => P.put vx vy' v ⟶ fun _ => f v) =
        (now P y ⟶ fun vy => P.sub vx vy ⟶ fun old => evalE P sc e ⟶ fun z =>
        now P z ⟶ fun vz => P.bin op old vz ⟶ fun v => P.put vx vy v ⟶ fun _ => f v) := rfl
    rw [t4]
    refine bindM_congr fun vy => bindM_congr fun old => ?_
    exact ihe h3 _
  | inc up post x =>
    intro h β k
    rw [evalE, evalV]
    simp only [bindM_assoc]
    refine bindM_congr fun r => ?_
    simp only [incR, bindM_assoc, pureM_bind, now_val]
  | incMem up post o k iho ihk =>
    intro h β f
    simp only [steady, Bool.and_eq_true] at h
    rw [evalE, evalV]
    simp only [bindM_assoc]
    rw [← iho h.1.1]
    refine bindM_congr' fun x hx => ?_
    rw [Keeps.swap (keeps_of h.2 (calm_quiet hP sc k) hx)
      (fun vx y => now P y ⟶ fun vy => P.subref vx vy ⟶ fun r => incR P up post (ofSum r) ⟶ fun x =>
        now P x ⟶ f)]
    refine bindM_congr fun v => ?_
    rw [← ihk h.1.2]
    refine bindM_congr fun y => bindM_congr fun w => bindM_congr fun r => ?_
    cases r with
    | inl v => rfl
    | inr r => simp only [ofSum, incR, bindM_assoc, pureM_bind, now_val]
  | sub o k iho ihk =>
    intro h β f
    simp only [steady, Bool.and_eq_true] at h
    rw [evalE, evalV]
    simp only [bindM_assoc, pureM_bind, now_val]
    rw [← iho h.1.1]
    refine bindM_congr' fun x hx => ?_
    rw [Keeps.swap (keeps_of h.2 (calm_quiet hP sc k) hx)
      (fun vx y => now P y ⟶ fun vy => P.sub vx vy ⟶ f)]
    refine bindM_congr fun v => ?_
    exact ihk h.1.2 _
  | call f args ihf iha =>
    intro h β k
    simp only [steady, Bool.and_eq_true] at h
    rw [evalE, evalV]
    simp only [bindM_assoc, pureM_bind, now_val]
    rw [← ihf h.1.1]
    refine bindM_congr' fun x hx => ?_
    rw [Keeps.swap (keeps_of h.2 (calmEs_quiet hP sc args) hx)
      (fun vg as => nows P as ⟶ fun vs => P.call vg none vs ⟶ k)]
    refine bindM_congr fun v => ?_
    exact iha h.1.2 _
  | callMeth o k args iho ihk iha =>
    intro h β f
    simp only [steady, Bool.and_eq_true] at h
    obtain ⟨⟨⟨h1, h2⟩, h3⟩, h4⟩ := h
    rw [evalE, evalV]
    simp only [bindM_assoc, pureM_bind, now_val]
    have hargs : ∀ (g this : P.V), (evalEs P sc args ⟶ fun as => nows P as ⟶ fun vs =>
        P.call g (some this) vs ⟶ f) = (evalVs P sc args ⟶ fun vs => P.call g (some this) vs ⟶ f) :=
      fun g this => iha h3 _
    simp only [hargs]
    rw [← iho h1]
    refine bindM_congr' fun x hx => ?_
    have t1 : ∀ (y : P.SV) (vx : P.V), (P.toObj vx ⟶ fun this => now P x ⟶ fun vx' => now P y ⟶ fun vy =>
        P.sub vx' vy ⟶ fun g => evalVs P sc args ⟶ fun vs => P.call g (some this) vs ⟶ f) =
        (now P x ⟶ fun vx' => now P y ⟶ fun vy => P.toObj vx ⟶ fun this =>
        P.sub vx' vy ⟶ fun g => evalVs P sc args ⟶ fun vs => P.call g (some this) vs ⟶ f) := by
      intro y vx
      rw [Quiet.swap (hP.toObj vx) x fun vx' this => now P y ⟶ fun vy =>
        P.sub vx' vy ⟶ fun g => evalVs P sc args ⟶ fun vs => P.call g (some this) vs ⟶ f]
      refine bindM_congr fun vx' => ?_
      exact Quiet.swap (hP.toObj vx) y fun vy this => 
        P.sub vx' vy ⟶ fun g => evalVs P sc args ⟶ fun vs => P.call g (some this) vs ⟶ f
    simp only [t1]
    have t2 : ∀ y : P.SV, (now P x ⟶ fun vx => now P x ⟶ fun vx' => now P y ⟶ fun vy => P.toObj vx ⟶ fun this =>
        P.sub vx' vy ⟶ fun g => evalVs P sc args ⟶ fun vs => P.call g (some this) vs ⟶ f) =
        (now P x ⟶ fun vx => now P y ⟶ fun vy => P.toObj vx ⟶ fun this =>
        P.sub vx vy ⟶ fun g => evalVs P sc args ⟶ fun vs => P.call g (some this) vs ⟶ f) := fun _ => rfl
    simp only [t2]
    rw [Keeps.swap (keeps_of h4 (calm_quiet hP sc k) hx)
      (fun vx y => now P y ⟶ fun vy => P.toObj vx ⟶ fun this =>
        P.sub vx vy ⟶ fun g => evalVs P sc args ⟶ fun vs => P.call g (some this) vs ⟶ f)]
    refine bindM_congr fun v => ?_
    exact ihk h2 _
  | new f args ihf iha =>
    intro h β k
    simp only [steady, Bool.and_eq_true] at h
    rw [evalE, evalV]
    simp only [bindM_assoc, pureM_bind, now_val]
    rw [← ihf h.1.1]
    refine bindM_congr' fun x hx => ?_
    rw [Keeps.swap (keeps_of h.2 (calmEs_quiet hP sc args) hx)
      (fun vg as => nows P as ⟶ fun vs => P.new vg vs ⟶ k)]
    refine bindM_congr fun v => ?_
    exact iha h.1.2 _
  | array es ih =>
    intro h β k
    rw [evalE, evalV]
    simp only [bindM_assoc, pureM_bind, now_val]
    exact ih (by simpa [steady] using h) _
  | object es ih =>
    intro h β k
    rw [evalE, evalV]
    simp only [bindM_assoc, pureM_bind, now_val]
    exact ih (by simpa [steady] using h) _

end Verif.Vm
