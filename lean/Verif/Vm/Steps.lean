import Verif.Vm.Sem

/-!
Reasoning about runs of the machine: reachability, placement of code, and the single-step facts for
the straight-line instructions.
-/

namespace Verif.Vm

variable {P : Prim} {F : List Instr} {d0 : Nat}

/-- The machine reaches `X` (a configuration, or a way of halting) from `c`. -/
def To (P : Prim) (F : List Instr) (d0 : Nat) (c : Cfg P) (X : Cfg P ⊕ Halt P.V P.State) : Prop :=
  ∃ n, run P F d0 n c = X

/-- The machine runs for at least `n` rounds from `c`. -/
def Long (P : Prim) (F : List Instr) (d0 : Nat) (n : Nat) (c : Cfg P) : Prop :=
  ∃ c', run P F d0 n c = .inl c'

theorem run_add (m n : Nat) (c : Cfg P) :
    run P F d0 (m + n) c = match run P F d0 m c with
      | .inl c' => run P F d0 n c'
      | .inr h => .inr h := by
  induction m generalizing c with
  | zero => simp [run]
  | succ m ih =>
    rw [show m + 1 + n = (m + n) + 1 by omega]
    simp only [run]
    cases step P F d0 c with
    | inl c' => simp [ih]
    | inr h => simp

theorem To.refl (c : Cfg P) : To P F d0 c (.inl c) := ⟨0, rfl⟩

theorem To.trans {c c' : Cfg P} {X} (h1 : To P F d0 c (.inl c')) (h2 : To P F d0 c' X) :
    To P F d0 c X := by
  obtain ⟨m, hm⟩ := h1
  obtain ⟨n, hn⟩ := h2
  exact ⟨m + n, by rw [run_add, hm]; exact hn⟩

theorem To.step {c : Cfg P} {X} (h : step P F d0 c = X) : To P F d0 c X := by
  refine ⟨1, ?_⟩
  simp only [run, h]
  cases X <;> rfl

theorem To.of_step {c : Cfg P} {c' : Cfg P} {X} (h : Vm.step P F d0 c = .inl c')
    (h2 : To P F d0 c' X) : To P F d0 c X := (To.step h).trans h2

theorem run_mono_inl {m n : Nat} {c c' : Cfg P} (h : m ≤ n) (hr : run P F d0 n c = .inl c') :
    ∃ c'', run P F d0 m c = .inl c'' := by
  obtain ⟨k, rfl⟩ := Nat.exists_eq_add_of_le h
  rw [run_add] at hr
  cases hm : run P F d0 m c with
  | inl c'' => exact ⟨c'', rfl⟩
  | inr h => rw [hm] at hr; simp at hr

theorem Long.of_to {n : Nat} {c c' : Cfg P} (h1 : To P F d0 c (.inl c')) (h2 : Long P F d0 n c') :
    Long P F d0 n c := by
  obtain ⟨m, hm⟩ := h1
  obtain ⟨c'', hn⟩ := h2
  have : run P F d0 (m + n) c = .inl c'' := by rw [run_add, hm]; exact hn
  exact run_mono_inl (by omega) this

theorem Long.of_step {n : Nat} {c c' : Cfg P} (h1 : step P F d0 c = .inl c')
    (h2 : Long P F d0 n c') : Long P F d0 (n + 1) c := by
  obtain ⟨c'', hn⟩ := h2
  exact ⟨c'', by simp only [run, h1]; exact hn⟩

theorem Long.zero (c : Cfg P) : Long P F d0 0 c := ⟨c, rfl⟩

/-- If the machine runs for `n` rounds for every `n` it does not halt. -/
theorem Long.not_halt {c : Cfg P} (h : ∀ n, Long P F d0 n c) (X) : ¬ To P F d0 c (.inr X) := by
  rintro ⟨n, hn⟩
  obtain ⟨c', hc⟩ := h n
  rw [hn] at hc
  cases hc

/-- The machine is deterministic: two halts agree. -/
theorem To.halt_unique {c : Cfg P} {X Y} (h1 : To P F d0 c (.inr X)) (h2 : To P F d0 c (.inr Y)) :
    X = Y := by
  obtain ⟨m, hm⟩ := h1
  obtain ⟨n, hn⟩ := h2
  have key : ∀ (a b : Nat) (c : Cfg P) X, run P F d0 a c = .inr X → run P F d0 (a + b) c = .inr X := by
    intro a b c X h
    rw [run_add, h]
  have h3 := key m n c X hm
  have h4 := key n m c Y hn
  rw [Nat.add_comm, h4] at h3
  cases h3
  rfl

/-! ### Placement of code -/

/-- Enclosing constructs of a statement, innermost first: a loop or switch with its label, the
number of stack entries it holds, whether it only takes `break`, and the absolute destinations; or a
try statement with a finally block. -/
inductive EItem
  | loop (label : Option String) (pops : Nat) (brkOnly : Bool) (brkT contT : Nat)
  | fin

/-- Destination of a `break`/`continue` and the number of stack entries to drop on the way. -/
def lookupJ : List EItem → Res → Option String → Option (Nat × Nat)
  | [], _, _ => none
  | .fin :: r, ty, l => lookupJ r ty l
  | .loop label pops bo bt ct :: r, ty, l =>
    if l.isSome ∧ l ≠ label then (lookupJ r ty l).map (fun x => (x.1, x.2 + pops))
    else match ty with
      | .cont => if bo then (lookupJ r ty l).map (fun x => (x.1, x.2 + pops)) else some (ct, 0)
      | .brk => some (bt, 0)

/-- The instruction of `F` at `pc` is `ins`, with a placeholder replaced by the jump its
environment dictates. -/
def Fit1 (F : List Instr) (env : List EItem) (pc : Nat) : Instr → Prop
  | .reserved ty l p =>
    match lookupJ env ty l with
    | some (t, ex) => F[pc]? = some (mkJump ((t : Int) - pc) (p + ex))
    | none => True
  | ins => F[pc]? = some ins

/-- The code block `code` is placed in `F` from `pc` on. -/
def Fits (F : List Instr) (env : List EItem) : Nat → List Instr → Prop
  | _, [] => True
  | pc, i :: is => Fit1 F env pc i ∧ Fits F env (pc + 1) is

theorem fits_append {env : List EItem} (pc : Nat) (a b : List Instr) :
    Fits F env pc (a ++ b) ↔ Fits F env pc a ∧ Fits F env (pc + a.length) b := by
  induction a generalizing pc with
  | nil => simp [Fits]
  | cons i is ih =>
    simp only [List.cons_append, Fits, ih, List.length_cons, and_assoc]
    rw [show pc + 1 + is.length = pc + (is.length + 1) by omega]

theorem fits_iff {env : List EItem} (pc : Nat) (a : List Instr) :
    Fits F env pc a ↔ ∀ i (h : i < a.length), Fit1 F env (pc + i) a[i] := by
  induction a generalizing pc with
  | nil => simp [Fits]
  | cons x xs ih =>
    simp only [Fits, ih]
    constructor
    · rintro ⟨h1, h2⟩ i hi
      cases i with
      | zero => simpa using h1
      | succ i =>
        have := h2 i (by simpa using hi)
        simpa [Nat.add_assoc, Nat.add_comm 1] using this
    · intro h
      refine ⟨h 0 (by simp), fun i hi => ?_⟩
      have := h (i + 1) (by simpa using hi)
      simpa [Nat.add_assoc, Nat.add_comm 1] using this

/-- Placing the rewritten body of a loop or switch is placing the body in the extended
environment: `code_reserved_replace` is correct. -/
theorem fits_replace {env : List EItem} {pc : Nat} {code : List Instr} {stepLen : Nat} {bo : Bool}
    {label : Option String} {pops : Nat}
    (h : Fits F env pc (replace code stepLen bo label pops)) :
    Fits F (.loop label pops bo (pc + code.length + stepLen) (pc + code.length) :: env) pc code := by
  rw [fits_iff] at h ⊢
  intro i hi
  have := h i (by simpa [replace] using hi)
  simp only [replace, List.getElem_mapIdx] at this
  generalize code[i] = ins at this
  cases ins
  case reserved ty l p =>
    simp only [replace1] at this
    simp only [Fit1, lookupJ]
    by_cases hl : l.isSome ∧ l ≠ label
    · rw [if_pos hl] at this ⊢
      simp only [Fit1] at this
      cases hlk : lookupJ env ty l with
      | none => simp
      | some x =>
        obtain ⟨t, ex⟩ := x
        rw [hlk] at this
        simp only [Option.map_some] at this ⊢
        rw [this]
        congr 2
        omega
    · rw [if_neg hl] at this ⊢
      cases ty with
      | brk =>
        simp only at this ⊢
        have h2 : ∀ n off, Fit1 F env (pc + i) (mkJump off n) → F[pc + i]? = some (mkJump off n) := by
          intro n off
          unfold mkJump
          split <;> exact id
        rw [h2 _ _ this]
        congr 2
        push_cast
        omega
      | cont =>
        cases bo with
        | false =>
          simp only [Bool.false_eq_true, if_false] at this ⊢
          have h2 : ∀ n off, Fit1 F env (pc + i) (mkJump off n) → F[pc + i]? = some (mkJump off n) := by
            intro n off
            unfold mkJump
            split <;> exact id
          rw [h2 _ _ this]
          congr 2
          push_cast
          omega
        | true =>
          simp only [if_true] at this ⊢
          simp only [Fit1] at this
          cases hlk : lookupJ env .cont l with
          | none => simp
          | some x =>
            obtain ⟨t, ex⟩ := x
            rw [hlk] at this
            simp only [Option.map_some] at this ⊢
            rw [this]
            congr 2
            omega
  all_goals simpa [replace1, Fit1] using this

theorem fits_fin {env : List EItem} (pc : Nat) (a : List Instr) :
    Fits F (.fin :: env) pc a ↔ Fits F env pc a := by
  induction a generalizing pc with
  | nil => simp [Fits]
  | cons i is ih =>
    simp only [Fits, ih]
    have : Fit1 F (.fin :: env) pc i ↔ Fit1 F env pc i := by
      cases i <;> simp [Fit1, lookupJ]
    rw [this]

theorem replace_length (code : List Instr) (a : Nat) (b : Bool) (l : Option String) (p : Nat) :
    (replace code a b l p).length = code.length := by simp [replace]

/-! ### Straight-line operations -/

/-- The code region `[lo, hi)` lies inside the innermost active try statement. -/
def Inside (tl : List (Try P.Sc)) (lo hi : Nat) : Prop :=
  ∀ t ∈ tl.head?, t.tstart < lo ∧ hi ≤ t.fend

theorem Inside.mono {tl : List (Try P.Sc)} {lo hi lo' hi' : Nat} (h : Inside tl lo hi) (h1 : lo ≤ lo')
    (h2 : hi' ≤ hi) : Inside tl lo' hi' := by
  intro t ht
  have := h t ht
  omega

/-- A jump whose target is inside the innermost try is taken directly. -/
theorem doJmp_inside {tl : List (Try P.Sc)} {lo hi ip t : Nat} {stk : List P.SV} {st : P.State}
    {sc : P.Sc} (h : Inside tl lo hi) (h1 : lo ≤ t) (h2 : t ≤ hi) :
    doJmp P ip t tl stk st sc = .inl ⟨t, stk, tl, st, sc⟩ := by
  cases tl with
  | nil => rfl
  | cons a tl =>
    have := h a (by simp)
    simp only [doJmp]
    rw [if_pos (by omega)]

/-- Context of a piece of straight-line code: the active try list, the scope, the region and the
stack below it. -/
structure Ctx (P : Prim) where
  tl : List (Try P.Sc)
  sc : P.Sc
  lo : Nat
  hi : Nat
  base : List P.SV

/-- Running from `pc` with stack `stk` performs the operation `m`: on success the machine is at
`pc'` with stack `post a`, on failure it is about to unwind from an instruction of the region that
is not a `THROW`, with the context's stack still in place. -/
def Spec (F : List Instr) (d0 : Nat) (X : Ctx P) (pc : Nat) (stk : List P.SV) {α : Type} (m : P.M α)
    (pc' : Nat) (post : α → List P.SV) : Prop :=
  ∀ st, match m st with
    | (some a, st') => To P F d0 ⟨pc, stk, X.tl, st, X.sc⟩ (.inl ⟨pc', post a, X.tl, st', X.sc⟩)
    | (none, st') => ∃ ip junk, X.lo ≤ ip ∧ ip < X.hi ∧ F[ip]? ≠ some .throw ∧
        To P F d0 ⟨pc, stk, X.tl, st, X.sc⟩ (doThrow P F d0 ip X.tl (junk ++ X.base) st' X.sc)

theorem Spec.bind {X : Ctx P} {pc pc1 pc2 : Nat} {stk : List P.SV} {α β : Type} {m : P.M α}
    {k : α → P.M β} {f : α → List P.SV} {g : β → List P.SV}
    (h1 : Spec F d0 X pc stk m pc1 f)
    (h2 : ∀ a, (∃ s s', m s = (some a, s')) → Spec F d0 X pc1 (f a) (k a) pc2 g) :
    Spec F d0 X pc stk (bindM m k) pc2 g := by
  intro st
  have h1 := h1 st
  simp only [bindM]
  cases hm : m st with
  | mk r st1 =>
    rw [hm] at h1
    cases r with
    | none => exact h1
    | some a =>
      have h2 := h2 a ⟨_, _, hm⟩ st1
      simp only at h1 ⊢
      split at h2
      · next b st2 hk =>
        exact h1.trans h2
      · next st2 hk =>
        obtain ⟨ip, junk, a1, a2, a3, a4⟩ := h2
        exact ⟨ip, junk, a1, a2, a3, h1.trans a4⟩

theorem Spec.pure {X : Ctx P} {pc : Nat} {stk : List P.SV} {α : Type} {a : α}
    {f : α → List P.SV} (h : f a = stk) : Spec F d0 X pc stk (pureM a) pc f := by
  intro st
  simp only [pureM, h]
  exact To.refl _

/-- Change of the result. -/
theorem Spec.map {X : Ctx P} {pc pc' : Nat} {stk : List P.SV} {α β : Type} {m : P.M α}
    {f : α → List P.SV} {g : β → List P.SV} (u : α → β)
    (h1 : Spec F d0 X pc stk m pc' f) (h : ∀ a, g (u a) = f a) :
    Spec F d0 X pc stk (bindM m fun a => pureM (u a)) pc' g :=
  h1.bind fun a _ => Spec.pure (h a)

/-- A single instruction that performs `m`. -/
theorem Spec.instr {X : Ctx P} {pc : Nat} {stk : List P.SV} {α : Type} {m : P.M α}
    {post : α → List P.SV} (ins : Instr) (hF : F[pc]? = some ins) (hne : ins ≠ .throw)
    (hlo : X.lo ≤ pc) (hhi : pc < X.hi) (hb : X.base <:+ stk)
    (h : ∀ st, exec P ⟨pc, stk, X.tl, st, X.sc⟩ ins = match m st with
      | (some a, s) => .go ⟨pc + 1, post a, X.tl, s, X.sc⟩
      | (none, s) => .raise ⟨pc, stk, X.tl, s, X.sc⟩) :
    Spec F d0 X pc stk m (pc + 1) post := by
  intro st
  have h := h st
  cases hm : m st with
  | mk r s =>
    rw [hm] at h
    have hs : Vm.step P F d0 ⟨pc, stk, X.tl, st, X.sc⟩
        = finish P F d0 (exec P ⟨pc, stk, X.tl, st, X.sc⟩ ins) := by
      simp only [Vm.step, hF]
    cases r with
    | some a =>
      simp only at h ⊢
      refine To.step ?_
      rw [hs, h]
      rfl
    | none =>
      simp only at h ⊢
      obtain ⟨j, hj⟩ := hb
      refine ⟨pc, j, hlo, hhi, by rw [hF]; simpa using hne, To.step ?_⟩
      rw [hs, h, hj]
      rfl

end Verif.Vm
