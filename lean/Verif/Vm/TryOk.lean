import Verif.Vm.StmtOk

/-!
Correctness of the code generated for `try` and `switch`.
-/

namespace Verif.Vm

variable {P : Prim} {F : List Instr} {d0 : Nat}

/-- How the try and catch blocks complete, leaving out the finally block. -/
def tryPart (P : Prim) (n : Nat) (b : Stmt) (x : Option String) (c : Stmt) (d : Nat) (sc : P.Sc)
    (s : P.State) : Option (Out P.V × P.State) :=
  match evalS P n b (d + 1) sc s with
  | none => none
  | some (.thr _, s1) =>
    match x with
    | none => some (.thr false, s1)
    | some x =>
      match P.catchScope x (takeExc P s1).1 sc (takeExc P s1).2 with
      | (none, s2) => some (.thr false, s2)
      | (some sc', s2) =>
        match evalS P n c (d + 1) sc' s2 with
        | none => none
        | some (.thr byThrow, s3) =>
          if byThrow = true ∧ d + 1 = 1 then some (.abort, s3) else some (.thr byThrow, s3)
        | some (o, s3) => some (o, s3)
  | some (o, s1) => some (o, s1)

theorem evalS_try (n : Nat) (b : Stmt) (x : Option String) (c : Stmt) (hasF : Bool) (f : Stmt)
    (d : Nat) (sc : P.Sc) (s : P.State) :
    evalS P n (.tryS b x c hasF f) d sc s =
      match tryPart P n b x c d sc s with
      | none => none
      | some (o, s1) => leaveE hasF (evalS P n f (d + 1) sc) o s1 := by
  rw [evalS, tryPart]
  rcases evalS P n b (d + 1) sc s with _ | ⟨o, s1⟩
  · rfl
  cases o with
  | thr b =>
    cases x with
    | none => rfl
    | some x =>
      simp only
      rcases P.catchScope x (takeExc P s1).1 sc (takeExc P s1).2 with ⟨_ | sc', s2⟩
      · rfl
      simp only
      rcases evalS P n c (d + 1) sc' s2 with _ | ⟨o2, s3⟩
      · rfl
      cases o2 with
      | thr bt =>
        simp only
        by_cases h : bt = true ∧ d + 1 = 1
        · rw [if_pos h, if_pos h]; rfl
        · rw [if_neg h, if_neg h]; rfl
      | _ => rfl
  | _ => rfl

section
variable {env : List EItem} {tl : List (Try P.Sc)} {sc : P.Sc} {stk : List P.SV}
  {lo hi n : Nat}

/-- What the machine has recorded about the completion that is pending while the finally block
runs. -/
def Pend (env : List EItem) (hasF : Bool) (stk : List P.SV) : Out P.V → LastOp → List P.SV → Prop
  | .normal, lo, stk' => lo = .noop ∧ stk' = stk
  | .thr _, lo, stk' => lo = .throw ∧ stk' = stk
  | .brk l, lo, stk' => ∃ t ex, lo = .jmp t ∧ lookupJ env .brk l = some (t, ex) ∧
      okJ (erase env) .brk l = true ∧ stk' = stk.drop ex ∧ (hasF = true → ex = 0)
  | .cont l, lo, stk' => ∃ t ex, lo = .jmp t ∧ lookupJ env .cont l = some (t, ex) ∧
      okJ (erase env) .cont l = true ∧ stk' = stk.drop ex ∧ (hasF = true → ex = 0)
  | _, _, _ => False

theorem Pend.stk_eq {hasF : Bool} {stk' : List P.SV} {o : Out P.V} {l : LastOp}
    (h : Pend env hasF stk o l stk') (hf : hasF = true) : stk' = stk := by
  cases o with
  | normal => exact h.2
  | thr b => exact h.2
  | brk l => obtain ⟨t, ex, _, _, _, h1, h2⟩ := h; rw [h1, h2 hf]; rfl
  | cont l => obtain ⟨t, ex, _, _, _, h1, h2⟩ := h; rw [h1, h2 hf]; rfl
  | ret v => exact h.elim
  | abort => exact h.elim

theorem setSp_junk (junk stk : List P.SV) : setSp P stk.length (junk ++ stk) = stk := by
  simp [setSp]

theorem fits_at {env : List EItem} {a b : Nat} {code : List Instr} (h : a = b)
    (hf : Fits F env a code) : Fits F env b code := h ▸ hf

/-- `EFINAL`. -/
theorem efinal_ok {hasF : Bool} {stk' : List P.SV} {o : Out P.V} {t : Try P.Sc} {st : P.State}
    {fend : Nat} (h : Pend env hasF stk o t.last stk')
    (hF : F[fend]? = some .efinal) (h1 : lo ≤ fend) (h2 : fend < hi) :
    Good P F d0 env tl sc stk stk lo hi (fend + 1) n ⟨fend, stk', t :: tl, st, sc⟩
      (some (afterFin o .normal, st)) := by
  have hs : step P F d0 ⟨fend, stk', t :: tl, st, sc⟩
      = finish P F d0 (exec P ⟨fend, stk', t :: tl, st, sc⟩ .efinal) := by
    simp only [step, hF]
  cases o with
  | normal =>
    obtain ⟨hl, rfl⟩ := h
    refine To.step ?_
    rw [hs]
    simp only [exec, hl, finish]
  | thr b =>
    obtain ⟨hl, rfl⟩ := h
    refine ⟨fend, [], h1, h2, by rw [hF]; simp, To.step ?_⟩
    rw [hs]
    simp only [exec, hl, finish, List.nil_append]
  | brk l =>
    obtain ⟨t, ex, hl, b1, b2, rfl, b4⟩ := h
    refine ⟨fend, t, ex, h1, h2, b1, b2, To.step ?_⟩
    rw [hs]
    simp only [exec, hl, finish]
  | cont l =>
    obtain ⟨t, ex, hl, b1, b2, rfl, b4⟩ := h
    refine ⟨fend, t, ex, h1, h2, b1, b2, To.step ?_⟩
    rw [hs]
    simp only [exec, hl, finish]
  | ret v => exact h.elim
  | abort => exact h.elim

/-- The finally part from `SFINAL` on. -/
theorem fin_ok {hasF : Bool} {f : Stmt} {stk' : List P.SV} {o : Out P.V} {t : Try P.Sc}
    {st : P.State} {sc' : P.Sc}
    (ih : SOk P F d0 n f)
    (ht : t.sc = sc) (htsp : t.tsp = stk.length)
    (o1 : lo ≤ t.tstart) (o1' : t.tstart < t.tend) (o2 : t.tend ≤ t.cend) (o2' : t.cstart ≤ t.cend)
    (o3 : t.cend < t.fstart)
    (o4 : t.fend = t.fstart + 1 + (if hasF then compS f else []).length) (o5 : hi = t.fend + 1)
    (hF : Fits F env t.fstart ([.sfinal] ++ (if hasF then compS f else []) ++ [.efinal]))
    (hok : hasF = true → okS (erase env) f = true)
    (hT : TOk env hi)
    (h : Pend env hasF stk o t.last stk') :
    Good P F d0 env tl sc stk stk lo hi hi n ⟨t.fstart, stk', t :: tl, st, sc'⟩
      (finE hasF (evalS P n f (d0 + tl.length + 1) sc) o st) := by
  simp only [fits_append, List.length_append, List.length_cons, List.length_nil, Nat.zero_add,
    ← Nat.add_assoc] at hF
  obtain ⟨⟨f1, f2⟩, f3⟩ := hF
  have hsf : step P F d0 ⟨t.fstart, stk', t :: tl, st, sc'⟩
      = .inl ⟨t.fstart + 1, stk', t :: tl, st, sc⟩ := by
    simp only [step, show F[t.fstart]? = some .sfinal from f1.1, exec, finish, ht]
  refine Good.pre (To.step hsf) ?_
  have hend : F[t.fend]? = some .efinal := by
    rw [o4, show t.fstart + 1 + _ = t.fstart + (1 + (if hasF then compS f else []).length) by omega]
    exact fits1 (by simpa [Nat.add_assoc] using f3) (by simp)
  have heo : ∀ st, Good P F d0 env tl sc stk stk lo hi hi n ⟨t.fend, stk', t :: tl, st, sc⟩
      (some (afterFin o .normal, st)) := by
    intro st
    subst o5
    exact efinal_ok h hend (by omega) (by omega)
  cases hasF with
  | false =>
    simp only [finE, Bool.false_eq_true, if_false, List.length_nil, Nat.add_zero] at o4 ⊢
    rw [← o4]
    exact heo st
  | true =>
    simp only [if_true, forall_const] at o4 f2 hok
    have hstk := Pend.stk_eq h rfl
    subst hstk
    have hin : Inside (t :: tl) (t.fstart + 1) (t.fstart + 1 + (compS f).length) := by
      intro a ha
      simp only [List.head?_cons, Option.mem_def, Option.some.injEq] at ha
      subst ha
      omega
    have hg := ih env (t :: tl) sc st (t.fstart + 1) stk' f2 hok hin (hT.mono (by omega))
    simp only [List.length_cons, ← Nat.add_assoc] at hg
    simp only [finE, if_true]
    generalize evalS P n f (d0 + tl.length + 1) sc st = r at hg
    rw [← o4] at hg
    rcases r with _ | ⟨o', s'⟩
    · exact hg
    · have hgo : ∀ ty l s, JumpOut P F d0 env (t :: tl) sc stk' (t.fstart + 1) t.fend
          ⟨t.fstart + 1, stk', t :: tl, st, sc⟩ ty l s →
          JumpOut P F d0 env tl sc stk' lo hi ⟨t.fstart + 1, stk', t :: tl, st, sc⟩ ty l s := by
        rintro ty l s ⟨ip, tt, ex, a1, a2, a3, a5, a4⟩
        refine ⟨ip, tt, ex, by omega, by omega, a3, a5, ?_⟩
        have := hT _ _ _ _ a3
        simp only [doJmp] at a4
        rw [if_neg (by omega), if_neg (by omega), if_pos (by omega)] at a4
        exact a4
      cases o' with
      | normal => exact Good.pre hg (heo s')
      | thr b =>
        obtain ⟨ip, j, a1, a2, a3, a4⟩ := hg
        refine ⟨ip, [], by omega, by omega, a3, ?_⟩
        simp only [doThrow, htsp, setSp_junk] at a4
        rw [if_neg (by omega), if_neg (by omega), if_pos (by omega)] at a4
        exact a4
      | brk l => exact hgo _ _ _ hg
      | cont l => exact hgo _ _ _ hg
      | ret v => exact hg
      | abort => exact hg

/-- The try list entry that `STRY` pushes for a try statement placed at `pc`, with code lengths
`lb`, `lc`, `lf` of the three blocks. -/
def tryEntry (pc lb lc lf : Nat) (tsp : Nat) (sc : P.Sc) : Try P.Sc :=
  ⟨pc, pc + (lb + 1), pc + (lb + 1) + 1, pc + (lb + 1) + (1 + lc + 1),
    pc + (lb + 1) + (1 + lc + 1) + 1, pc + (lb + 1) + (1 + lc + 1) + (1 + lf + 1), tsp, sc, .noop⟩

/-- The entry of the try statement `tryS b x c hasF f`. -/
def entryOf (b : Stmt) (x : Option String) (c : Stmt) (hasF : Bool) (f : Stmt) (pc tsp : Nat)
    (sc : P.Sc) : Try P.Sc :=
  tryEntry pc (compS b).length (if x.isSome then compS c else []).length
    (if hasF then compS f else []).length tsp sc

/-- What the machine does up to the finally part. -/
def Reach (P : Prim) (F : List Instr) (d0 : Nat) (env : List EItem) (hasF : Bool)
    (tl : List (Try P.Sc)) (stk : List P.SV) (t0 : Try P.Sc) (n : Nat) (c : Cfg P) :
    Option (Out P.V × P.State) → Prop
  | none => Long P F d0 n c
  | some (.ret v, s1) => To P F d0 c (.inr (.ret v s1))
  | some (.abort, s1) => To P F d0 c (.inr (.error s1))
  | some (o, s1) => ∃ lo' stk' sc', Pend env hasF stk o lo' stk' ∧
      To P F d0 c (.inl ⟨t0.fstart, stk', { t0 with last := lo' } :: tl, s1, sc'⟩)

theorem Reach.pre {hasF : Bool} {t0 : Try P.Sc} {c c1 : Cfg P} {r} (h1 : To P F d0 c (.inl c1))
    (h2 : Reach P F d0 env hasF tl stk t0 n c1 r) : Reach P F d0 env hasF tl stk t0 n c r := by
  rcases r with _ | ⟨o, s⟩
  · exact Long.of_to h1 h2
  · cases o with
    | ret v => exact h1.trans h2
    | abort => exact h1.trans h2
    | normal => obtain ⟨a, b, c, d, e⟩ := h2; exact ⟨a, b, c, d, h1.trans e⟩
    | thr b => obtain ⟨a, b, c, d, e⟩ := h2; exact ⟨a, b, c, d, h1.trans e⟩
    | brk l => obtain ⟨a, b, c, d, e⟩ := h2; exact ⟨a, b, c, d, h1.trans e⟩
    | cont l => obtain ⟨a, b, c, d, e⟩ := h2; exact ⟨a, b, c, d, h1.trans e⟩

/-- The try block alone: when it throws the machine is at the catch part with the operand stack it
had at the start of the try statement. -/
theorem catch_reach {b : Stmt} {x : Option String} {c : Stmt} {hasF : Bool} {f : Stmt}
    (ihb : SOk P F d0 n b) {pc : Nat} {st s1 : P.State} {bb : Bool}
    (hF : Fits F env pc (compS (.tryS b x c hasF f)))
    (hok : okS (erase env) (.tryS b x c hasF f) = true)
    (hT : TOk env (pc + (compS (.tryS b x c hasF f)).length))
    (hth : evalS P n b (d0 + tl.length + 1) sc st = some (.thr bb, s1)) :
    To P F d0 ⟨pc, stk, tl, st, sc⟩
      (.inl ⟨(entryOf b x c hasF f pc stk.length sc).cstart, stk,
        entryOf b x c hasF f pc stk.length sc :: tl, s1, sc⟩) ∧
    F[(entryOf b x c hasF f pc stk.length sc).cstart]? = some (.scatch x) := by
  simp only [compS] at hF hT
  simp only [okS, Bool.and_eq_true, Bool.or_eq_true, Bool.not_eq_true'] at hok
  obtain ⟨⟨ok1, ok2⟩, ok3⟩ := hok
  unfold entryOf
  generalize hcc : (if x.isSome then compS c else []) = cc at *
  generalize hff : (if hasF then compS f else []) = ff at *
  simp only [fits_append, List.length_append, List.length_cons, List.length_nil, Nat.zero_add,
    ← Nat.add_assoc] at hF hT ⊢
  obtain ⟨⟨⟨f1, f2, f3⟩, ⟨f4, f5⟩, f6⟩, ⟨f7, f8⟩, f9⟩ := hF
  generalize ht0 : (tryEntry pc (compS b).length cc.length ff.length stk.length sc : Try P.Sc) = t0
  have hstart : step P F d0 ⟨pc, stk, tl, st, sc⟩ = .inl ⟨pc + 1, stk, t0 :: tl, st, sc⟩ := by
    simp only [step, fits1 f1 (by simp), exec, finish, ← ht0, tryEntry]
  generalize hhi : pc + 1 + (compS b).length + 1 + 1 + cc.length + 1 + 1 + ff.length + 1 = hi at *
  have henv : ∃ env', env' = (if hasF then .fin :: env else env) := ⟨_, rfl⟩
  obtain ⟨env', henv⟩ := henv
  have herase : erase env' = (if hasF then .fin :: erase env else erase env) := by
    rw [henv]; cases hasF <;> rfl
  have hfits : ∀ pc code, Fits F env pc code → Fits F env' pc code := by
    intro pc code h
    rw [henv]
    cases hasF with
    | false => exact h
    | true => exact (fits_fin pc code).2 h
  have hT' : TOk env' hi := by
    rw [henv]; cases hasF
    · exact hT
    · exact hT.fin
  have hb := ihb env' (t0 :: tl) sc st (pc + 1) stk (hfits _ _ f2)
    (by rw [herase]; exact ok1)
    (by intro a ha
        simp only [List.head?_cons, Option.mem_def, Option.some.injEq] at ha
        subst ha; simp only [← ht0, tryEntry]; omega)
    (hT'.mono (by omega))
  simp only [List.length_cons, ← Nat.add_assoc] at hb
  rw [hth] at hb
  obtain ⟨ip, j, a1, a2, a3, a4⟩ := hb
  have hto : To P F d0 ⟨pc + 1, stk, t0 :: tl, st, sc⟩
      (.inl ⟨t0.cstart, stk, t0 :: tl, s1, sc⟩) := by
    have hsp : setSp P t0.tsp (j ++ stk) = stk := by rw [← ht0]; exact setSp_junk j stk
    simp only [doThrow, hsp] at a4
    rw [if_pos (by simp only [← ht0, tryEntry]; omega)] at a4
    exact a4
  refine ⟨(To.step hstart).trans hto, ?_⟩
  have hcs : t0.cstart = pc + 1 + (compS b).length + 1 := by simp only [← ht0, tryEntry]; omega
  rw [hcs]
  exact fits1 f4 (by simp)

/-- From the start of a try statement to its finally part. -/
theorem try_reach {b : Stmt} {x : Option String} {c : Stmt} {hasF : Bool} {f : Stmt}
    (ihb : SOk P F d0 n b) (ihc : SOk P F d0 n c) {pc : Nat} {st : P.State}
    (hF : Fits F env pc (compS (.tryS b x c hasF f)))
    (hok : okS (erase env) (.tryS b x c hasF f) = true)
    (hT : TOk env (pc + (compS (.tryS b x c hasF f)).length)) :
    Reach P F d0 env hasF tl stk (entryOf b x c hasF f pc stk.length sc) n ⟨pc, stk, tl, st, sc⟩
      (tryPart P n b x c (d0 + tl.length) sc st) := by
  rw [tryPart]
  simp only [compS] at hF hT
  simp only [okS, Bool.and_eq_true, Bool.or_eq_true, Bool.not_eq_true'] at hok
  obtain ⟨⟨ok1, ok2⟩, ok3⟩ := hok
  unfold entryOf
  generalize hcc : (if x.isSome then compS c else []) = cc at *
  generalize hff : (if hasF then compS f else []) = ff at *
  simp only [fits_append, List.length_append, List.length_cons, List.length_nil, Nat.zero_add,
    ← Nat.add_assoc] at hF hT
  obtain ⟨⟨⟨f1, f2, f3⟩, ⟨f4, f5⟩, f6⟩, ⟨f7, f8⟩, f9⟩ := hF
  generalize hhi : pc + 1 + (compS b).length + 1 + 1 + cc.length + 1 + 1 + ff.length + 1 = hi at *
  generalize ht0 : (tryEntry pc (compS b).length cc.length ff.length stk.length sc : Try P.Sc) = t0
    at *
  have hstart : step P F d0 ⟨pc, stk, tl, st, sc⟩ = .inl ⟨pc + 1, stk, t0 :: tl, st, sc⟩ := by
    simp only [step, fits1 f1 (by simp), exec, finish, ← ht0, tryEntry]
  refine Reach.pre (To.step hstart) ?_
  have hl0 : pc + 1 + (compS b).length + 1 = t0.cstart := by simp only [← ht0, tryEntry]; omega
  have hfin : ∀ (lo' : LastOp) (o : Out P.V) (stk' : List P.SV) (st : P.State) (sc' : P.Sc)
      (c0 : Cfg P), Pend env hasF stk o lo' stk' →
      To P F d0 c0 (.inl ⟨t0.fstart, stk', { t0 with last := lo' } :: tl, st, sc'⟩) →
      Reach P F d0 env hasF tl stk t0 n c0 (some (o, st)) := by
    intro lo' o stk' st sc' c0 hp ht
    cases o with
    | ret v => exact hp.elim
    | abort => exact hp.elim
    | _ => exact ⟨lo', stk', sc', hp, ht⟩
  -- the environment of the try and catch blocks
  have henv : ∃ env', env' = (if hasF then .fin :: env else env) := ⟨_, rfl⟩
  obtain ⟨env', henv⟩ := henv
  have herase : erase env' = (if hasF then .fin :: erase env else erase env) := by
    rw [henv]; cases hasF <;> rfl
  have hfits : ∀ pc code, Fits F env pc code → Fits F env' pc code := by
    intro pc code h
    rw [henv]
    cases hasF with
    | false => exact h
    | true => exact (fits_fin pc code).2 h
  have hT' : TOk env' hi := by
    rw [henv]; cases hasF
    · exact hT
    · exact hT.fin
  have hlook : ∀ ty l, lookupJ env' ty l = lookupJ env ty l := by
    intro ty l; rw [henv]; cases hasF <;> rfl
  -- a jump out of the try or catch block
  have hjump : ∀ (c0 : Cfg P) (sc' : P.Sc) (lo1 hi1 : Nat) (ty : Res) (l : Option String)
      (s1 : P.State), pc ≤ lo1 → hi1 ≤ t0.cend →
      JumpOut P F d0 env' (t0 :: tl) sc' stk lo1 hi1 c0 ty l s1 →
      ∃ t ex, lookupJ env ty l = some (t, ex) ∧ okJ (erase env) ty l = true ∧
        (hasF = true → ex = 0) ∧
        To P F d0 c0 (.inl ⟨t0.fstart, stk.drop ex, { t0 with last := .jmp t } :: tl, s1, sc'⟩) := by
    rintro c0 sc' lo1 hi1 ty l s1 h1 h2 ⟨ip, tt, ex, a1, a2, a3, a5, a4⟩
    have htt := hT' _ _ _ _ a3
    rw [hlook] at a3
    rw [herase] at a5
    refine ⟨tt, ex, a3, ?_, ?_, ?_⟩
    · cases hasF with
      | false => exact a5
      | true => simp only [if_true, okJ, Bool.and_eq_true] at a5; exact a5.1
    · intro hh
      rw [hh] at a5
      simp only [if_true, okJ, Bool.and_eq_true, beq_iff_eq] at a5
      have := a5.2
      rw [resolve_erase, a3] at this
      simpa using this
    · simp only [doJmp] at a4
      rw [if_neg (by simp only [← ht0, tryEntry]; omega), if_pos (by simp only [← ht0, tryEntry] at h2 ⊢; omega)] at a4
      exact a4
  -- leaving
  have hleave : ∀ (c0 : Cfg P) (sc' : P.Sc) (lo1 hi1 pc1 : Nat) (r : Out P.V) (s1 : P.State),
      pc ≤ lo1 → hi1 ≤ t0.cend → (∀ b, r ≠ .thr b) →
      F[pc1]? = some .etry ∨ F[pc1]? = some .ecatch →
      Good P F d0 env' (t0 :: tl) sc' stk stk lo1 hi1 pc1 n c0 (some (r, s1)) →
      Reach P F d0 env hasF tl stk t0 n c0 (some (r, s1)) := by
    intro c0 sc' lo1 hi1 pc1 r s1 h1 h2 h3 h4 hg
    cases r with
    | thr b => exact absurd rfl (h3 b)
    | ret v => exact hg
    | abort => exact hg
    | normal =>
      have hs : step P F d0 ⟨pc1, stk, t0 :: tl, s1, sc'⟩
          = .inl ⟨t0.fstart, stk, t0 :: tl, s1, sc'⟩ := by
        rcases h4 with h4 | h4 <;> simp only [step, h4, exec, finish]
      refine hfin .noop .normal stk s1 sc' _ ⟨rfl, rfl⟩ ?_
      have hl : t0 = { t0 with last := .noop } := by rw [← ht0]; rfl
      rw [← hl]
      exact To.trans hg (To.step hs)
    | brk l =>
      obtain ⟨t, ex, b1, b2, b3, b4⟩ := hjump c0 sc' lo1 hi1 .brk l s1 h1 h2 hg
      exact hfin (.jmp t) (.brk l) _ s1 sc' _ ⟨t, ex, rfl, b1, b2, rfl, b3⟩ b4
    | cont l =>
      obtain ⟨t, ex, b1, b2, b3, b4⟩ := hjump c0 sc' lo1 hi1 .cont l s1 h1 h2 hg
      exact hfin (.jmp t) (.cont l) _ s1 sc' _ ⟨t, ex, rfl, b1, b2, rfl, b3⟩ b4
  -- an exception inside the catch part
  have hthrow : ∀ (ip : Nat) (j : List P.SV) (s1 : P.State) (sc' : P.Sc),
      t0.cstart ≤ ip → ip < t0.cend → ¬ (F[ip]? = some .throw ∧ d0 + (tl.length + 1) = 1) →
      doThrow P F d0 ip (t0 :: tl) (j ++ stk) s1 sc'
        = .inl ⟨t0.fstart, stk, { t0 with last := .throw } :: tl, s1, sc'⟩ := by
    intro ip j s1 sc' h1 h2 h3
    have hsp : setSp P t0.tsp (j ++ stk) = stk := by rw [← ht0]; exact setSp_junk j stk
    simp only [doThrow, hsp]
    rw [if_neg (by simp only [← ht0, tryEntry] at h1 ⊢; omega), if_pos ⟨h1, h2⟩, if_neg h3]
  -- the try block
  have hb := ihb env' (t0 :: tl) sc st (pc + 1) stk (hfits _ _ f2)
    (by rw [herase]; exact ok1)
    (by intro a ha
        simp only [List.head?_cons, Option.mem_def, Option.some.injEq] at ha
        subst ha; simp only [← ht0, tryEntry]; omega)
    (hT'.mono (by omega))
  simp only [List.length_cons, ← Nat.add_assoc] at hb
  generalize evalS P n b (d0 + tl.length + 1) sc st = r at hb
  rcases r with _ | ⟨o, s1⟩
  · exact hb
  have hetry : F[pc + 1 + (compS b).length]? = some .etry := fits1 f3 (by simp)
  cases o with
  | normal =>
    exact hleave _ sc _ _ _ .normal s1 (by omega) (by simp only [← ht0, tryEntry]; omega) (by simp)
      (Or.inl hetry) hb
  | brk l =>
    exact hleave _ sc _ _ _ (.brk l) s1 (by omega) (by simp only [← ht0, tryEntry]; omega) (by simp)
      (Or.inl hetry) hb
  | cont l =>
    exact hleave _ sc _ _ _ (.cont l) s1 (by omega) (by simp only [← ht0, tryEntry]; omega) (by simp)
      (Or.inl hetry) hb
  | ret v => exact hb
  | abort => exact hb
  | thr bb =>
    simp only
    obtain ⟨ip, j, a1, a2, a3, a4⟩ := hb
    have hto : To P F d0 ⟨pc + 1, stk, t0 :: tl, st, sc⟩
        (.inl ⟨t0.cstart, stk, t0 :: tl, s1, sc⟩) := by
      have hsp : setSp P t0.tsp (j ++ stk) = stk := by rw [← ht0]; exact setSp_junk j stk
      simp only [doThrow, hsp] at a4
      rw [if_pos (by simp only [← ht0, tryEntry]; omega)] at a4
      exact a4
    refine Reach.pre hto ?_
    have hcs : t0.cstart = pc + 1 + (compS b).length + 1 := by simp only [← ht0, tryEntry]; omega
    have hsc : F[t0.cstart]? = some (.scatch x) := by
      rw [hcs]; exact fits1 f4 (by simp)
    have hne : ¬ (F[t0.cstart]? = some .throw ∧ d0 + (tl.length + 1) = 1) := by
      rw [hsc]; simp
    cases x with
    | none =>
      simp only
      have hs : step P F d0 ⟨t0.cstart, stk, t0 :: tl, s1, sc⟩
          = .inl ⟨t0.fstart, stk, { t0 with last := .throw } :: tl, s1, sc⟩ := by
        simp only [step, hsc, exec, finish]
        exact hthrow _ [] _ _ (by omega) (by simp only [← ht0, tryEntry]; omega) hne
      exact hfin .throw (.thr false) stk s1 sc _ ⟨rfl, rfl⟩ (To.step hs)
    | some x =>
      simp only
      cases hm : P.catchScope x (takeExc P s1).1 sc (takeExc P s1).2 with
      | mk r2 s2 =>
        have htake : (if P.isUndef s1.last then (s1.msg.getD P.emptyMsg, { s1 with msg := none })
            else (s1.last, { s1 with last := P.undef }) : P.V × P.State) = takeExc P s1 := rfl
        cases r2 with
        | none =>
          have hs : step P F d0 ⟨t0.cstart, stk, t0 :: tl, s1, sc⟩
              = .inl ⟨t0.fstart, stk, { t0 with last := .throw } :: tl, s2, sc⟩ := by
            simp only [step, hsc, exec, htake, hm, finish]
            exact hthrow _ [] _ _ (by omega) (by simp only [← ht0, tryEntry]; omega) hne
          exact hfin .throw (.thr false) stk s2 sc _ ⟨rfl, rfl⟩ (To.step hs)
        | some sc' =>
          have hs : step P F d0 ⟨t0.cstart, stk, t0 :: tl, s1, sc⟩
              = .inl ⟨t0.cstart + 1, stk, t0 :: tl, s2, sc'⟩ := by
            simp only [step, hsc, exec, htake, hm, finish]
          refine Reach.pre (To.step hs) ?_
          simp only [Option.isSome_some, if_true] at hcc
          subst hcc
          have hok2 : okS (erase env') c = true := by
            rw [herase]; simpa using ok2
          have hc := ihc env' (t0 :: tl) sc' s2 (t0.cstart + 1) stk
            (hfits _ _ (by rw [hcs]; exact f5)) hok2
            (by intro a ha
                simp only [List.head?_cons, Option.mem_def, Option.some.injEq] at ha
                subst ha; simp only [← ht0, tryEntry]; omega)
            (hT'.mono (by simp only [← ht0, tryEntry]; omega))
          simp only [List.length_cons, ← Nat.add_assoc] at hc
          simp only
          generalize evalS P n c (d0 + tl.length + 1) sc' s2 = r3 at hc
          rcases r3 with _ | ⟨o3, s3⟩
          · exact hc
          have hecatch : F[t0.cstart + 1 + (compS c).length]? = some .ecatch := by
            rw [hcs]; exact fits1 f6 (by simp)
          cases o3 with
          | normal =>
            exact hleave _ sc' _ _ _ .normal s3 (by omega) (by simp only [← ht0, tryEntry]; omega) (by simp)
              (Or.inr hecatch) hc
          | brk l =>
            exact hleave _ sc' _ _ _ (.brk l) s3 (by omega) (by simp only [← ht0, tryEntry]; omega) (by simp)
              (Or.inr hecatch) hc
          | cont l =>
            exact hleave _ sc' _ _ _ (.cont l) s3 (by omega) (by simp only [← ht0, tryEntry]; omega) (by simp)
              (Or.inr hecatch) hc
          | ret v => exact hc
          | abort => exact hc
          | thr bt =>
            obtain ⟨ip2, j2, e1, e2, e3, e4⟩ := hc
            simp only
            have hcend : ip2 < t0.cend := by simp only [← ht0, tryEntry] at e2 ⊢; omega
            by_cases hab : bt = true ∧ d0 + tl.length + 1 = 1
            · rw [if_pos hab]
              have hsp : setSp P t0.tsp (j2 ++ stk) = stk := by rw [← ht0]; exact setSp_junk j2 stk
              simp only [doThrow, hsp] at e4
              rw [if_neg (by simp only [← ht0, tryEntry] at e1 ⊢; omega), if_pos ⟨by omega, hcend⟩,
                if_pos ⟨e3.2 hab.1, by omega⟩] at e4
              exact e4
            · rw [if_neg hab]
              rw [hthrow ip2 j2 s3 sc' (by omega) hcend
                (fun h => hab ⟨e3.1 h.1, by omega⟩)] at e4
              exact hfin .throw (.thr bt) stk s3 sc' _ ⟨rfl, rfl⟩ e4


/-- `tryS` from the recursive hypotheses. -/
theorem try_ok {b : Stmt} {x : Option String} {c : Stmt} {hasF : Bool} {f : Stmt}
    (ihb : SOk P F d0 n b) (ihc : SOk P F d0 n c) (ihf : SOk P F d0 n f) :
    SOk P F d0 n (.tryS b x c hasF f) := by
  intro env tl sc st pc stk hF hok hin hT
  rw [evalS_try]
  have hr := try_reach (tl := tl) (stk := stk) (sc := sc) (st := st) ihb ihc hF hok hT
  simp only [compS] at hF hT ⊢
  simp only [okS, Bool.and_eq_true, Bool.or_eq_true, Bool.not_eq_true'] at hok
  obtain ⟨⟨ok1, ok2⟩, ok3⟩ := hok
  unfold entryOf at hr
  generalize hcc : (if x.isSome then compS c else []) = cc at *
  generalize hff : (if hasF then compS f else []) = ff at *
  simp only [fits_append, List.length_append, List.length_cons, List.length_nil, Nat.zero_add,
    ← Nat.add_assoc] at hF hT ⊢
  obtain ⟨⟨⟨f1, f2, f3⟩, ⟨f4, f5⟩, f6⟩, ⟨f7, f8⟩, f9⟩ := hF
  generalize hhi : pc + 1 + (compS b).length + 1 + 1 + cc.length + 1 + 1 + ff.length + 1 = hi at *
  generalize ht0 : (tryEntry pc (compS b).length cc.length ff.length stk.length sc : Try P.Sc) = t0
    at *
  -- the finally part
  have hfin : ∀ (lo' : LastOp) (o : Out P.V) (stk' : List P.SV) (st : P.State) (sc' : P.Sc),
      Pend env hasF stk o lo' stk' →
      Good P F d0 env tl sc stk stk pc hi hi n
        ⟨t0.fstart, stk', { t0 with last := lo' } :: tl, st, sc'⟩
        (finE hasF (evalS P n f (d0 + tl.length + 1) sc) o st) := by
    intro lo' o stk' st sc' hp
    refine fin_ok (t := { t0 with last := lo' }) ihf (by rw [← ht0]; rfl) (by rw [← ht0]; rfl) ?_ ?_ ?_ ?_ ?_ ?_ ?_ ?_ ?_ hT hp
    · rw [← ht0]; exact Nat.le_refl _
    · simp only [← ht0, tryEntry]; omega
    · simp only [← ht0, tryEntry]; omega
    · simp only [← ht0, tryEntry]; omega
    · simp only [← ht0, tryEntry]; omega
    · simp only [← ht0, tryEntry, hff]; omega
    · simp only [← ht0, tryEntry]; omega
    · simp only [← ht0, tryEntry, hff, fits_append, List.length_append, List.length_cons, List.length_nil,
        Nat.zero_add, ← Nat.add_assoc]
      refine ⟨⟨?_, ?_⟩, ?_⟩
      · exact fits_at (by omega) f7
      · exact fits_at (by omega) f8
      · exact fits_at (by omega) f9
    · intro h; rcases ok3 with h3 | h3
      · rw [h] at h3; cases h3
      · exact h3
  generalize tryPart P n b x c (d0 + tl.length) sc st = r at hr
  rcases r with _ | ⟨o, s1⟩
  · exact hr
  cases o with
  | ret v => exact hr
  | abort => exact hr
  | normal => obtain ⟨lo', stk', sc', hp, ht⟩ := hr; exact Good.pre ht (hfin _ _ _ _ _ hp)
  | thr b => obtain ⟨lo', stk', sc', hp, ht⟩ := hr; exact Good.pre ht (hfin _ _ _ _ _ hp)
  | brk l => obtain ⟨lo', stk', sc', hp, ht⟩ := hr; exact Good.pre ht (hfin _ _ _ _ _ hp)
  | cont l => obtain ⟨lo', stk', sc', hp, ht⟩ := hr; exact Good.pre ht (hfin _ _ _ _ _ hp)

end

end Verif.Vm
