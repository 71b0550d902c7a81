import Verif.Vm.TryOk

/-!
Correctness of the code generated for `switch`, and of every statement.
-/

namespace Verif.Vm

variable {P : Prim} {F : List Instr} {d0 : Nat}

theorem dfltOff_eq (cs : Cases) : ∀ off i,
    dfltOff cs off = (dfltIdx cs i).map (fun j => off + offC cs (j - i)) ∧
      ∀ j, dfltIdx cs i = some j → i ≤ j := by
  induction cs using Cases.rec (motive_1 := fun _ => True) with
  | nil => intro off i; simp [dfltOff, dfltIdx]
  | cons t b r _ ih =>
    intro off i
    cases t with
    | none => simp [dfltOff, dfltIdx, offC]
    | some e =>
      obtain ⟨h1, h2⟩ := ih (off + (compS b).length) (i + 1)
      simp only [dfltOff, dfltIdx]
      refine ⟨?_, fun j hj => by have := h2 j hj; omega⟩
      rw [h1]
      cases hd : dfltIdx r (i + 1) with
      | none => rfl
      | some j =>
        have := h2 j hd
        simp only [Option.map_some, Option.some.injEq]
        rw [show j - i = (j - (i + 1)) + 1 by omega, offC]
        omega
  | _ => trivial

/-- The dispatch code of a `switch`. -/
theorem head_ok {env : List EItem} {X : Ctx P} {v : P.V} {stk : List P.SV} {tail : List Instr}
    (hb : X.base <:+ stk) (hin : Inside X.tl X.lo X.hi) (cs : Cases) : ∀ (off i pc : Nat),
    Fits F env pc (headC cs off tail) → X.lo ≤ pc → pc + (headC cs off tail).length ≤ X.hi →
    ∀ st, match selectC P X.sc v cs i st with
      | (some (some j), st') => i ≤ j ∧ To P F d0 ⟨pc, .val v :: stk, X.tl, st, X.sc⟩
          (.inl ⟨pc + (headC cs off tail).length + off + offC cs (j - i), .val v :: stk, X.tl, st',
            X.sc⟩)
      | (some none, st') => To P F d0 ⟨pc, .val v :: stk, X.tl, st, X.sc⟩
          (.inl ⟨pc + (headC cs off tail).length - tail.length, .val v :: stk, X.tl, st', X.sc⟩)
      | (none, st') => ∃ ip junk, X.lo ≤ ip ∧ ip < X.hi ∧ F[ip]? ≠ some .throw ∧
        To P F d0 ⟨pc, .val v :: stk, X.tl, st, X.sc⟩
          (doThrow P F d0 ip X.tl (junk ++ X.base) st' X.sc) := by
  induction cs using Cases.rec (motive_1 := fun _ => True) with
  | nil =>
    intro off i pc hF hlo hhi st
    simp only [selectC, pureM, headC]
    rw [Nat.add_sub_cancel]
    exact To.refl _
  | cons t b r _ ih =>
    intro off i pc hF hlo hhi st
    cases t with
    | none =>
      simp only [headC] at hF hhi ⊢
      have := ih (off + (compS b).length) (i + 1) pc hF hlo hhi st
      simp only [selectC]
      split at this
      · next j st' hm =>
        obtain ⟨h1, h2⟩ := this
        refine ⟨by omega, ?_⟩
        rw [show j - i = (j - (i + 1)) + 1 by omega, offC]
        simpa [Nat.add_assoc] using h2
      · next st' hm => exact this
      · next st' hm => exact this
    | some e =>
      simp only [headC] at hF hhi ⊢
      generalize hrest : headC r (off + (compS b).length) tail = rest at *
      simp only [fits_append, List.length_append, List.length_cons, List.length_nil, Nat.zero_add,
        ← Nat.add_assoc] at hF hhi ⊢
      obtain ⟨⟨⟨⟨h1, h2⟩, h3⟩, h4⟩, h5⟩ := hF
      have htop : Spec F d0 X pc (.val v :: stk) (pureM ()) (pc + 1)
          (fun _ => .val v :: .val v :: stk) :=
        spec_move .pushtop (fits1 h1 (by simp)) (by simp) hlo (by omega) (suffix2 _ hb)
          fun st => rfl
      have hspec : Spec F d0 X pc (.val v :: stk) (bindM (evalE P X.sc e) fun y =>
          bindM (now P y) fun vy => bindM (P.bin .strictEq v vy) fun b => pureM (SVal.val b))
          (pc + 1 + (compE e).length + 1) (fun sv => sv :: .val v :: stk) := by
        refine htop.after ((compE_ok e env X (pc + 1) _ h2 (by omega) (by omega)
          (suffix2 _ (suffix2 _ hb)) hin).bind fun y _ => ?_)
        exact spec_bin .strictEq (.val v) y (fits1 h3 (by simp)) (by omega) (by omega)
          (suffix2 _ hb)
      have hj := fits1 h4 (by simp)
      have hs := hspec st
      have hsel : selectC P X.sc v (.cons (some e) b r) i st =
          match (bindM (evalE P X.sc e) fun y =>
            bindM (now P y) fun vy => bindM (P.bin .strictEq v vy) fun b =>
              pureM (SVal.val (Ref := P.Ref) b)) st with
          | (some sv, s) => if P.truthy (P.deref s.h sv) then (some (some i), s)
              else selectC P X.sc v r (i + 1) s
          | (none, s) => (none, s) := by
        simp only [selectC, bindM, now, pureM]
        rcases evalE P X.sc e st with ⟨_ | y, s1⟩
        · rfl
        simp only
        rcases P.bin .strictEq v (P.deref s1.h y) s1 with ⟨_ | b, s2⟩
        · rfl
        simp only
        have hd : P.deref s2.h (SVal.val b) = b := rfl
        rw [hd]
        by_cases hb : P.truthy b = true
        · rw [if_pos hb, if_pos hb]; rfl
        · rw [if_neg hb, if_neg hb]
      rw [hsel]
      generalize (bindM (evalE P X.sc e) fun y =>
            bindM (now P y) fun vy => bindM (P.bin .strictEq v vy) fun b =>
              pureM (SVal.val (Ref := P.Ref) b)) st = q at hs
      rcases q with ⟨_ | sv, s⟩
      · exact hs
      simp only at hs ⊢
      have hstep : step P F d0 ⟨pc + 1 + (compE e).length + 1, sv :: .val v :: stk, X.tl, s, X.sc⟩
          = .inl ⟨if P.truthy (P.deref s.h sv) then
              pc + 1 + (compE e).length + 1 + 1 + rest.length + off
              else pc + 1 + (compE e).length + 1 + 1, .val v :: stk, X.tl, s, X.sc⟩ := by
        simp only [step, hj, exec, finish]
        rw [tgt_eq (t := pc + 1 + (compE e).length + 1 + 1 + rest.length + off) (by push_cast; omega)]
      by_cases ht : P.truthy (P.deref s.h sv) = true
      · rw [if_pos ht] at hstep ⊢
        refine ⟨Nat.le_refl _, hs.trans (To.step ?_)⟩
        rw [hstep, Nat.sub_self, offC]
        rfl
      · rw [if_neg ht] at hstep ⊢
        have := ih (off + (compS b).length) (i + 1) (pc + 1 + (compE e).length + 1 + 1)
          (hrest ▸ h5) (by omega) (by rw [hrest]; omega) s
        rw [hrest] at this
        have hs2 := hs.trans (To.step hstep)
        split at this
        · next j st' hm =>
          obtain ⟨g1, g2⟩ := this
          refine ⟨by omega, ?_⟩
          rw [show j - i = (j - (i + 1)) + 1 by omega, offC]
          simpa [Nat.add_assoc] using hs2.trans g2
        · next st' hm => exact hs2.trans this
        · next st' hm =>
          obtain ⟨ip, junk, a1, a2, a3, a4⟩ := this
          exact ⟨ip, junk, a1, a2, a3, hs2.trans a4⟩
  | _ => trivial


theorem headC_tail (cs : Cases) : ∀ off tail, ∃ pre, headC cs off tail = pre ++ tail := by
  induction cs using Cases.rec (motive_1 := fun _ => True) with
  | nil => intro off tail; exact ⟨[], rfl⟩
  | cons t b r _ ih =>
    intro off tail
    obtain ⟨pre, h⟩ := ih (off + (compS b).length) tail
    cases t with
    | none => exact ⟨pre, by rw [headC, h]⟩
    | some e => exact ⟨_, by simp only [headC]; rw [h, ← List.append_assoc]⟩
  | _ => trivial

theorem offC_le (cs : Cases) : ∀ i, offC cs i ≤ (compC cs).length := by
  induction cs using Cases.rec (motive_1 := fun _ => True) with
  | nil => intro i; simp [offC]
  | cons t b r _ ih =>
    intro i
    cases i with
    | zero => simp [offC]
    | succ i => have := ih i; simp only [offC, compC, List.length_append]; omega
  | _ => trivial

/-- `switch` from the hypothesis on its clauses. -/
theorem switch_ok {n : Nat} {l : Option String} {e : Expr} {t : Option Expr} {b : Stmt} {r : Cases}
    (ih : COk P F d0 n (.cons t b r)) : SOk P F d0 n (.switch l e (.cons t b r)) := by
  intro env tl sc st pc stk hF hok hin hT
  simp only [compS] at hF hin hT ⊢
  simp only [okS] at hok
  rw [evalS]
  generalize hcs : Cases.cons t b r = cs at *
  generalize htail : (match dfltOff cs 0 with
    | some o => [Instr.jmp (1 + (o : Int) + 1)] | none => []) ++
      [Instr.jmp ((compC cs).length + 1)] = tail at *
  simp only [fits_append, List.length_append, List.length_cons, List.length_nil, Nat.zero_add,
    ← Nat.add_assoc, replace_length] at hF hin hT ⊢
  obtain ⟨⟨⟨⟨h1, h2⟩, h3⟩, h4⟩, h5⟩ := hF
  generalize hph : pc + (compE e).length + 1 = ph at *
  generalize hpa : ph + (headC cs 0 tail).length = pa at *
  generalize hhi : pa + (compC cs).length + 1 = hi at *
  have hpop := fits1 h5 (by simp)
  have h4 := fits_replace h4
  have hin' : Inside tl pc hi := hin
  let X : Ctx P := ctx tl sc stk pc hi
  have hhead := fun v => head_ok (P := P) (v := v) (F := F) (d0 := d0) (env := env) (X := X) (stk := stk)
    (tail := tail) (List.suffix_refl _) hin' cs 0 0 ph h3 (by show pc ≤ ph; omega)
    (by show _ ≤ hi; omega)
  have hsp : Spec F d0 X pc stk (bindM (evalE P sc e) fun x => now P x) ph
      (fun v => .val v :: stk) := by
    refine (compE_ok e env X pc stk h1 (Nat.le_refl _) (by show _ ≤ hi; omega)
      (List.suffix_refl _) hin').bind fun a _ => ?_
    intro s
    simp only [now]
    refine To.step ?_
    rw [← hph]
    simp only [step, fits1 h2 (by simp), exec, finish]
  -- the bodies from clause `i` on
  have hbody : ∀ (v : P.V) (i : Nat) (s : P.State), Good P F d0 env tl sc stk stk pc hi hi n
      ⟨pa + offC cs i, .val v :: stk, tl, s, sc⟩
      (swOut l (evalC P n cs i (d0 + tl.length) sc s)) := by
    intro v i s
    have hg := ih _ tl sc s pa (.val v :: stk) i h4
      (by simpa [erase, erase1] using hok) (hin'.mono (by omega) (by omega))
      (TOk.loop (hT.mono (by omega)) (by omega) (by omega))
    have hp : ∀ s, To P F d0 ⟨pa + (compC cs).length, .val v :: stk, tl, s, sc⟩
        (.inl ⟨hi, stk, tl, s, sc⟩) := by
      intro s
      refine To.step ?_
      rw [pop_to hpop, hhi]
      rfl
    generalize evalC P n cs i (d0 + tl.length) sc s = q at hg
    rcases q with _ | ⟨o, s2⟩
    · exact hg
    · cases o with
      | normal => exact To.trans hg (hp s2)
      | thr bt =>
        obtain ⟨ip, j, a1, a2, a3, a4⟩ := hg
        exact ⟨ip, j ++ [.val v], by omega, by omega, a3, by simpa using a4⟩
      | ret v => exact hg
      | abort => exact hg
      | cont t =>
        exact JumpOut.leave (pre := [SVal.val v]) hg (Or.inr ⟨rfl, rfl⟩) (by omega) (by omega)
      | brk t =>
        cases hh : hits l t with
        | true =>
          simp only [swOut, hh, if_true]
          exact (JumpOut.brk_hit hg hh hin' (by omega) (by omega)).trans (hp s2)
        | false =>
          simp only [swOut, hh]
          exact JumpOut.leave (pre := [SVal.val v]) hg (Or.inl hh) (by omega) (by omega)
  have hdo := (dfltOff_eq cs 0 0).1
  -- the tail
  have htl : ∀ (v : P.V) (s : P.State), To P F d0
      ⟨pa - tail.length, .val v :: stk, tl, s, sc⟩
      (.inl ⟨match dfltIdx cs 0 with
        | some j => pa + offC cs j
        | none => pa + (compC cs).length, .val v :: stk, tl, s, sc⟩) := by
    intro v s
    have hft : Fits F env (pa - tail.length) tail := by
      have : ∃ pre, headC cs 0 tail = pre ++ tail := headC_tail cs 0 tail
      obtain ⟨pre, hpre⟩ := this
      rw [hpre, fits_append] at h3
      rw [hpre, List.length_append] at hpa
      exact fits_at (by omega) h3.2
    have hlen : tail.length ≤ (headC cs 0 tail).length := by
      obtain ⟨pre, hpre⟩ := headC_tail cs 0 tail
      rw [hpre, List.length_append]; omega
    have hle : tail.length ≤ pa := by omega
    have hpl : pc ≤ pa - tail.length := by omega
    clear hpa h3 hhead hlen
    rw [hdo] at htail
    cases hd : dfltIdx cs 0 with
    | none =>
      rw [hd] at htail
      simp only [Option.map_none, List.nil_append] at htail
      subst htail
      refine To.step ?_
      simp only [List.length_cons, List.length_nil] at hle hpl hft ⊢
      exact jmp_to hin' hft.1 (by push_cast; omega) (by omega) (by omega)
    | some j =>
      rw [hd] at htail
      simp only [Option.map_some, Nat.zero_add, Nat.sub_zero] at htail
      subst htail
      have hoff := offC_le cs j
      simp only [List.cons_append, List.nil_append, List.length_cons, List.length_nil] at hle hft hpl ⊢
      refine To.step ?_
      exact jmp_to hin' hft.1 (by push_cast; omega) (by omega) (by omega)
  -- put together
  have hcomb : ∀ (k : Option Nat → P.State → Option (Out P.V × P.State)) s,
      opS P (bindM (evalE P sc e) fun x => bindM (now P x) fun v => selectC P sc v cs 0) k s =
      opS P (bindM (evalE P sc e) fun x => now P x) (fun v s =>
        opS P (selectC P sc v cs 0) k s) s := by
    intro k s
    simp only [opS, bindM, now]
    rcases evalE P sc e s with ⟨_ | x, s1⟩ <;> rfl
  rw [hcomb]
  refine Good.op (X := X) rfl rfl rfl (Nat.le_refl _) (Nat.le_refl _) hsp fun v s _ => ?_
  have hh := hhead v s
  unfold opS
  have hXs : X.sc = sc := rfl
  rw [hXs] at hh
  generalize selectC P sc v cs 0 s = q at hh
  rcases q with ⟨_ | _ | j, s1⟩
  · obtain ⟨ip, j, a1, a2, a3, a4⟩ := hh
    exact ⟨ip, j, a1, a2, by simpa using a3, a4⟩
  · simp only [Option.or] at hh ⊢
    rw [hpa] at hh
    refine Good.pre (hh.trans (htl v s1)) ?_
    cases hd : dfltIdx cs 0 with
    | none =>
      refine To.step ?_
      rw [pop_to hpop, hhi]
      rfl
    | some j => exact hbody v j s1
  · simp only [Option.or] at hh ⊢
    obtain ⟨_, hh⟩ := hh
    rw [hpa, Nat.sub_zero, Nat.add_zero] at hh
    exact Good.pre hh (hbody v j s1)


set_option maxHeartbeats 1000000 in
/-- Every statement. -/
theorem compS_ok (n : Nat) (s : Stmt) : SOk P F d0 n s := by
  induction s using Stmt.rec (motive_2 := COk P F d0 n) with
  | nop =>
    intro env tl sc st pc stk hF hok hin hT
    rw [evalS]
    exact To.step (nop_to hF.1)
  | expr e =>
    intro env tl sc st pc stk hF hok hin hT
    rw [evalS]
    simp only [compS, fits_append, List.length_append, List.length_cons, List.length_nil,
      Nat.zero_add, ← Nat.add_assoc] at hF hin hT ⊢
    refine Good.op (X := ctx tl sc stk pc _) rfl rfl rfl (Nat.le_refl _) (Nat.le_refl _)
      (compE_ok e env _ pc stk hF.1 (Nat.le_refl _) (Nat.le_add_right _ _) (List.suffix_refl _) hin)
      fun a st' _ => ?_
    exact To.step (pop_to (fits1 hF.2 (by simp)))
  | seq a b iha ihb =>
    intro env tl sc st pc stk hF hok hin hT
    rw [evalS]
    simp only [compS, fits_append, List.length_append, ← Nat.add_assoc] at hF hin hT ⊢
    simp only [okS, Bool.and_eq_true] at hok
    refine Good.seq (pc1 := pc + (compS a).length) (nstk1 := stk) ?_ fun s => ?_
    · exact Good.mono (Nat.le_refl _) (by omega) (iha env tl sc st pc stk hF.1 hok.1
        (hin.mono (Nat.le_refl _) (by omega)) (hT.mono (by omega)))
    exact Good.mono (by omega) (Nat.le_refl _) (ihb env tl sc s _ stk hF.2 hok.2
      (hin.mono (by omega) (Nat.le_refl _)) hT)
  | ifThen c a iha =>
    intro env tl sc st pc stk hF hok hin hT
    rw [evalS]
    simp only [compS, fits_append, List.length_append, List.length_cons, List.length_nil,
      Nat.zero_add, ← Nat.add_assoc] at hF hin hT ⊢
    simp only [okS] at hok
    obtain ⟨⟨h1, h2⟩, h3⟩ := hF
    refine Good.test (X := ctx tl sc stk pc _) rfl rfl rfl (Nat.le_refl _) (Nat.le_refl _)
      (test_jfalse h1 (fits1 h2 (by simp)) (Nat.le_refl _)
        (by show _ < pc + (compE c).length + 1 + (compS a).length; omega) hin
        (List.suffix_refl _) (pcF := pc + (compE c).length + 1 + (compS a).length)
        (by push_cast; omega)) (fun s => ?_) (fun s => ?_)
    · simp only [if_true]
      exact Good.mono (by omega) (Nat.le_refl _) (iha env tl sc s _ stk h3 hok
        (hin.mono (by omega) (Nat.le_refl _)) hT)
    · exact To.refl _
  | ifElse c a b iha ihb =>
    intro env tl sc st pc stk hF hok hin hT
    rw [evalS]
    simp only [compS, fits_append, List.length_append, List.length_cons, List.length_nil,
      Nat.zero_add, ← Nat.add_assoc] at hF hin hT ⊢
    simp only [okS, Bool.and_eq_true] at hok
    obtain ⟨⟨⟨h1, h2⟩, h3, h4⟩, h5⟩ := hF
    refine Good.test (X := ctx tl sc stk pc _) rfl rfl rfl (Nat.le_refl _) (Nat.le_refl _)
      (test_jfalse h1 (fits1 h2 (by simp)) (Nat.le_refl _)
        (by show _ < pc + (compE c).length + 1 + (compS a).length + 1 + (compS b).length; omega) hin
        (List.suffix_refl _) (pcF := pc + (compE c).length + 1 + (compS a).length + 1)
        (by push_cast; omega)) (fun s => ?_) (fun s => ?_)
    · simp only [if_true]
      refine Good.post (Good.mono (by omega) (by omega) (iha env tl sc s _ stk h3 hok.1
        (hin.mono (by omega) (by omega)) (hT.mono (by omega)))) fun s => To.step ?_
      exact jmp_to hin (fits1 h4 (by simp)) (by push_cast; omega) (by omega) (by omega)
    · simp only [Bool.false_eq_true, if_false]
      exact Good.mono (by omega) (Nat.le_refl _) (ihb env tl sc s _ stk h5 hok.2
        (hin.mono (by omega) (Nat.le_refl _)) hT)
  | whileS l c b ih =>
    intro env tl sc st pc stk hF hok hin hT
    rw [evalS]
    simp only [compS, fits_append, List.length_append, List.length_cons, List.length_nil,
      Nat.zero_add, ← Nat.add_assoc, replace_length] at hF hin hT ⊢
    simp only [okS] at hok
    obtain ⟨⟨⟨h1, h2⟩, h3⟩, h4⟩ := hF
    have h3 := fits_replace h3
    refine loopW_ok (X := ctx tl sc stk pc _) (lo := pc)
      (hi := pc + (compE c).length + 1 + (compS b).length + 1) (pre := [])
      (pcB := pc + (compE c).length + 1) (ct := pc + (compE c).length + 1 + (compS b).length)
      (blo := pc + (compE c).length + 1) (bhi := pc + (compE c).length + 1 + (compS b).length)
      rfl rfl rfl (Nat.le_refl _) (Nat.le_refl _) hin (by omega) (by omega) (by omega) (by omega)
      (test_jfalse h1 (fits1 h2 (by simp)) (Nat.le_refl _)
        (by show _ < pc + (compE c).length + 1 + (compS b).length + 1; omega) hin
        (List.suffix_refl _) (by push_cast; omega)) (fun s => ?_) (Spec.pure rfl)
      (fun s => jmp_to hin (fits1 h4 (by simp)) (by push_cast; omega) (by omega) (by omega))
      n (Nat.le_refl _) st
    exact ih _ tl sc s _ stk h3 (by simpa [erase, erase1] using hok)
      (hin.mono (by omega) (by omega)) (TOk.loop (hT.mono (by omega)) (by omega) (by omega))
  | doWhile l b c ih =>
    intro env tl sc st pc stk hF hok hin hT
    rw [evalS]
    simp only [compS, fits_append, List.length_append, List.length_cons, List.length_nil,
      Nat.zero_add, ← Nat.add_assoc, replace_length] at hF hin hT ⊢
    simp only [okS] at hok
    obtain ⟨⟨h1, h2⟩, h3⟩ := hF
    have h1 := fits_replace h1
    have hj := fits1 h3 (by simp)
    refine loopD_ok (X := ctx tl sc stk pc _) (lo := pc)
      (hi := pc + (compS b).length + (compE c).length + 1)
      (ct := pc + (compS b).length)
      (blo := pc) (bhi := pc + (compS b).length)
      rfl rfl rfl (Nat.le_refl _) (Nat.le_refl _) hin (by omega) (by omega) (by omega) (by omega)
      (fun s => ?_) (fun s => ?_) n (Nat.le_refl _) st
    · have he := compE_ok (P := P) (F := F) (d0 := d0) c env
        (ctx tl sc stk pc (pc + (compS b).length + (compE c).length + 1))
        (pc + (compS b).length) stk h2 (by show pc ≤ _; omega)
        (by show _ ≤ pc + (compS b).length + (compE c).length + 1; omega) (List.suffix_refl _) hin s
      simp only [testE, bindM, now, pureM]
      rcases hq : evalE P sc c s with ⟨_ | a, s1⟩ <;>
        have hq' : evalE P (ctx tl sc stk pc (pc + (compS b).length + (compE c).length + 1)).sc c s
          = _ := hq <;> rw [hq'] at he
      · exact he
      · refine ⟨_, he, ?_⟩
        simp only [step, hj, exec, finish]
        rw [tgt_eq (t := pc) (by push_cast; omega)]
        rfl
    · exact ih _ tl sc s _ stk h1 (by simpa [erase, erase1] using hok)
        (hin.mono (by omega) (by omega))
        (TOk.loop (hT.mono (by omega)) (by omega) (by omega))
  | forS l init cond stp b ih =>
    intro env tl sc st pc stk hF hok hin hT
    rw [evalS]
    simp only [compS, fits_append, List.length_append, List.length_cons, List.length_nil,
      Nat.zero_add, ← Nat.add_assoc, replace_length] at hF hin hT ⊢
    simp only [okS] at hok
    obtain ⟨⟨⟨⟨⟨h1, h2⟩, h3⟩, h4⟩, h5⟩, h6⟩ := hF
    have h4 := fits_replace h4
    refine Good.op (X := ctx tl sc stk pc _) rfl rfl rfl (Nat.le_refl _) (Nat.le_refl _)
      (spec_opt h1 (Nat.le_refl _) (by
        show _ ≤ pc + (compOpt init).length + (compCond cond).length + 1 + (compS b).length
          + (compOpt stp).length + 1
        omega) hin (List.suffix_refl _)) fun _ s _ => ?_
    have hmono : ∀ {a b c}, Fits F env a b → a = c → Fits F env c b := fun h e => e ▸ h
    refine loopW_ok (X := ctx tl sc stk pc _) (lo := pc)
      (hi := pc + (compOpt init).length + (compCond cond).length + 1 + (compS b).length
          + (compOpt stp).length + 1) (pre := [])
      (pcJ := pc + (compOpt init).length + (compCond cond).length + 1 + (compS b).length
          + (compOpt stp).length)
      (ct := pc + (compOpt init).length + (compCond cond).length + 1 + (compS b).length)
      (blo := pc + (compOpt init).length + (compCond cond).length + 1)
      (bhi := pc + (compOpt init).length + (compCond cond).length + 1 + (compS b).length)
      rfl rfl rfl (Nat.le_refl _) (Nat.le_refl _) hin (by omega) (by omega) (by omega) (by omega)
      (test_opt h2 (fits1 h3 (by simp)) (by show pc ≤ _; omega)
        (by show _ < pc + (compOpt init).length + (compCond cond).length + 1 + (compS b).length
              + (compOpt stp).length + 1
            omega) hin
        (List.suffix_refl _) (by push_cast; omega)) (fun s => ?_)
      (spec_opt h5 (by show pc ≤ _; omega) (by
        show _ ≤ pc + (compOpt init).length + (compCond cond).length + 1 + (compS b).length
          + (compOpt stp).length + 1
        omega) hin (List.suffix_refl _))
      (fun s => jmp_to hin (fits1 h6 (by simp)) (by push_cast; omega) (by omega) (by omega))
      n (Nat.le_refl _) s
    exact ih _ tl sc s _ stk h4 (by simpa [erase, erase1] using hok)
      (hin.mono (by omega) (by omega)) (TOk.loop (hT.mono (by omega)) (by omega) (by omega))
  | forIn l lv isof e b ih =>
    intro env tl sc st pc stk hF hok hin hT
    rw [evalS]
    simp only [compS, fits_append, List.length_append, List.length_cons, List.length_nil,
      Nat.zero_add, ← Nat.add_assoc, replace_length] at hF hin hT ⊢
    simp only [okS] at hok
    obtain ⟨⟨⟨⟨⟨h1, h2⟩, ⟨h3, h4⟩, h5⟩, h6⟩, h7⟩, h8⟩ := hF
    have h6 := fits_replace h6
    generalize hph : pc + (compE e).length + 1 = ph at *
    generalize hpn : ph + (compLV lv).length = pn at *
    generalize hpe : pn + 1 + 1 + (compS b).length = pe at *
    have hkey := fits1 h2 (by simp)
    have hnext := fits1 h4 (by simp)
    have hjf := fits1 h5 (by simp)
    have hpop := fits1 h8 (by simp)
    refine Good.op (X := ctx tl sc stk pc (pe + 1 + 1)) (pc1 := ph)
      (post := fun oi => .val oi.2 :: .val oi.1 :: stk) rfl rfl rfl (Nat.le_refl _) (Nat.le_refl _)
      ((compE_ok e env _ pc stk h1 (Nat.le_refl _) (by show _ ≤ pe + 1 + 1; omega)
        (List.suffix_refl _) hin).bind fun x _ => ?_) fun oi s _ => ?_
    · rw [← hph]
      refine Spec.instr (.key isof) hkey (by simp) (by show pc ≤ _; omega)
        (by show _ < pe + 1 + 1; omega) (suffix2 _ (List.suffix_refl _)) fun s => ?_
      simp only [exec, bindM, now]
      rcases P.key isof _ s with ⟨_ | v, s⟩ <;> rfl
    · refine Good.post (pc' := pe + 1) (nstk := [SVal.val oi.2, SVal.val oi.1] ++ stk)
        (loopW_ok (X := ctx tl sc stk pc (pe + 1 + 1)) (lo := pc) (hi := pe + 1 + 1)
          (pre := [SVal.val oi.2, SVal.val oi.1]) (ph := ph) (pcB := pn + 1 + 1) (ct := pe)
          (ex := pe + 1) (pcJ := pe) (blo := pn + 1 + 1) (bhi := pe)
          rfl rfl rfl (Nat.le_refl _) (Nat.le_refl _) hin (by omega) (by omega) (by omega) (by omega)
          ?_ (fun s => ?_) (Spec.pure rfl)
          (fun s => jmp_to hin (fits1 h7 (by simp)) (by push_cast; omega) (by omega) (by omega))
          n (Nat.le_refl _) s) fun s => To.step ?_
      · refine TestSpec.jfalse (pc1 := pn + 1) (α := P.V) (post := fun v => SVal.val v)
          (m := bindM (evalLV P sc lv) fun a => match a with
            | .ref r => P.next oi.1 oi.2 r
            | _ => failM P P.lvalueMsg) ?_ ?_ hjf (tgt_eq (by push_cast; omega))
        · refine (spec_lv (X := ctx tl sc stk pc (pe + 1 + 1)) h3 (by show pc ≤ _; omega)
            (by show _ ≤ pe + 1 + 1; omega) hin (List.suffix_append _ _)).bind fun a ha => ?_
          obtain ⟨_, _, ha⟩ := ha
          have hpl := evalLV_plain ha
          rw [hpn]
          refine Spec.instr .next hnext (by simp) (by show pc ≤ _; omega)
            (by show _ < pe + 1 + 1; omega) (suffix2 _ (List.suffix_append _ _)) fun s => ?_
          cases a with
          | ref r =>
            simp only [exec, pushR, List.cons_append, List.nil_append]
            rcases P.next oi.1 oi.2 r s with ⟨_ | v, s⟩ <;> rfl
          | val v => rfl
          | meth a b => exact hpl.elim
        · rw [bindM_assoc]
          congr 1
          funext a
          cases a <;> rfl
      · have := ih _ tl sc s _ ([SVal.val oi.2, SVal.val oi.1] ++ stk) h6
          (by simpa [erase, erase1] using hok)
          (hin.mono (by omega) (by omega)) (TOk.loop (hT.mono (by omega)) (by omega) (by omega))
        rw [hpe] at this
        exact this
      · rw [pop_to hpop]; rfl
  | switch l e cs ih =>
    cases cs with
    | nil =>
      intro env tl sc st pc stk hF hok hin hT
      rw [evalS]
      simp only [compS, fits_append, List.length_append, List.length_cons, List.length_nil,
        Nat.zero_add, ← Nat.add_assoc] at hF hin hT ⊢
      refine Good.op (X := ctx tl sc stk pc _) rfl rfl rfl (Nat.le_refl _) (Nat.le_refl _)
        (compE_ok e env _ pc stk hF.1 (Nat.le_refl _) (Nat.le_add_right _ _) (List.suffix_refl _)
          hin) fun a st' _ => ?_
      exact To.step (pop_to (fits1 hF.2 (by simp)))
    | cons t b r => exact switch_ok ih
  | brk l =>
    intro env tl sc st pc stk hF hok hin hT
    rw [evalS]
    simp only [okS] at hok
    obtain ⟨t, ex, hl⟩ := okJ_lookup hok
    refine ⟨pc, t, ex, Nat.le_refl _, by simp [compS], hl, hok, To.step ?_⟩
    have h1 := hF.1
    simp only [Fit1, hl, Nat.zero_add] at h1
    simp only [step, h1]
    unfold mkJump
    split
    · next h0 =>
      subst h0
      simp only [exec, finish, tgt_eq (pc := pc) (off := (t : Int) - pc) (t := t) (by omega),
        List.drop_zero]
    · simp only [exec, finish, tgt_eq (pc := pc) (off := (t : Int) - pc) (t := t) (by omega)]
  | cont l =>
    intro env tl sc st pc stk hF hok hin hT
    rw [evalS]
    simp only [okS] at hok
    obtain ⟨t, ex, hl⟩ := okJ_lookup hok
    refine ⟨pc, t, ex, Nat.le_refl _, by simp [compS], hl, hok, To.step ?_⟩
    have h1 := hF.1
    simp only [Fit1, hl, Nat.zero_add] at h1
    simp only [step, h1]
    unfold mkJump
    split
    · next h0 =>
      subst h0
      simp only [exec, finish, tgt_eq (pc := pc) (off := (t : Int) - pc) (t := t) (by omega),
        List.drop_zero]
    · simp only [exec, finish, tgt_eq (pc := pc) (off := (t : Int) - pc) (t := t) (by omega)]
  | ret e =>
    intro env tl sc st pc stk hF hok hin hT
    cases e with
    | none =>
      rw [evalS]
      refine To.step ?_
      simp only [step, show F[pc]? = some (.ret false) from hF.1, exec, finish]
    | some e =>
      rw [evalS]
      simp only [compS, fits_append, List.length_append, List.length_cons, List.length_nil,
        Nat.zero_add, ← Nat.add_assoc] at hF hin hT ⊢
      have hcomb : ∀ (k : P.V → P.State → Option (Out P.V × P.State)) s,
          opS P (bindM (evalE P sc e) fun x => now P x) k s =
          opS P (evalE P sc e) (fun x s => k (P.deref s.h x) s) s := by
        intro k s
        simp only [opS, bindM, now]
        rcases evalE P sc e s with ⟨_ | x, s1⟩ <;> rfl
      rw [hcomb]
      refine Good.op (X := ctx tl sc stk pc _) rfl rfl rfl (Nat.le_refl _) (Nat.le_refl _)
        (compE_ok e env _ pc stk hF.1 (Nat.le_refl _) (Nat.le_add_right _ _) (List.suffix_refl _)
          hin) fun a st' _ => ?_
      refine To.step ?_
      simp only [step, fits1 hF.2 (by simp), exec, finish]
  | throw e =>
    intro env tl sc st pc stk hF hok hin hT
    rw [evalS]
    simp only [compS, fits_append, List.length_append, List.length_cons, List.length_nil,
      Nat.zero_add, ← Nat.add_assoc] at hF hin hT ⊢
    have hcomb : ∀ (k : P.V → P.State → Option (Out P.V × P.State)) s,
        opS P (bindM (evalE P sc e) fun x => now P x) k s =
        opS P (evalE P sc e) (fun x s => k (P.deref s.h x) s) s := by
      intro k s
      simp only [opS, bindM, now]
      rcases evalE P sc e s with ⟨_ | x, s1⟩ <;> rfl
    rw [hcomb]
    refine Good.op (X := ctx tl sc stk pc _) rfl rfl rfl (Nat.le_refl _) (Nat.le_refl _)
      (compE_ok e env _ pc stk hF.1 (Nat.le_refl _) (Nat.le_add_right _ _) (List.suffix_refl _)
        hin) fun a st' _ => ?_
    have ht := fits1 hF.2 (by simp)
    refine ⟨pc + (compE e).length, [a], by omega, by omega, by simp [ht], To.step ?_⟩
    simp only [step, ht, exec, finish]
    rfl
  | tryS b x c hasF f ihb ihc ihf => exact try_ok ihb ihc ihf
  | del lv =>
    intro env tl sc st pc stk hF hok hin hT
    cases lv with
    | var x =>
      rw [evalS]
      simp only [compS, fits_append, List.length_append, List.length_cons, List.length_nil,
        Nat.zero_add, ← Nat.add_assoc] at hF hin hT ⊢
      refine Good.op (X := ctx tl sc stk pc _) (pc1 := pc + 1 + 1) (post := fun _ => stk)
        rfl rfl rfl (Nat.le_refl _) (Nat.le_refl _)
        ((spec_pushvar x (fits1 hF.1 (by simp)) (Nat.le_refl _) (by show pc < pc + 1 + 1; omega)
          (List.suffix_refl _)).bind fun r _ => ?_) fun a st' _ => To.refl _
      refine Spec.instr (.del 1) (fits1 hF.2 (by simp)) (by simp) (by show pc ≤ _; omega)
        (by show _ < pc + 1 + 1; omega) (suffix2 _ (List.suffix_refl _)) fun s => ?_
      simp only [exec, if_true]
      rcases P.del1 (.ref r) s with ⟨_ | v, s⟩ <;> rfl
    | mem o k =>
      rw [evalS]
      simp only [compS, fits_append, List.length_append, List.length_cons, List.length_nil,
        Nat.zero_add, ← Nat.add_assoc] at hF hin hT ⊢
      obtain ⟨⟨h1, h2⟩, h3⟩ := hF
      refine Good.op (X := ctx tl sc stk pc _)
        (pc1 := pc + (compE o).length + (compE k).length + 1) (post := fun _ => stk)
        rfl rfl rfl (Nat.le_refl _) (Nat.le_refl _)
        ((compE_ok o env _ pc stk h1 (Nat.le_refl _)
          (by show _ ≤ pc + (compE o).length + (compE k).length + 1; omega)
          (List.suffix_refl _) hin).bind fun x _ =>
        (compE_ok k env _ _ (x :: stk) h2 (by show pc ≤ _; omega)
          (by show _ ≤ pc + (compE o).length + (compE k).length + 1; omega)
          (suffix2 _ (List.suffix_refl _)) hin).bind fun y _ => ?_) fun a st' _ => To.refl _
      refine Spec.instr (.del 2) (fits1 h3 (by simp)) (by simp) (by show pc ≤ _; omega)
        (by show _ < pc + (compE o).length + (compE k).length + 1; omega)
        (suffix2 _ (suffix2 _ (List.suffix_refl _))) fun s => ?_
      simp only [exec, bindM, now, show ¬ (2 = 1) by decide, if_false]
      rcases P.del2 _ _ s with ⟨_ | v, s⟩ <;> rfl
  | nil =>
    intro env tl sc st pc stk i hF hok hin hT
    rw [evalC]
    exact To.refl _
  | cons t b r ihb ihr =>
    intro env tl sc st pc stk i hF hok hin hT
    simp only [compC, fits_append, List.length_append, ← Nat.add_assoc] at hF hin hT ⊢
    simp only [okC, Bool.and_eq_true] at hok
    cases i with
    | zero =>
      rw [evalC]
      simp only [offC, Nat.add_zero]
      refine Good.seq (pc1 := pc + (compS b).length) (nstk1 := stk) ?_ fun s => ?_
      · exact Good.mono (Nat.le_refl _) (by omega) (ihb env tl sc st pc stk hF.1 hok.1
          (hin.mono (Nat.le_refl _) (by omega)) (hT.mono (by omega)))
      have := ihr env tl sc s _ stk 0 hF.2 hok.2 (hin.mono (by omega) (Nat.le_refl _)) hT
      have h0 : offC r 0 = 0 := by cases r <;> rfl
      rw [h0, Nat.add_zero] at this
      exact Good.mono (by omega) (Nat.le_refl _) this
    | succ i =>
      rw [evalC]
      simp only [offC, ← Nat.add_assoc]
      exact Good.mono (by omega) (Nat.le_refl _)
        (ihr env tl sc st _ stk i hF.2 hok.2 (hin.mono (by omega) (Nat.le_refl _)) hT)

end Verif.Vm
