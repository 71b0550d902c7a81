import Verif.Obj.Hist
import Verif.Obj.Frozen

/-!
Consequences of the agreement with ECMAScript (C75) for single steps: what an assignment, `++` or `Object.assign` changes
and what it leaves alone (C76, C83), and the keys of arrays (C77).
-/

namespace Verif.Obj

variable {m : Bool} {E : Env}

theorem fineRun_append : ∀ (h : List Op) (op : Op) {t t' : SSt} {bs}, srun E t h = some (t', bs) →
    fineRun m E t (h ++ [op]) = true → fineRun m E t h = true ∧ fine m E t' op = true
  | [], op, t, t', bs, hs, hf => by
    cases hs
    rw [List.nil_append, fineRun, Bool.and_eq_true] at hf
    exact ⟨rfl, hf.1⟩
  | op' :: h, op, t, t', bs, hs, hf => by
    rw [List.cons_append, fineRun, Bool.and_eq_true] at hf
    rw [srun] at hs
    rw [fineRun, Bool.and_eq_true]
    have hf2 := hf.2
    revert hs hf2
    cases e : sstep E t op' with
    | none => intro hs; cases hs
    | some p =>
      obtain ⟨t1, b⟩ := p
      intro hs hf2
      cases e2 : srun E t1 h with
      | none => simp only [e2] at hs; cases hs
      | some p2 =>
        simp only [e2] at hs
        obtain ⟨t2, b2⟩ := p2
        cases hs
        have := fineRun_append h op e2 hf2
        exact ⟨⟨hf.1, this.1⟩, this.2⟩

theorem srun_some : ∀ (h : List Op) {t : SSt}, fineRun m E t h = true → ∃ t' bs, srun E t h = some (t', bs)
  | [], t, _ => ⟨t, [], rfl⟩
  | op :: h, t, hf => by
    rw [fineRun, Bool.and_eq_true] at hf
    have hf2 := hf.2
    rw [srun]
    revert hf2
    cases e : sstep E t op with
    | none => intro h; cases h
    | some p =>
      obtain ⟨t1, b⟩ := p
      intro hf2
      obtain ⟨t2, bs, e2⟩ := srun_some h hf2
      exact ⟨t2, b :: bs, by simp [e2]⟩

theorem fineRun_left : ∀ (h : List Op) (r : List Op) {t : SSt}, fineRun m E t (h ++ r) = true → fineRun m E t h = true
  | [], _, _, _ => rfl
  | op :: h, r, t, hf => by
    rw [List.cons_append, fineRun, Bool.and_eq_true] at hf
    rw [fineRun, Bool.and_eq_true]
    refine ⟨hf.1, ?_⟩
    have hf2 := hf.2
    revert hf2
    cases e : sstep E t op with
    | none => intro h; cases h
    | some p => intro hf2; exact fineRun_left h r hf2

/-- The history and one step more. -/
theorem last_step (hmax : E.maxList ≤ 2 ^ 31) {n : Nat} {h : List Op} {op : Op} {s : St} {bs : List Bool}
    (hf : fineRun m E (sstart n) (h ++ [op]) = true) (hr : run E (start n) h = some (s, bs)) :
    ∃ t, R m E s t ∧ fine m E t op = true ∧ Agree m E (step E s op) (sstep E t op) := by
  have hf1 := fineRun_left h [op] hf
  obtain ⟨s1, t, bs1, g1, g2, g3⟩ := run_agree hmax h (start_R m E n) hf1
  rw [hr] at g1; cases g1
  have := (fineRun_append h op g2 hf).2
  exact ⟨t, g3, this, step_agree g3 hmax this⟩

/-- An ordinary key: not `this`; beginning with a digit only if it is the decimal notation of a number below 2^31. -/
def plainKey (k : Bytes) : Bool := k != kThis && (!digitStart k || canon k)

theorem prop_own {s : St} {t : SSt} (h : R m E s t) {q : Nat} {k : Bytes} (hk : plainKey k = true) : propOf s q k = t.own q k := by
  simp only [plainKey, Bool.and_eq_true, bne_iff_ne] at hk
  rw [propOf, lookOwn_eq h hk.1 (by rw [keyArr]; rcases Bool.or_eq_true _ _ ▸ hk.2 with h | h <;> simp [h]), h.own]

/-- The state after a step, whether it failed or not. -/
def Out.after : Out → Option St
  | .ok s => some s
  | .err s => some s
  | .crash => none

theorem Agree.after {o : Out} {r} (h : Agree m E o r) : ∃ s t b, o.after = some s ∧ r = some (t, b) ∧ R m E s t := by
  cases o with
  | crash => exact h.elim
  | ok s =>
    rcases r with _ | ⟨t, _ | _⟩
    · exact h.elim
    · exact h.elim
    · exact ⟨s, t, true, rfl, rfl, h⟩
  | err s =>
    rcases r with _ | ⟨t, _ | _⟩
    · exact h.elim
    · exact ⟨s, t, false, rfl, rfl, h⟩
    · exact h.elim

/-- C76: in a history of the second kind, `o[k] = y` gives the property the value of `y` and changes no other property of
any object and no variable. -/
theorem C76_put_one_place_partial (hmax : E.maxList ≤ 2 ^ 31) (n : Nat) (h : List Op) (o : Nat) (k : Key) (y : Nat)
    {s : St} {bs : List Bool} {q : Nat} (hf : fineRun m E (sstart n) (h ++ [.put o k y]) = true)
    (hr : run E (start n) h = some (s, bs)) (hq : (s.var o).val = .obj q) :
    ∃ s', (step E s (.put o k y)).after = some s' ∧
      (∀ q' k', plainKey k' = true → propOf s' q' k' = if q' = q ∧ k' = k.name then some (s.var y).val else propOf s q' k') ∧
      ∀ x, (s'.var x).val = (s.var x).val := by
  obtain ⟨t, hR, hfi, ha⟩ := last_step hmax hf hr
  obtain ⟨s', t', b, h1, h2, h3⟩ := ha.after
  rw [sstep, ← hR.varVal, hq] at h2
  simp only [sObj] at h2
  cases h2
  refine ⟨s', h1, fun q' k' hk => ?_, fun x => ?_⟩
  · rw [prop_own h3 hk, prop_own hR hk, hR.varVal]; rfl
  · rw [h3.varVal, hR.varVal]; rfl

/-- C76: in a history of the second kind, `o[k]++` changes no other property of any object and no variable. -/
theorem C76_inc_one_place_partial (hmax : E.maxList ≤ 2 ^ 31) (n : Nat) (h : List Op) (o : Nat) (k : Key)
    {s : St} {bs : List Bool} {q : Nat} (hf : fineRun m E (sstart n) (h ++ [.inc o k]) = true)
    (hr : run E (start n) h = some (s, bs)) (hq : (s.var o).val = .obj q) :
    ∃ s', (step E s (.inc o k)).after = some s' ∧
      (∀ q' k', plainKey k' = true → ¬ (q' = q ∧ k' = k.name) → propOf s' q' k' = propOf s q' k') ∧
      (plainKey k.name = true → propOf s' q k.name = (propOf s q k.name).map (succVal E)) ∧
      ∀ x, (s'.var x).val = (s.var x).val := by
  obtain ⟨t, hR, hfi, ha⟩ := last_step hmax hf hr
  obtain ⟨s', t', b, h1, h2, h3⟩ := ha.after
  have hm : m = true ∧ keyInc t q k.name = true := by
    rw [fine, Bool.and_eq_true, ← hR.varVal, hq] at hfi; exact hfi
  simp only [keyInc, Bool.and_eq_true, Bool.not_eq_true'] at hm
  obtain ⟨_, ⟨hsp, _⟩, hon⟩ := hm
  rw [sstep, ← hR.varVal, hq] at h2
  simp only [sObj] at h2
  have hown : t.get q k.name = t.own q k.name := by
    cases e : t.own q k.name with
    | some v => exact get_own e (not_len hsp)
    | none =>
      rw [ownOrNone, e] at hon
      simpa using hon
  rw [hown] at h2
  cases e : t.own q k.name with
  | none =>
    rw [e] at h2; cases h2
    refine ⟨s', h1, fun q' k' hk hne => ?_, fun hk => ?_, fun x => ?_⟩
    · rw [prop_own h3 hk, prop_own hR hk]
    · rw [prop_own h3 hk, prop_own hR hk, e]; rfl
    · rw [h3.varVal, hR.varVal]
  | some v =>
    rw [e] at h2; cases h2
    refine ⟨s', h1, fun q' k' hk hne => ?_, fun hk => ?_, fun x => ?_⟩
    · rw [prop_own h3 hk, prop_own hR hk]
      show (if q' = q ∧ k' = k.name then _ else _) = _
      rw [if_neg hne]
    · rw [prop_own h3 hk, prop_own hR hk, e]
      show (if q = q ∧ k.name = k.name then _ else _) = _
      rw [if_pos ⟨rfl, rfl⟩]; rfl
    · rw [h3.varVal, hR.varVal]; rfl

/-- C83: in a history of the first kind, `Object.assign(o, y)` gives the object all properties of `y`, keeps its others and
changes no other object and no variable. -/
theorem C83_assign_all_partial (hmax : E.maxList ≤ 2 ^ 31) (n : Nat) (h : List Op) (o y : Nat)
    {s : St} {bs : List Bool} {q p : Nat} (hf : fineRun m E (sstart n) (h ++ [.assign o [y]]) = true)
    (hr : run E (start n) h = some (s, bs)) (hq : (s.var o).val = .obj q) (hp : (s.var y).val = .obj p) :
    ∃ s', step E s (.assign o [y]) = .ok s' ∧
      (∀ k, plainKey k = true → propOf s' q k = (propOf s p k).or (propOf s q k)) ∧
      (∀ q' k, plainKey k = true → q' ≠ q → propOf s' q' k = propOf s q' k) ∧
      ∀ x, (s'.var x).val = (s.var x).val := by
  obtain ⟨t, hR, hfi, ha⟩ := last_step hmax hf hr
  have hpl : t.len q = none := by
    rw [fine, Bool.and_eq_true, Bool.and_eq_true] at hfi
    exact plainSrc_obj hfi.1.2 (by rw [← hR.varVal, hq])
  have e : sstep E t (.assign o [y]) = some (t.giveAll q p, true) := by
    rw [sstep, ← hR.varVal, hq]
    simp only [sObj, hpl, List.map_cons, List.map_nil, ← hR.varVal, hp, sAssign]
    rfl
  rw [e] at ha
  cases e2 : step E s (.assign o [y]) with
  | crash => rw [e2] at ha; exact ha.elim
  | err s' => rw [e2] at ha; exact ha.elim
  | ok s' =>
    rw [e2] at ha
    have h3 : R m E s' (t.giveAll q p) := ha
    refine ⟨s', rfl, fun k hk => ?_, fun q' k hk hne => ?_, fun x => ?_⟩
    · rw [prop_own h3 hk, prop_own hR hk, prop_own hR hk]
      show (if q = q then _ else _) = _
      rw [if_pos rfl]
    · rw [prop_own h3 hk, prop_own hR hk]
      show (if q' = q then _ else _) = _
      rw [if_neg hne]
    · rw [h3.varVal, hR.varVal]; rfl

end Verif.Obj
