import Verif.Queue.PresAll

/-! What the threads called and what came into the queue. -/

namespace Verif.Queue

variable {M R : Type}

/-- What a thread has called and has not put into the queue yet. -/
def pend (s : St M R) (t : Nat) : List (Post M) :=
  match s.prods t with
  | .want m b => [⟨t, m, b⟩]
  | .alloc m b => [⟨t, m, b⟩]
  | .look a _ => ((s.heap a).map (·.post)).toList
  | .walk a _ _ => ((s.heap a).map (·.post)).toList
  | _ => []

theorem pend_congr {s s' : St M R} {t : Nat} (h1 : s'.prods t = s.prods t)
    (h2 : ∀ a b, buildOf (s.prods t) = some (a, b) → (s'.heap a).map (·.post) = (s.heap a).map (·.post)) : pend s' t = pend s t := by
  unfold pend
  rw [h1]
  cases h : s.prods t <;> simp_all [buildOf]

/-- Records keep their content. -/
theorem post_stable {s s' : St M R} (h : Inv s) {l : Lab M R} (hg : l.good = true) (e : step s l = some s') {a : Nat} {r r' : Rec M R}
    (h1 : s.heap a = some r) (h2 : s'.heap a = some r') : r'.post = r.post := by
  have hfr : a ≠ s.fresh := by
    intro e
    obtain ⟨q, hc, _⟩ := h.q
    have := hc.fresh a (by omega)
    rw [h1] at this; cases this
  cases l with
  | post t m b =>
    simp only [step] at e
    split at e <;> cases e
    rw [show s.heap a = some r' from h2] at h1; cases h1; rfl
  | eval t x =>
    simp only [step] at e
    split at e
    · split at e <;> cases e <;> (rw [show s.heap a = some r' from h2] at h1; cases h1; rfl)
    · cases e
  | start =>
    simp only [step] at e
    split at e <;> cases e
    rw [show s.heap a = some r' from h2] at h1; cases h1; rfl
  | nest => cases hg
  | timeout => cases hg
  | delete => cases hg
  | prod t =>
    simp only [step, stepP] at e
    repeat' split at e
    all_goals first
      | cases e; done
      | (have e := Option.some.inj e; subst e
         try simp only [St.setP, St.put, St.free, St.crash] at h2
         repeat' split at h2
         all_goals first
           | (simp_all; done)
           | (simp_all; rw [← h2]))
  | cons x =>
    simp only [step, stepC] at e
    repeat' split at e
    all_goals first
      | cases e; done
      | (have e := Option.some.inj e; subst e
         try simp only [St.setP, St.put, St.free, St.crash] at h2
         repeat' split at h2
         all_goals first
           | (simp_all; done)
           | (simp_all; rw [← h2]))

theorem pend_same {s s' : St M R} (h : Inv s) {l : Lab M R} (hg : l.good = true) (e : step s l = some s') {u : Nat}
    (hp : s'.prods u = s.prods u) : pend s' u = pend s u := by
  refine pend_congr hp (fun a b hb => ?_)
  obtain ⟨q, _, hq⟩ := h.q
  obtain ⟨q', _, hq'⟩ := (h.step hg e).q
  obtain ⟨_, r, hr, _⟩ := (hq u).build a b hb
  obtain ⟨_, r', hr', _⟩ := (hq' u).build a b (by rw [hp]; exact hb)
  rw [hr, hr', Option.map_some, Option.map_some, post_stable h hg e hr hr']

theorem ofThread_append (t : Nat) (l l' : List (Post M)) : ofThread t (l ++ l') = ofThread t l ++ ofThread t l' := by
  simp [ofThread]

theorem ofThread_one (t : Nat) (p : Post M) : ofThread t [p] = if p.who = t then [p] else [] := by
  by_cases h : p.who = t <;> simp [ofThread, h]

/-- The call that a step begins. -/
def callOf : Lab M R → List (Post M)
  | .post t m b => [⟨t, m, b⟩]
  | _ => []

theorem pend_prod {s s' : St M R} (h : Inv s) {t : Nat} (e : stepP s t = some s') (u : Nat) :
    ofThread u s'.posted ++ pend s' u = ofThread u s.posted ++ pend s u := by
  have hs : step s (.prod t) = some s' := e
  obtain ⟨q, _, hq⟩ := h.q
  by_cases hu : u = t
  · subst hu
    have hset : ∀ (s1 : St M R) (p : PPc M), (s1.setP u p).prods u = p := fun s1 p => by simp [St.setP]
    unfold stepP at e
    cases hp : s.prods u with
    | idle => rw [hp] at e; cases e
    | want m b =>
      rw [hp] at e
      simp only at e
      split at e
      · cases e
        show ofThread u s.posted ++ _ = _
        unfold pend; rw [hset, hp]
      · cases e
    | alloc m b =>
      rw [hp] at e
      cases e
      show ofThread u s.posted ++ _ = _
      unfold pend; rw [hset, hp]
      simp [St.setP, St.put]
    | look a b =>
      obtain ⟨_, r, hr, hw, _⟩ := (hq u).build a b (by rw [hp]; rfl)
      rw [hp] at e
      simp only [hr] at e
      split at e
      · cases e
        show ofThread u (s.posted ++ [r.post]) ++ _ = _
        unfold pend; rw [hset, hp]
        simp [ofThread_append, ofThread_one, hw, hr]
      · cases e
        show ofThread u s.posted ++ _ = _
        unfold pend; rw [hset, hp]; rfl
    | walk a b se =>
      obtain ⟨_, r, hr, hw, _⟩ := (hq u).build a b (by rw [hp]; rfl)
      rw [hp] at e
      simp only [hr] at e
      split at e
      · cases e; rfl
      · split at e
        · cases e
          show ofThread u s.posted ++ _ = _
          unfold pend; rw [hset, hp]; rfl
        · have e := Option.some.inj e
          subst e
          show ofThread u (s.posted ++ [r.post]) ++ _ = _
          unfold pend; rw [hset, hp]
          simp [ofThread_append, ofThread_one, hw, hr]
    | unlock a b =>
      rw [hp] at e
      cases e
      show ofThread u s.posted ++ _ = _
      unfold pend; rw [hset, hp]
      cases b <;> rfl
    | wait a =>
      rw [hp] at e
      simp only at e
      split at e
      · cases e; rfl
      · split at e
        · cases e; rfl
        · cases e
          show ofThread u s.posted ++ _ = _
          unfold pend; rw [hset, hp]
    | fin a =>
      rw [hp] at e
      simp only at e
      split at e
      · cases e; rfl
      · split at e
        · cases e; rfl
        · cases e
          show ofThread u s.posted ++ _ = _
          unfold pend; rw [hset, hp]
    | evWant x =>
      rw [hp] at e
      simp only at e
      split at e
      · cases e
        show ofThread u s.posted ++ _ = _
        unfold pend; rw [hset, hp]
      · cases e
    | evPut x =>
      rw [hp] at e
      cases e
      show ofThread u s.posted ++ _ = _
      unfold pend; rw [hset, hp]
    | evUnlock =>
      rw [hp] at e
      cases e
      show ofThread u s.posted ++ _ = _
      unfold pend; rw [hset, hp]
  · have hpu : s'.prods u = s.prods u := by
      unfold stepP at e
      repeat' split at e
      all_goals first
        | (cases e; done)
        | (have e := Option.some.inj e; subst e; simp [St.setP, St.put, St.free, St.crash, hu])
    rw [pend_same h rfl hs hpu]
    have hpo : ofThread u s'.posted = ofThread u s.posted := by
      unfold stepP at e
      cases hp : s.prods t with
      | look a b =>
        obtain ⟨_, r, hr, hw, _⟩ := (hq t).build a b (by rw [hp]; rfl)
        rw [hp] at e
        simp only [hr] at e
        split at e
        · cases e
          show ofThread u (s.posted ++ [r.post]) = _
          rw [ofThread_append, ofThread_one, if_neg (by rw [hw]; exact fun e => hu e.symm), List.append_nil]
        · cases e; rfl
      | walk a b se =>
        obtain ⟨_, r, hr, hw, _⟩ := (hq t).build a b (by rw [hp]; rfl)
        rw [hp] at e
        simp only [hr] at e
        split at e
        · cases e; rfl
        · split at e
          · cases e; rfl
          · have e := Option.some.inj e
            subst e
            show ofThread u (s.posted ++ [r.post]) = _
            rw [ofThread_append, ofThread_one, if_neg (by rw [hw]; exact fun e => hu e.symm), List.append_nil]
      | _ =>
        rw [hp] at e
        simp only at e
        repeat' split at e
        all_goals first
          | (cases e; done)
          | (have e := Option.some.inj e; subst e; rfl)
    rw [hpo]

/-- The owner does not touch what the threads do. -/
theorem stepC_prods {s s' : St M R} {x : R} (e : stepC s x = some s') : s'.prods = s.prods ∧ s'.posted = s.posted ∧
    s'.texts = s.texts ∧ s'.returned = s.returned ∧ s'.since = s.since ∧ s'.fresh = s.fresh := by
  unfold stepC at e
  repeat' split at e
  all_goals first
    | (cases e; done)
    | (have e := Option.some.inj e; subst e; exact ⟨rfl, rfl, rfl, rfl, rfl, rfl⟩)

theorem pend_step {s s' : St M R} (h : Inv s) {l : Lab M R} (hg : l.good = true) (e : step s l = some s') (u : Nat) :
    ofThread u s'.posted ++ pend s' u = ofThread u s.posted ++ pend s u ++ ofThread u (callOf l) := by
  cases l with
  | prod t => rw [pend_prod h e u]; simp [callOf, ofThread]
  | cons x =>
    obtain ⟨h1, h2, _⟩ := stepC_prods e
    rw [pend_same h hg e (by rw [h1]), h2]; simp [callOf, ofThread]
  | nest => cases hg
  | timeout => cases hg
  | delete => cases hg
  | start =>
    have e0 := e
    simp only [step] at e
    split at e
    · cases e
      rw [pend_same h hg e0 rfl]; simp [callOf, ofThread]
    · cases e
  | eval t x =>
    have e0 := e
    simp only [step] at e
    split at e
    · next hp =>
      split at e
      · cases e; simp [callOf, ofThread]
      · cases e
        by_cases hu : u = t
        · subst hu
          show ofThread u s.posted ++ _ = _
          unfold pend
          simp [St.setP, hp, callOf, ofThread]
        · rw [pend_same h hg e0 (by simp [St.setP, hu])]; simp [callOf, ofThread, St.setP]
    · cases e
  | post t m b =>
    have e0 := e
    simp only [step] at e
    split at e
    · next hp =>
      cases e
      by_cases hu : u = t
      · subst hu
        show ofThread u s.posted ++ _ = _
        unfold pend
        simp [St.setP, hp, callOf, ofThread]
      · rw [pend_same h hg e0 (by simp [St.setP, hu])]
        rw [show callOf (R := R) (.post t m b) = [⟨t, m, b⟩] from rfl, ofThread_one, if_neg (fun e => hu e.symm)]
        simp [St.setP]
    · cases e

/-- What a thread called is in the queue, in order, except for the call it is in. -/
theorem calls_run (t : Nat) : ∀ (ls : List (Lab M R)) (s : St M R), Inv s → (∀ l ∈ ls, l.good = true) →
    ofThread t (run s ls).posted ++ pend (run s ls) t = ofThread t s.posted ++ pend s t ++ ofThread t (calls s ls)
  | [], _, _, _ => by simp [run, calls, ofThread]
  | l :: ls, s, h, hg => by
    have hl := hg l List.mem_cons_self
    rw [run, calls, ofThread_append]
    cases e : step s l with
    | none =>
      have h1 := calls_run t ls s h (fun l hl => hg l (List.mem_cons_of_mem _ hl))
      rw [Option.getD_none, h1]
      cases l <;> simp [ofThread, begun, e]
    | some s' =>
      have h1 := calls_run t ls s' (h.step hl e) (fun l hl => hg l (List.mem_cons_of_mem _ hl))
      rw [Option.getD_some, h1, pend_step h hl e t]
      cases l <;> simp [callOf, begun, e]

end Verif.Queue
