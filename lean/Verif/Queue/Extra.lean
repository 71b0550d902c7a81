import Verif.Queue.Trace

/-! More that stays true: who is told, what a callback gets done, the texts. -/

namespace Verif.Queue

variable {M R : Type}

/-- A record that says its thread has to wait has no result yet or is about to change that. -/
def Ex (s : St M R) : Prop := ∀ a r, s.heap a = some r → r.isExec = true →
  r.rc = none ∨ doneOf s.frames.head? = some (a, true) ∨ oldOf s.frames.head? = some (a, true)

/-- No record is left for this callback. -/
def seNone : Option CPc → Bool
  | none => true
  | some (.c8 none) => true
  | some (.loop none) => true
  | some (.c13 _ _ none) => true
  | some (.c14 _ _ none) => true
  | _ => false

/-- What was in the queue at the beginning is done at the end. -/
def Sn (T : List (Post M)) (s : St M R) : Prop :=
  T <+: s.posted ∧ (seNone s.frames.head? = true → T <+: s.started)

theorem stepP_frames {s s' : St M R} {t : Nat} (e : stepP s t = some s') : s'.frames = s.frames ∧ s'.started = s.started ∧
    s'.batches = s.batches ∧ s.posted <+: s'.posted ∧ s'.finished = s.finished ∧ s'.since = s.since := by
  unfold stepP at e
  repeat' split at e
  all_goals first
    | (cases e; done)
    | (have e := Option.some.inj e; subst e; refine ⟨rfl, rfl, rfl, ?_, rfl, rfl⟩; simp [St.setP, St.put, St.free, St.crash])

theorem Ex.step {s s' : St M R} (h : Ex s) (hi : Inv s) {l : Lab M R} (hg : l.good = true) (e : step s l = some s') : Ex s' := by
  cases l with
  | nest => cases hg
  | timeout => cases hg
  | delete => cases hg
  | post t m b =>
    simp only [Queue.step] at e
    split at e <;> cases e
    exact h
  | eval t x =>
    simp only [Queue.step] at e
    split at e
    · split at e <;> cases e <;> exact h
    · cases e
  | start =>
    simp only [Queue.step] at e
    split at e
    · next hf =>
      cases e
      intro a r h1 h2
      rcases h a r h1 h2 with g | g | g
      · exact .inl g
      · rw [hf] at g; cases g
      · rw [hf] at g; cases g
    · cases e
  | prod t =>
    have hfr := (stepP_frames e).1
    intro a r h1 h2
    rw [hfr]
    simp only [Queue.step, stepP] at e
    repeat' split at e
    all_goals first
      | (cases e; done)
      | (have e := Option.some.inj e; subst e
         try simp only [St.setP, St.put, St.free, St.crash] at h1
         first
         | exact h a r h1 h2
         | (split at h1
            · first
              | (cases h1; done)
              | (cases h1; exact .inl rfl)
              | (rename_i e1; subst e1; cases h1
                 have hh : ∃ r0, s.heap a = some r0 := ⟨_, by assumption⟩
                 obtain ⟨r0, hh⟩ := hh
                 have := h a r0 hh
                 simp_all)
            · exact h a r h1 h2))
  | cons x =>
    intro a r h1 h2
    simp only [Queue.step, stepC] at e
    split at e
    · cases e
    · next c fs hf =>
      have h0 := fun a r h1 h2 => by have := h a r h1 h2; rwa [hf] at this
      simp only [List.head?_cons] at h0
      repeat' split at e
      all_goals first
        | (cases e; done)
        | (have e := Option.some.inj e; subst e
           try simp only [St.setP, St.put, St.free, St.crash] at h1
           have h3 := h0 a
           simp only [List.head?_cons, doneOf, oldOf, hf] at h3 ⊢
           first
           | exact h a r h1 h2
           | (have := h3 r h1 h2; simp_all; done)
           | (split at h1
              · cases h1; done
              · simp_all; done)
           | (split at h1
              · cases h1; simp_all; done
              · simp_all; done)
           | (split at h1
              · cases h1; simp_all; done
              · rcases h3 r h1 h2 with g | g | g
                · exact .inl g
                · simp_all
                · first | (simp_all; done) | (simp_all; exact absurd g.symm (by assumption))))

end Verif.Queue
