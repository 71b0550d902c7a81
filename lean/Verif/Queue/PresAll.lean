import Verif.Queue.PresC
import Verif.Queue.Spec

/-! The invariant holds in every state that is reached without nested callbacks, failing locks and
deletion of the interpreter. -/

namespace Verif.Queue

variable {M R : Type}

theorem Inv.step {s s' : St M R} (h : Inv s) {l : Lab M R} (hg : l.good = true) (e : step s l = some s') : Inv s' := by
  cases l with
  | post t m b =>
    simp only [Queue.step] at e
    split at e
    · next hp =>
      cases e
      exact h.moveP (s1 := s) t _ rfl rfl rfl rfl rfl rfl rfl rfl rfl rfl (by rw [hp]; rfl) (by rw [hp]; rfl) (fun a b se hs => by cases hs) (fun a hs => by cases hs)
        (by obtain ⟨q, _, hq⟩ := h.q; have := (hq t).lk; rw [hp] at this; exact this) Iff.rfl (fun u hu => Iff.rfl)
    · cases e
  | eval t x =>
    simp only [Queue.step] at e
    split at e
    · next hp =>
      split at e
      · cases e; exact h
      · cases e
        exact h.moveP (s1 := s) t _ rfl rfl rfl rfl rfl rfl rfl rfl rfl rfl (by rw [hp]; rfl) (by rw [hp]; rfl) (fun a b se hs => by cases hs) (fun a hs => by cases hs)
          (by obtain ⟨q, _, hq⟩ := h.q; have := (hq t).lk; rw [hp] at this; exact this) Iff.rfl (fun u hu => Iff.rfl)
    · cases e
  | prod t => exact h.stepP e
  | cons x => exact h.stepC e
  | start =>
    simp only [Queue.step] at e
    split at e
    · next hf =>
      cases e
      exact h.moveC rfl rfl rfl rfl rfl rfl rfl rfl (by simp) rfl (fun a ha => by cases ha) (by rw [hf]; rfl) (by rw [hf]; rfl)
        (fun p hp => by cases hp) (by obtain ⟨q, hc, _⟩ := h.q; rw [hf] at hc; exact hc.lk) (fun u => Iff.rfl)
    · cases e
  | nest => cases hg
  | timeout => cases hg
  | delete => cases hg

/-- Invariants of single steps hold along schedules. -/
theorem run_inv {P : St M R → Prop} (hs : ∀ s l s', Inv s → P s → l.good = true → step s l = some s' → P s') :
    ∀ (ls : List (Lab M R)) (s : St M R), Inv s → P s → (∀ l ∈ ls, l.good = true) → Inv (run s ls) ∧ P (run s ls)
  | [], _, h, hp, _ => ⟨h, hp⟩
  | l :: ls, s, h, hp, hg => by
    rw [run]
    cases e : step s l with
    | none => exact run_inv hs ls s h hp (fun l hl => hg l (List.mem_cons_of_mem _ hl))
    | some s' =>
      have hl := hg l List.mem_cons_self
      exact run_inv hs ls s' (h.step hl e) (hs s l s' h hp hl e) (fun l hl => hg l (List.mem_cons_of_mem _ hl))

theorem reach_inv (ls : List (Lab M R)) (hg : ∀ l ∈ ls, l.good = true) : Inv (run (init M R) ls) :=
  (run_inv (P := fun _ => True) (fun _ _ _ _ _ _ _ => trivial) ls _ init_inv trivial hg).1

end Verif.Queue
