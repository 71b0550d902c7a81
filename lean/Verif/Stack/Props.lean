import Verif.Stack.Model

namespace Verif.Stack

variable {α : Type}

/-! Specification: a stack is a sequence, oldest element first. -/

/-- One call on a sequence. -/
def specStep (l : List α) : Op α → Out α × List α
  | .push x => (.unit, l ++ [x])
  | .pop => (.elem l.getLast?, l.dropLast)
  | .unshift => (.elem l.head?, l.tail)
  | .peek => (.elem l.getLast?, l)
  | .head => (.elem l.head?, l)
  | .size => (.size l.length, l)
  | .free => (.freed l, [])

/-- A history of calls on a sequence. -/
def specRun (l : List α) : List (Op α) → List (Out α)
  | [] => []
  | o :: os => (specStep l o).1 :: specRun (specStep l o).2 os

/-- The vector starts with the elements of the sequence and is as long as recorded. -/
def Rep (s : Stk α) (l : List α) : Prop :=
  s.len = l.length ∧ s.vector.length = s.maxlen ∧ ∃ junk, s.vector = l.map some ++ junk

theorem rep_read {s : Stk α} {l : List α} (h : Rep s l) (i : Nat) (hi : i < l.length) :
    read s.vector i = l[i]? := by
  obtain ⟨_, _, junk, hv⟩ := h
  have : (l.map some ++ junk)[i]? = some l[i]? := by
    rw [List.getElem?_append_left (by simpa using hi), List.getElem?_map, List.getElem?_eq_getElem hi]
    rfl
  rw [read, hv, this]; rfl

theorem rep_push {s : Stk α} {l : List α} (h : Rep s l) (x : α) :
    ∃ s', push s x = some s' ∧ Rep s' (l ++ [x]) := by
  obtain ⟨hl, hm, junk, hv⟩ := h
  have hset : ∀ (j : List (Option α)), 0 < j.length →
      (l.map some ++ j).set l.length (some x) = (l ++ [x]).map some ++ j.tail := by
    intro j hj
    cases j with
    | nil => simp at hj
    | cons a t => simp [List.set_append]
  unfold push
  by_cases hc : s.len + 1 > s.maxlen
  · simp only [hc, if_true]
    generalize hM : (if s.len + 1 < 20 then 20 else (s.len + 1) * 2) = M
    have hM' : s.len + 1 ≤ M := by rw [← hM]; split <;> omega
    have hjl : s.vector.length ≤ M := by omega
    have hr : realloc s.vector M = l.map some ++ (junk ++ List.replicate (M - s.vector.length) none) := by
      rw [realloc, List.take_of_length_le hjl, ← List.append_assoc, ← hv]
    have hj : 0 < (junk ++ List.replicate (M - s.vector.length) (none : Option α)).length := by
      rw [hv] at hm hjl ⊢; simp at *; omega
    rw [store, hr, hl, if_pos (by simp; simp at hj; omega)]
    refine ⟨_, rfl, by simp, ?_, _, hset _ hj⟩
    simp; rw [hv] at hjl ⊢; simp at *; omega
  · simp only [hc, if_false]
    have hj : 0 < junk.length := by rw [hv] at hm; simp at hm; omega
    rw [store, hv, hl, if_pos (by simp; omega)]
    refine ⟨_, rfl, by simp, ?_, _, hset _ hj⟩
    simp; rw [hv] at hm; simpa using hm

theorem rep_step {s : Stk α} {l : List α} (h : Rep s l) (o : Op α) :
    ∃ s', step s o = some ((specStep l o).1, s') ∧ Rep s' (specStep l o).2 := by
  have hlen := h.1
  cases o with
  | push x =>
    obtain ⟨s', h1, h2⟩ := rep_push h x
    exact ⟨s', by simp [step, h1, specStep], h2⟩
  | size => exact ⟨s, by simp [step, specStep, hlen], h⟩
  | pop =>
    by_cases h0 : l.length = 0
    · have : l = [] := List.length_eq_zero_iff.mp h0
      subst this
      exact ⟨s, by simp [step, pop, specStep, hlen], h⟩
    · have hr := rep_read h (l.length - 1) (by omega)
      refine ⟨{ s with len := s.len - 1 }, ?_, ?_⟩
      · have hr' : read s.vector (l.length - 1) = some l[l.length - 1] := by
          rw [hr, List.getElem?_eq_getElem]
        simp [step, pop, specStep, hlen, h0, hr', List.getLast?_eq_getElem?]
      · obtain ⟨_, hm, junk, hv⟩ := h
        refine ⟨by simp [specStep, hlen], hm, some (l[l.length - 1]) :: junk, ?_⟩
        simp only [specStep, hv]
        have : l = l.dropLast ++ [l[l.length - 1]] := by
          rw [← List.getLast_eq_getElem (by intro hn; simp [hn] at h0)]
          exact (List.dropLast_concat_getLast _).symm
        conv => lhs; rw [this]
        simp
  | peek =>
    by_cases h0 : l.length = 0
    · have : l = [] := List.length_eq_zero_iff.mp h0
      subst this
      exact ⟨s, by simp [step, peek, specStep, hlen], h⟩
    · have hr' : read s.vector (l.length - 1) = some l[l.length - 1] := by
        rw [rep_read h (l.length - 1) (by omega), List.getElem?_eq_getElem]
      exact ⟨s, by simp [step, peek, specStep, hlen, h0, hr', List.getLast?_eq_getElem?], h⟩
  | head =>
    cases l with
    | nil => exact ⟨s, by simp [step, head, specStep, hlen], h⟩
    | cons a t =>
      have hr := rep_read h 0 (by simp)
      exact ⟨s, by simp [step, head, specStep, hlen, hr], h⟩
  | unshift =>
    cases l with
    | nil => exact ⟨s, by simp [step, unshift, specStep, hlen], h⟩
    | cons a t =>
      have hr := rep_read h 0 (by simp)
      obtain ⟨_, hm, junk, hv⟩ := h
      have hsz : 1 + t.length ≤ s.vector.length := by rw [hv]; simp; omega
      refine ⟨{ s with len := t.length,
                       vector := (s.vector.drop 1).take t.length ++ s.vector.drop t.length }, ?_, ?_⟩
      · simp [step, unshift, specStep, hlen, hr, hsz]
      · refine ⟨by simp [specStep], ?_, s.vector.drop t.length, ?_⟩
        · simp; omega
        · simp [specStep, hv]
  | free =>
    refine ⟨{ s with len := 0 }, ?_, ?_⟩
    · have : (List.range s.len).mapM (read s.vector) = some l := by
        rw [hlen]
        have key : ∀ k, k ≤ l.length → (List.range k).mapM (read s.vector) = some (l.take k) := by
          intro k
          induction k with
          | zero => simp
          | succ k ih =>
            intro hk
            rw [List.range_succ, List.mapM_append, ih (by omega)]
            have hr := rep_read h k (by omega)
            rw [List.getElem?_eq_getElem (by omega)] at hr
            simp [hr, List.take_succ]
        simpa using key l.length (Nat.le_refl _)
      simp [step, freeElements, this, specStep]
    · obtain ⟨_, hm, _⟩ := h
      exact ⟨by simp [specStep], hm, s.vector, by simp [specStep]⟩

/-- **C21**.  Every history of calls on a new `Jsi_Stack` is free of undefined behaviour and returns
exactly what the same calls on a sequence return. -/
theorem C21_stack_is_sequence (ops : List (Op α)) : run new ops = some (specRun [] ops) := by
  have key : ∀ (ops : List (Op α)) (s : Stk α) (l : List α), Rep s l → run s ops = some (specRun l ops) := by
    intro ops
    induction ops with
    | nil => intros; rfl
    | cons o os ih =>
      intro s l h
      obtain ⟨s', h1, h2⟩ := rep_step h o
      simp [run, h1, ih s' _ h2, specRun]
  exact key ops new [] ⟨rfl, rfl, [], rfl⟩

-- Test: a history that grows the vector twice.
example : run (α := Nat) new ((List.range 45).map .push ++ [.unshift, .pop, .size, .head, .peek]) =
    some (List.replicate 45 .unit ++ [.elem (some 0), .elem (some 44), .size 43, .elem (some 1), .elem (some 43)]) := by
  rw [C21_stack_is_sequence]; decide +kernel

end Verif.Stack
