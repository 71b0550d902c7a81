import Verif.Web.SsiMain

/-! Which pages make the evaluator use text that is not part of the directive. -/

namespace Verif.Web

/-- The four misspelt directives: `#include fil"`, `#include filX"`, `#include virtua"`, `#include virtuaX"`. -/
def Short (d : Str) : Prop :=
  d = asc "include fil\"" ∨ (∃ x, x ≠ 61 ∧ d = asc "include fil" ++ [x, 34]) ∨
  d = asc "include virtua\"" ∨ (∃ x, x ≠ 61 ∧ d = asc "include virtua" ++ [x, 34])

theorem r_fil : asc "include fil" = [105, 110, 99, 108, 117, 100, 101, 32, 102, 105, 108] := by decide +kernel
theorem r_filq : asc "include fil\"" = [105, 110, 99, 108, 117, 100, 101, 32, 102, 105, 108, 34] := by decide +kernel
theorem r_virtua : asc "include virtua" = [105, 110, 99, 108, 117, 100, 101, 32, 118, 105, 114, 116, 117, 97] := by decide +kernel
theorem r_virtuaq : asc "include virtua\"" = [105, 110, 99, 108, 117, 100, 101, 32, 118, 105, 114, 116, 117, 97, 34] := by decide +kernel

theorem take_eq_drop {l p : Str} {n : Nat} (h : l.take n = p) : l = p ++ l.drop n := by
  rw [← h]
  exact (List.take_append_drop n l).symm

theorem two_cases {l : Str} {n : Nat} (h : l.length < n + 1) : l.length < n ∨ l.length = n := by omega

theorem short_of {d : Str} (hi : isInclude (35 :: d) = true)
    (hq : ¬ (at0 (35 :: d) ((35 :: d).length - 1) ≠ 34 ∨ at0 (35 :: d) ((35 :: d).length - 2) = 61))
    (ho : (if at0 (35 :: d) 9 = 118 then 18 else 15) > (35 :: d).length) : Short d := by
  have h1 : at0 (35 :: d) ((35 :: d).length - 1) = 34 := by
    by_cases h : at0 (35 :: d) ((35 :: d).length - 1) = 34
    · exact h
    · exact absurd (Or.inl h) hq
  have h2 : at0 (35 :: d) ((35 :: d).length - 2) ≠ 61 := fun h => hq (Or.inr h)
  unfold isInclude at hi
  rcases (Bool.or_eq_true _ _).mp hi with h | h
  · have h := take_eq_drop (of_decide_eq_true h)
    rw [a_inc] at h
    generalize (35 :: d).drop 12 = x at h
    have hd : d = [105, 110, 99, 108, 117, 100, 101, 32, 102, 105, 108] ++ x := by simpa using h
    have h9 : ¬ at0 (35 :: d) 9 = 118 := by
      rw [hd]
      simp [at0]
    rw [if_neg h9] at ho
    have hl : x.length < 3 := by
      rw [hd] at ho
      simp at ho
      omega
    match x, hl with
    | [], _ =>
      rw [hd] at h1
      exact absurd h1 (by decide)
    | [a], _ =>
      have : a = 34 := by
        rw [hd] at h1
        simpa [at0] using h1
      subst this
      left
      rw [hd, r_filq]
      rfl
    | [a, b], _ =>
      have hb : b = 34 := by
        rw [hd] at h1
        simpa [at0] using h1
      have ha : a ≠ 61 := by
        rw [hd] at h2
        simpa [at0] using h2
      subst hb
      right; left
      exact ⟨a, ha, by rw [hd, r_fil]⟩
    | _ :: _ :: _ :: _, hl => exact absurd hl (by simp)
  · have h := take_eq_drop (of_decide_eq_true h)
    rw [a_vir] at h
    generalize (35 :: d).drop 15 = x at h
    have hd : d = [105, 110, 99, 108, 117, 100, 101, 32, 118, 105, 114, 116, 117, 97] ++ x := by simpa using h
    have h9 : at0 (35 :: d) 9 = 118 := by
      rw [hd]
      simp [at0]
    rw [if_pos h9] at ho
    have hl : x.length < 3 := by
      rw [hd] at ho
      simp at ho
      omega
    match x, hl with
    | [], _ =>
      rw [hd] at h1
      exact absurd h1 (by decide)
    | [a], _ =>
      have : a = 34 := by
        rw [hd] at h1
        simpa [at0] using h1
      subst this
      right; right; left
      rw [hd, r_virtuaq]
      rfl
    | [a, b], _ =>
      have hb : b = 34 := by
        rw [hd] at h1
        simpa [at0] using h1
      have ha : a ≠ 61 := by
        rw [hd] at h2
        simpa [at0] using h2
      subst hb
      right; right; right
      exact ⟨a, ha, by rw [hd, r_virtua]⟩
    | _ :: _ :: _ :: _, hl => exact absurd hl (by simp)

/-- A page of the server has one of the misspelt directives. -/
def HasShort (E : Env) : Prop := ∃ fn t a d b, E.file fn = some t ∧ t = a ++ (tag d ++ b) ∧ Short d

variable (E : Env) (ev : Str → UD → Res) (dir : Str)

theorem include_fault {st st' : St} {d : Str} (hi : isInclude (35 :: d) = true) (h : doInclude E ev dir st (35 :: d) = .stop .fault st') :
    Short d ∨ ∃ f u, (ev f u).stat = .fault := by
  unfold doInclude at h
  split at h
  · cases h
  rename_i hq
  split at h
  · cases h
  simp only [] at h
  generalize hoff : (if at0 (35 :: d) 9 = 118 then 18 else 15) = off at h
  split at h
  · rename_i ho
    rw [← hoff] at ho
    exact Or.inl (short_of hi hq ho)
  split at h
  · rename_i hf
    right
    unfold incOf at hf
    simp only [] at hf
    split at hf
    · exact ⟨_, _, hf⟩
    · split at hf
      · cases hf
      · simp only [] at hf
        split at hf <;> cases hf
  · split at h <;> cases h

theorem doCond_nofault {st st' : St} {d : Str} : doCond E st d ≠ .stop .fault st' := by
  unfold doCond
  intro h
  simp only [] at h
  repeat' split at h
  all_goals cases h

theorem doEcho_nofault {st st' : St} {d : Str} : doEcho E st d ≠ .stop .fault st' := by
  unfold doEcho
  intro h
  simp only [] at h
  repeat' split at h
  all_goals cases h

theorem directive_fault {st st' : St} {d : Str} (h : directive E ev dir st (35 :: d) = .stop .fault st') :
    Short d ∨ ∃ f u, (ev f u).stat = .fault := by
  unfold directive at h
  split at h
  · rename_i hi
    exact include_fault E ev dir hi h
  split at h
  · cases h
  · split at h
    · exact absurd h (doEcho_nofault E)
    split at h
    · exact absurd h (doCond_nofault E)
    split at h
    · unfold doElse at h
      split at h <;> cases h
    split at h
    · unfold doEndif at h
      repeat' split at h
      all_goals cases h
    · cases h

theorem skipNl_suffix (s : Str) : ∃ a, s = a ++ skipNl s := by
  cases s with
  | nil => exact ⟨[], rfl⟩
  | cons c s =>
    simp only [skipNl]
    split
    · exact ⟨[c], rfl⟩
    · exact ⟨[], rfl⟩

theorem loop_fault (n : Nat) : ∀ (cs : Str) (st : St), (loop E ev dir n cs st).stat = .fault →
    (∃ a d b, cs = a ++ (tag d ++ b) ∧ Short d) ∨ ∃ f u, (ev f u).stat = .fault := by
  induction n with
  | zero => intro cs st h; cases h
  | succ n ih =>
    intro cs st h
    unfold loop at h
    split at h
    · unfold done at h
      simp only [] at h
      split at h <;> cases h
    · rename_i t r h1
      split at h
      · unfold done at h
        simp only [] at h
        split at h <;> cases h
      · rename_i d rest h2
        have e1 := (cut_some _ _ _ h1).1
        have e2 := (cut_some _ _ _ h2).1
        have ecs : cs = t ++ (tag d ++ rest) := by
          rw [e1, e2]
          simp [tag]
        split at h
        · cases h
        · split at h
          · rename_i st' hd
            rcases ih _ _ h with ⟨a, d', b, e3, hs⟩ | h'
            · left
              obtain ⟨z, hz⟩ := skipNl_suffix rest
              refine ⟨t ++ (tag d ++ (z ++ a)), d', b, ?_, hs⟩
              rw [ecs, hz, e3]
              simp
            · exact Or.inr h'
          · rename_i k st' hd
            simp only [] at h
            subst h
            rcases directive_fault E ev dir hd with h' | h'
            · exact Or.inl ⟨t, d, rest, ecs, h'⟩
            · exact Or.inr h'

theorem eval_fault (n : Nat) : ∀ (fn : Str) (ud : UD), (evalSSI E n fn ud).stat = .fault → HasShort E := by
  induction n with
  | zero => intro fn ud h; cases h
  | succ n ih =>
    intro fn ud h
    unfold evalSSI at h
    split at h
    · simp only [] at h
      split at h <;> cases h
    · rename_i t hf
      rcases loop_fault E _ _ _ _ _ h with ⟨a, d, b, e, hs⟩ | ⟨f, u, h'⟩
      · refine ⟨fn, t, a, d, b ++ t.dropWhile (· ≠ 0), hf, ?_, hs⟩
        have := List.takeWhile_append_dropWhile (p := (· ≠ 0)) (l := t)
        conv => lhs; rw [← this, e]
        simp
      · exact ih f u h'

end Verif.Web
