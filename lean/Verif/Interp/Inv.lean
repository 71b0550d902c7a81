import Verif.Interp.Facts

/-! What every action preserves in the descendants of an interpreter. -/

namespace Verif.Interp

theorem within_lt {w : World} {s j : Nat} (hs : s < w.length) (h : Within w s j) : j < w.length := by
  cases h with
  | self => exact hs
  | sub _ hj _ => exact (List.getElem?_eq_some_iff.1 hj).1

/-- Replacing an interpreter by one with the same parent. -/
theorem within_set {w : World} {s j k : Nat} {i i' : Ip} (hi : w[j]? = some i) (hp : i'.parent = i.parent)
    (h : Within (w.set j i') s k) : Within w s k := by
  have hlt : j < w.length := (List.getElem?_eq_some_iff.1 hi).1
  induction h with
  | self => exact .self
  | @sub a k x _ hk hx ih =>
    rw [List.getElem?_set] at hk
    split at hk
    · rename_i hjk
      cases hk
      exact .sub ih (hjk ▸ hi) (hp ▸ hx)
    · exact .sub ih hk hx

theorem wf_set {w : World} {j : Nat} {i i' : Ip} (hw : Wf w) (hi : w[j]? = some i)
    (hp : i'.parent = i.parent) : Wf (w.set j i') := by
  intro k x a hk hx
  have hlt : j < w.length := (List.getElem?_eq_some_iff.1 hi).1
  rw [List.getElem?_set] at hk
  split at hk
  · rename_i hjk
    cases hk
    exact hw k i a (hjk ▸ hi) (hp ▸ hx)
  · exact hw k x a hk hx

theorem get_append {w : World} {c i : Ip} {k : Nat} (h : (w ++ [c])[k]? = some i) :
    (k < w.length ∧ w[k]? = some i) ∨ (k = w.length ∧ i = c) := by
  rcases Nat.lt_trichotomy k w.length with hk | hk | hk
  · left; rw [List.getElem?_append_left hk] at h; exact ⟨hk, h⟩
  · right; subst hk; simp at h; exact ⟨rfl, h.symm⟩
  · rw [List.getElem?_append_right (by omega), List.getElem?_eq_none (by simp; omega)] at h
    cases h

theorem wf_append {w : World} {c : Ip} {a : Nat} (hw : Wf w) (ha : a < w.length) (hc : c.parent = some a) :
    Wf (w ++ [c]) := by
  intro k x b hk hx
  rcases get_append hk with ⟨_, h⟩ | ⟨h, rfl⟩
  · exact hw k x b h hx
  · rw [hc] at hx; cases hx; omega

/-- What is below `s` after a creation was below it before, or is new and its parent was below it. -/
theorem within_append {w : World} {s k a : Nat} {c : Ip} (hw : Wf w) (hs : s < w.length) (ha : a < w.length)
    (hc : c.parent = some a) (h : Within (w ++ [c]) s k) :
    (k < w.length ∧ Within w s k) ∨ (k = w.length ∧ Within w s a) := by
  induction h with
  | self => exact Or.inl ⟨hs, .self⟩
  | @sub b k x _ hk hx ih =>
    rcases get_append hk with ⟨hl, h⟩ | ⟨h, rfl⟩
    · left
      refine ⟨hl, ?_⟩
      rcases ih with ⟨_, ih⟩ | ⟨hb, _⟩
      · exact .sub ih h hx
      · have := hw k x b h hx; omega
    · right
      refine ⟨h, ?_⟩
      rw [hc] at hx
      cases hx
      rcases ih with ⟨_, ih⟩ | ⟨hb, _⟩
      · exact ih
      · omega

theorem sourceFirst_parent (e : Env) (i : Ip) (f : Str) : (sourceFirst e i f).1.parent = i.parent := by
  unfold sourceFirst; split
  · split <;> rfl
  · rfl

theorem source_parent (e : Env) (i : Ip) (f : Str) : (source e i f).1.parent = i.parent := by
  unfold source; split
  · rfl
  · exact sourceFirst_parent e i f

/-- The rule of invariants: `P` holds of everything below `s` throughout a history if every action that is allowed by
`Q` preserves it. -/
structure Keeps (e : Env) (Q : Op → Prop) (P : Nat → Ip → Prop) (s : Nat) : Prop where
  create : ∀ a p opts c n, n ≠ s → P a p → Q (.create a opts) → newInterp e a p opts = some c → P n c
  conf : ∀ a j i self opts, P j i → Q (.conf a j opts) → P j { i with opt := confRec e self i.opt opts }
  source : ∀ a j i f, P j i → Q (.source a j f) → P j (source e i f).1
  plain : ∀ a i, P a i → P a { i with included := true }
  edit : ∀ a i o l, P a i → Q (.edit a o l) → kindOf o = .array → P a { i with opt := editRec i o l }

def All (P : Nat → Ip → Prop) (w : World) (s : Nat) : Prop :=
  ∀ j i, w[j]? = some i → Within w s j → P j i

theorem all_set {P : Nat → Ip → Prop} {w : World} {s j : Nat} {i i' : Ip} (h : All P w s) (hi : w[j]? = some i)
    (hp : i'.parent = i.parent) (hP : P j i → P j i') : All P (w.set j i') s := by
  have hlt : j < w.length := (List.getElem?_eq_some_iff.1 hi).1
  intro k x hk hx
  have hx' := within_set hi hp hx
  rw [List.getElem?_set] at hk
  split at hk
  · rename_i hjk
    cases hk
    subst hjk
    exact hP (h j i hi hx')
  · exact h k x hk hx'

theorem step_all {e : Env} {Q : Op → Prop} {P : Nat → Ip → Prop} {s : Nat} (hk : Keeps e Q P s) (w : World)
    (hw : Wf w) (hs : s < w.length) (h : All P w s) (op : Op) (hq : Q op) :
    Wf (step e w op) ∧ s < (step e w op).length ∧ All P (step e w op) s := by
  cases op with
  | create a opts =>
    rw [step]
    split
    · exact ⟨hw, hs, h⟩
    · rename_i p hp
      split
      · exact ⟨hw, hs, h⟩
      · rename_i c hc
        have ha : a < w.length := (List.getElem?_eq_some_iff.1 hp).1
        have hcp : c.parent = some a :=
          (finish_cases _ _ _ _ _ (newInterp_cases _ _ _ _ _ hc).2.2.2).1
        refine ⟨wf_append hw ha hcp, by simp; omega, ?_⟩
        intro k x hk' hx
        rcases within_append hw hs ha hcp hx with ⟨hl, hx'⟩ | ⟨hl, hx'⟩
        · rcases get_append hk' with ⟨_, h'⟩ | ⟨h', _⟩
          · exact h k x h' hx'
          · omega
        · rcases get_append hk' with ⟨h', _⟩ | ⟨_, rfl⟩
          · omega
          · exact hk.create a p opts _ k (by omega) (h a p hp hx') hq hc
  | conf a j opts =>
    rw [step]
    split
    · exact ⟨hw, hs, h⟩
    · rename_i i hi
      split
      · exact ⟨wf_set hw hi rfl, by simpa using hs, all_set h hi rfl (fun hP => hk.conf a j i _ opts hP hq)⟩
      · exact ⟨hw, hs, h⟩
  | source a j f =>
    rw [step]
    split
    · exact ⟨hw, hs, h⟩
    · rename_i i hi
      split
      · exact ⟨wf_set hw hi (source_parent e i f), by simpa using hs,
          all_set h hi (source_parent e i f) (fun hP => hk.source a j i f hP hq)⟩
      · exact ⟨hw, hs, h⟩
  | plainSource a =>
    rw [step]
    split
    · exact ⟨hw, hs, h⟩
    · rename_i i hi
      exact ⟨wf_set hw hi rfl, by simpa using hs, all_set h hi rfl (fun hP => hk.plain a i hP)⟩
  | edit a o l =>
    rw [step]
    split
    · exact ⟨hw, hs, h⟩
    · rename_i i hi
      split
      · rename_i hd
        exact ⟨wf_set hw hi rfl, by simpa using hs, all_set h hi rfl (fun hP => hk.edit a i o l hP hq hd.1)⟩
      · exact ⟨hw, hs, h⟩

theorem run_all {e : Env} {Q : Op → Prop} {P : Nat → Ip → Prop} {s : Nat} (hk : Keeps e Q P s) :
    ∀ (ops : List Op) (w : World), (∀ op ∈ ops, Q op) → Wf w → s < w.length → All P w s →
      All P (run e w ops) s := by
  intro ops
  induction ops with
  | nil => intro w _ _ _ h; exact h
  | cons op t ih =>
    intro w hq hw hs h
    obtain ⟨h1, h2, h3⟩ := step_all hk w hw hs h op (hq op List.mem_cons_self)
    exact ih _ (fun o ho => hq o (List.mem_cons_of_mem _ ho)) h1 h2 h3

/-- Before `s` has created anything, only `s` is below `s`. -/
theorem all_start {P : Nat → Ip → Prop} {w : World} {s : Nat} {S : Ip} (hS : w[s]? = some S) (hn : NoSubs w s)
    (h : P s S) : All P w s := by
  have only : ∀ j, Within w s j → j = s := by
    intro j hj
    induction hj with
    | self => rfl
    | sub _ hk hx ih => subst ih; exact absurd hx (hn _ _ hk)
  intro j i hi hj
  have := only j hj
  subst this
  rw [hS] at hi
  cases hi
  exact h

end Verif.Interp
