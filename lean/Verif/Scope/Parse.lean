import Verif.Scope.Model
import Verif.Scope.Spec

/-!
The parser notes at each function the names declared in it (C141), if all functions are written with `function`, or
are arrow functions with a parameter and without declarations.
-/

namespace Verif.Scope

mutual
/-- The notes at all functions are right. -/
def Expr.Good : Expr (List Name) → Prop
  | .asg _ e => e.Good
  | .add a b => a.Good ∧ b.Good
  | .fn self f => self = none ∧ f.Good
  | .call f as => f.Good ∧ as.Good
  | _ => True
def Args.Good : Args (List Name) → Prop
  | .nil => True
  | .cons e r => e.Good ∧ r.Good
def Fn.Good : Fn (List Name) → Prop
  | .mk _ ps b l => (∀ x, x ∈ l ↔ x ∈ b.declared) ∧ (∀ x ∈ ps, x ∉ l) ∧ b.Good
def Stmt.Good : Stmt (List Name) → Prop
  | .expr e => e.Good
  | .init _ e => e.Good
  | .func _ f => f.Good
  | .seq s t => s.Good ∧ t.Good
  | .ite c s t => c.Good ∧ s.Good ∧ t.Good
  | .loop c s => c.Good ∧ s.Good
  | .ret e => e.Good
  | .throw e => e.Good
  | .tryCatch s _ t => s.Good ∧ t.Good
  | _ => True
end

/-- Adding names to the current scope. -/
def addAll (l : List Name) : List Name → List Name
  | [] => l
  | x :: r => addAll (if x ∈ l then l else l ++ [x]) r

theorem addAll_append (l a b : List Name) : addAll l (a ++ b) = addAll (addAll l a) b := by
  induction a generalizing l with
  | nil => rfl
  | cons x a ih => exact ih _

theorem mem_addAll (l a : List Name) (x : Name) : x ∈ addAll l a ↔ x ∈ l ∨ x ∈ a := by
  induction a generalizing l with
  | nil => simp [addAll]
  | cons y a ih =>
    rw [addAll, ih]
    split
    · rename_i h
      simp only [List.mem_cons]
      constructor
      · rintro (h | h)
        · exact .inl h
        · exact .inr (.inr h)
      · rintro (h | h | h)
        · exact .inl h
        · subst h; exact .inl (by assumption)
        · exact .inr h
    · simp only [List.mem_append, List.mem_singleton, List.mem_cons, List.mem_nil_iff, or_false]
      constructor
      · rintro ((h | h) | h) <;> simp [h]
      · rintro (h | h | h) <;> simp [h]

theorem addVar_cons (x : Name) (l : List Name) (r : Scopes) : addVar x (l :: r) = addAll l [x] :: r := by
  simp only [addVar, addAll]
  split <;> rfl

theorem pop_cons2 (a b : List Name) (r : Scopes) : pop (a :: b :: r) = b :: r := by
  unfold pop; rw [if_neg (by simp only [List.length_cons]; omega)]; rfl

theorem checkParams_disj {ps l : List Name} (h : checkParams ps l = true) : ∀ x ∈ ps, x ∉ l := by
  unfold checkParams at h
  simp only [decide_eq_true_eq] at h
  exact h.2

set_option linter.unusedVariables false in
mutual

theorem parseE_ok : ∀ (e : Expr Unit) (d : Nat) (l : List Name) (r s' : Scopes) (c : Expr (List Name)),
    e.Plain d → (l :: r).length + d ≤ maxScope → parseE e (l :: r) = some (c, s') →
    s' = l :: r ∧ c.erase = e ∧ c.Good
  | .undef, d, l, r, s', c, hp, hd, h => by
    simp only [parseE, Option.some.injEq, Prod.mk.injEq] at h
    obtain ⟨rfl, rfl⟩ := h; exact ⟨rfl, rfl, trivial⟩
  | .num _, d, l, r, s', c, hp, hd, h => by
    simp only [parseE, Option.some.injEq, Prod.mk.injEq] at h
    obtain ⟨rfl, rfl⟩ := h; exact ⟨rfl, rfl, trivial⟩
  | .var _, d, l, r, s', c, hp, hd, h => by
    simp only [parseE, Option.some.injEq, Prod.mk.injEq] at h
    obtain ⟨rfl, rfl⟩ := h; exact ⟨rfl, rfl, trivial⟩
  | .asg x e, d, l, r, s', c, hp, hd, h => by
    simp only [parseE, Option.map_eq_some_iff, Prod.mk.injEq] at h
    obtain ⟨⟨c1, s1⟩, h1, rfl, rfl⟩ := h
    simp only [Expr.Plain] at hp
    obtain ⟨rfl, e1, g1⟩ := parseE_ok e d l r s1 c1 hp hd h1
    exact ⟨rfl, by simp only [Expr.erase, e1], g1⟩
  | .add a b, d, l, r, s', c, hp, hd, h => by
    simp only [parseE, Option.bind_eq_some_iff, Option.map_eq_some_iff, Prod.mk.injEq] at h
    obtain ⟨⟨c1, s1⟩, h1, ⟨c2, s2⟩, h2, rfl, rfl⟩ := h
    simp only [Expr.Plain] at hp
    obtain ⟨rfl, e1, g1⟩ := parseE_ok a d l r s1 c1 hp.1 hd h1
    obtain ⟨rfl, e2, g2⟩ := parseE_ok b d l r s2 c2 hp.2 hd h2
    exact ⟨rfl, by simp only [Expr.erase, e1, e2], g1, g2⟩
  | .fn n f, d, l, r, s', c, hp, hd, h => by
    simp only [parseE, Option.map_eq_some_iff, Prod.mk.injEq] at h
    obtain ⟨⟨c1, s1⟩, h1, rfl, rfl⟩ := h
    simp only [Expr.Plain] at hp
    obtain ⟨rfl, e1, g1⟩ := parseF_ok f d l r s1 c1 hp.2 hd h1
    exact ⟨rfl, by simp only [Expr.erase, e1], hp.1, g1⟩
  | .call a b, d, l, r, s', c, hp, hd, h => by
    simp only [parseE, Option.bind_eq_some_iff, Option.map_eq_some_iff, Prod.mk.injEq] at h
    obtain ⟨⟨c1, s1⟩, h1, ⟨c2, s2⟩, h2, rfl, rfl⟩ := h
    simp only [Expr.Plain] at hp
    obtain ⟨rfl, e1, g1⟩ := parseE_ok a d l r s1 c1 hp.1 hd h1
    obtain ⟨rfl, e2, g2⟩ := parseA_ok b d l r s2 c2 hp.2 hd h2
    exact ⟨rfl, by simp only [Expr.erase, e1, e2], g1, g2⟩

theorem parseA_ok : ∀ (e : Args Unit) (d : Nat) (l : List Name) (r s' : Scopes) (c : Args (List Name)),
    e.Plain d → (l :: r).length + d ≤ maxScope → parseA e (l :: r) = some (c, s') →
    s' = l :: r ∧ c.erase = e ∧ c.Good
  | .nil, d, l, r, s', c, hp, hd, h => by
    simp only [parseA, Option.some.injEq, Prod.mk.injEq] at h
    obtain ⟨rfl, rfl⟩ := h; exact ⟨rfl, rfl, trivial⟩
  | .cons a b, d, l, r, s', c, hp, hd, h => by
    simp only [parseA, Option.bind_eq_some_iff, Option.map_eq_some_iff, Prod.mk.injEq] at h
    obtain ⟨⟨c1, s1⟩, h1, ⟨c2, s2⟩, h2, rfl, rfl⟩ := h
    simp only [Args.Plain] at hp
    obtain ⟨rfl, e1, g1⟩ := parseE_ok a d l r s1 c1 hp.1 hd h1
    obtain ⟨rfl, e2, g2⟩ := parseA_ok b d l r s2 c2 hp.2 hd h2
    exact ⟨rfl, by simp only [Args.erase, e1, e2], g1, g2⟩

theorem parseF_ok : ∀ (f : Fn Unit) (d : Nat) (l : List Name) (r s' : Scopes) (c : Fn (List Name)),
    f.Plain d → (l :: r).length + d ≤ maxScope → parseF f (l :: r) = some (c, s') →
    s' = l :: r ∧ c.erase = f ∧ c.Good
  | .mk k ps b u, d, l, r, s', c, hp, hd, h => by
    simp only [parseF, Option.bind_eq_some_iff] at h
    obtain ⟨⟨c1, s1⟩, h1, h2⟩ := h
    simp only [Fn.Plain] at hp
    obtain ⟨hk, hd0, hb⟩ := hp
    simp only [List.length_cons] at hd
    rcases hk with rfl | ⟨rfl, hne, hde⟩
    · simp only [enter] at h1
      have e1 : push (l :: r) = [] :: l :: r := by
        unfold push; rw [if_neg (by simp only [List.length_cons]; omega)]
      rw [e1] at h1
      obtain ⟨rfl, e2, g2⟩ := parseS_ok b (d - 1) [] (l :: r) s1 c1 hb (by simp only [List.length_cons]; omega) h1
      split at h2
      case isFalse => simp at h2
      rename_i hc
      simp only [atMake, varlist, List.headD_cons, leave, pop_cons2] at h2 hc
      simp only [Option.some.injEq, Prod.mk.injEq] at h2
      obtain ⟨rfl, rfl⟩ := h2
      refine ⟨rfl, by simp only [Fn.erase, e2], fun x => ?_, checkParams_disj hc, g2⟩
      rw [mem_addAll, ← Stmt.declared_erase c1, e2]
      simp
    · simp only [enter, if_neg hne] at h1
      obtain ⟨rfl, e2, g2⟩ := parseS_ok b (d - 1) l r s1 c1 hb (by simp only [List.length_cons]; omega) h1
      rw [hde] at h2
      have e1 : push (addAll l [] :: r) = [] :: l :: r := by
        unfold push; rw [if_neg (by simp only [List.length_cons]; omega)]; rfl
      split at h2
      case isFalse => simp at h2
      simp only [atMake, e1, varlist, List.headD_cons, leave, pop_cons2] at h2
      simp only [Option.some.injEq, Prod.mk.injEq] at h2
      obtain ⟨rfl, rfl⟩ := h2
      refine ⟨rfl, by simp only [Fn.erase, e2], fun x => ?_, by simp, g2⟩
      rw [← Stmt.declared_erase c1, e2, hde]

theorem parseS_ok : ∀ (s : Stmt Unit) (d : Nat) (l : List Name) (r s' : Scopes) (c : Stmt (List Name)),
    s.Plain d → (l :: r).length + d ≤ maxScope → parseS s (l :: r) = some (c, s') →
    s' = addAll l s.declared :: r ∧ c.erase = s ∧ c.Good
  | .skip, d, l, r, s', c, hp, hd, h => by
    simp only [parseS, Option.some.injEq, Prod.mk.injEq] at h
    obtain ⟨rfl, rfl⟩ := h; exact ⟨rfl, rfl, trivial⟩
  | .expr e, d, l, r, s', c, hp, hd, h => by
    simp only [parseS, Option.map_eq_some_iff, Prod.mk.injEq] at h
    obtain ⟨⟨c1, s1⟩, h1, rfl, rfl⟩ := h
    simp only [Stmt.Plain] at hp
    obtain ⟨rfl, e1, g1⟩ := parseE_ok e d l r s1 c1 hp hd h1
    exact ⟨rfl, by simp only [Stmt.erase, e1], g1⟩
  | .bare x, d, l, r, s', c, hp, hd, h => by
    simp only [parseS, Option.some.injEq, Prod.mk.injEq] at h
    obtain ⟨rfl, rfl⟩ := h; exact ⟨addVar_cons _ _ _, rfl, trivial⟩
  | .init x e, d, l, r, s', c, hp, hd, h => by
    simp only [parseS, Option.map_eq_some_iff, Prod.mk.injEq] at h
    obtain ⟨⟨c1, s1⟩, h1, rfl, rfl⟩ := h
    simp only [Stmt.Plain] at hp
    obtain ⟨rfl, e1, g1⟩ := parseE_ok e d l r s1 c1 hp hd h1
    exact ⟨addVar_cons _ _ _, by simp only [Stmt.erase, e1], g1⟩
  | .func x f, d, l, r, s', c, hp, hd, h => by
    simp only [parseS, addVar_cons, Option.map_eq_some_iff, Prod.mk.injEq] at h
    obtain ⟨⟨c1, s1⟩, h1, rfl, rfl⟩ := h
    simp only [Stmt.Plain] at hp
    obtain ⟨rfl, e1, g1⟩ := parseF_ok f d (addAll l [x]) r s1 c1 hp hd h1
    exact ⟨rfl, by simp only [Stmt.erase, e1], g1⟩
  | .seq a b, d, l, r, s', c, hp, hd, h => by
    simp only [parseS, Option.bind_eq_some_iff, Option.map_eq_some_iff, Prod.mk.injEq] at h
    obtain ⟨⟨c1, s1⟩, h1, ⟨c2, s2⟩, h2, rfl, rfl⟩ := h
    simp only [Stmt.Plain] at hp
    obtain ⟨rfl, e1, g1⟩ := parseS_ok a d l r s1 c1 hp.1 hd h1
    obtain ⟨rfl, e2, g2⟩ := parseS_ok b d (addAll l a.declared) r s2 c2 hp.2 hd h2
    exact ⟨by rw [Stmt.declared, addAll_append], by simp only [Stmt.erase, e1, e2], g1, g2⟩
  | .ite q a b, d, l, r, s', c, hp, hd, h => by
    simp only [parseS, Option.bind_eq_some_iff, Option.map_eq_some_iff, Prod.mk.injEq] at h
    obtain ⟨⟨c0, s0⟩, h0, ⟨c1, s1⟩, h1, ⟨c2, s2⟩, h2, rfl, rfl⟩ := h
    simp only [Stmt.Plain] at hp
    obtain ⟨rfl, e0, g0⟩ := parseE_ok q d l r s0 c0 hp.1 hd h0
    obtain ⟨rfl, e1, g1⟩ := parseS_ok a d l r s1 c1 hp.2.1 hd h1
    obtain ⟨rfl, e2, g2⟩ := parseS_ok b d (addAll l a.declared) r s2 c2 hp.2.2 hd h2
    exact ⟨by rw [Stmt.declared, addAll_append], by simp only [Stmt.erase, e0, e1, e2], g0, g1, g2⟩
  | .loop q a, d, l, r, s', c, hp, hd, h => by
    simp only [parseS, Option.bind_eq_some_iff, Option.map_eq_some_iff, Prod.mk.injEq] at h
    obtain ⟨⟨c0, s0⟩, h0, ⟨c1, s1⟩, h1, rfl, rfl⟩ := h
    simp only [Stmt.Plain] at hp
    obtain ⟨rfl, e0, g0⟩ := parseE_ok q d l r s0 c0 hp.1 hd h0
    obtain ⟨rfl, e1, g1⟩ := parseS_ok a d l r s1 c1 hp.2 hd h1
    exact ⟨rfl, by simp only [Stmt.erase, e0, e1], g0, g1⟩
  | .ret e, d, l, r, s', c, hp, hd, h => by
    simp only [parseS, Option.map_eq_some_iff, Prod.mk.injEq] at h
    obtain ⟨⟨c1, s1⟩, h1, rfl, rfl⟩ := h
    simp only [Stmt.Plain] at hp
    obtain ⟨rfl, e1, g1⟩ := parseE_ok e d l r s1 c1 hp hd h1
    exact ⟨rfl, by simp only [Stmt.erase, e1], g1⟩
  | .throw e, d, l, r, s', c, hp, hd, h => by
    simp only [parseS, Option.map_eq_some_iff, Prod.mk.injEq] at h
    obtain ⟨⟨c1, s1⟩, h1, rfl, rfl⟩ := h
    simp only [Stmt.Plain] at hp
    obtain ⟨rfl, e1, g1⟩ := parseE_ok e d l r s1 c1 hp hd h1
    exact ⟨rfl, by simp only [Stmt.erase, e1], g1⟩
  | .tryCatch a x b, d, l, r, s', c, hp, hd, h => by
    simp only [parseS, Option.bind_eq_some_iff, Option.map_eq_some_iff, Prod.mk.injEq] at h
    obtain ⟨⟨c1, s1⟩, h1, ⟨c2, s2⟩, h2, rfl, rfl⟩ := h
    simp only [Stmt.Plain] at hp
    obtain ⟨rfl, e1, g1⟩ := parseS_ok a d l r s1 c1 hp.1 hd h1
    obtain ⟨rfl, e2, g2⟩ := parseS_ok b d (addAll l a.declared) r s2 c2 hp.2 hd h2
    exact ⟨by rw [Stmt.declared, addAll_append], by simp only [Stmt.erase, e1, e2], g1, g2⟩

end

end Verif.Scope
