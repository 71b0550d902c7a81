import Verif.File.Remove

/-! Lemmas on trees and on resolution in a tree from which something was removed. -/

namespace Verif.File
open Verif.Path

/-- `a` is `b` without some objects. -/
def Less (a b : Fs) : Prop := ∀ l, a l = none ∨ a l = b l

theorem Less.refl (a : Fs) : Less a a := fun _ => .inr rfl

theorem Less.trans {a b c : Fs} (h : Less a b) (g : Less b c) : Less a c := by
  intro l
  rcases h l with h | h
  · exact .inl h
  · rcases g l with g | g
    · exact .inl (h.trans g)
    · exact .inr (h.trans g)

theorem Less.some {a b : Fs} (h : Less a b) {l : Loc} {n : Node} (e : a l = .some n) : b l = .some n := by
  rcases h l with h | h
  · rw [h] at e; cases e
  · rw [← h]; exact e

theorem walkWith_less {a b : Fs} (hab : Less a b) (more more' : Loc → List Str → Option Loc)
    (hm : ∀ c cs l, more c cs = some l → more' c cs = some l) :
    ∀ (cs : List Str) (cur l : Loc), walkWith a false more cur cs = some l →
      walkWith b false more' cur cs = some l := by
  intro cs
  induction cs with
  | nil => intro cur l h; exact h
  | cons c cs ih =>
    intro cur l h
    simp only [walkWith] at h ⊢
    split at h
    · cases h
    rename_i h1
    have h1' : a cur = some .dir := Decidable.not_not.1 h1
    rw [if_neg (by rw [hab.some h1']; simp)]
    split at h
    · rename_i h2; rw [if_pos h2]; exact ih cur l h
    rename_i h2
    rw [if_neg h2]
    split at h
    · rename_i h3; rw [if_pos h3]; exact ih _ l h
    rename_i h3
    rw [if_neg h3]
    split at h
    · simp at h
    · rename_i t ht
      rw [hab.some ht]
      simp only []
      split at h
      · rename_i h5; rw [if_pos h5]; exact hm _ _ _ h
      · rename_i h5; rw [if_neg h5]; exact hm _ _ _ h
    · rename_i x hx ht
      rw [hab.some ht]
      have := ih _ l h
      cases x with
      | link t => exact absurd rfl (hx t)
      | file => exact this
      | dir => exact this

theorem walk_less {a b : Fs} (hab : Less a b) (n : Nat) : ∀ (cs : List Str) (cur l : Loc),
    walk a false n cur cs = some l → walk b false n cur cs = some l := by
  induction n with
  | zero => intro cs cur l; exact walkWith_less hab _ _ (by simp) cs cur l
  | succ n ih => intro cs cur l; exact walkWith_less hab _ _ (fun c cs l => ih cs c l) cs cur l

theorem resolve_less {a b : Fs} (hab : Less a b) {cwd : Loc} {p : Str} {l : Loc}
    (h : resolve a cwd p = some l) : resolve b cwd p = some l := by
  unfold resolve at h ⊢
  split at h
  · cases h
  rename_i h0
  rw [if_neg h0]
  exact walk_less hab _ _ _ _ h

theorem removeAt_less {a b : Fs} (hab : Less a b) {cwd : Loc} {p : Str} {l : Loc}
    (h : removeAt a cwd p = some l) : removeAt b cwd p = some l := by
  unfold removeAt at h ⊢
  cases hn : lastName p with
  | none => rw [hn] at h; cases h
  | some x =>
    obtain ⟨ds, n⟩ := x
    rw [hn] at h
    simp only [] at h ⊢
    cases hw : walk a false 40 (start cwd p) ds with
    | none => rw [hw] at h; cases h
    | some d =>
      rw [hw] at h
      rw [walk_less hab _ _ _ _ hw]
      simp only [] at h ⊢
      split at h
      · rename_i h1
        cases h
        have : b (d ++ [n]) ≠ none := by
          cases e : a (d ++ [n]) with
          | none => exact absurd e h1.2
          | some x => rw [hab.some e]; simp
        rw [if_pos ⟨hab.some h1.1, this⟩]
      · cases h

/-- More names looked up from directory `L`. -/
def onward (fs : Fs) (L : Loc) (ns : List Str) (m : Loc → List Str → Option Loc) : Option Loc :=
  walkWith fs false m L ns

/-- Resolution of a path with more names. -/
theorem walkWith_append {fs : Fs} (more : Loc → List Str → Option Loc) (ns : List Str) (L : Loc)
    (hm : ∀ c cs, more c cs = some L → ∃ m, more c (cs ++ ns) = onward fs L ns m) :
    ∀ (cs : List Str) (cur : Loc), walkWith fs false more cur cs = some L →
      ∃ m, walkWith fs false more cur (cs ++ ns) = onward fs L ns m := by
  intro cs
  induction cs with
  | nil => intro cur h; simp only [walkWith, Option.some.injEq] at h; subst h; exact ⟨more, rfl⟩
  | cons c cs ih =>
    intro cur h
    simp only [walkWith, List.cons_append] at h ⊢
    split at h
    · cases h
    rename_i h1
    rw [if_neg h1]
    split at h
    · rename_i h2; rw [if_pos h2]; exact ih cur h
    rename_i h2
    rw [if_neg h2]
    split at h
    · rename_i h3; rw [if_pos h3]; exact ih _ h
    rename_i h3
    rw [if_neg h3]
    cases hx : fs (cur ++ [c]) with
    | none => rw [hx] at h; simp at h
    | some x =>
      rw [hx] at h
      cases x with
      | link t =>
        simp only [] at h ⊢
        split at h
        · rename_i h5; rw [if_pos h5]
          obtain ⟨m, e⟩ := hm _ _ h
          exact ⟨m, by rw [← e]; simp⟩
        · rename_i h5; rw [if_neg h5]
          obtain ⟨m, e⟩ := hm _ _ h
          exact ⟨m, by rw [← e]; simp⟩
      | file => exact ih _ h
      | dir => exact ih _ h

theorem walk_append {fs : Fs} (ns : List Str) (L : Loc) (k : Nat) :
    ∀ (cs : List Str) (cur : Loc), walk fs false k cur cs = some L →
      ∃ m, walk fs false k cur (cs ++ ns) = onward fs L ns m := by
  induction k with
  | zero => intro cs cur; exact walkWith_append _ ns L (by simp) cs cur
  | succ k ih => intro cs cur; exact walkWith_append _ ns L (fun c cs h => ih cs c h) cs cur

/-- A path and the name of a sub-directory: the sub-directory. -/
theorem resolve_snoc {fs : Fs} {cwd L : Loc} {p n : Str} (hn : GoodName n) (hL : fs L = some .dir)
    (h : resolve fs cwd p = some L) (hd : fs (L ++ [n]) = some .dir) :
    resolve fs cwd (p ++ 47 :: n) = some (L ++ [n]) := by
  unfold resolve at h ⊢
  split at h
  · cases h
  rename_i h0
  rw [if_neg (by simp)]
  have hs : start cwd (p ++ 47 :: n) = start cwd p := by
    unfold start
    cases p with
    | nil => exact absurd rfl h0
    | cons x p => rfl
  rw [hs, split_append, split_noslash n hn.2.2.2]
  obtain ⟨m, e⟩ := walk_append [n] L 40 _ _ h
  rw [e]
  obtain ⟨h1, h2, h3, -⟩ := hn
  simp [onward, walkWith, hL, h1, h2, h3, hd]

theorem lastName_snoc {p n : Str} (hn : GoodName n) : lastName (p ++ 47 :: n) = some (Path.split p, n) := by
  unfold lastName
  rw [split_append, split_noslash n hn.2.2.2]
  obtain ⟨h1, h2, h3, -⟩ := hn
  simp [h1, h2, h3]

theorem start_snoc {cwd : Loc} {p n : Str} (h0 : p ≠ []) : start cwd (p ++ 47 :: n) = start cwd p := by
  unfold start
  cases p with
  | nil => exact absurd rfl h0
  | cons x p => rfl

theorem removeAt_snoc {fs : Fs} {cwd L : Loc} {p n : Str} (hn : GoodName n) (hL : fs L = some .dir)
    (h : resolve fs cwd p = some L) (hd : fs (L ++ [n]) ≠ none) :
    removeAt fs cwd (p ++ 47 :: n) = some (L ++ [n]) := by
  unfold resolve at h
  split at h
  · cases h
  rename_i h0
  unfold removeAt
  rw [lastName_snoc hn, start_snoc h0]
  simp only [h]
  rw [if_pos ⟨hL, hd⟩]

theorem removeAt_snoc_only {fs : Fs} {cwd L l : Loc} {p n : Str} (hn : GoodName n)
    (h : resolve fs cwd p = some L) (hr : removeAt fs cwd (p ++ 47 :: n) = some l) : l = L ++ [n] := by
  unfold resolve at h
  split at h
  · cases h
  rename_i h0
  unfold removeAt at hr
  rw [lastName_snoc hn, start_snoc h0] at hr
  simp only [h] at hr
  split at hr
  · exact (Option.some.inj hr).symm
  · cases hr

/-! ### Tables -/

theorem fsOf_del (t : Tab) (l l' : Loc) : fsOf (del t l) l' = if l' = l then none else fsOf t l' := by
  unfold fsOf del
  induction t with
  | nil => simp
  | cons x t ih =>
    obtain ⟨a, b⟩ := x
    by_cases ha : a = l
    · subst ha
      rw [List.filter_cons_of_neg (by simp), ih]
      by_cases h : l' = a
      · simp [h]
      · have hb : (l' == a) = false := by simpa using h
        simp only [if_neg h, List.lookup, hb]
    · rw [List.filter_cons_of_pos (by simpa using ha)]
      by_cases h : l' = a
      · subst h
        have : ¬ l' = l := ha
        simp [List.lookup, this]
      · have hb : (l' == a) = false := by simpa using h
        simp only [List.lookup, hb]
        exact ih

theorem del_less (t : Tab) (l : Loc) : Less (fsOf (del t l)) (fsOf t) := by
  intro l'
  rw [fsOf_del]
  split
  · exact .inl rfl
  · exact .inr rfl

theorem mem_lookup {t : Tab} {l : Loc} {n : Node} (h : (l, n) ∈ t) : fsOf t l ≠ none := by
  unfold fsOf
  induction t with
  | nil => cases h
  | cons x t ih =>
    obtain ⟨a, b⟩ := x
    by_cases ha : l = a
    · simp [List.lookup, ha]
    · have hb : (l == a) = false := by simpa using ha
      simp only [List.lookup, hb]
      refine ih ?_
      rcases List.mem_cons.1 h with h | h
      · exact absurd (congrArg Prod.fst h) ha
      · exact h

theorem mem_names (t : Tab) (d : Loc) (n : Str) : n ∈ names t d ↔ fsOf t (d ++ [n]) ≠ none := by
  unfold names
  rw [List.mem_filterMap]
  constructor
  · rintro ⟨⟨l, x⟩, hm, h⟩
    split at h
    · rename_i h1
      have : l = d ++ [n] := by
        rw [← h1.2]
        have hne : l ≠ [] := h1.1
        have h2 : l.getLast hne = n := by
          rw [List.getLast?_eq_some_getLast hne] at h
          exact Option.some.inj h
        rw [← h2]
        exact (List.dropLast_concat_getLast hne).symm
      subst this
      exact mem_lookup hm
    · cases h
  · intro h
    obtain ⟨x, hx⟩ := lookup_mem h
    exact ⟨(d ++ [n], x), hx, by simp⟩

theorem names_nil (t : Tab) (d : Loc) : names t d = [] ↔ ∀ n, fsOf t (d ++ [n]) = none := by
  rw [List.eq_nil_iff_forall_not_mem]
  constructor
  · intro h n
    have := h n
    rw [mem_names] at this
    exact Decidable.not_not.1 this
  · intro h n
    rw [mem_names, h n]
    simp

theorem mem_entries {t : Tab} {d : Loc} {e : Str × Bool} (h : e ∈ entries t d) :
    fsOf t (d ++ [e.1]) ≠ none ∧ (e.2 = true → fsOf t (d ++ [e.1]) = some .dir) ∧
      (e.2 = false → fsOf t (d ++ [e.1]) ≠ some .dir) := by
  unfold entries at h
  obtain ⟨n, hn, rfl⟩ := List.mem_map.1 h
  exact ⟨(mem_names t d n).1 hn, by simp, by simp⟩

theorem rmOne_elim {c : Ctx} {t t' : Tab} {p : Str} (h : rmOne c t p = some t') :
    ∃ l, removeAt (fsOf t) c.cwd (tilde c.home p) = some l ∧ t' = del t l := by
  unfold rmOne at h
  simp only [] at h
  split at h
  · cases h
  cases hr : removeAt (fsOf t) c.cwd (tilde c.home p) with
  | none => rw [hr] at h; cases h
  | some l =>
    rw [hr] at h
    simp only [] at h
    split at h
    · cases h
    split at h
    · cases h
    split at h
    · exact ⟨l, rfl, (Option.some.inj h).symm⟩
    · cases h

theorem opendir_elim {c : Ctx} {t : Tab} {p : Str} {d : Loc} (h : opendir c t p = some d) :
    resolve (fsOf t) c.cwd p = some d ∧ fsOf t d = some .dir := by
  unfold opendir at h
  split at h
  · cases h
  cases hr : resolve (fsOf t) c.cwd p with
  | none => rw [hr] at h; cases h
  | some l =>
    rw [hr] at h
    simp only [] at h
    split at h
    · rename_i h1
      cases h
      exact ⟨rfl, h1.1⟩
    · cases h

theorem child_eq {p n : Str} (h : (p ++ 47 :: n).length < pathMax) : child p n = p ++ 47 :: n := by
  unfold child
  exact List.take_of_length_le (by unfold pathMax at h ⊢; omega)

theorem resolve_ne {fs : Fs} {cwd l : Loc} {p : Str} (h : resolve fs cwd p = some l) : p ≠ [] := by
  rintro rfl
  simp [resolve] at h

theorem tilde_child {home p n : Str} (h0 : p ≠ []) (h : p.head? ≠ some 126) :
    tilde home (p ++ 47 :: n) = p ++ 47 :: n := by
  refine tilde_of_ne ?_
  cases p with
  | nil => exact absurd rfl h0
  | cons x p => exact h

theorem child_head {p n : Str} (h0 : p ≠ []) (h : p.head? ≠ some 126) : (p ++ 47 :: n).head? ≠ some 126 := by
  cases p with
  | nil => exact absurd rfl h0
  | cons x p => exact h

end Verif.File
