import Verif.Hash.Spec
import Mathlib.Data.List.Perm.Basic
import Mathlib.Data.List.Nodup

/-! Chains, buckets and searches. -/

namespace Verif.Hash

variable {K V : Type}

theorem flatten_modify_cons {α} (bs : List (List α)) (i : Nat) (e : α) (h : i < bs.length) :
    (bs.modify i (e :: ·)).flatten.Perm (e :: bs.flatten) := by
  induction bs generalizing i with
  | nil => simp at h
  | cons b bs ih =>
    cases i with
    | zero => simp
    | succ i =>
      simp only [List.modify_succ_cons, List.flatten_cons]
      have := ih i (by simpa using h)
      exact (List.Perm.append_left b this).trans List.perm_middle

theorem getD_modify {α} (bs : List (List α)) (i j : Nat) (f : List α → List α)
    (h : i < bs.length) :
    (bs.modify i f).getD j [] = if j = i then f (bs.getD j []) else bs.getD j [] := by
  simp only [List.getD_eq_getElem?_getD, List.getElem?_modify]
  by_cases hj : j = i
  · subst hj; simp [h]
  · rw [if_neg hj]
    have : ¬ i = j := fun h => hj h.symm
    simp [this]

theorem mem_flatten_getD {α} (bs : List (List α)) (e : α) :
    e ∈ bs.flatten ↔ ∃ i, i < bs.length ∧ e ∈ bs.getD i [] := by
  rw [List.mem_flatten]
  constructor
  · rintro ⟨l, hl, he⟩
    obtain ⟨i, hi, rfl⟩ := List.getElem_of_mem hl
    exact ⟨i, hi, by simpa [List.getD_eq_getElem?_getD, hi] using he⟩
  · rintro ⟨i, hi, he⟩
    refine ⟨bs[i], List.getElem_mem hi, ?_⟩
    simpa [List.getD_eq_getElem?_getD, hi] using he

theorem flatten_modify_erase {α} (bs : List (List α)) (i : Nat) (p : α → Bool) (e : α)
    (he : e ∈ bs.getD i []) (hp : p e = true) (hu : ∀ x ∈ bs.getD i [], p x = true → x = e) :
    (e :: (bs.modify i (fun c => c.eraseP p)).flatten).Perm bs.flatten := by
  induction bs generalizing i with
  | nil => simp at he
  | cons b bs ih =>
    cases i with
    | zero =>
      simp only [List.getD_cons_zero] at he hu
      simp only [List.modify_zero_cons, List.flatten_cons]
      rw [← List.cons_append]
      refine List.Perm.append_right _ ?_
      clear ih
      induction b with
      | nil => simp at he
      | cons x xs ih =>
        by_cases hx : p x = true
        · have hxe := hu x (by simp) hx
          rw [List.eraseP_cons_of_pos hx, hxe]
        · rw [List.eraseP_cons_of_neg hx]
          have hne : e ≠ x := fun h => hx (h ▸ hp)
          have he' : e ∈ xs := by simpa [hne] using he
          exact (List.Perm.swap _ _ _).trans
            (List.Perm.cons _ (ih he' (fun y hy => hu y (by simp [hy]))))
    | succ i =>
      simp only [List.modify_succ_cons, List.flatten_cons]
      have := ih i (by simpa using he) (by simpa using hu)
      exact List.perm_middle.symm.trans (List.Perm.append_left b this)

/-- From any point of a search, the entries still to come. -/
theorem searchFrom_eq (t : Tbl K V) (hl : t.buckets.length = t.numBuckets) :
    ∀ (n i : Nat) (c : List (Entry K V)),
      (c ++ (t.buckets.drop i).flatten).length < n →
      searchFrom t n ⟨i, c⟩ = c ++ (t.buckets.drop i).flatten := by
  have hskip : ∀ d i, t.numBuckets - i = d →
      skip t ⟨i, []⟩ =
        match (t.buckets.drop i).dropWhile (·.isEmpty) with
        | [] => none
        | c :: rest => some ⟨t.numBuckets - rest.length, c⟩ := by
    intro d
    induction d with
    | zero =>
      intro i hi
      have hd : t.buckets.drop i = [] := List.drop_eq_nil_of_le (by omega)
      unfold skip
      simp [hd, show t.numBuckets ≤ i by omega]
    | succ d ih =>
      intro i hi
      have hi' : i < t.buckets.length := by omega
      have hnl : ¬ t.numBuckets ≤ i := by omega
      unfold skip
      have hg : t.buckets.getD i [] = t.buckets[i] := by
        simp [List.getD_eq_getElem?_getD, hi']
      have hd : t.buckets.drop i = t.buckets[i] :: t.buckets.drop (i + 1) :=
        List.drop_eq_getElem_cons hi'
      simp only [hnl, dite_false, hg]
      rw [hd]
      cases hb : t.buckets[i] with
      | nil => simp only [List.dropWhile_cons, List.isEmpty_nil, if_true]; exact ih (i + 1) (by omega)
      | cons x xs =>
        simp only [List.dropWhile_cons, List.isEmpty_cons, Bool.false_eq_true, if_false]
        unfold skip
        simp only [List.length_drop, Option.some.injEq, Search.mk.injEq, and_true]
        omega
  have hfl : ∀ (l : List (List (Entry K V))),
      l.flatten = (l.dropWhile (·.isEmpty)).flatten := by
    intro l
    induction l with
    | nil => rfl
    | cons a l ih =>
      cases a with
      | nil => simp [List.dropWhile_cons, ih]
      | cons x xs => simp [List.dropWhile_cons]
  have hsuf : ∀ (l : List (List (Entry K V))), l.dropWhile (·.isEmpty) <:+ l :=
    fun l => List.dropWhile_suffix _
  intro n
  induction n with
  | zero => intro i c h; omega
  | succ n ih =>
    intro i c h
    unfold searchFrom searchNext
    cases c with
    | cons e r =>
      unfold skip
      simp only []
      rw [ih i r (by simp at h ⊢; omega)]
      rfl
    | nil =>
      rw [hskip _ i rfl]
      have hf := hfl (t.buckets.drop i)
      have hs := hsuf (t.buckets.drop i)
      cases hw : (t.buckets.drop i).dropWhile (·.isEmpty) with
      | nil => rw [hw] at hf; simp only [hf]; rfl
      | cons c rest =>
        rw [hw] at hf hs
        have hc : c.isEmpty = false := by
          have := List.head?_dropWhile_not (·.isEmpty) (t.buckets.drop i)
          rw [hw] at this
          simpa using this
        cases c with
        | nil => simp at hc
        | cons e r =>
          simp only []
          have hdrop : t.buckets.drop (t.numBuckets - rest.length) = rest := by
            have h1 : ((e :: r) :: rest) <:+ t.buckets := hs.trans (List.drop_suffix _ _)
            have h2 : rest <:+ t.buckets := (List.suffix_cons _ _).trans h1
            have := List.suffix_iff_eq_drop.mp h2
            rw [hl] at this
            exact this.symm
          rw [ih _ r (by rw [hdrop]; rw [hf] at h; simp at h ⊢; omega), hdrop, hf]
          simp

end Verif.Hash
