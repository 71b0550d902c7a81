import Verif.Basic
/-!
# Vfs: the directories above the files (C216)

The loop of `VfsVmountCmd` over its file list (src/jsiVfs.c 641-687) with `noAddDirs` unset.  Modelled are the names in `fileHash`; that the entries which
are added for directories have `isdir` set, and what else they hold, is not.
-/
namespace Verif.Vfs

/-- The text before the last `/`.  src/jsiVfs.c:666, 668. -/
def parent (q : List UInt8) : List UInt8 := ((q.reverse.dropWhile (fun c => c != 47)).drop 1).reverse

/-- The code from `aadd`; `fuel`: the length of the path is enough.  src/jsiVfs.c:664-681. -/
def addDirs (mount : List UInt8) : Nat → List (List UInt8) → List UInt8 → List (List UInt8)
  | 0, t, _ => t
  | fuel + 1, t, q =>
    if parent q ≠ [] ∧ q ≠ mount then
      if parent q ∈ t then t
      else if parent q ≠ mount then addDirs mount fuel (parent q :: t) (parent q)
      else parent q :: t
    else t

/-- A file of the list; `none`: "bad or duplicate file".  src/jsiVfs.c:653-686. -/
def addFile (mount : List UInt8) (t : List (List UInt8)) (file : List UInt8) : Option (List (List UInt8)) :=
  if mount ++ 47 :: file ∈ t then none
  else some (addDirs mount (mount ++ 47 :: file).length ((mount ++ 47 :: file) :: t) (mount ++ 47 :: file))

/-- All files of the list. -/
def addFiles (mount : List UInt8) : List (List UInt8) → List (List UInt8) → Option (List (List UInt8))
  | t, [] => some t
  | t, f :: fs =>
    match addFile mount t f with
    | none => none
    | some t => addFiles mount t fs

/-! ## Theorems -/

/-- `a` is the mount or lies in it. -/
def Inside (mount a : List UInt8) : Prop := a = mount ∨ ∃ s, a = mount ++ 47 :: s

theorem parent_of (a t : List UInt8) (ht : (47 : UInt8) ∉ t) : parent (a ++ 47 :: t) = a := by
  unfold parent
  have e : (a ++ 47 :: t).reverse = t.reverse ++ 47 :: a.reverse := by simp
  rw [e]
  have : ∀ l : List UInt8, (47 : UInt8) ∉ l → (l ++ 47 :: a.reverse).dropWhile (fun c => c != 47) = 47 :: a.reverse := by
    intro l
    induction l with
    | nil => intro _; simp
    | cons c l ih =>
      intro h
      have hc : c ≠ 47 := fun e => h (by rw [e]; exact List.mem_cons_self)
      rw [List.cons_append, List.dropWhile_cons, if_pos (by simpa using hc)]
      exact ih (fun hm => h (List.mem_cons_of_mem _ hm))
  rw [this _ (by simpa using ht)]
  simp

theorem last_slash : ∀ s : List UInt8, (47 : UInt8) ∉ s ∨ ∃ u t, s = u ++ 47 :: t ∧ (47 : UInt8) ∉ t
  | [] => Or.inl (by simp)
  | c :: s => by
    rcases last_slash s with h | ⟨u, t, h, ht⟩
    · by_cases hc : c = 47
      · exact Or.inr ⟨[], s, by rw [hc]; rfl, h⟩
      · refine Or.inl ?_
        intro hm
        rcases List.mem_cons.1 hm with h1 | h1
        · exact hc h1.symm
        · exact h h1
    · exact Or.inr ⟨c :: u, t, by rw [h]; rfl, ht⟩

/-- The parent of a path in the mount. -/
theorem parent_inside (mount s : List UInt8) : ∃ t, mount ++ 47 :: s = parent (mount ++ 47 :: s) ++ 47 :: t ∧ Inside mount (parent (mount ++ 47 :: s)) := by
  rcases last_slash s with h | ⟨u, t, rfl, ht⟩
  · rw [parent_of mount s h]
    exact ⟨s, rfl, Or.inl rfl⟩
  · have e : mount ++ 47 :: (u ++ 47 :: t) = (mount ++ 47 :: u) ++ 47 :: t := by simp
    rw [e, parent_of _ t ht]
    exact ⟨t, rfl, Or.inr ⟨u, rfl⟩⟩

theorem addDirs_spec (mount : List UInt8) (hm : mount ≠ []) : ∀ (fuel : Nat) (t : List (List UInt8)) (q : List UInt8), q.length ≤ fuel → Inside mount q →
    q ∈ t → (∀ x ∈ t, Inside mount x) → (∀ x ∈ t, x ≠ mount → x ≠ q → parent x ∈ t) →
    (∀ x ∈ t, x ∈ addDirs mount fuel t q) ∧ (∀ x ∈ addDirs mount fuel t q, Inside mount x) ∧
      (∀ x ∈ addDirs mount fuel t q, x ≠ mount → parent x ∈ addDirs mount fuel t q) ∧
      (∀ x ∈ addDirs mount fuel t q, x ∈ t ∨ ∃ r, q = x ++ 47 :: r)
  | 0, t, q, hf, hq, _, _, _ => by
    have : q = [] := List.length_eq_zero_iff.1 (by omega)
    rcases hq with h | ⟨s, h⟩
    · rw [this] at h; exact absurd h.symm hm
    · rw [this] at h
      have := congrArg List.length h
      simp at this
  | fuel + 1, t, q, hf, hq, hqt, hin, hcl => by
    rcases hq with rfl | ⟨s, hs⟩
    · have e : addDirs q (fuel + 1) t q = t := by
        show (if parent q ≠ [] ∧ q ≠ q then _ else t) = t
        rw [if_neg (fun h => h.2 rfl)]
      rw [e]
      exact ⟨fun x h => h, hin, fun x h hx => hcl x h hx hx, fun x h => Or.inl h⟩
    · obtain ⟨r, hr, hd⟩ := parent_inside mount s
      rw [← hs] at hr hd
      have hne : parent q ≠ [] := by
        intro h
        rcases hd with h1 | ⟨u, h1⟩
        · rw [h] at h1; exact hm h1.symm
        · rw [h] at h1
          have := congrArg List.length h1
          simp at this
      have hqm : q ≠ mount := by
        intro h
        have := congrArg List.length hs
        rw [h] at this
        simp at this
      have hlen : (parent q).length < q.length := by
        have := congrArg List.length hr
        rw [List.length_append, List.length_cons] at this
        omega
      have e : addDirs mount (fuel + 1) t q = if parent q ∈ t then t
          else if parent q ≠ mount then addDirs mount fuel (parent q :: t) (parent q) else parent q :: t := by
        show (if parent q ≠ [] ∧ q ≠ mount then _ else t) = _
        rw [if_pos ⟨hne, hqm⟩]
      by_cases h1 : parent q ∈ t
      · rw [e, if_pos h1]
        refine ⟨fun x h => h, hin, ?_, fun x h => Or.inl h⟩
        intro x hx hxm
        by_cases hxq : x = q
        · rw [hxq]; exact h1
        · exact hcl x hx hxm hxq
      · have hin2 : ∀ x ∈ parent q :: t, Inside mount x := by
          intro x hx
          rcases List.mem_cons.1 hx with h | h
          · rw [h]; exact hd
          · exact hin x h
        have hcl2 : ∀ x ∈ parent q :: t, x ≠ mount → x ≠ parent q → parent x ∈ parent q :: t := by
          intro x hx hxm hxp
          rcases List.mem_cons.1 hx with h | h
          · exact absurd h hxp
          · by_cases hxq : x = q
            · rw [hxq]; exact List.mem_cons_self
            · exact List.mem_cons_of_mem _ (hcl x h hxm hxq)
        by_cases h2 : parent q ≠ mount
        · rw [e, if_neg h1, if_pos h2]
          obtain ⟨i1, i2, i3, i4⟩ := addDirs_spec mount hm fuel (parent q :: t) (parent q) (by omega) hd List.mem_cons_self hin2 hcl2
          refine ⟨fun x h => i1 x (List.mem_cons_of_mem _ h), i2, i3, ?_⟩
          intro x hx
          rcases i4 x hx with h | ⟨w, h⟩
          · rcases List.mem_cons.1 h with h | h
            · exact Or.inr ⟨r, by rw [h]; exact hr⟩
            · exact Or.inl h
          · refine Or.inr ⟨w ++ 47 :: r, ?_⟩
            rw [hr, h]
            simp
        · rw [e, if_neg h1, if_neg h2]
          have h3 : parent q = mount := Classical.not_not.1 h2
          refine ⟨fun x h => List.mem_cons_of_mem _ h, hin2, ?_, ?_⟩
          · intro x hx hxm
            exact hcl2 x hx hxm (by rw [h3]; exact hxm)
          · intro x hx
            rcases List.mem_cons.1 hx with h | h
            · exact Or.inr ⟨r, by rw [h]; exact hr⟩
            · exact Or.inl h

theorem addFiles_spec (mount : List UInt8) (hm : mount ≠ []) : ∀ (fs t r : List (List UInt8)), addFiles mount t fs = some r →
    (∀ x ∈ t, Inside mount x) → (∀ x ∈ t, x ≠ mount → parent x ∈ t) →
    (∀ x ∈ t, x ∈ r) ∧ (∀ f ∈ fs, mount ++ 47 :: f ∈ r) ∧ (∀ x ∈ r, Inside mount x) ∧ (∀ x ∈ r, x ≠ mount → parent x ∈ r) ∧
      (∀ x ∈ r, x ∈ t ∨ ∃ f ∈ fs, mount ++ 47 :: f = x ∨ ∃ s, mount ++ 47 :: f = x ++ 47 :: s)
  | [], t, r, h, hin, hcl => by
    have e : t = r := Option.some.inj h
    rw [← e]
    exact ⟨fun x h => h, (fun f h => by cases h), hin, hcl, fun x h => Or.inl h⟩
  | f :: fs, t, r, h, hin, hcl => by
    unfold addFiles addFile at h
    by_cases hd : mount ++ 47 :: f ∈ t
    · rw [if_pos hd] at h; cases h
    · rw [if_neg hd] at h
      dsimp only at h
      obtain ⟨i1, i2, i3, i4⟩ := addDirs_spec mount hm (mount ++ 47 :: f).length ((mount ++ 47 :: f) :: t) (mount ++ 47 :: f) (Nat.le_refl _) (Or.inr ⟨f, rfl⟩)
        List.mem_cons_self (by
          intro x hx
          rcases List.mem_cons.1 hx with h | h
          · exact Or.inr ⟨f, h⟩
          · exact hin x h) (by
          intro x hx hxm hxq
          rcases List.mem_cons.1 hx with h | h
          · exact absurd h hxq
          · exact List.mem_cons_of_mem _ (hcl x h hxm))
      obtain ⟨j1, j2, j3, j4, j5⟩ := addFiles_spec mount hm fs _ r h i2 i3
      refine ⟨fun x hx => j1 x (i1 x (List.mem_cons_of_mem _ hx)), ?_, j3, j4, ?_⟩
      · intro g hg
        rcases List.mem_cons.1 hg with h | h
        · rw [h]; exact j1 _ (i1 _ List.mem_cons_self)
        · exact j2 g h
      · intro x hx
        rcases j5 x hx with h | ⟨g, hg, h⟩
        · rcases i4 x h with h | ⟨s, h⟩
          · rcases List.mem_cons.1 h with h | h
            · exact Or.inr ⟨f, List.mem_cons_self, Or.inl h.symm⟩
            · exact Or.inl h
          · exact Or.inr ⟨f, List.mem_cons_self, Or.inr ⟨s, h⟩⟩
        · exact Or.inr ⟨g, List.mem_cons_of_mem _ hg, h⟩

theorem above (mount : List UInt8) (r : List (List UInt8)) (hcl : ∀ x ∈ r, x ≠ mount → parent x ∈ r) (a : List UInt8) (ha : Inside mount a) :
    ∀ (n : Nat) (s : List UInt8), s.length ≤ n → a ++ 47 :: s ∈ r → a ∈ r := by
  have hne : ∀ s, a ++ 47 :: s ≠ mount := by
    intro s h
    have hl := congrArg List.length h
    rw [List.length_append, List.length_cons] at hl
    rcases ha with h1 | ⟨w, h1⟩
    · rw [h1] at hl; omega
    · have := congrArg List.length h1
      rw [List.length_append, List.length_cons] at this
      omega
  intro n
  induction n with
  | zero =>
    intro s hs h
    have : s = [] := List.length_eq_zero_iff.1 (by omega)
    rw [this] at h
    have := hcl _ h (hne [])
    rw [parent_of a [] (by simp)] at this
    exact this
  | succ n ih =>
    intro s hs h
    have hp := hcl _ h (hne s)
    rcases last_slash s with h1 | ⟨u, t, rfl, ht⟩
    · rw [parent_of a s h1] at hp
      exact hp
    · have e : a ++ 47 :: (u ++ 47 :: t) = (a ++ 47 :: u) ++ 47 :: t := by simp
      rw [e, parent_of _ t ht] at hp
      rw [List.length_append, List.length_cons] at hs
      exact ih u (by omega) hp

/-- **C216 (part).** If a file list is accepted, every file of it and every directory between the mount and a file, with both ends, is there, and nothing else. -/
theorem C216_dirs_partial (mount : List UInt8) (hm : mount ≠ []) (fs r : List (List UInt8)) (h : addFiles mount [] fs = some r) (x : List UInt8) :
    x ∈ r ↔ ∃ f ∈ fs, mount ++ 47 :: f = x ∨ ((∃ s, mount ++ 47 :: f = x ++ 47 :: s) ∧ (x = mount ∨ ∃ s, x = mount ++ 47 :: s)) := by
  obtain ⟨_, h2, h3, h4, h5⟩ := addFiles_spec mount hm fs [] r h (fun _ h => by cases h) (fun _ h => by cases h)
  constructor
  · intro hx
    rcases h5 x hx with h | ⟨f, hf, h⟩
    · cases h
    · rcases h with h | h
      · exact ⟨f, hf, Or.inl h⟩
      · exact ⟨f, hf, Or.inr ⟨h, h3 x hx⟩⟩
  · rintro ⟨f, hf, h | ⟨⟨s, hs⟩, hi⟩⟩
    · rw [← h]; exact h2 f hf
    · have := h2 f hf
      rw [hs] at this
      exact above mount r h4 x hi s.length s (Nat.le_refl _) this

example : addFiles (asc "/m") [] [asc "d/e/x", asc "y"] = some [asc "/m/y", asc "/m", asc "/m/d", asc "/m/d/e", asc "/m/d/e/x"] := by decide +kernel
example : addFiles (asc "/m") [] [asc "d", asc "d/x"] = some [asc "/m/d/x", asc "/m", asc "/m/d"] := by decide +kernel

/-- **C216 refuted.** A directory that is listed after a file in it makes the mount fail; before it, it does not (the example above). -/
theorem C216_order_refuted (mount : List UInt8) (hm : mount ≠ []) (fs : List (List UInt8)) (d x : List UInt8) (hx : d ++ 47 :: x ∈ fs) :
    addFiles mount [] (fs ++ [d]) = none := by
  have app : ∀ (fs t : List (List UInt8)), addFiles mount t (fs ++ [d]) = (addFiles mount t fs).bind fun r => addFile mount r d := by
    intro fs
    induction fs with
    | nil =>
      intro t
      show (match addFile mount t d with | none => none | some t => some t) = addFile mount t d
      cases addFile mount t d <;> rfl
    | cons f fs ih =>
      intro t
      show (match addFile mount t f with | none => none | some t => addFiles mount t (fs ++ [d])) = (match addFile mount t f with | none => none | some t => addFiles mount t fs).bind _
      cases addFile mount t f with
      | none => rfl
      | some u => exact ih u
  rw [app]
  cases hr : addFiles mount [] fs with
  | none => rfl
  | some r =>
    show addFile mount r d = none
    unfold addFile
    rw [if_pos]
    rw [C216_dirs_partial mount hm fs r hr]
    exact ⟨_, hx, Or.inr ⟨⟨x, by simp⟩, Or.inr ⟨d, rfl⟩⟩⟩

end Verif.Vfs
