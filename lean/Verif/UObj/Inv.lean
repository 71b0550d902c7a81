import Verif.UObj.Model

/-!
The invariant of the user objects.
-/

namespace Verif.UObj

/-- What holds at all times. -/
structure Inv (st : St) : Prop where
  names : (st.types.map fun p => p.1).Nodup
  entry : ∀ t ty, (t, ty) ∈ st.types → ∀ i o, (i, o) ∈ ty.tbl →
    ∃ u, st.objs o = some u ∧ u.type = t ∧ u.idx = i ∧ u.linked = true
  link : ∀ o u, st.objs o = some u → u.linked = true → ∃ ty, (u.type, ty) ∈ st.types ∧ (u.idx, o) ∈ ty.tbl
  low : ∀ t ty, (t, ty) ∈ st.types → ∀ i o, (i, o) ∈ ty.tbl → i ≤ ty.idx
  keys : ∀ t ty, (t, ty) ∈ st.types → (ty.tbl.map fun e => e.1).Nodup
  data : ∀ o u, st.objs o = some u → u.linked = true → ∃ d, u.data = some d
  live : st.gone = false → ∀ o u, st.objs o = some u → u.linked = true
  dead : st.gone = true → ∀ o u, st.objs o = some u → u.data = none ∧ u.linked = false
  held : ∀ o u d, st.objs o = some u → u.data = some d → d < st.nd ∧ d ∉ st.freed
  inj : ∀ o o' u u' d, st.objs o = some u → st.objs o' = some u' → u.data = some d → u'.data = some d → o = o'
  once : st.freed.Nodup
  made : ∀ d ∈ st.freed, d < st.nd
  all : ∀ d, d < st.nd → d ∈ st.freed ∨ ∃ o u, st.objs o = some u ∧ u.data = some d
  empty : st.gone = true → st.types = []

theorem tyOf_mem {l : List (Str × Ty)} {t : Str} {ty : Ty} (h : tyOf l t = some ty) : (t, ty) ∈ l := by
  unfold tyOf at h
  cases hf : l.find? fun p => decide (p.1 = t) with
  | none => rw [hf] at h; cases h
  | some p =>
    rw [hf] at h
    simp only [Option.map_some, Option.some.injEq] at h
    have h1 := List.mem_of_find?_eq_some hf
    have h2 := List.find?_some hf
    simp only [decide_eq_true_eq] at h2
    obtain ⟨a, b⟩ := p
    simp only [] at h h2
    subst h h2
    exact h1

theorem tyOf_none {l : List (Str × Ty)} {t : Str} (h : tyOf l t = none) : t ∉ l.map fun p => p.1 := by
  unfold tyOf at h
  simp only [Option.map_eq_none_iff, List.find?_eq_none, decide_eq_true_eq] at h
  simp only [List.mem_map, not_exists, not_and]
  exact fun p hp => h p hp

theorem mem_unique {l : List (Str × Ty)} (hn : (l.map fun p => p.1).Nodup) {t : Str} {a b : Ty} (ha : (t, a) ∈ l)
    (hb : (t, b) ∈ l) : a = b := by
  induction l with
  | nil => cases ha
  | cons p l ih =>
    simp only [List.map_cons, List.nodup_cons, List.mem_map, not_exists, not_and] at hn
    simp only [List.mem_cons] at ha hb
    rcases ha with ha | ha
    · rcases hb with hb | hb
      · rw [← hb] at ha; exact (Prod.mk.inj ha).2
      · exact absurd (by rw [← ha]) (hn.1 _ hb)
    · rcases hb with hb | hb
      · exact absurd (by rw [← hb]) (hn.1 _ ha)
      · exact ih hn.2 ha hb

theorem tyOf_of_mem {l : List (Str × Ty)} (hn : (l.map fun p => p.1).Nodup) {t : Str} {ty : Ty} (h : (t, ty) ∈ l) :
    tyOf l t = some ty := by
  cases ht : tyOf l t with
  | none => exact absurd (List.mem_map.2 ⟨_, h, rfl⟩) (tyOf_none ht)
  | some ty' => rw [mem_unique hn h (tyOf_mem ht)]

theorem addTo_fst (t : Str) (o : Nat) (p : Str × Ty) : (addTo t o p).1 = p.1 := by unfold addTo; split <;> rfl
theorem dropFrom_fst (t : Str) (i : Nat) (p : Str × Ty) : (dropFrom t i p).1 = p.1 := by unfold dropFrom; split <;> rfl

theorem map_addTo_fst (t : Str) (o : Nat) (l : List (Str × Ty)) :
    ((l.map (addTo t o)).map fun p => p.1) = l.map fun p => p.1 := by
  simp [List.map_map, Function.comp_def, addTo_fst]

theorem map_dropFrom_fst (t : Str) (i : Nat) (l : List (Str × Ty)) :
    ((l.map (dropFrom t i)).map fun p => p.1) = l.map fun p => p.1 := by
  simp [List.map_map, Function.comp_def, dropFrom_fst]

/-- The types after an addition. -/
theorem mem_addTo {l : List (Str × Ty)} {t : Str} {o : Nat} {s : Str} {ty : Ty} (h : (s, ty) ∈ l.map (addTo t o)) :
    (s ≠ t ∧ (s, ty) ∈ l) ∨ (s = t ∧ ∃ ty0, (t, ty0) ∈ l ∧ ty = ⟨ty0.idx + 1, (ty0.idx + 1, o) :: ty0.tbl⟩) := by
  obtain ⟨⟨a, b⟩, h1, h2⟩ := List.mem_map.1 h
  unfold addTo at h2
  split at h2
  · rename_i ha
    simp only [] at ha h2
    injection h2 with h2 h3
    subst h2 ha
    exact Or.inr ⟨rfl, b, h1, h3.symm⟩
  · rename_i ha
    injection h2 with h2 h3
    subst h2 h3
    exact Or.inl ⟨ha, h1⟩

theorem mem_dropFrom {l : List (Str × Ty)} {t : Str} {i : Nat} {s : Str} {ty : Ty} (h : (s, ty) ∈ l.map (dropFrom t i)) :
    (s ≠ t ∧ (s, ty) ∈ l) ∨
      (s = t ∧ ∃ ty0, (t, ty0) ∈ l ∧ ty = ⟨ty0.idx, ty0.tbl.filter fun e => decide (e.1 ≠ i)⟩) := by
  obtain ⟨⟨a, b⟩, h1, h2⟩ := List.mem_map.1 h
  unfold dropFrom at h2
  split at h2
  · rename_i ha
    simp only [] at ha h2
    injection h2 with h2 h3
    subst h2 ha
    exact Or.inr ⟨rfl, b, h1, h3.symm⟩
  · rename_i ha
    injection h2 with h2 h3
    subst h2 h3
    exact Or.inl ⟨ha, h1⟩

theorem inv_start : Inv start := by
  constructor <;> simp [start]

theorem inv_register {st : St} (h : Inv st) (t : Str) : Inv (register st t) := by
  unfold register
  split
  · exact h
  · rename_i hg
    split
    · exact h
    · rename_i ht
      have ht := tyOf_none ht
      refine ⟨?_, ?_, ?_, ?_, ?_, h.data, h.live, h.dead, h.held, h.inj, h.once, h.made, h.all, fun e => absurd e hg⟩
      · simp only [List.map_cons, List.nodup_cons]; exact ⟨ht, h.names⟩
      · intro s ty hm i o hi
        simp only [List.mem_cons, Prod.mk.injEq] at hm
        rcases hm with ⟨-, rfl⟩ | hm
        · simp at hi
        · exact h.entry s ty hm i o hi
      · intro o u hu hl
        obtain ⟨ty, h1, h2⟩ := h.link o u hu hl
        exact ⟨ty, by simp [h1], h2⟩
      · intro s ty hm i o hi
        simp only [List.mem_cons, Prod.mk.injEq] at hm
        rcases hm with ⟨-, rfl⟩ | hm
        · simp at hi
        · exact h.low s ty hm i o hi
      · intro s ty hm
        simp only [List.mem_cons, Prod.mk.injEq] at hm
        rcases hm with ⟨-, rfl⟩ | hm
        · simp
        · exact h.keys s ty hm

theorem upd_self (f : Nat → Option UObj) (o : Nat) (u : Option UObj) : upd f o u o = u := by simp [upd]
theorem upd_ne (f : Nat → Option UObj) {o x : Nat} (u : Option UObj) (h : x ≠ o) : upd f o u x = f x := by simp [upd, h]

theorem inv_new {st : St} (h : Inv st) (t : Str) (o : Nat) : Inv (new st t o).1 := by
  unfold new
  split
  · exact h
  rename_i hg
  split
  · exact h
  rename_i ho
  split
  · exact h
  rename_i ty hty
  have hm := tyOf_mem hty
  refine ⟨?_, ?_, ?_, ?_, ?_, ?_, ?_, ?_, ?_, ?_, h.once, ?_, ?_, fun e => absurd e hg⟩
  · simp only [map_addTo_fst]; exact h.names
  · intro s ty' hs i x hi
    have hold : ∀ ty0, (s, ty0) ∈ st.types → (i, x) ∈ ty0.tbl →
        ∃ u, upd st.objs o (some ⟨t, ty.idx + 1, some st.nd, true⟩) x = some u ∧ u.type = s ∧ u.idx = i ∧
          u.linked = true := by
      intro ty0 h1 h2
      obtain ⟨u, h3, h4⟩ := h.entry s ty0 h1 i x h2
      exact ⟨u, by rw [upd_ne _ _ (fun e => by rw [e, ho] at h3; cases h3)]; exact h3, h4⟩
    rcases mem_addTo hs with ⟨-, hs⟩ | ⟨rfl, ty0, h0, rfl⟩
    · exact hold ty' hs hi
    · have := mem_unique h.names hm h0
      subst this
      simp only [List.mem_cons, Prod.mk.injEq] at hi
      rcases hi with ⟨rfl, rfl⟩ | hi
      · exact ⟨_, upd_self _ _ _, rfl, rfl, rfl⟩
      · exact hold ty h0 hi
  · intro x u hu hl
    by_cases hx : x = o
    · subst hx
      simp only [upd_self, Option.some.injEq] at hu
      subst hu
      refine ⟨⟨ty.idx + 1, (ty.idx + 1, x) :: ty.tbl⟩, ?_, by simp⟩
      exact List.mem_map.2 ⟨_, hm, by simp [addTo]⟩
    · simp only [upd_ne _ _ hx] at hu
      obtain ⟨ty', h1, h2⟩ := h.link x u hu hl
      by_cases hs : u.type = t
      · rw [hs] at h1
        have := mem_unique h.names hm h1
        subst this
        exact ⟨⟨ty.idx + 1, (ty.idx + 1, o) :: ty.tbl⟩, List.mem_map.2 ⟨_, hm, by simp [addTo, hs]⟩, by simp [h2]⟩
      · exact ⟨ty', List.mem_map.2 ⟨_, h1, by simp [addTo, hs]⟩, h2⟩
  · intro s ty' hs i x hi
    rcases mem_addTo hs with ⟨-, hs⟩ | ⟨rfl, ty0, h0, rfl⟩
    · exact h.low s ty' hs i x hi
    · simp only [List.mem_cons, Prod.mk.injEq] at hi
      rcases hi with ⟨rfl, rfl⟩ | hi
      · exact Nat.le_refl _
      · exact Nat.le_succ_of_le (h.low s ty0 h0 i x hi)
  · intro s ty' hs
    rcases mem_addTo hs with ⟨-, hs⟩ | ⟨rfl, ty0, h0, rfl⟩
    · exact h.keys s ty' hs
    · simp only [List.map_cons, List.nodup_cons]
      refine ⟨fun he => ?_, h.keys s ty0 h0⟩
      obtain ⟨⟨a, b⟩, h1, h2⟩ := List.mem_map.1 he
      simp only [] at h2
      have := h.low s ty0 h0 a b h1
      omega
  · intro x u hu hl
    by_cases hx : x = o
    · subst hx
      simp only [upd_self, Option.some.injEq] at hu
      subst hu
      exact ⟨_, rfl⟩
    · simp only [upd_ne _ _ hx] at hu
      exact h.data x u hu hl
  · intro e x u hu
    by_cases hx : x = o
    · subst hx
      simp only [upd_self, Option.some.injEq] at hu
      subst hu
      rfl
    · simp only [upd_ne _ _ hx] at hu
      exact h.live e x u hu
  · intro e
    exact absurd e hg
  · intro x u d hu hd
    by_cases hx : x = o
    · subst hx
      simp only [upd_self, Option.some.injEq] at hu
      subst hu
      simp only [Option.some.injEq] at hd
      subst hd
      exact ⟨Nat.lt_succ_self _, fun hf => Nat.lt_irrefl _ (h.made _ hf)⟩
    · simp only [upd_ne _ _ hx] at hu
      obtain ⟨h1, h2⟩ := h.held x u d hu hd
      exact ⟨Nat.lt_succ_of_lt h1, h2⟩
  · intro x y u u' d hu hu' hd hd'
    by_cases hx : x = o
    · subst hx
      simp only [upd_self, Option.some.injEq] at hu
      subst hu
      simp only [Option.some.injEq] at hd
      subst hd
      by_cases hy : y = x
      · exact hy.symm
      · simp only [upd_ne _ _ hy] at hu'
        exact absurd (h.held y u' _ hu' hd').1 (Nat.lt_irrefl _)
    · simp only [upd_ne _ _ hx] at hu
      by_cases hy : y = o
      · subst hy
        simp only [upd_self, Option.some.injEq] at hu'
        subst hu'
        simp only [Option.some.injEq] at hd'
        subst hd'
        exact absurd (h.held x u _ hu hd).1 (Nat.lt_irrefl _)
      · simp only [upd_ne _ _ hy] at hu'
        exact h.inj x y u u' d hu hu' hd hd'
  · intro d hd
    exact Nat.lt_succ_of_lt (h.made d hd)
  · intro d hd
    by_cases hn : d = st.nd
    · subst hn
      exact Or.inr ⟨o, _, upd_self _ _ _, rfl⟩
    · have hd : d < st.nd + 1 := hd
      rcases h.all d (by omega) with h1 | ⟨x, u, h1, h2⟩
      · exact Or.inl h1
      · exact Or.inr ⟨x, u, (upd_ne _ _ (fun e => by rw [e, ho] at h1; cases h1)).trans h1, h2⟩

/-- Giving up the data of an object. -/
theorem freed_inv {st : St} (held : ∀ o u d, st.objs o = some u → u.data = some d → d < st.nd ∧ d ∉ st.freed)
    (inj : ∀ o o' u u' d, st.objs o = some u → st.objs o' = some u' → u.data = some d → u'.data = some d → o = o')
    (once : st.freed.Nodup) (made : ∀ d ∈ st.freed, d < st.nd)
    (all : ∀ d, d < st.nd → d ∈ st.freed ∨ ∃ o u, st.objs o = some u ∧ u.data = some d)
    {o : Nat} {u : UObj} (hu : st.objs o = some u) (w : Option UObj) (hw : ∀ u', w = some u' → u'.data = none) :
    (∀ x v d, upd st.objs o w x = some v → v.data = some d → d < st.nd ∧ d ∉ u.data.toList ++ st.freed) ∧
    (∀ x y v v' d, upd st.objs o w x = some v → upd st.objs o w y = some v' → v.data = some d → v'.data = some d →
      x = y) ∧
    (u.data.toList ++ st.freed).Nodup ∧ (∀ d ∈ u.data.toList ++ st.freed, d < st.nd) ∧
    (∀ d, d < st.nd → d ∈ u.data.toList ++ st.freed ∨ ∃ x v, upd st.objs o w x = some v ∧ v.data = some d) := by
  have hne : ∀ x v d, upd st.objs o w x = some v → v.data = some d → x ≠ o ∧ st.objs x = some v := by
    intro x v d h1 h2
    by_cases hx : x = o
    · subst hx
      rw [upd_self] at h1
      rw [hw v h1] at h2
      cases h2
    · rw [upd_ne _ _ hx] at h1
      exact ⟨hx, h1⟩
  refine ⟨?_, ?_, ?_, ?_, ?_⟩
  · intro x v d h1 h2
    obtain ⟨h3, h4⟩ := hne x v d h1 h2
    obtain ⟨h5, h6⟩ := held x v d h4 h2
    refine ⟨h5, fun hm => ?_⟩
    simp only [List.mem_append, Option.mem_toList] at hm
    rcases hm with hm | hm
    · exact h3 (inj x o v u d h4 hu h2 hm)
    · exact h6 hm
  · intro x y v v' d h1 h2 h3 h4
    exact inj x y v v' d (hne x v d h1 h3).2 (hne y v' d h2 h4).2 h3 h4
  · rw [List.nodup_append]
    refine ⟨by cases u.data <;> simp, once, ?_⟩
    intro a ha b hb hab
    subst hab
    simp only [Option.mem_toList] at ha
    exact (held o u a hu ha).2 hb
  · intro d hd
    simp only [List.mem_append, Option.mem_toList] at hd
    rcases hd with hd | hd
    · exact (held o u d hu hd).1
    · exact made d hd
  · intro d hd
    rcases all d hd with h1 | ⟨x, v, h1, h2⟩
    · exact Or.inl (by simp [h1])
    · by_cases hx : x = o
      · subst hx
        rw [hu] at h1
        injection h1 with h1
        subst h1
        exact Or.inl (by simp [h2])
      · exact Or.inr ⟨x, v, by rw [upd_ne _ _ hx]; exact h1, h2⟩

theorem inv_free {st : St} (h : Inv st) (o : Nat) : Inv (free st o) := by
  unfold free
  split
  · exact h
  rename_i u hu
  obtain ⟨f1, f2, f3, f4, f5⟩ := freed_inv h.held h.inj h.once h.made h.all hu none (by intro u' e; cases e)
  have hne : ∀ x v, upd st.objs o none x = some v → x ≠ o ∧ st.objs x = some v := by
    intro x v h1
    by_cases hx : x = o
    · subst hx; rw [upd_self] at h1; cases h1
    · rw [upd_ne _ _ hx] at h1; exact ⟨hx, h1⟩
  -- the types
  have hty : ∀ s ty, (s, ty) ∈ (if u.linked then st.types.map (dropFrom u.type u.idx) else st.types) →
      ∃ ty0, (s, ty0) ∈ st.types ∧ ty.idx = ty0.idx ∧ (∀ e ∈ ty.tbl, e ∈ ty0.tbl) ∧
        (ty.tbl.map fun e => e.1).Sublist (ty0.tbl.map fun e => e.1) ∧
        (u.linked = true → s = u.type → ∀ x, (u.idx, x) ∉ ty.tbl) := by
    intro s ty hm
    split at hm
    · rcases mem_dropFrom hm with ⟨h1, h2⟩ | ⟨rfl, ty0, h2, rfl⟩
      · exact ⟨ty, h2, rfl, fun _ h => h, List.Sublist.refl _, fun _ e => absurd e h1⟩
      · refine ⟨ty0, h2, rfl, fun e he => List.mem_of_mem_filter he, List.filter_sublist.map _, ?_⟩
        intro _ _ x hx
        have := (List.mem_filter.1 hx).2
        simp at this
    · rename_i hl
      exact ⟨ty, hm, rfl, fun _ h => h, List.Sublist.refl _, fun e => absurd e hl⟩
  refine ⟨?_, ?_, ?_, ?_, ?_, ?_, ?_, ?_, f1, f2, f3, f4, f5, ?_⟩
  · show ((if u.linked then st.types.map (dropFrom u.type u.idx) else st.types).map fun p => p.1).Nodup
    split
    · rw [map_dropFrom_fst]; exact h.names
    · exact h.names
  · intro s ty hm i x hi
    obtain ⟨ty0, h1, -, h2, -, h3⟩ := hty s ty hm
    obtain ⟨v, h4, h5, h6, h7⟩ := h.entry s ty0 h1 i x (h2 _ hi)
    refine ⟨v, ?_, h5, h6, h7⟩
    by_cases hx : x = o
    · subst hx
      rw [hu] at h4
      injection h4 with h4
      subst h4
      subst h6
      exact absurd hi (h3 h7 h5.symm x)
    · simp only [upd_ne _ _ hx]; exact h4
  · intro x v hv hl
    obtain ⟨hx, hv⟩ := hne x v hv
    obtain ⟨ty, h1, h2⟩ := h.link x v hv hl
    show ∃ ty', (v.type, ty') ∈ (if u.linked then st.types.map (dropFrom u.type u.idx) else st.types) ∧ _
    split
    · rename_i hul
      by_cases ht : v.type = u.type
      · refine ⟨⟨ty.idx, ty.tbl.filter fun e => decide (e.1 ≠ u.idx)⟩,
          List.mem_map.2 ⟨_, h1, by simp [dropFrom, ht]⟩, ?_⟩
        refine List.mem_filter.2 ⟨h2, ?_⟩
        simp only [decide_eq_true_eq]
        intro hi
        obtain ⟨ty', h3, h4⟩ := h.link o u hu hul
        rw [← ht] at h3
        have := mem_unique h.names h1 h3
        subst this
        rw [hi] at h2
        have hk := h.keys _ _ h1
        exact hx (nodup_snd hk h2 h4)
      · exact ⟨ty, List.mem_map.2 ⟨_, h1, by simp [dropFrom, ht]⟩, h2⟩
    · exact ⟨ty, h1, h2⟩
  · intro s ty hm i x hi
    obtain ⟨ty0, h1, h0, h2, -, -⟩ := hty s ty hm
    rw [h0]
    exact h.low s ty0 h1 i x (h2 _ hi)
  · intro s ty hm
    obtain ⟨ty0, h1, -, -, h2, -⟩ := hty s ty hm
    exact (h.keys s ty0 h1).sublist h2
  · intro x v hv hl
    exact h.data x v (hne x v hv).2 hl
  · intro e x v hv
    exact h.live e x v (hne x v hv).2
  · intro e x v hv
    exact h.dead e x v (hne x v hv).2
  · intro e
    have := h.empty e
    show (if u.linked then st.types.map (dropFrom u.type u.idx) else st.types) = []
    rw [this]; split <;> rfl
where
  nodup_snd {l : List (Nat × Nat)} (hn : (l.map fun e => e.1).Nodup) {i a b : Nat} (ha : (i, a) ∈ l) (hb : (i, b) ∈ l) :
      a = b := by
    induction l with
    | nil => cases ha
    | cons p l ih =>
      simp only [List.map_cons, List.nodup_cons, List.mem_map, not_exists, not_and] at hn
      simp only [List.mem_cons] at ha hb
      rcases ha with ha | ha
      · rcases hb with hb | hb
        · rw [← hb] at ha; exact (Prod.mk.inj ha).2
        · exact absurd (by rw [← ha]) (hn.1 _ hb)
      · rcases hb with hb | hb
        · exact absurd (by rw [← hb]) (hn.1 _ ha)
        · exact ih hn.2 ha hb

/-- What the loop of `delete` keeps. -/
structure LInv (st : St) : Prop where
  held : ∀ o u d, st.objs o = some u → u.data = some d → d < st.nd ∧ d ∉ st.freed
  inj : ∀ o o' u u' d, st.objs o = some u → st.objs o' = some u' → u.data = some d → u'.data = some d → o = o'
  once : st.freed.Nodup
  made : ∀ d ∈ st.freed, d < st.nd
  all : ∀ d, d < st.nd → d ∈ st.freed ∨ ∃ o u, st.objs o = some u ∧ u.data = some d

theorem linv_drop {st : St} (h : LInv st) (o : Nat) : LInv (dropEntry st o) := by
  unfold dropEntry
  split
  · exact h
  rename_i u hu
  obtain ⟨f1, f2, f3, f4, f5⟩ := freed_inv h.held h.inj h.once h.made h.all hu
    (some { u with data := none, linked := false }) (by intro u' e; injection e with e; subst e; rfl)
  exact ⟨f1, f2, f3, f4, f5⟩

/-- What an object is after the loop. -/
theorem drop_objs (st : St) (o x : Nat) : (dropEntry st o).objs x =
    if x = o then (st.objs o).map (fun u => { u with data := none, linked := false }) else st.objs x := by
  unfold dropEntry
  split
  · rename_i hn
    split
    · rename_i hx; rw [hx, hn]; rfl
    · rfl
  · rename_i u hu
    simp only [upd, hu, Option.map_some]

theorem loop_inv : ∀ (l : List Nat) (st : St), LInv st → LInv (l.foldl dropEntry st) ∧
    (l.foldl dropEntry st).nd = st.nd ∧
    ∀ x, (l.foldl dropEntry st).objs x =
      if x ∈ l then (st.objs x).map (fun u => { u with data := none, linked := false }) else st.objs x
  | [], st, h => ⟨h, rfl, by simp⟩
  | o :: l, st, h => by
    rw [List.foldl_cons]
    obtain ⟨h1, h0, h2⟩ := loop_inv l (dropEntry st o) (linv_drop h o)
    refine ⟨h1, ?_, ?_⟩
    · rw [h0]; unfold dropEntry; split <;> rfl
    intro x
    rw [h2 x, drop_objs]
    by_cases hx : x = o
    · subst hx
      simp only [List.mem_cons, true_or, if_true]
      split
      · simp [Option.map_map, Function.comp_def]
      · rfl
    · simp only [hx, if_false, List.mem_cons, false_or]

theorem inv_delete {st : St} (h : Inv st) : Inv (delete st) := by
  unfold delete
  simp only []
  obtain ⟨h1, -, h2⟩ := loop_inv (st.types.flatMap fun p => p.2.tbl.map fun e => e.2) st
    ⟨h.held, h.inj, h.once, h.made, h.all⟩
  have hd : ∀ x u, ((st.types.flatMap fun p => p.2.tbl.map fun e => e.2).foldl dropEntry st).objs x = some u →
      u.data = none ∧ u.linked = false := by
    intro x u hu
    rw [h2] at hu
    split at hu
    · cases ho : st.objs x with
      | none => rw [ho] at hu; cases hu
      | some v =>
        rw [ho] at hu
        simp only [Option.map_some, Option.some.injEq] at hu
        subst hu
        exact ⟨rfl, rfl⟩
    · rename_i hx
      cases hg : st.gone with
      | true => exact h.dead hg x u hu
      | false =>
        obtain ⟨ty, h3, h4⟩ := h.link x u hu (h.live hg x u hu)
        exact absurd (List.mem_flatMap.2 ⟨_, h3, List.mem_map.2 ⟨_, h4, rfl⟩⟩) hx
  refine ⟨by simp, by simp, ?_, by simp, by simp, ?_, by simp, fun _ => hd, h1.held, h1.inj, h1.once, h1.made, h1.all,
    fun _ => rfl⟩
  · intro x u hu hl
    rw [(hd x u hu).2] at hl; cases hl
  · intro x u hu hl
    rw [(hd x u hu).2] at hl; cases hl

theorem inv_step {st : St} (h : Inv st) (op : Op) : Inv (step st op) := by
  cases op with
  | register t => exact inv_register h t
  | new t o => exact inv_new h t o
  | free o => exact inv_free h o
  | delete => exact inv_delete h

theorem inv_run : ∀ (ops : List Op) {st : St}, Inv st → Inv (run st ops)
  | [], _, h => h
  | op :: ops, _, h => inv_run ops (inv_step h op)

end Verif.UObj
