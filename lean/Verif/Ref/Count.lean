import Verif.Ref.Spec
/-!
The invariant behind C40: while references are being dropped, every count is the number of references, including
those that are still to be dropped.
-/
namespace Verif.Ref

theorem links_count (x : Content) (a : Nat) : (links x).count a = refsIn x a := by
  cases x with
  | undef => rfl
  | prim n => rfl
  | ref o => simp only [links, refsIn, List.count_cons, List.count_nil]; by_cases h : o = a <;> simp [h]
  | var o => simp only [links, refsIn, List.count_cons, List.count_nil]; by_cases h : o = a <;> simp [h]
  | object props arr =>
    simp only [links, refsIn, List.count_append]
    congr 1
    induction arr with
    | nil => rfl
    | cons x arr ih =>
      cases x with
      | none => simpa using ih
      | some y => simp only [List.filterMap_cons, id, List.count_cons, ih]; simp

theorem map_dec_count (l : List Nat) (a : Nat) : (l.map Work.dec).count (.dec a) = l.count a := by
  induction l with
  | nil => rfl
  | cons x l ih => simp only [List.map_cons, List.count_cons, ih]; simp

theorem map_dec_free (l : List Nat) (a : Nat) : (l.map Work.dec).count (.free a) = 0 := by
  induction l with
  | nil => rfl
  | cons x l ih => simp only [List.map_cons, List.count_cons, ih]; simp

/-! ### Cells -/

theorem get_lt {h : Heap} {a : Nat} {c : Cell} (hg : get h a = some c) : a < h.length := by
  unfold get at hg
  cases hl : h[a]? with
  | none => rw [hl] at hg; cases hg
  | some x => exact (List.getElem?_eq_some_iff.1 hl).1

theorem get_elem {h : Heap} {a : Nat} {c : Cell} (hg : get h a = some c) : h[a]? = some (some c) := by
  unfold get at hg
  cases hl : h[a]? with
  | none => rw [hl] at hg; cases hg
  | some x => rw [hl] at hg; simp only [Option.join] at hg; exact congrArg some hg

theorem get_put_same {h : Heap} {a : Nat} {c c' : Cell} (hg : get h a = some c) : get (put h a c') a = some c' := by
  have := get_lt hg
  simp [get, put, List.getElem?_set, this]

theorem get_put_other {h : Heap} {a b : Nat} (c : Cell) (hb : b ≠ a) : get (put h a c) b = get h b := by
  simp [get, put, List.getElem?_set, Ne.symm hb]

theorem get_free_same (h : Heap) (a : Nat) : get (h.set a none) a = none := by
  by_cases ha : a < h.length <;> simp [get, List.getElem?_set, ha]

theorem get_free_other (h : Heap) {a b : Nat} (hb : b ≠ a) : get (h.set a none) b = get h b := by
  simp [get, List.getElem?_set, Ne.symm hb]

theorem sum_set {α : Type} (f : α → Nat) : ∀ (l : List α) (i : Nat) (x y : α), l[i]? = some x →
    ((l.set i y).map f).sum + f x = (l.map f).sum + f y
  | [], i, x, y, h => by simp at h
  | z :: l, 0, x, y, h => by
    have : z = x := by simpa using h
    subst this
    simp; omega
  | z :: l, i + 1, x, y, h => by
    have := sum_set f l i x y (by simpa using h)
    simp only [List.set_cons_succ, List.map_cons, List.sum_cons]; omega

/-- References to `b` in all cells. -/
def total (h : Heap) (b : Nat) : Nat := (h.map (cellRefs b)).sum

theorem total_put {h : Heap} {a : Nat} {c : Cell} (c' : Cell) (hg : get h a = some c) (b : Nat) :
    total (put h a c') b + refsIn c.content b = total h b + refsIn c'.content b :=
  sum_set (cellRefs b) h a (some c) (some c') (get_elem hg)

theorem total_free {h : Heap} {a : Nat} {c : Cell} (hg : get h a = some c) (b : Nat) :
    total (h.set a none) b + refsIn c.content b = total h b :=
  sum_set (cellRefs b) h a (some c) none (get_elem hg)

theorem edge_total {h : Heap} {a b : Nat} (he : Edge h a b) : 0 < total h b := by
  obtain ⟨c, hg, hr⟩ := he
  have := total_free hg b
  omega

/-- All references to `a`, also those still to be dropped. -/
def refsW (h : Heap) (held : List Nat) (w : List Work) (a : Nat) : Nat :=
  held.count a + total h a + w.count (.dec a)

/-- Every count is the number of references, and what has no references is freed, about to be freed or fresh. -/
structure Inv (h : Heap) (held fresh : List Nat) (w : List Work) : Prop where
  cnt : ∀ a c, get h a = some c → (c.rc = refsW h held w a ∧ w.count (.free a) = 0) ∨
    (c = ⟨-1, .undef⟩ ∧ refsW h held w a = 0 ∧ w.count (.free a) = 1)
  dead : ∀ a, get h a = none → refsW h held w a = 0 ∧ w.count (.free a) = 0
  zero : ∀ a c, get h a = some c → c.rc = 0 → a ∈ fresh
  fr : ∀ a ∈ fresh, ∃ c, get h a = some c ∧ c.rc = 0

/-- What dropping references does to cells: it changes contents only of what is to be freed. -/
def Rel (h h' : Heap) : Prop := ∀ a c', get h' a = some c' → ∃ c, get h a = some c ∧
  (c'.rc = -1 ∨ (c'.content = c.content ∧ c.rc ≠ -1))

theorem Rel.trans {h1 h2 h3 : Heap} (a : Rel h1 h2) (b : Rel h2 h3) : Rel h1 h3 := by
  intro x c3 h3
  obtain ⟨c2, h2, r2⟩ := b x c3 h3
  obtain ⟨c1, h1, r1⟩ := a x c2 h2
  refine ⟨c1, h1, ?_⟩
  rcases r2 with r2 | ⟨r2, n2⟩
  · exact Or.inl r2
  · rcases r1 with r1 | ⟨r1, n1⟩
    · exact absurd r1 n2
    · exact Or.inr ⟨r2.trans r1, n1⟩

theorem Rel.refl (h : Heap) : Rel h h := by
  intro a c hg
  refine ⟨c, hg, ?_⟩
  by_cases e : c.rc = -1
  · exact Or.inl e
  · exact Or.inr ⟨rfl, e⟩

theorem enough_put {h : Heap} {a : Nat} {c c' : Cell} (hg : get h a = some c) (w : List Work) :
    enough (put h a c') w + weight (some c) = enough h w + weight (some c') := by
  have := sum_set weight h a (some c) (some c') (get_elem hg)
  unfold enough put; omega

/-- One step. -/
theorem step_inv {h : Heap} {held fresh : List Nat} {x : Work} {w : List Work} (hi : Inv h held fresh (x :: w)) :
    ∃ h' w', step h x = some (h', w') ∧ Inv h' held fresh (w' ++ w) ∧ Rel h h' ∧ h'.length = h.length ∧
      enough h' (w' ++ w) < enough h (x :: w) := by
  cases x with
  | dec a =>
    have hpos : 0 < refsW h held (.dec a :: w) a := by simp [refsW]; omega
    cases hg : get h a with
    | none => have := (hi.dead a hg).1; omega
    | some c =>
      rcases hi.cnt a c hg with ⟨h1, h2⟩ | ⟨_, h2, _⟩
      rotate_left
      · omega
      have hrc : ¬ c.rc ≤ 0 := by omega
      simp only [step, hg]
      rw [if_neg hrc]
      by_cases hz : c.rc - 1 ≤ 0
      · rw [if_pos hz]
        have key : ∀ b, refsW (put h a ⟨-1, .undef⟩) held (((links c.content).map Work.dec ++ [.free a]) ++ w) b +
            (if b = a then 1 else 0) = refsW h held (.dec a :: w) b := by
          intro b
          have t := total_put (c' := ⟨-1, .undef⟩) hg b
          have l := links_count c.content b
          have t0 : refsIn Content.undef b = 0 := rfl
          simp only [t0, Nat.add_zero] at t
          simp only [refsW, List.count_append, map_dec_count, l, List.count_cons, List.count_nil]
          by_cases e : b = a
          · subst e; simp; omega
          · have e' : ¬ (a = b) := fun x => e x.symm
            simp [e, e']; omega
        have hfree : ∀ b, (((links c.content).map Work.dec ++ [Work.free a]) ++ w).count (.free b) =
            (if b = a then 1 else 0) + (Work.dec a :: w).count (.free b) := by
          intro b
          simp only [List.count_append, map_dec_free, List.count_cons, List.count_nil]
          by_cases e : b = a
          · subst e; simp
          · have e' : ¬ (a = b) := fun x => e x.symm
            simp [e, e']
        refine ⟨_, _, rfl, ⟨?_, ?_, ?_, ?_⟩, ?_, ?_, ?_⟩
        · intro b d hb
          have k := key b
          rw [hfree]
          by_cases e : b = a
          · subst e
            rw [get_put_same hg] at hb
            injection hb with hb
            right
            rw [if_pos rfl] at k
            refine ⟨hb.symm, by omega, by rw [if_pos rfl, h2]⟩
          · rw [get_put_other _ e] at hb
            rw [if_neg e] at k ⊢
            rw [Nat.add_zero] at k
            rw [k, Nat.zero_add]
            exact hi.cnt b d hb
        · intro b hb
          have k := key b
          rw [hfree]
          by_cases e : b = a
          · subst e; rw [get_put_same hg] at hb; cases hb
          · rw [get_put_other _ e] at hb
            rw [if_neg e] at k ⊢
            rw [Nat.add_zero] at k
            rw [k, Nat.zero_add]
            exact hi.dead b hb
        · intro b d hb hd
          by_cases e : b = a
          · subst e; rw [get_put_same hg] at hb; injection hb with hb; subst hb; simp at hd
          · rw [get_put_other _ e] at hb; exact hi.zero b d hb hd
        · intro b hb
          obtain ⟨d, h3, h4⟩ := hi.fr b hb
          have e : b ≠ a := by rintro rfl; rw [hg] at h3; injection h3 with h3; subst h3; omega
          exact ⟨d, by rw [get_put_other _ e]; exact h3, h4⟩
        · intro b d hb
          by_cases e : b = a
          · subst e
            rw [get_put_same hg] at hb
            injection hb with hb
            subst hb
            exact ⟨c, hg, Or.inl rfl⟩
          · rw [get_put_other _ e] at hb; exact Rel.refl h b d hb
        · simp [put]
        · have e := enough_put (c' := ⟨-1, .undef⟩) hg w
          have w1 : weight (some c) = (links c.content).length + 1 := by simp [weight, hrc]
          have w2 : weight (some ⟨-1, .undef⟩) = 0 := by simp [weight]
          simp only [enough, List.length_append, List.length_map, List.length_cons, List.length_nil] at e ⊢
          omega
      · rw [if_neg hz]
        have key : ∀ b, refsW (put h a ⟨c.rc - 1, c.content⟩) held ([] ++ w) b + (if b = a then 1 else 0) =
            refsW h held (.dec a :: w) b := by
          intro b
          have t := total_put (c' := ⟨c.rc - 1, c.content⟩) hg b
          simp only [refsW, List.nil_append, List.count_cons]
          by_cases e : b = a
          · subst e; simp at t ⊢; omega
          · have e' : ¬ (a = b) := fun x => e x.symm
            simp [e, e'] at t ⊢; omega
        have hfree : ∀ b, ([] ++ w).count (Work.free b) = (Work.dec a :: w).count (.free b) := by
          intro b; simp [List.count_cons]
        refine ⟨_, _, rfl, ⟨?_, ?_, ?_, ?_⟩, ?_, ?_, ?_⟩
        · intro b d hb
          have k := key b
          rw [hfree]
          by_cases e : b = a
          · subst e
            rw [get_put_same hg] at hb
            injection hb with hb
            subst hb
            left
            rw [if_pos rfl] at k
            refine ⟨?_, h2⟩
            show c.rc - 1 = _
            omega
          · rw [get_put_other _ e] at hb
            rw [if_neg e, Nat.add_zero] at k
            rw [k]
            exact hi.cnt b d hb
        · intro b hb
          have k := key b
          rw [hfree]
          by_cases e : b = a
          · subst e; rw [get_put_same hg] at hb; cases hb
          · rw [get_put_other _ e] at hb
            rw [if_neg e, Nat.add_zero] at k
            rw [k]
            exact hi.dead b hb
        · intro b d hb hd
          by_cases e : b = a
          · subst e; rw [get_put_same hg] at hb; injection hb with hb; subst hb; simp only at hd; omega
          · rw [get_put_other _ e] at hb; exact hi.zero b d hb hd
        · intro b hb
          obtain ⟨d, h3, h4⟩ := hi.fr b hb
          have e : b ≠ a := by rintro rfl; rw [hg] at h3; injection h3 with h3; subst h3; omega
          exact ⟨d, by rw [get_put_other _ e]; exact h3, h4⟩
        · intro b d hb
          by_cases e : b = a
          · subst e
            rw [get_put_same hg] at hb
            injection hb with hb
            subst hb
            exact ⟨c, hg, Or.inr ⟨rfl, by omega⟩⟩
          · rw [get_put_other _ e] at hb; exact Rel.refl h b d hb
        · simp [put]
        · have e := enough_put (c' := ⟨c.rc - 1, c.content⟩) hg w
          have w1 : weight (some ⟨c.rc - 1, c.content⟩) = weight (some c) := by simp [weight, hrc]; omega
          simp only [enough, List.nil_append, List.length_cons] at e ⊢
          omega
  | free a =>
    have hpos : 0 < (Work.free a :: w).count (.free a) := by simp
    cases hg : get h a with
    | none => have := (hi.dead a hg).2; omega
    | some c =>
      rcases hi.cnt a c hg with ⟨_, h2⟩ | ⟨h1, h2, h3⟩
      · omega
      simp only [step, hg]
      have key : ∀ b, refsW (h.set a none) held ([] ++ w) b = refsW h held (.free a :: w) b := by
        intro b
        have t := total_free hg b
        rw [h1] at t
        simp only [refsIn] at t
        simp only [refsW, List.nil_append, List.count_cons]
        simp; omega
      have hfree : ∀ b, ([] ++ w).count (Work.free b) + (if b = a then 1 else 0) = (Work.free a :: w).count (.free b) := by
        intro b
        simp only [List.nil_append, List.count_cons]
        by_cases e : b = a
        · subst e; simp
        · have e' : ¬ (a = b) := fun x => e x.symm
          simp [e, e']
      refine ⟨_, _, rfl, ⟨?_, ?_, ?_, ?_⟩, ?_, ?_, ?_⟩
      · intro b d hb
        have e : b ≠ a := by rintro rfl; rw [get_free_same] at hb; cases hb
        rw [get_free_other _ e] at hb
        have f := hfree b
        rw [if_neg e, Nat.add_zero] at f
        rw [key, f]
        exact hi.cnt b d hb
      · intro b hb
        have f := hfree b
        by_cases e : b = a
        · subst e
          rw [if_pos rfl, h3] at f
          exact ⟨by rw [key]; exact h2, by omega⟩
        · rw [get_free_other _ e] at hb
          rw [if_neg e, Nat.add_zero] at f
          rw [key, f]
          exact hi.dead b hb
      · intro b d hb hd
        have e : b ≠ a := by rintro rfl; rw [get_free_same] at hb; cases hb
        rw [get_free_other _ e] at hb
        exact hi.zero b d hb hd
      · intro b hb
        obtain ⟨d, h4, h5⟩ := hi.fr b hb
        have e : b ≠ a := by rintro rfl; rw [hg] at h4; injection h4 with h4; subst h4; rw [h1] at h5; simp at h5
        exact ⟨d, by rw [get_free_other _ e]; exact h4, h5⟩
      · intro b d hb
        have e : b ≠ a := by rintro rfl; rw [get_free_same] at hb; cases hb
        rw [get_free_other _ e] at hb
        exact Rel.refl h b d hb
      · simp
      · have e := sum_set weight h a (some c) none (get_elem hg)
        have w1 : weight (some c) = 0 := by rw [h1]; simp [weight]
        have w2 : weight none = 0 := rfl
        simp only [enough, List.nil_append, List.length_cons]
        omega

/-- All steps. -/
theorem drain_inv {held fresh : List Nat} : ∀ (fuel : Nat) (h : Heap) (w : List Work), Inv h held fresh w → enough h w ≤ fuel →
    ∃ h', drain fuel h w = some h' ∧ Inv h' held fresh [] ∧ Rel h h' ∧ h'.length = h.length
  | fuel, h, [], hi, _ => ⟨h, by cases fuel <;> rfl, hi, Rel.refl h, rfl⟩
  | 0, h, x :: w, hi, hf => by simp [enough] at hf
  | fuel + 1, h, x :: w, hi, hf => by
    obtain ⟨h1, w1, hs, i1, r1, l1, e1⟩ := step_inv hi
    obtain ⟨h2, hd, i2, r2, l2⟩ := drain_inv fuel h1 (w1 ++ w) i1 (by omega)
    exact ⟨h2, by rw [drain, hs]; exact hd, i2, r1.trans r2, l2.trans l1⟩

theorem run_inv {h : Heap} {held fresh : List Nat} {w : List Work} (hi : Inv h held fresh w) :
    ∃ h', run h w = some h' ∧ Inv h' held fresh [] ∧ Rel h h' ∧ h'.length = h.length :=
  drain_inv _ h w hi (Nat.le_refl _)

/-- Only what can be reached from what is dropped changes. -/
theorem drain_frame (P : Nat → Prop) : ∀ (fuel : Nat) (h h' : Heap) (w : List Work), drain fuel h w = some h' →
    (∀ a b, P a → Edge h a b → P b) → (∀ a, Work.dec a ∈ w ∨ Work.free a ∈ w → P a) → ∀ a, ¬ P a → get h' a = get h a
  | fuel, h, h', [], hd, _, _, a, _ => by
    have : h = h' := by cases fuel <;> simpa [drain] using hd
    rw [this]
  | 0, h, h', x :: w, hd, _, _, _, _ => by simp [drain] at hd
  | fuel + 1, h, h', x :: w, hd, hP, hw, a, ha => by
    rw [drain] at hd
    cases hs : step h x with
    | none => rw [hs] at hd; cases hd
    | some r =>
      obtain ⟨h1, w1⟩ := r
      rw [hs] at hd
      simp only [] at hd
      have hxP : ∀ b, x = .dec b ∨ x = .free b → P b := by
        intro b hb
        rcases hb with rfl | rfl
        · exact hw b (Or.inl List.mem_cons_self)
        · exact hw b (Or.inr List.mem_cons_self)
      have one : get h1 a = get h a ∧ (∀ b c, get h1 b = some c → ∃ c0, get h b = some c0 ∧ ∀ y, refsIn c.content y ≤ refsIn c0.content y) ∧
          ∀ b, Work.dec b ∈ w1 ∨ Work.free b ∈ w1 → P b := by
        cases x with
        | dec b =>
          have hb := hxP b (Or.inl rfl)
          have hne : a ≠ b := by rintro rfl; exact ha hb
          unfold step at hs
          cases hg : get h b with
          | none => simp only [hg] at hs; cases hs
          | some c =>
            simp only [hg] at hs
            by_cases h1' : c.rc ≤ 0
            · rw [if_pos h1'] at hs
              injection hs with hs; injection hs with hs1 hs2; subst hs1; subst hs2
              exact ⟨rfl, fun b c hb => ⟨c, hb, fun _ => Nat.le_refl _⟩, by simp⟩
            · rw [if_neg h1'] at hs
              by_cases h2' : c.rc - 1 ≤ 0
              · rw [if_pos h2'] at hs
                injection hs with hs; injection hs with hs1 hs2; subst hs1; subst hs2
                refine ⟨get_put_other _ hne, ?_, ?_⟩
                · intro d e hd'
                  by_cases hdb : d = b
                  · subst hdb
                    rw [get_put_same hg] at hd'; injection hd' with hd'; subst hd'
                    exact ⟨c, hg, fun y => Nat.zero_le _⟩
                  · rw [get_put_other _ hdb] at hd'; exact ⟨e, hd', fun _ => Nat.le_refl _⟩
                · intro d hd'
                  rcases hd' with hd' | hd'
                  · have : d ∈ links c.content := by simpa using hd'
                    refine hP b d hb ⟨c, hg, ?_⟩
                    rw [← links_count]; exact List.count_pos_iff.2 this
                  · have : d = b := by simpa using hd'
                    subst this; exact hb
              · rw [if_neg h2'] at hs
                injection hs with hs; injection hs with hs1 hs2; subst hs1; subst hs2
                refine ⟨get_put_other _ hne, ?_, by simp⟩
                intro d e hd'
                by_cases hdb : d = b
                · subst hdb
                  rw [get_put_same hg] at hd'; injection hd' with hd'; subst hd'
                  exact ⟨c, hg, fun y => Nat.le_refl _⟩
                · rw [get_put_other _ hdb] at hd'; exact ⟨e, hd', fun _ => Nat.le_refl _⟩
        | free b =>
          have hb := hxP b (Or.inr rfl)
          have hne : a ≠ b := by rintro rfl; exact ha hb
          unfold step at hs
          cases hg : get h b with
          | none => simp only [hg] at hs; cases hs
          | some c =>
            simp only [hg] at hs
            injection hs with hs; injection hs with hs1 hs2; subst hs1; subst hs2
            refine ⟨get_free_other _ hne, ?_, by simp⟩
            intro d e hd'
            have hdb : d ≠ b := by rintro rfl; rw [get_free_same] at hd'; cases hd'
            rw [get_free_other _ hdb] at hd'; exact ⟨e, hd', fun _ => Nat.le_refl _⟩
      rw [drain_frame P fuel h1 h' (w1 ++ w) hd ?_ ?_ a ha, one.1]
      · intro x y hx hxy
        obtain ⟨c, hc, hr⟩ := hxy
        obtain ⟨c0, hc0, hle⟩ := one.2.1 x c hc
        exact hP x y hx ⟨c0, hc0, Nat.lt_of_lt_of_le hr (hle y)⟩
      · intro y hy
        simp only [List.mem_append] at hy
        rcases hy with (hy | hy) | (hy | hy)
        · exact one.2.2 y (Or.inl hy)
        · exact hw y (Or.inl (List.mem_cons_of_mem _ hy))
        · exact one.2.2 y (Or.inr hy)
        · exact hw y (Or.inr (List.mem_cons_of_mem _ hy))

end Verif.Ref
