import Verif.Ref.Count
/-!
Every call keeps the counts right, if the rules of `Allowed` are kept.
-/
namespace Verif.Ref

theorem inv_balance {h : Heap} {held fresh : List Nat} {w : List Work} (hi : Inv h held fresh w) {v : Nat} {c : Cell}
    (hg : get h v = some c) (hn : c.rc ≠ -1) (x : Content) (held' : List Nat) (w' : List Work)
    (hb : ∀ b, held'.count b + refsIn x b + w'.count (.dec b) = held.count b + refsIn c.content b + w.count (.dec b))
    (hf : ∀ b, w'.count (.free b) = w.count (.free b)) : Inv (put h v ⟨c.rc, x⟩) held' fresh w' := by
  have key : ∀ b, refsW (put h v ⟨c.rc, x⟩) held' w' b = refsW h held w b := by
    intro b
    have t : total (put h v ⟨c.rc, x⟩) b + refsIn c.content b = total h b + refsIn x b := total_put ⟨c.rc, x⟩ hg b
    have := hb b
    unfold refsW; omega
  refine ⟨?_, ?_, ?_, ?_⟩
  · intro b d hd
    rw [key, hf]
    by_cases e : b = v
    · subst e
      rw [get_put_same hg] at hd; injection hd with hd; subst hd
      rcases hi.cnt b c hg with h1 | ⟨h1, _⟩
      · exact Or.inl h1
      · rw [h1] at hn; exact absurd rfl hn
    · rw [get_put_other _ e] at hd; exact hi.cnt b d hd
  · intro b hd
    rw [key, hf]
    by_cases e : b = v
    · subst e; rw [get_put_same hg] at hd; cases hd
    · rw [get_put_other _ e] at hd; exact hi.dead b hd
  · intro b d hd hz
    by_cases e : b = v
    · subst e
      rw [get_put_same hg] at hd; injection hd with hd; subst hd
      exact hi.zero b c hg hz
    · rw [get_put_other _ e] at hd; exact hi.zero b d hd hz
  · intro b hm
    obtain ⟨d, h1, h2⟩ := hi.fr b hm
    by_cases e : b = v
    · subst e
      rw [hg] at h1; injection h1 with h1; subst h1
      exact ⟨_, get_put_same hg, h2⟩
    · exact ⟨d, by rw [get_put_other _ e]; exact h1, h2⟩

theorem inv_held {h : Heap} {held fresh : List Nat} {w : List Work} (hi : Inv h held fresh w) (held' : List Nat) (w' : List Work)
    (hb : ∀ b, held'.count b + w'.count (.dec b) = held.count b + w.count (.dec b))
    (hf : ∀ b, w'.count (.free b) = w.count (.free b)) : Inv h held' fresh w' := by
  have key : ∀ b, refsW h held' w' b = refsW h held w b := by
    intro b
    have := hb b
    unfold refsW; omega
  refine ⟨?_, ?_, hi.zero, hi.fr⟩
  · intro b d hd; rw [key, hf]; exact hi.cnt b d hd
  · intro b hd; rw [key, hf]; exact hi.dead b hd

theorem rc_nonneg {h : Heap} {held fresh : List Nat} (hi : Inv h held fresh []) {a : Nat} {c : Cell} (hg : get h a = some c) :
    c.rc = refsW h held [] a := by
  rcases hi.cnt a c hg with h1 | ⟨_, _, h3⟩
  · exact h1.1
  · simp at h3

theorem rc_ne {h : Heap} {held fresh : List Nat} (hi : Inv h held fresh []) {a : Nat} {c : Cell} (hg : get h a = some c) :
    c.rc ≠ -1 := by
  have := rc_nonneg hi hg; omega

theorem inv_incr {h : Heap} {held fresh : List Nat} (hi : Inv h held fresh []) {a : Nat} {c : Cell} (hg : get h a = some c) :
    incr h a = some (put h a ⟨c.rc + 1, c.content⟩) ∧
    Inv (put h a ⟨c.rc + 1, c.content⟩) (a :: held) (fresh.filter (· ≠ a)) [] := by
  have hrc := rc_nonneg hi hg
  have key : ∀ b, refsW (put h a ⟨c.rc + 1, c.content⟩) (a :: held) [] b = refsW h held [] b + (if b = a then 1 else 0) := by
    intro b
    have t : total (put h a ⟨c.rc + 1, c.content⟩) b + refsIn c.content b = total h b + refsIn c.content b :=
      total_put ⟨c.rc + 1, c.content⟩ hg b
    unfold refsW
    rw [List.count_cons]
    by_cases e : b = a
    · subst e; simp; omega
    · have e' : ¬ (a = b) := fun x => e x.symm
      simp [e, e']; omega
  refine ⟨by simp only [incr, hg], ?_, ?_, ?_, ?_⟩
  · intro b d hd
    left
    refine ⟨?_, rfl⟩
    rw [key]
    by_cases e : b = a
    · subst e
      rw [get_put_same hg] at hd; injection hd with hd; subst hd
      rw [if_pos rfl]
      show c.rc + 1 = _
      omega
    · rw [get_put_other _ e] at hd
      rw [if_neg e, rc_nonneg hi hd]; rfl
  · intro b hd
    rw [key]
    by_cases e : b = a
    · subst e; rw [get_put_same hg] at hd; cases hd
    · rw [get_put_other _ e] at hd
      rw [if_neg e]; exact hi.dead b hd
  · intro b d hd hz
    by_cases e : b = a
    · subst e
      rw [get_put_same hg] at hd; injection hd with hd; subst hd
      simp only at hz; omega
    · rw [get_put_other _ e] at hd
      simp only [List.mem_filter, ne_eq, decide_not, Bool.not_eq_eq_eq_not, Bool.not_true, decide_eq_false_iff_not]
      exact ⟨hi.zero b d hd hz, e⟩
  · intro b hm
    simp only [List.mem_filter, ne_eq, decide_not, Bool.not_eq_eq_eq_not, Bool.not_true, decide_eq_false_iff_not] at hm
    obtain ⟨d, h1, h2⟩ := hi.fr b hm.1
    exact ⟨d, by rw [get_put_other _ hm.2]; exact h1, h2⟩

theorem modify_eq_put {h : Heap} {v : Nat} {c : Cell} (hg : get h v = some c) (x : Content) :
    h.modify v (fun c => c.map fun c => ⟨c.rc, x⟩) = put h v ⟨c.rc, x⟩ := by
  have := get_elem hg
  apply List.ext_getElem?
  intro i
  rw [List.getElem?_modify, put, List.getElem?_set]
  by_cases e : v = i
  · subst e
    have hl := get_lt hg
    simp only [if_true, this, Option.map_some, if_pos hl]
    rfl
  · simp [e]

/-- What can be reached survives when references are dropped. -/
theorem survive {h h' : Heap} {held fresh : List Nat} (hi' : Inv h' held fresh []) (hr : Rel h h') {x : Nat}
    (hx : Reachable ⟨h, held, fresh⟩ x) : ∃ c c', get h x = some c ∧ get h' x = some c' ∧ c'.content = c.content := by
  have fin : ∀ y, (∃ c', get h' y = some c') → ∃ c c', get h y = some c ∧ get h' y = some c' ∧ c'.content = c.content := by
    intro y ⟨c', hc'⟩
    obtain ⟨c, h1, h2⟩ := hr y c' hc'
    rcases h2 with h2 | ⟨h2, _⟩
    · exact absurd h2 (rc_ne hi' hc')
    · exact ⟨c, c', h1, hc', h2⟩
  have live : ∀ y, 0 < refsW h' held [] y → ∃ c', get h' y = some c' := by
    intro y hy
    cases hg : get h' y with
    | none => have := (hi'.dead y hg).1; omega
    | some c => exact ⟨c, rfl⟩
  induction hx with
  | own a ha =>
    apply fin
    rcases ha with ha | ha
    · apply live
      have : 0 < held.count a := List.count_pos_iff.2 ha
      unfold refsW; omega
    · obtain ⟨c, h1, _⟩ := hi'.fr a ha
      exact ⟨c, h1⟩
  | edge a b _ he ih =>
    apply fin
    apply live
    obtain ⟨c, c', h1, h2, h3⟩ := ih
    obtain ⟨d, hd, hrf⟩ := he
    have hd' : get h a = some d := hd
    rw [h1] at hd'; injection hd' with hd'; subst hd'
    have := edge_total (h := h') (a := a) (b := b) ⟨c', h2, by rw [h3]; exact hrf⟩
    unfold refsW; omega

/-- The count of a list without one of its elements. -/
theorem erase_count {l : List Nat} {a : Nat} (h : a ∈ l) (b : Nat) : (l.erase a).count b + (if a = b then 1 else 0) = l.count b := by
  rw [List.count_erase]
  have : 0 < l.count a := List.count_pos_iff.2 h
  by_cases e : a = b
  · subst e; simp; omega
  · have e' : ¬ (b = a) := fun x => e x.symm
    simp [e]

/-- `Jsi_ValueReset` of something that survives it. -/
theorem reset_inv {h : Heap} {held fresh : List Nat} (hi : Inv h held fresh []) {v : Nat} {c : Cell} (hg : get h v = some c)
    (hv : Reachable ⟨put h v ⟨c.rc, .undef⟩, held, fresh⟩ v) :
    ∃ h' c', reset h v = some h' ∧ Inv h' held fresh [] ∧ Rel (put h v ⟨c.rc, .undef⟩) h' ∧ h'.length = h.length ∧
      get h' v = some c' ∧ c'.content = .undef := by
  have i1 : Inv (put h v ⟨c.rc, .undef⟩) held fresh ((links c.content).map .dec) := by
    refine inv_balance hi hg (rc_ne hi hg) .undef held _ ?_ ?_
    · intro b; rw [map_dec_count, links_count]; simp [refsIn]
    · intro b; rw [map_dec_free]; rfl
  obtain ⟨h', hr, i2, rel, len⟩ := run_inv i1
  obtain ⟨d, c', h1, h2, h3⟩ := survive i2 rel hv
  refine ⟨h', c', by simp only [reset, hg]; exact hr, i2, rel, by simpa [put] using len, h2, ?_⟩
  rw [get_put_same hg] at h1; injection h1 with h1
  rw [h3, ← h1]

/-- What is reachable with a content is reachable with one that has more references. -/
theorem reachable_mono {h : Heap} {held fresh : List Nat} {v : Nat} {c : Cell} (hg : get h v = some c) {x y : Content}
    (hxy : ∀ b, 0 < refsIn x b → 0 < refsIn y b) {a : Nat} (ha : Reachable ⟨put h v ⟨c.rc, x⟩, held, fresh⟩ a) :
    Reachable ⟨put h v ⟨c.rc, y⟩, held, fresh⟩ a := by
  induction ha with
  | own a ha => exact .own a ha
  | edge a b _ he ih =>
    refine .edge a b ih ?_
    obtain ⟨d, hd, hr⟩ := he
    by_cases e : a = v
    · subst e
      have hd' : get (put h a ⟨c.rc, x⟩) a = some d := hd
      rw [get_put_same hg] at hd'; injection hd' with hd'; subst hd'
      exact ⟨_, get_put_same hg, hxy b hr⟩
    · have hd' : get (put h v ⟨c.rc, x⟩) a = some d := hd
      rw [get_put_other _ e] at hd'
      exact ⟨d, by show get (put h v ⟨c.rc, y⟩) a = some d; rw [get_put_other _ e]; exact hd', hr⟩

/-- More references held. -/
theorem reachable_held {h : Heap} {held held' fresh fresh' : List Nat} (hh : ∀ a, a ∈ held ∨ a ∈ fresh → a ∈ held' ∨ a ∈ fresh')
    {a : Nat} (ha : Reachable ⟨h, held, fresh⟩ a) : Reachable ⟨h, held', fresh'⟩ a := by
  induction ha with
  | own a ha => exact .own a (hh a ha)
  | edge a b _ he ih => exact .edge a b ih he

/-- Other counts. -/
theorem reachable_rc {h h' : Heap} {held fresh : List Nat}
    (hh : ∀ a c, get h a = some c → ∃ c', get h' a = some c' ∧ c'.content = c.content)
    {a : Nat} (ha : Reachable ⟨h, held, fresh⟩ a) : Reachable ⟨h', held, fresh⟩ a := by
  induction ha with
  | own a ha => exact .own a ha
  | edge a b _ he ih =>
    obtain ⟨d, hd, hr⟩ := he
    obtain ⟨d', h1, h2⟩ := hh a d hd
    exact .edge a b ih ⟨d', h1, by rw [h2]; exact hr⟩

/-- A state with right counts. -/
def Ok (s : State) : Prop := Inv s.heap s.held s.fresh []

/-- What is reachable when something is overwritten is alive. -/
theorem reachable_live {s : State} (hs : Ok s) {v a : Nat} {x : Content} (hx : ∀ c b, get s.heap v = some c → 0 < refsIn x b → 0 < refsIn c.content b)
    (ha : Reachable (s.withContent v x) a) : ∃ c, get s.heap a = some c := by
  have live : ∀ y, 0 < refsW s.heap s.held [] y → ∃ c', get s.heap y = some c' := by
    intro y hy
    cases hg : get s.heap y with
    | none => have := (hs.dead y hg).1; omega
    | some c => exact ⟨c, rfl⟩
  cases ha with
  | own a ha =>
    have ha' : a ∈ s.held ∨ a ∈ s.fresh := ha
    rcases ha' with ha | ha
    · apply live
      have : 0 < s.held.count a := List.count_pos_iff.2 ha
      unfold refsW; omega
    · obtain ⟨c, h1, _⟩ := hs.fr a ha
      exact ⟨c, h1⟩
  | edge b a _ he =>
    apply live
    have : Edge s.heap b a := by
      obtain ⟨d, hd, hr⟩ := he
      by_cases e : b = v
      · subst e
        cases hg : get s.heap b with
        | none =>
          exfalso
          have hd' : get (s.heap.modify b _) b = some d := hd
          unfold get at hd' hg
          rw [List.getElem?_modify] at hd'
          cases hl : s.heap[b]? with
          | none => rw [hl] at hd'; simp at hd'
          | some y =>
            rw [hl] at hd' hg
            simp only [Option.join] at hg
            subst hg
            simp at hd'
        | some c =>
          have hd' : get (s.heap.modify b _) b = some d := hd
          rw [modify_eq_put hg, get_put_same hg] at hd'
          injection hd' with hd'; subst hd'
          exact ⟨c, hg, hx c a hg hr⟩
      · refine ⟨d, ?_, hr⟩
        have hd' : get (s.heap.modify v _) b = some d := hd
        unfold get at hd' ⊢
        rw [List.getElem?_modify] at hd'
        simpa [Ne.symm e] using hd'
    have := edge_total this
    unfold refsW; omega

theorem ok_new {s : State} (hs : Ok s) (rc : Nat) (x : Content) (hx : ∀ b, refsIn x b = 0) (held' fresh' : List Nat)
    (hc : ∀ b, held'.count b = s.held.count b + (if b = s.heap.length then rc else 0))
    (hf : fresh' = if rc = 0 then s.heap.length :: s.fresh else s.fresh) :
    Ok ⟨s.heap ++ [some ⟨rc, x⟩], held', fresh'⟩ := by
  have hnew : get s.heap s.heap.length = none := by simp [get]
  have h0 := (hs.dead _ hnew).1
  have key : ∀ b, refsW (s.heap ++ [some ⟨rc, x⟩]) held' [] b = refsW s.heap s.held [] b + (if b = s.heap.length then rc else 0) := by
    intro b
    have : total (s.heap ++ [some ⟨rc, x⟩]) b = total s.heap b := by
      simp [total, cellRefs, hx]
    have h1 := hc b
    unfold refsW
    rw [this, h1]; omega
  have hget : ∀ b, get (s.heap ++ [some ⟨rc, x⟩]) b = if b = s.heap.length then some ⟨rc, x⟩ else get s.heap b := by
    intro b
    unfold get
    by_cases e : b = s.heap.length
    · subst e; simp
    · rw [if_neg e]
      by_cases hl : b < s.heap.length
      · rw [List.getElem?_append_left hl]
      · rw [List.getElem?_append_right (by omega), List.getElem?_eq_none (by simp; omega), List.getElem?_eq_none (by omega)]
  refine ⟨?_, ?_, ?_, ?_⟩
  · intro b d hd
    have hd' := hd
    simp only [] at hd'
    rw [hget] at hd'
    simp only [] at *
    left
    refine ⟨?_, rfl⟩
    rw [key]
    by_cases e : b = s.heap.length
    · rw [if_pos e] at hd' ⊢
      injection hd' with hd'; subst hd'
      subst e
      rw [h0]; simp
    · rw [if_neg e] at hd' ⊢
      exact rc_nonneg hs hd'
  · intro b hd
    have hd' := hd
    simp only [] at hd'
    rw [hget] at hd'
    refine ⟨?_, rfl⟩
    simp only []
    rw [key]
    by_cases e : b = s.heap.length
    · rw [if_pos e] at hd'; cases hd'
    · rw [if_neg e] at hd' ⊢
      exact (hs.dead b hd').1
  · intro b d hd hz
    have hd' := hd
    simp only [] at hd' ⊢
    rw [hget] at hd'
    subst hf
    by_cases e : b = s.heap.length
    · rw [if_pos e] at hd'
      injection hd' with hd'; subst hd'
      have : rc = 0 := by have : (rc : Int) = 0 := hz; omega
      rw [if_pos this]; simp [e]
    · rw [if_neg e] at hd'
      have := hs.zero b d hd' hz
      by_cases e2 : rc = 0
      · rw [if_pos e2]; exact List.mem_cons_of_mem _ this
      · rw [if_neg e2]; exact this
  · intro b hm
    simp only [] at hm ⊢
    have old : b ∈ s.fresh → ∃ c, get (s.heap ++ [some ⟨rc, x⟩]) b = some c ∧ c.rc = 0 := by
      intro hm
      obtain ⟨c, h1, h2⟩ := hs.fr b hm
      have : b < s.heap.length := get_lt h1
      exact ⟨c, by rw [hget, if_neg (by omega)]; exact h1, h2⟩
    subst hf
    by_cases e2 : rc = 0
    · rw [if_pos e2] at hm
      rcases List.mem_cons.1 hm with hm | hm
      · exact ⟨_, by rw [hget, if_pos hm], by simp [e2]⟩
      · exact old hm
    · rw [if_neg e2] at hm; exact old hm

end Verif.Ref
