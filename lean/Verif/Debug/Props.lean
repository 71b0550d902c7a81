import Verif.Debug.Model
/-!
# Breakpoints: theorems (C213)
-/
namespace Verif.Debug

/-- **C213.** A breakpoint is here if it is enabled and names the function, or the line of the file. -/
theorem C213_here (b : Bp) (e : Ev) :
    here b e = true ↔ b.enabled = true ∧ (b.place = .func e.func ∨ b.place = .line e.file e.line) := by
  unfold here
  rw [Bool.and_eq_true]
  cases b.place with
  | func f => simp
  | line f n => simp [and_comm]

theorem search_some (e : Ev) : ∀ l : List Bp, (∃ b ∈ l, here b e = true) → ∃ b ∈ l, here b e = true ∧ (search e l).2 = some b.id
  | [], h => by obtain ⟨b, hb, _⟩ := h; cases hb
  | b :: l, h => by
    by_cases hb : here b e = true
    · refine ⟨b, List.mem_cons_self, hb, ?_⟩
      unfold search; rw [if_pos hb]
    · have h2 : ∃ c ∈ l, here c e = true := by
        obtain ⟨c, hc, hh⟩ := h
        rcases List.mem_cons.1 hc with h1 | h1
        · rw [h1] at hh; exact absurd hh hb
        · exact ⟨c, h1, hh⟩
      obtain ⟨c, hc, hh, hs⟩ := search_some e l h2
      refine ⟨c, List.mem_cons_of_mem _ hc, hh, ?_⟩
      unfold search; rw [if_neg hb]; exact hs

theorem search_none (e : Ev) : ∀ l : List Bp, (∀ b ∈ l, here b e = false) → (search e l).2 = none
  | [], _ => rfl
  | b :: l, h => by
    unfold search
    rw [if_neg (by rw [h b List.mem_cons_self]; decide)]
    exact search_none e l (fun c hc => h c (List.mem_cons_of_mem _ hc))

theorem search_same (e : Ev) : ∀ l : List Bp, (search e l).2 = none → (search e l).1 = l
  | [], _ => rfl
  | b :: l, h => by
    by_cases hb : here b e = true
    · unfold search at h; rw [if_pos hb] at h; cases h
    · unfold search at h ⊢
      rw [if_neg hb] at h ⊢
      show b :: (search e l).1 = b :: l
      rw [search_same e l h]

/-- What the hook does to the breakpoints. -/
theorem hook_cases (s : St) (e : Ev) :
    ((hook s e).1.bps = s.bps ∧ (hook s e).1.idx = s.idx ∧ ((hook s e).2 = none ∨ (hook s e).2 = some 0)) ∨
      ((hook s e).1.bps = (search e s.bps).1 ∧ (hook s e).1.idx = s.idx ∧ ∃ id, (search e s.bps).2 = some id ∧ (hook s e).2 = some id) := by
  unfold hook
  split
  · exact Or.inl ⟨rfl, rfl, Or.inl rfl⟩
  · split
    · exact Or.inl ⟨rfl, rfl, Or.inr rfl⟩
    · split
      · exact Or.inl ⟨rfl, rfl, Or.inl rfl⟩
      · split
        · rename_i bps id h
          rw [h]
          exact Or.inr ⟨rfl, rfl, id, rfl, rfl⟩
        · split
          · exact Or.inl ⟨rfl, rfl, Or.inl rfl⟩
          · split
            · exact Or.inl ⟨rfl, rfl, Or.inl rfl⟩
            · exact Or.inl ⟨rfl, rfl, Or.inr rfl⟩

/-- **C213 (part).** Where an enabled breakpoint is, the callback is called with the number of such a breakpoint, unless one is still on the line one was last told of. -/
theorem C213_stop_partial (s : St) (e : Ev) (h1 : 0 < e.line) (h2 : e.nodebug = false) (h3 : s.noFilter = false) (h4 : s.forceBreak = false)
    (h5 : ¬ (s.lastLine = e.line ∧ s.lastLevel = e.level ∧ s.lastFile = e.file)) (hb : ∃ b ∈ s.bps, here b e = true) :
    ∃ b ∈ s.bps, here b e = true ∧ (hook s e).2 = some b.id := by
  obtain ⟨b, hm, hh, hs⟩ := search_some e s.bps hb
  refine ⟨b, hm, hh, ?_⟩
  have hsame : sameLine s e = false := by
    unfold sameLine
    cases hq : (s.lastLine == e.line && s.lastLevel == e.level && s.lastFile == e.file) with
    | false => rfl
    | true =>
      simp only [Bool.and_eq_true, beq_iff_eq] at hq
      exact absurd ⟨hq.1.1, hq.1.2, hq.2⟩ h5
  unfold hook
  rw [if_neg (by rw [h2]; simp; omega), h3, h4, hsame, if_neg (by decide), if_neg (by simp)]
  split
  · rename_i bps id hq
    rw [hq] at hs
    exact hs
  · rename_i bps hq
    rw [hq] at hs
    cases hs

/-- **C213.** While it continues, the callback is not called where no enabled breakpoint is, and no breakpoint changes. -/
theorem C213_go (s : St) (e : Ev) (h1 : s.cont = true) (h3 : s.noFilter = false) (h4 : s.forceBreak = false) (hb : ∀ b ∈ s.bps, here b e = false) :
    (hook s e).2 = none ∧ (hook s e).1 = s := by
  have hs := search_none e s.bps hb
  unfold hook
  split
  · exact ⟨rfl, rfl⟩
  · rw [h3, h4, if_neg (by decide)]
    split
    · exact ⟨rfl, rfl⟩
    · split
      · rename_i bps id hq
        rw [hq] at hs
        cases hs
      · rw [h1, if_pos (by simp)]
        exact ⟨rfl, rfl⟩

/-! ## Hits -/

theorem hitsOf_cons (id : Nat) (b : Bp) (l : List Bp) : hitsOf id (b :: l) = (if b.id = id then b.hits else 0) + hitsOf id l := by
  unfold hitsOf
  rw [List.filter_cons]
  by_cases h : b.id = id
  · rw [if_pos (by simpa using h), if_pos h]; simp
  · rw [if_neg (by simpa using h), if_neg h]; simp

theorem search_hits (e : Ev) (id : Nat) : ∀ l : List Bp, hitsOf id (search e l).1 = hitsOf id l + (search e l).2.toList.count id
  | [] => rfl
  | b :: l => by
    unfold search
    by_cases hb : here b e = true
    · rw [if_pos hb, hitsOf_cons, hitsOf_cons]
      dsimp only
      by_cases hi : b.id = id
      · rw [if_pos hi, if_pos hi]
        simp [hi]; omega
      · rw [if_neg hi, if_neg hi]
        simp [hi]
    · rw [if_neg hb, hitsOf_cons, hitsOf_cons, search_hits e id l]
      dsimp only
      omega

theorem step_hits (s : St) (x : Step) (id : Nat) (h0 : id ≠ 0) (hx : x ≠ .remove id) :
    hitsOf id (step s x).1.bps = hitsOf id s.bps + (step s x).2.toList.count id := by
  cases x with
  | ev e =>
    show hitsOf id (hook s e).1.bps = _ + ((hook s e).2.toList.count id)
    rcases hook_cases s e with ⟨h1, _, h2⟩ | ⟨h1, _, i, h2, h3⟩
    · rw [h1]
      rcases h2 with h2 | h2
      · rw [h2]; rfl
      · rw [h2]
        have : (0 : Nat) ≠ id := fun e => h0 e.symm
        simp [this]
    · rw [h1, search_hits, h3, h2]
  | add p t =>
    show hitsOf id (_ :: s.bps) = _ + 0
    rw [hitsOf_cons]
    simp
  | remove j =>
    have hj : j ≠ id := fun e => hx (by rw [e])
    show hitsOf id (s.bps.filter fun b => b.id != j) = _ + 0
    unfold hitsOf
    rw [List.filter_filter]
    congr 3
    funext b
    by_cases hb : b.id = id
    · simp [hb, Ne.symm hj]
    · simp [hb]
  | enable j v =>
    show hitsOf id (s.bps.map _) = _ + 0
    generalize s.bps = l
    induction l with
    | nil => rfl
    | cons b l ih =>
      rw [List.map_cons, hitsOf_cons, hitsOf_cons, ih]
      by_cases hb : b.id = j
      · rw [if_pos hb]; rfl
      · rw [if_neg hb]; rfl
  | mode c n f m => rfl

theorem run_hits (id : Nat) (h0 : id ≠ 0) : ∀ (xs : List Step) (s : St), .remove id ∉ xs →
    hitsOf id (run s xs).1.bps = hitsOf id s.bps + (run s xs).2.count id
  | [], _, _ => rfl
  | x :: xs, s, h => by
    have h1 : x ≠ .remove id := fun e => h (by rw [e]; exact List.mem_cons_self)
    show hitsOf id (run (step s x).1 xs).1.bps = _ + ((step s x).2.toList ++ (run (step s x).1 xs).2).count id
    rw [run_hits id h0 xs _ (fun hm => h (List.mem_cons_of_mem _ hm)), step_hits s x id h0 h1, List.count_append]
    omega

/-- **C213.** The hits of a breakpoint are the stops at it, after any instructions and commands that do not remove it. -/
theorem C213_hits (id : Nat) (h0 : id ≠ 0) (xs : List Step) (h : .remove id ∉ xs) : hitsOf id (run start xs).1.bps = (run start xs).2.count id := by
  rw [run_hits id h0 xs start h]
  show 0 + _ = _
  omega

/-! ## Temporary breakpoints -/

/-- The enabled breakpoints with this number. -/
def live (id : Nat) (l : List Bp) : Nat := (l.filter fun b => b.id == id && b.enabled).length

theorem live_cons (id : Nat) (b : Bp) (l : List Bp) : live id (b :: l) = (if b.id = id ∧ b.enabled = true then 1 else 0) + live id l := by
  unfold live
  rw [List.filter_cons]
  by_cases h : b.id = id ∧ b.enabled = true
  · rw [if_pos (by simpa using h), if_pos h]; simp; omega
  · rw [if_neg (by simpa using h), if_neg h]; simp

/-- Breakpoints with this number are temporary, and the number is not given again. -/
def Once (id : Nat) (s : St) : Prop := (∀ b ∈ s.bps, b.id = id → b.temp = true) ∧ id ≤ s.idx

theorem search_live (e : Ev) (id : Nat) : ∀ l : List Bp, (∀ b ∈ l, b.id = id → b.temp = true) →
    live id (search e l).1 + (search e l).2.toList.count id = live id l ∧ (∀ b ∈ (search e l).1, b.id = id → b.temp = true)
  | [], _ => ⟨rfl, fun _ h => by cases h⟩
  | b :: l, h => by
    unfold search
    by_cases hb : here b e = true
    · rw [if_pos hb]
      have he : b.enabled = true := by
        unfold here at hb
        rw [Bool.and_eq_true] at hb
        exact hb.1
      refine ⟨?_, ?_⟩
      · dsimp only
        rw [live_cons, live_cons]
        by_cases hi : b.id = id
        · have ht := h b List.mem_cons_self hi
          simp [hi, he, ht]; omega
        · simp [hi]
      · intro c hc
        rcases List.mem_cons.1 hc with h1 | h1
        · rw [h1]; exact h b List.mem_cons_self
        · exact h c (List.mem_cons_of_mem _ h1)
    · rw [if_neg hb]
      have ih := search_live e id l (fun c hc => h c (List.mem_cons_of_mem _ hc))
      refine ⟨?_, ?_⟩
      · dsimp only
        rw [live_cons, live_cons]
        omega
      · intro c hc
        rcases List.mem_cons.1 hc with h1 | h1
        · rw [h1]; exact h b List.mem_cons_self
        · exact ih.2 c h1

theorem step_live (s : St) (x : Step) (id : Nat) (h0 : id ≠ 0) (ho : Once id s) (hx : x ≠ .enable id true) :
    live id (step s x).1.bps + (step s x).2.toList.count id ≤ live id s.bps ∧ Once id (step s x).1 := by
  cases x with
  | ev e =>
    show live id (hook s e).1.bps + ((hook s e).2.toList.count id) ≤ _ ∧ Once id (hook s e).1
    rcases hook_cases s e with ⟨h1, hi, h2⟩ | ⟨h1, hi, i, h2, h3⟩
    · refine ⟨?_, by rw [h1]; exact ho.1, by rw [hi]; exact ho.2⟩
      rw [h1]
      rcases h2 with h2 | h2
      · rw [h2]; exact Nat.le_refl _
      · rw [h2]
        have : (0 : Nat) ≠ id := fun e => h0 e.symm
        simp [this]
    · have hl := search_live e id s.bps ho.1
      refine ⟨?_, by rw [h1]; exact hl.2, by rw [hi]; exact ho.2⟩
      rw [h1, h3, ← h2, hl.1]
      exact Nat.le_refl _
  | add p t =>
    have hn : s.idx + 1 ≠ id := by have := ho.2; omega
    refine ⟨?_, ?_, ?_⟩
    · show live id (_ :: s.bps) + 0 ≤ _
      rw [live_cons]
      simp [hn]
    · intro b hb hi
      rcases List.mem_cons.1 hb with h1 | h1
      · rw [h1] at hi; exact absurd hi hn
      · exact ho.1 b h1 hi
    · show id ≤ s.idx + 1
      have := ho.2; omega
  | remove j =>
    refine ⟨?_, ?_, ho.2⟩
    · show live id (s.bps.filter fun b => b.id != j) + 0 ≤ _
      unfold live
      rw [List.filter_filter, Nat.add_zero]
      generalize s.bps = l
      induction l with
      | nil => exact Nat.le_refl _
      | cons b l ih =>
        rw [List.filter_cons, List.filter_cons]
        by_cases h1 : (b.id == id && b.enabled) = true
        · rw [if_pos h1]
          split
          · simp only [List.length_cons]; omega
          · simp only [List.length_cons]; omega
        · rw [if_neg h1, if_neg]
          · exact ih
          · simp only [Bool.and_eq_true] at h1 ⊢
            exact fun h => h1 ⟨h.1.1, h.1.2⟩
    · intro b hb
      exact ho.1 b ((List.mem_filter.1 hb).1)
  | enable j v =>
    refine ⟨?_, ?_, ho.2⟩
    · show live id (s.bps.map _) + 0 ≤ _
      generalize s.bps = l
      induction l with
      | nil => exact Nat.le_refl _
      | cons b l ih =>
        rw [List.map_cons, live_cons, live_cons]
        by_cases hb : b.id = j
        · rw [if_pos hb]
          dsimp only
          by_cases hi : b.id = id
          · cases v with
            | true => exact absurd (show Step.enable j true = Step.enable id true by rw [← hb, hi]) hx
            | false => simp; omega
          · simp [hi]; omega
        · rw [if_neg hb]; omega
    · intro b hb hi
      obtain ⟨c, hc, he⟩ := List.mem_map.1 hb
      by_cases hj : c.id = j
      · rw [if_pos hj] at he
        rw [← he] at hi ⊢
        exact ho.1 c hc hi
      · rw [if_neg hj] at he
        rw [← he] at hi ⊢
        exact ho.1 c hc hi
  | mode c n f m => exact ⟨Nat.le_refl _, ho⟩

theorem run_live (id : Nat) (h0 : id ≠ 0) : ∀ (xs : List Step) (s : St), Once id s → .enable id true ∉ xs → (run s xs).2.count id ≤ live id s.bps
  | [], _, _, _ => Nat.zero_le _
  | x :: xs, s, ho, h => by
    have h1 : x ≠ .enable id true := fun e => h (by rw [e]; exact List.mem_cons_self)
    have hs := step_live s x id h0 ho h1
    have ih := run_live id h0 xs _ hs.2 (fun hm => h (List.mem_cons_of_mem _ hm))
    show ((step s x).2.toList ++ (run (step s x).1 xs).2).count id ≤ _
    rw [List.count_append]
    omega

/-- **C213.** A temporary breakpoint stops at most once, unless it is enabled again. -/
theorem C213_temporary (s : St) (hs : ∀ b ∈ s.bps, b.id ≤ s.idx) (p : Place) (xs : List Step) (h : .enable (s.idx + 1) true ∉ xs) :
    (run (add s p true) xs).2.count (s.idx + 1) ≤ 1 := by
  have ho : Once (s.idx + 1) (add s p true) := by
    refine ⟨?_, Nat.le_refl _⟩
    intro b hb hi
    rcases List.mem_cons.1 hb with h1 | h1
    · rw [h1]
    · have := hs b h1; omega
  have hl : live (s.idx + 1) (add s p true).bps = 1 := by
    show live _ (_ :: s.bps) = 1
    rw [live_cons]
    have : live (s.idx + 1) s.bps = 0 := by
      unfold live
      rw [List.length_eq_zero_iff, List.filter_eq_nil_iff]
      intro b hb
      have := hs b hb
      have : b.id ≠ s.idx + 1 := by omega
      simp [this]
    rw [this]
    simp
  have := run_live (s.idx + 1) (by omega) xs _ ho h
  omega

/-- The numbers of breakpoints are those given. -/
theorem C213_numbers (xs : List Step) : ∀ b ∈ (run start xs).1.bps, b.id ≤ (run start xs).1.idx := by
  have : ∀ (xs : List Step) (s : St), (∀ b ∈ s.bps, b.id ≤ s.idx) → ∀ b ∈ (run s xs).1.bps, b.id ≤ (run s xs).1.idx := by
    intro xs
    induction xs with
    | nil => intro s h; exact h
    | cons x xs ih =>
      intro s h
      refine ih (step s x).1 ?_
      cases x with
      | ev e =>
        show ∀ b ∈ (hook s e).1.bps, b.id ≤ (hook s e).1.idx
        have hsr : ∀ l : List Bp, (∀ b ∈ l, b.id ≤ s.idx) → ∀ b ∈ (search e l).1, b.id ≤ s.idx := by
          intro l
          induction l with
          | nil => intro _ b hb; cases hb
          | cons a l ihl =>
            intro hl b hb
            unfold search at hb
            split at hb
            · rcases List.mem_cons.1 hb with h1 | h1
              · rw [h1]; exact hl a List.mem_cons_self
              · exact hl b (List.mem_cons_of_mem _ h1)
            · rcases List.mem_cons.1 hb with h1 | h1
              · rw [h1]; exact hl a List.mem_cons_self
              · exact ihl (fun c hc => hl c (List.mem_cons_of_mem _ hc)) b h1
        rcases hook_cases s e with ⟨h1, hi, _⟩ | ⟨h1, hi, _⟩
        · rw [h1, hi]; exact h
        · rw [h1, hi]; exact hsr s.bps h
      | add p t =>
        intro b hb
        show b.id ≤ s.idx + 1
        rcases List.mem_cons.1 hb with h1 | h1
        · rw [h1]; exact Nat.le_refl _
        · have := h b h1; omega
      | remove j => intro b hb; exact h b ((List.mem_filter.1 hb).1)
      | enable j v =>
        intro b hb
        obtain ⟨c, hc, he⟩ := List.mem_map.1 hb
        show b.id ≤ s.idx
        rw [← he]
        split
        · exact h c hc
        · exact h c hc
      | mode c n f m => exact h
  exact this xs start (fun _ h => by cases h)

/-- **C213 refuted.** Who stopped at a line by stepping, sets a breakpoint there and continues, is not stopped there again, however often the line is done. -/
theorem C213_loop_refuted : ∀ (es : List Ev) (s : St), s.cont = true → s.noFilter = false → s.forceBreak = false → s.bpLast = false →
    (∀ e ∈ es, (e.line = s.lastLine ∧ e.level = s.lastLevel ∧ e.file = s.lastFile) ∨ ∀ b ∈ s.bps, here b e = false) → (run s (es.map .ev)).2 = []
  | [], _, _, _, _, _, _ => rfl
  | e :: es, s, h1, h2, h3, h4, h => by
    have hk : (hook s e).2 = none ∧ (hook s e).1 = s := by
      rcases h e List.mem_cons_self with ⟨a, b, c⟩ | hb
      · unfold hook
        split
        · exact ⟨rfl, rfl⟩
        · rw [h2, h3, if_neg (by decide)]
          have : sameLine s e = true := by unfold sameLine; simp [a, b, c]
          rw [this, h4, if_pos (by simp)]
          exact ⟨rfl, rfl⟩
      · exact C213_go s e h1 h2 h3 hb
    show (hook s e).2.toList ++ (run (hook s e).1 (es.map .ev)).2 = []
    rw [hk.1, hk.2, C213_loop_refuted es s h1 h2 h3 h4 (fun x hx => h x (List.mem_cons_of_mem _ hx))]
    rfl

private def at_ (n : Int) (c : Nat) : Step := .ev ⟨asc "a", n, 1, [], c, false, false⟩

/-- A temporary breakpoint at 5 and one at 7: continue through 4, 5, 7, 5, 7. -/
example : (run start [.add (.line (asc "a") 5) true, .add (.line (asc "a") 7) false, .mode true false false 0, at_ 4 1, at_ 5 20, at_ 7 40, at_ 5 60, at_ 7 80]).2 = [1, 2, 2] := by
  decide +kernel
/-- Step to 5, break there, continue: 6, 5, 6, 5 do not stop. -/
example : (run start [at_ 5 1, .add (.line (asc "a") 5) false, .mode true false false 0, at_ 6 20, at_ 5 40, at_ 6 60, at_ 5 80]).2 = [0] := by decide +kernel

end Verif.Debug
