import Verif.Ref.Props
/-!
C62: a call stores what it says, and changes nothing else.  Here no rules are needed: the statements are about every call
that returns.
-/
namespace Verif.Ref

/-- What is alive in `h'` was alive in `h` with the same content, except for the cells in `t`. -/
def Same (t : List Nat) (h h' : Heap) : Prop := ∀ a c', a ∉ t → get h' a = some c' → ∃ c, get h a = some c ∧ c'.content = c.content

theorem Same.refl (t : List Nat) (h : Heap) : Same t h h := fun _ c _ hg => ⟨c, hg, rfl⟩

theorem Same.trans {t : List Nat} {h1 h2 h3 : Heap} (a : Same t h1 h2) (b : Same t h2 h3) : Same t h1 h3 := by
  intro x c3 hx h3
  obtain ⟨c2, h2, e2⟩ := b x c3 hx h3
  obtain ⟨c1, h1, e1⟩ := a x c2 hx h2
  exact ⟨c1, h1, e2.trans e1⟩

theorem Same.mono {t t' : List Nat} {h h' : Heap} (ht : ∀ a ∈ t, a ∈ t') (a : Same t h h') : Same t' h h' :=
  fun x c hx hg => a x c (fun h => hx (ht x h)) hg

theorem get_put (h : Heap) (a b : Nat) (c : Cell) : get (put h a c) b = if b = a ∧ a < h.length then some c else get h b := by
  by_cases e : b = a
  · subst e
    by_cases hl : b < h.length
    · simp [get, put, hl]
    · simp [get, put, hl]
  · rw [get_put_other _ e]; simp [e]

theorem same_put {t : List Nat} {h : Heap} {a : Nat} (c : Cell) (ha : a ∈ t) : Same t h (put h a c) := by
  intro x d hx hg
  have : x ≠ a := by rintro rfl; exact hx ha
  rw [get_put_other _ this] at hg
  exact ⟨d, hg, rfl⟩

theorem same_put_content {t : List Nat} {h : Heap} {a : Nat} {c : Cell} (hg : get h a = some c) (n : Int) :
    Same t h (put h a ⟨n, c.content⟩) := by
  intro x d hx hd
  by_cases e : x = a
  · subst e
    rw [get_put_same hg] at hd; injection hd with hd; subst hd
    exact ⟨c, hg, rfl⟩
  · rw [get_put_other _ e] at hd
    exact ⟨d, hd, rfl⟩

/-- What is not alive does not come back, and what is about to be freed is freed. -/
theorem drain_same (t : List Nat) : ∀ (fuel : Nat) (h h' : Heap) (w : List Work), drain fuel h w = some h' →
    (∀ a, get h a = none → get h' a = none) ∧ (∀ a, .free a ∈ w → get h' a = none) ∧ Same t h h'
  | fuel, h, h', [], hd => by
    have : h = h' := by cases fuel <;> simpa [drain] using hd
    subst this
    exact ⟨fun _ h => h, by simp, Same.refl t h⟩
  | 0, h, h', x :: w, hd => by simp [drain] at hd
  | fuel + 1, h, h', x :: w, hd => by
    rw [drain] at hd
    cases hs : step h x with
    | none => rw [hs] at hd; cases hd
    | some r =>
      obtain ⟨h1, w1⟩ := r
      rw [hs] at hd
      simp only [] at hd
      obtain ⟨i1, i2, i3⟩ := drain_same t fuel h1 h' (w1 ++ w) hd
      cases x with
      | dec b =>
        unfold step at hs
        cases hg : get h b with
        | none => simp only [hg] at hs; cases hs
        | some c =>
          simp only [hg] at hs
          have hnone : ∀ d a, get h a = none → get (put h b d) a = none := by
            intro d a ha
            have : a ≠ b := by rintro rfl; rw [hg] at ha; cases ha
            rw [get_put_other _ this]; exact ha
          have hfree : ∀ a, Work.free a ∈ Work.dec b :: w → get h' a = none := by
            intro a ha
            rcases List.mem_cons.1 ha with ha | ha
            · cases ha
            · exact i2 a (List.mem_append_right _ ha)
          by_cases h1' : c.rc ≤ 0
          · rw [if_pos h1'] at hs
            injection hs with hs; injection hs with hs1 hs2; subst hs1
            exact ⟨i1, hfree, i3⟩
          · rw [if_neg h1'] at hs
            by_cases h2' : c.rc - 1 ≤ 0
            · rw [if_pos h2'] at hs
              injection hs with hs; injection hs with hs1 hs2; subst hs1; subst hs2
              refine ⟨fun a ha => i1 a (hnone _ a ha), hfree, ?_⟩
              intro a c' ha hc'
              obtain ⟨c1, hc1, he⟩ := i3 a c' ha hc'
              by_cases e : a = b
              · subst e
                have := i2 a (by simp)
                rw [this] at hc'; cases hc'
              · rw [get_put_other _ e] at hc1
                exact ⟨c1, hc1, he⟩
            · rw [if_neg h2'] at hs
              injection hs with hs; injection hs with hs1 hs2; subst hs1; subst hs2
              exact ⟨fun a ha => i1 a (hnone _ a ha), hfree, (same_put_content hg _).trans i3⟩
      | free b =>
        unfold step at hs
        cases hg : get h b with
        | none => simp only [hg] at hs; cases hs
        | some c =>
          simp only [hg] at hs
          injection hs with hs; injection hs with hs1 hs2; subst hs1; subst hs2
          refine ⟨?_, ?_, ?_⟩
          · intro a ha
            apply i1
            by_cases e : a = b
            · subst e; exact get_free_same _ _
            · rw [get_free_other _ e]; exact ha
          · intro a ha
            rcases List.mem_cons.1 ha with ha | ha
            · injection ha with ha; subst ha
              exact i1 a (get_free_same _ _)
            · exact i2 a (List.mem_append_right _ ha)
          · intro a c' ha hc'
            obtain ⟨c1, hc1, he⟩ := i3 a c' ha hc'
            by_cases e : a = b
            · subst e; rw [get_free_same] at hc1; cases hc1
            · rw [get_free_other _ e] at hc1; exact ⟨c1, hc1, he⟩

theorem run_same {h h' : Heap} {w : List Work} (hr : run h w = some h') (t : List Nat) : Same t h h' :=
  (drain_same t _ h h' w hr).2.2

theorem incr_same {h h' : Heap} {a : Nat} (hr : incr h a = some h') (t : List Nat) : Same t h h' := by
  unfold incr at hr
  cases hg : get h a with
  | none => simp only [hg] at hr; cases hr
  | some c =>
    simp only [hg] at hr
    injection hr with hr; subst hr
    exact same_put_content hg _

theorem keep_same {h h' : Heap} {x : Content} (hr : keep h x = some h') (t : List Nat) : Same t h h' := by
  cases x <;> simp only [keep] at hr <;> first | (injection hr with hr; subst hr; exact Same.refl _ _) | exact incr_same hr t

theorem share_same {h h' : Heap} {x : Content} (hr : share h x = some h') (t : List Nat) : Same t h h' := by
  cases x <;> simp only [share] at hr <;> first | (injection hr with hr; subst hr; exact Same.refl _ _) | exact incr_same hr t

theorem unkeep_same {h h' : Heap} {x : Content} (hr : unkeep h x = some h') (t : List Nat) : Same t h h' := by
  cases x <;> simp only [unkeep] at hr <;> first | (injection hr with hr; subst hr; exact Same.refl _ _) | exact run_same hr t

/-- `Same` for the cell itself: its content afterwards, if it is still alive. -/
theorem Same.at {h h' : Heap} (s : Same [] h h') {a : Nat} {c c' : Cell} (hg : get h a = some c) (hg' : get h' a = some c') :
    c'.content = c.content := by
  obtain ⟨d, hd, he⟩ := s a c' (by simp) hg'
  rw [hg] at hd; injection hd with hd; subst hd
  exact he

theorem reset_same {h h' : Heap} {v : Nat} (hr : reset h v = some h') :
    Same [v] h h' ∧ ∀ c', get h' v = some c' → c'.content = .undef := by
  unfold reset at hr
  cases hg : get h v with
  | none => simp only [hg] at hr; cases hr
  | some c =>
    simp only [hg] at hr
    refine ⟨(same_put _ (by simp)).trans (run_same hr _), ?_⟩
    intro c' hc'
    exact (run_same hr []).at (get_put_same hg) hc'

theorem setContent_same {h h' : Heap} {v : Nat} {x : Content} (hr : setContent h v x = some h') :
    Same [v] h h' ∧ ∀ c', get h' v = some c' → c'.content = x := by
  unfold setContent at hr
  cases hg : get h v with
  | none => simp only [hg] at hr; cases hr
  | some c =>
    simp only [hg] at hr
    injection hr with hr; subst hr
    refine ⟨same_put _ (by simp), ?_⟩
    intro c' hc'
    rw [get_put_same hg] at hc'; injection hc' with hc'; subst hc'; rfl

/-- The calls that were made for `Jsi_ValueCopy`, `Jsi_ValueMove`. -/
theorem copyMove_same {h h' : Heap} {t f : Nat} {isCopy : Bool} (hr : copyMove h t f isCopy = some h') (hne : t ≠ f) :
    Same (if isCopy then [t] else [t, f]) h h' ∧
    (∀ c', get h' t = some c' → ∃ c, get h f = some c ∧ c'.content = c.content) ∧
    (isCopy = false → ∃ c', get h' f = some c' ∧ c'.content = .undef) := by
  unfold copyMove at hr
  rw [if_neg hne] at hr
  simp only [Option.bind_eq_bind, Option.bind_eq_some_iff] at hr
  obtain ⟨T, hT, hr⟩ := hr
  by_cases hrc : T.rc ≤ 0
  · rw [if_pos hrc] at hr; cases hr
  rw [if_neg hrc] at hr
  simp only [Option.bind_eq_some_iff] at hr
  obtain ⟨h1, e1, h2, e2, F, hF, T2, hT2, hr⟩ := hr
  have s2 : Same [t] h h2 := (keep_same e1 _).trans (reset_same e2).1
  obtain ⟨F0, hF0, hFc⟩ := s2 f F (by simp; exact Ne.symm hne) hF
  cases isCopy with
  | true =>
    simp only [if_true, Option.bind_eq_some_iff] at hr
    have fin : ∀ h4, Same [] (put h2 t ⟨F.rc, F.content⟩) h4 →
        (∃ t4, get h4 t = some t4 ∧ unkeep (put h4 t ⟨T.rc, t4.content⟩) T.content = some h') →
        Same [t] h h' ∧ (∀ c', get h' t = some c' → ∃ c, get h f = some c ∧ c'.content = c.content) := by
      rintro h4 s4 ⟨t4, ht4, hu⟩
      have a := s4.at (get_put_same hT2) ht4
      refine ⟨?_, ?_⟩
      · exact s2.trans ((same_put _ (by simp)).trans ((s4.mono (by simp)).trans ((same_put _ (by simp)).trans (unkeep_same hu _))))
      · intro c' hc'
        refine ⟨F0, hF0, ?_⟩
        rw [(unkeep_same hu []).at (get_put_same ht4) hc', ← hFc]
        exact a
    by_cases hz : F.rc ≠ 0
    · rw [if_pos hz] at hr
      obtain ⟨h4, e4, hr⟩ := Option.bind_eq_some_iff.1 hr
      obtain ⟨t4, ht4, hr⟩ := Option.bind_eq_some_iff.1 hr
      obtain ⟨a, b⟩ := fin h4 (share_same e4 _) ⟨t4, ht4, hr⟩
      exact ⟨a, b, by simp⟩
    · rw [if_neg hz] at hr
      simp only [Option.bind_eq_some_iff] at hr
      obtain ⟨h4, e4, hr⟩ := hr
      injection e4 with e4; subst e4
      obtain ⟨a, b⟩ := fin _ (Same.refl _ _) hr
      exact ⟨a, b, by simp⟩
  | false =>
    simp only [Bool.false_eq_true, if_false, Option.bind_eq_some_iff] at hr
    obtain ⟨h5, e5, F5, hF5, hr⟩ := hr
    injection hr with hr; subst hr
    refine ⟨?_, ?_, ?_⟩
    · exact (s2.mono (by simp)).trans ((same_put _ (by simp)).trans ((same_put _ (by simp)).trans ((same_put _ (by simp)).trans (unkeep_same e5 _))))
    · intro c' hc'
      refine ⟨F0, hF0, ?_⟩
      rw [(unkeep_same e5 []).at (c := ⟨T.rc, F.content⟩) ?_ hc', ← hFc]
      rw [get_put_other _ hne, put_put]
      exact get_put_same hT2
    · intro _
      refine ⟨F5, hF5, ?_⟩
      refine (unkeep_same e5 []).at (c := ⟨F.rc, .undef⟩) ?_ hF5
      refine get_put_same (c := F) ?_
      rw [put_put, get_put_other _ (Ne.symm hne)]; exact hF

theorem swapIn_same {h h' : Heap} {o v : Nat} {rc : Int} {cleared : Content} {old : List Nat} {set : Content → Option Content}
    (hr : swapIn h o rc cleared old set v = some h') (ho : o < h.length) : Same [o] h h' ∧
      ∃ c', set cleared = some c' ∧ ∀ d, get h' o = some d → d.content = c' := by
  unfold swapIn at hr
  simp only [Option.bind_eq_bind, Option.bind_eq_some_iff] at hr
  obtain ⟨h1, e1, c, hc, x, hx, hr⟩ := hr
  refine ⟨(same_put _ (by simp)).trans ((run_same e1 _).trans ((same_put _ (by simp)).trans (incr_same hr _))), x, ?_, ?_⟩
  · obtain ⟨c0, hc0, he⟩ := run_same e1 [] o c (by simp) hc
    rw [get_put] at hc0
    simp only [ho, and_self, if_true] at hc0
    injection hc0 with hc0; subst hc0
    rw [← hx, he]
  · intro d hd
    exact (incr_same hr []).at (get_put_same hc) hd

/-- The cells a call may write to. -/
def touched : Op → List Nat
  | .reset v => [v]
  | .makePrim v _ => [v]
  | .makeObject v _ => [v]
  | .copy t _ => [t]
  | .move t f => [t, f]
  | .pushVar dv _ => [dv]
  | .arrayAdd o _ => [o]
  | .arraySet o _ _ => [o]
  | .insert o _ _ => [o]
  | _ => []

theorem same_append (t : List Nat) (h : Heap) (c : Cell) : ∀ a c', a ∉ t → a < h.length → get (h ++ [some c]) a = some c' →
    ∃ d, get h a = some d ∧ c'.content = d.content := by
  intro a c' _ hl hg
  refine ⟨c', ?_, rfl⟩
  unfold get at hg ⊢
  rwa [List.getElem?_append_left hl] at hg

theorem frame {s s' : State} {op : Op} (he : exec s op = some s') {a : Nat} {c' : Cell} (ht : a ∉ touched op)
    (hl : op = .new ∨ op = .new1 ∨ op = .newObj → a < s.heap.length) (hg : get s'.heap a = some c') : ∃ c, get s.heap a = some c ∧ c'.content = c.content := by
  have fin : ∀ {o : Option Heap} {f : Heap → State}, (∀ h, (f h).heap = h) → o.map f = some s' → (∀ h', o = some h' → Same (touched op) s.heap h') →
      ∃ c, get s.heap a = some c ∧ c'.content = c.content := by
    intro o f hf ho hs
    cases o with
    | none => cases ho
    | some h' =>
      simp only [Option.map_some] at ho
      injection ho with ho; subst ho
      rw [hf] at hg
      exact hs h' rfl a c' ht hg
  cases op with
  | new => simp only [exec] at he; injection he with he; subst he; exact same_append [] _ _ a c' (by simp) (hl (by simp)) hg
  | new1 => simp only [exec] at he; injection he with he; subst he; exact same_append [] _ _ a c' (by simp) (hl (by simp)) hg
  | newObj => simp only [exec] at he; injection he with he; subst he; exact same_append [] _ _ a c' (by simp) (hl (by simp)) hg
  | incr b => exact fin (fun _ => rfl) he fun h' e => incr_same e _
  | decr b => exact fin (fun _ => rfl) he fun h' e => run_same e _
  | reset v => exact fin (fun _ => rfl) he fun h' e => (reset_same e).1
  | makePrim v n =>
    refine fin (fun _ => rfl) he fun h' e => ?_
    obtain ⟨h1, e1, e2⟩ := Option.bind_eq_some_iff.1 e
    exact (reset_same e1).1.trans (setContent_same e2).1
  | makeObject v o =>
    refine fin (fun _ => rfl) he fun h' e => ?_
    obtain ⟨c, e1, e2⟩ := Option.bind_eq_some_iff.1 e
    by_cases hc : c.content = .ref o
    · rw [if_pos hc] at e2; injection e2 with e2; subst e2; exact Same.refl _ _
    · rw [if_neg hc] at e2
      obtain ⟨h1, e2, e3⟩ := Option.bind_eq_some_iff.1 e2
      obtain ⟨h2, e3, e4⟩ := Option.bind_eq_some_iff.1 e3
      exact (reset_same e2).1.trans ((setContent_same e3).1.trans (incr_same e4 _))
  | copy t f =>
    refine fin (fun _ => rfl) he fun h' e => ?_
    by_cases htf : t = f
    · unfold copyMove at e; rw [if_pos htf] at e; injection e with e; subst e; exact Same.refl _ _
    · exact (copyMove_same e htf).1
  | move t f =>
    refine fin (fun _ => rfl) he fun h' e => ?_
    by_cases htf : t = f
    · unfold copyMove at e; rw [if_pos htf] at e; injection e with e; subst e; exact Same.refl _ _
    · exact (copyMove_same e htf).1
  | replace old f =>
    simp only [exec] at he
    by_cases hof : old = f
    · rw [if_pos hof] at he; injection he with he; subst he; exact ⟨c', hg, rfl⟩
    · rw [if_neg hof] at he
      obtain ⟨h1, e1, he⟩ := Option.bind_eq_some_iff.1 he
      obtain ⟨h2, e2, he⟩ := Option.bind_eq_some_iff.1 he
      injection he with he; subst he
      exact ((run_same e1 []).trans (incr_same e2 _)) a c' (by simp) hg
  | pushVar dv v =>
    refine fin (fun _ => rfl) he fun h' e => ?_
    obtain ⟨h1, e1, e2⟩ := Option.bind_eq_some_iff.1 e
    obtain ⟨d, e3, e4⟩ := Option.bind_eq_some_iff.1 e2
    by_cases hc : dv ≠ v ∧ d.content ≠ .var v
    · rw [if_pos hc] at e4
      obtain ⟨h2, e5, e6⟩ := Option.bind_eq_some_iff.1 e4
      exact (incr_same e1 _).trans ((reset_same e5).1.trans (setContent_same e6).1)
    · rw [if_neg hc] at e4; injection e4 with e4; subst e4; exact incr_same e1 _
  | arrayAdd o v =>
    refine fin (fun _ => rfl) he fun h' e => ?_
    obtain ⟨c, e1, e2⟩ := Option.bind_eq_some_iff.1 e
    cases hc : c.content <;> rw [hc] at e2 <;> simp only [] at e2 <;> first | cases e2 | skip
    exact (same_put _ (by simp [touched])).trans (incr_same e2 _)
  | arraySet o v n =>
    refine fin (fun _ => rfl) he fun h' e => ?_
    obtain ⟨c, e1, e2⟩ := Option.bind_eq_some_iff.1 e
    cases hc : c.content <;> rw [hc] at e2 <;> simp only [] at e2 <;> first | cases e2 | skip
    rename_i props arr
    by_cases hx : (sizer arr n)[n]? = some (some v)
    · rw [if_pos hx] at e2; injection e2 with e2; subst e2; exact same_put _ (by simp [touched])
    · rw [if_neg hx] at e2; exact (swapIn_same e2 (get_lt e1)).1
  | insert o key v =>
    refine fin (fun _ => rfl) he fun h' e => ?_
    obtain ⟨c, e1, e2⟩ := Option.bind_eq_some_iff.1 e
    cases hc : c.content <;> rw [hc] at e2 <;> simp only [] at e2 <;> first | cases e2 | skip
    rename_i props arr
    by_cases hx : lookup key props = some v
    · rw [if_pos hx] at e2; injection e2 with e2; subst e2; exact Same.refl _ _
    · rw [if_neg hx] at e2; exact (swapIn_same e2 (get_lt e1)).1

/-- **C62 (nothing else changes).**  After any call that returns, a cell that existed before and is still alive has the content
it had, unless the call is one that writes to it. -/
theorem C62_nothing_else_changes {s s' : State} {op : Op} (he : exec s op = some s') {a : Nat} {c' : Cell} (ht : a ∉ touched op)
    (hl : a < s.heap.length) (hg : get s'.heap a = some c') : ∃ c, get s.heap a = some c ∧ c'.content = c.content :=
  frame he ht (fun _ => hl) hg

/-- The heap after a call. -/
theorem map_heap {o : Option Heap} {f : Heap → State} {s' : State} (hf : ∀ h, (f h).heap = h) (ho : o.map f = some s') :
    o = some s'.heap := by
  cases o with
  | none => cases ho
  | some h' => simp only [Option.map_some] at ho; injection ho with ho; subst ho; rw [hf]

/-- **C62 (copy).**  After `Jsi_ValueCopy` the target, if it is alive, has the content the source had before; the source keeps
its content. -/
theorem C62_copy_copies {s s' : State} {t f : Nat} (he : exec s (.copy t f) = some s') {c' : Cell} (hg : get s'.heap t = some c') :
    ∃ c, get s.heap f = some c ∧ c'.content = c.content := by
  have e := map_heap (fun _ => rfl) he
  by_cases htf : t = f
  · subst htf
    unfold copyMove at e; rw [if_pos rfl] at e; injection e with e
    exact ⟨c', by rw [e]; exact hg, rfl⟩
  · exact (copyMove_same e htf).2.1 c' hg

/-- **C62 (move).**  After `Jsi_ValueMove` the target has the content the source had, and the source is undefined. -/
theorem C62_move_moves {s s' : State} {t f : Nat} (he : exec s (.move t f) = some s') (hne : t ≠ f) :
    (∀ c', get s'.heap t = some c' → ∃ c, get s.heap f = some c ∧ c'.content = c.content) ∧
    ∃ c', get s'.heap f = some c' ∧ c'.content = .undef :=
  have e := copyMove_same (map_heap (fun _ => rfl) he) hne
  ⟨e.2.1, e.2.2 rfl⟩

/-- **C62 (reset, numbers, objects, variables).**  The value holds what was stored. -/
theorem C62_value_set {s s' : State} {op : Op} {v : Nat} {x : Content}
    (hop : (op = .reset v ∧ x = .undef) ∨ (∃ n, op = .makePrim v n ∧ x = .prim n) ∨ (∃ o, op = .makeObject v o ∧ x = .ref o) ∨
      (∃ y, op = .pushVar v y ∧ x = .var y ∧ v ≠ y))
    (he : exec s op = some s') {c' : Cell} (hg : get s'.heap v = some c') : c'.content = x := by
  rcases hop with ⟨rfl, rfl⟩ | ⟨n, rfl, rfl⟩ | ⟨o, rfl, rfl⟩ | ⟨y, rfl, rfl, hvy⟩
  · exact (reset_same (map_heap (fun _ => rfl) he)).2 c' hg
  · obtain ⟨h1, e1, e2⟩ := Option.bind_eq_some_iff.1 (map_heap (fun _ => rfl) he)
    exact (setContent_same e2).2 c' hg
  · obtain ⟨c, e1, e2⟩ := Option.bind_eq_some_iff.1 (map_heap (fun _ => rfl) he)
    by_cases hc : c.content = .ref o
    · rw [if_pos hc] at e2; injection e2 with e2; rw [← e2, e1] at hg
      injection hg with hg; rw [← hg]; exact hc
    · rw [if_neg hc] at e2
      obtain ⟨h1, e2, e3⟩ := Option.bind_eq_some_iff.1 e2
      obtain ⟨h2, e3, e4⟩ := Option.bind_eq_some_iff.1 e3
      obtain ⟨d, hd, hx⟩ := incr_same e4 [] v c' (by simp) hg
      rw [hx]; exact (setContent_same e3).2 d hd
  · obtain ⟨h1, e1, e2⟩ := Option.bind_eq_some_iff.1 (map_heap (fun _ => rfl) he)
    obtain ⟨d, e3, e4⟩ := Option.bind_eq_some_iff.1 e2
    by_cases hc : v ≠ y ∧ d.content ≠ .var y
    · rw [if_pos hc] at e4
      obtain ⟨h2, e5, e6⟩ := Option.bind_eq_some_iff.1 e4
      exact (setContent_same e6).2 c' hg
    · rw [if_neg hc] at e4; injection e4 with e4
      rw [← e4, e3] at hg; injection hg with hg; subst hg
      apply Classical.byContradiction
      intro hn; exact hc ⟨hvy, hn⟩

/-- **C62 (array elements).**  After `Jsi_ObjArraySet(o, v, n)` element `n` of the array is `v`; the other elements and the properties
are as before (elements between the old end and `n` are holes). -/
theorem C62_arraySet_sets {s s' : State} {o v n : Nat} (he : exec s (.arraySet o v n) = some s') {c' : Cell} (hg : get s'.heap o = some c') :
    ∃ c props arr arr', get s.heap o = some c ∧ c.content = .object props arr ∧ c'.content = .object props arr' ∧
      arr'[n]? = some (some v) ∧ (∀ i : Nat, i ≠ n → (arr'[i]?).join = (arr[i]?).join) ∧ arr'.length = max arr.length (n + 1) := by
  obtain ⟨c, e1, e2⟩ := Option.bind_eq_some_iff.1 (map_heap (fun _ => rfl) he)
  cases hc : c.content <;> rw [hc] at e2 <;> simp only [] at e2 <;> first | cases e2 | skip
  rename_i props arr
  have hlen : (sizer arr n).length = max arr.length (n + 1) := by simp [sizer]; omega
  have hother : ∀ i : Nat, ((sizer arr n)[i]?).join = (arr[i]?).join := by
    intro i
    unfold sizer
    by_cases hi : i < arr.length
    · rw [List.getElem?_append_left hi]
    · rw [List.getElem?_append_right (by omega), List.getElem?_eq_none (l := arr) (by omega), List.getElem?_replicate]
      split <;> rfl
  by_cases hx : (sizer arr n)[n]? = some (some v)
  · rw [if_pos hx] at e2; injection e2 with e2
    rw [← e2, get_put_same e1] at hg; injection hg with hg
    exact ⟨c, props, arr, sizer arr n, e1, hc, by rw [← hg], hx, fun i _ => hother i, hlen⟩
  · rw [if_neg hx] at e2
    obtain ⟨_, x, h1, h2⟩ := swapIn_same e2 (get_lt e1)
    simp only [setPlace, List.set_set] at h1
    injection h1 with h1
    refine ⟨c, props, arr, (sizer arr n).set n (some v), e1, hc, by rw [h2 c' hg, ← h1], ?_, ?_, by rw [List.length_set]; exact hlen⟩
    · rw [List.getElem?_set]; simp [hlen]
    · intro i hi
      rw [List.getElem?_set]; simp [Ne.symm hi, hother]

/-- **C62 (push).**  `Jsi_ObjArrayAdd` appends the value. -/
theorem C62_arrayAdd_adds {s s' : State} {o v : Nat} (he : exec s (.arrayAdd o v) = some s') {c' : Cell} (hg : get s'.heap o = some c') :
    ∃ c props arr, get s.heap o = some c ∧ c.content = .object props arr ∧ c'.content = .object props (arr ++ [some v]) := by
  obtain ⟨c, e1, e2⟩ := Option.bind_eq_some_iff.1 (map_heap (fun _ => rfl) he)
  cases hc : c.content <;> rw [hc] at e2 <;> simp only [] at e2 <;> first | cases e2 | skip
  rename_i props arr
  exact ⟨c, props, arr, e1, hc, (incr_same e2 []).at (get_put_same e1) hg⟩

/-- The values of the properties with a name. -/
def valuesOf (key : List UInt8) (props : List (List UInt8 × Nat)) : List Nat := (props.filter (·.1 = key)).map (·.2)

theorem remove_other {key k : List UInt8} (hk : k ≠ key) : ∀ props, valuesOf k (remove key props) = valuesOf k props
  | [] => rfl
  | (k', v) :: l => by
    rw [remove]
    by_cases e : k' = key
    · rw [if_pos e]
      have : ¬ k' = k := by rintro rfl; exact hk e
      simp [valuesOf, this]
    · rw [if_neg e]
      have ih := remove_other hk l
      unfold valuesOf at ih ⊢
      by_cases e2 : k' = k <;> simp [e2, ih]

theorem remove_self {key : List UInt8} : ∀ props, (valuesOf key props).length ≤ 1 → valuesOf key (remove key props) = []
  | [], _ => rfl
  | (k', v) :: l, h => by
    rw [remove]
    by_cases e : k' = key
    · rw [if_pos e]
      simp [valuesOf, e] at h
      simp [valuesOf]
      intro a b hab
      exact h a b hab
    · rw [if_neg e]
      have ih := remove_self l (by simpa [valuesOf, e] using h)
      simpa [valuesOf, e] using ih

theorem lookup_values {key : List UInt8} {v : Nat} : ∀ {props}, lookup key props = some v → v ∈ valuesOf key props
  | [], h => by simp [lookup] at h
  | (k, w) :: l, h => by
    rw [lookup] at h
    by_cases e : k = key
    · rw [if_pos e] at h; injection h with h; simp [valuesOf, e, h]
    · rw [if_neg e] at h
      have := lookup_values h
      simpa [valuesOf, e] using this

/-- After `Jsi_ObjInsert(o, key, v)` the object has exactly one property with that name, and its value is
`v`; all other properties and the array elements are as before. -/
theorem insert_sets {s s' : State} {o v : Nat} {key : List UInt8} (he : exec s (.insert o key v) = some s') {c' : Cell}
    (hg : get s'.heap o = some c') :
    ∃ c props props' arr, get s.heap o = some c ∧ c.content = .object props arr ∧ c'.content = .object props' arr ∧
      ((valuesOf key props).length ≤ 1 → valuesOf key props' = [v]) ∧ ∀ k, k ≠ key → valuesOf k props' = valuesOf k props := by
  obtain ⟨c, e1, e2⟩ := Option.bind_eq_some_iff.1 (map_heap (fun _ => rfl) he)
  cases hc : c.content <;> rw [hc] at e2 <;> simp only [] at e2 <;> first | cases e2 | skip
  rename_i props arr
  by_cases hx : lookup key props = some v
  · rw [if_pos hx] at e2; injection e2 with e2
    rw [← e2, e1] at hg; injection hg with hg; subst hg
    refine ⟨c, props, props, arr, e1, hc, hc, ?_, fun _ _ => rfl⟩
    intro h1
    have hm := lookup_values hx
    match hv : valuesOf key props with
    | [] => rw [hv] at hm; cases hm
    | [w] => rw [hv] at hm; simp at hm; rw [hm]
    | _ :: _ :: _ => rw [hv] at h1; simp at h1
  · rw [if_neg hx] at e2
    obtain ⟨_, x, h1, h2⟩ := swapIn_same e2 (get_lt e1)
    simp only [addProp] at h1
    injection h1 with h1
    refine ⟨c, props, (key, v) :: remove key props, arr, e1, hc, by rw [h2 c' hg, ← h1], ?_, ?_⟩
    · intro hu
      have := remove_self props hu
      unfold valuesOf at this ⊢
      simp at this ⊢
      exact this
    · intro k hk
      rw [← remove_other hk props]
      simp [valuesOf, Ne.symm hk]

/-- Objects have at most one property of a name. -/
def Unique (s : State) : Prop := ∀ o c props arr k, get s.heap o = some c → c.content = .object props arr → (valuesOf k props).length ≤ 1

theorem unique_exec {s s' : State} {op : Op} (hu : Unique s) (he : exec s op = some s') : Unique s' := by
  intro o c props arr k hg hc
  have old : ∀ a d, get s.heap a = some d → c.content = d.content → (valuesOf k props).length ≤ 1 := by
    intro a d hd e
    exact hu a d props arr k hd (by rw [← e]; exact hc)
  by_cases ht : o ∈ touched op
  · cases op with
    | new => simp [touched] at ht
    | new1 => simp [touched] at ht
    | newObj => simp [touched] at ht
    | incr a => simp [touched] at ht
    | decr a => simp [touched] at ht
    | replace a b => simp [touched] at ht
    | reset v =>
      obtain rfl : o = v := by simpa [touched] using ht
      have := C62_value_set (Or.inl ⟨rfl, rfl⟩) he hg
      rw [hc] at this; cases this
    | makePrim v n =>
      obtain rfl : o = v := by simpa [touched] using ht
      have := C62_value_set (Or.inr (Or.inl ⟨n, rfl, rfl⟩)) he hg
      rw [hc] at this; cases this
    | makeObject v x =>
      obtain rfl : o = v := by simpa [touched] using ht
      have := C62_value_set (Or.inr (Or.inr (Or.inl ⟨x, rfl, rfl⟩))) he hg
      rw [hc] at this; cases this
    | copy t f =>
      obtain rfl : o = t := by simpa [touched] using ht
      obtain ⟨d, hd, e⟩ := C62_copy_copies he hg
      exact old f d hd e
    | move t f =>
      by_cases htf : t = f
      · subst htf
        have e := map_heap (fun _ => rfl) he
        unfold copyMove at e; rw [if_pos rfl] at e; injection e with e
        exact old o c (by rw [e]; exact hg) rfl
      · obtain ⟨h1, c2, h2, h3⟩ := C62_move_moves he htf
        by_cases e : o = t
        · subst e
          obtain ⟨d, hd, e⟩ := h1 c hg
          exact old f d hd e
        · obtain rfl : o = f := by simpa [touched, e] using ht
          rw [hg] at h2; injection h2 with h2; subst h2
          rw [hc] at h3; cases h3
    | pushVar dv v =>
      obtain rfl : o = dv := by simpa [touched] using ht
      by_cases e : o = v
      · subst e
        obtain ⟨h1, e1, e2⟩ := Option.bind_eq_some_iff.1 (map_heap (fun _ => rfl) he)
        obtain ⟨d, e3, e4⟩ := Option.bind_eq_some_iff.1 e2
        rw [if_neg (by simp)] at e4; injection e4 with e4
        obtain ⟨d2, hd2, hx⟩ := incr_same e1 [] o c (by simp) (by rw [e4]; exact hg)
        exact old o d2 hd2 hx
      · have := C62_value_set (Or.inr (Or.inr (Or.inr ⟨v, rfl, rfl, e⟩))) he hg
        rw [hc] at this; cases this
    | arrayAdd x v =>
      obtain rfl : o = x := by simpa [touched] using ht
      obtain ⟨d, p, a, h1, h2, h3⟩ := C62_arrayAdd_adds he hg
      rw [hc] at h3; injection h3 with h3 _; subst h3
      exact hu o d props a k h1 h2
    | arraySet x v n =>
      obtain rfl : o = x := by simpa [touched] using ht
      obtain ⟨d, p, a, a', h1, h2, h3, _⟩ := C62_arraySet_sets he hg
      rw [hc] at h3; injection h3 with h3 _; subst h3
      exact hu o d props a k h1 h2
    | insert x key v =>
      obtain rfl : o = x := by simpa [touched] using ht
      obtain ⟨d, p, p', a, h1, h2, h3, h4, h5⟩ := insert_sets he hg
      rw [hc] at h3; injection h3 with h3 _; subst h3
      by_cases e : k = key
      · subst e
        rw [h4 (hu o d p a k h1 h2)]; simp
      · rw [h5 k e]; exact hu o d p a k h1 h2
  · by_cases hl : op = .new ∨ op = .new1 ∨ op = .newObj → o < s.heap.length
    · obtain ⟨d, hd, e⟩ := frame he ht hl hg
      exact old o d hd e
    · have hlen : o < s'.heap.length := get_lt hg
      have new : ∀ d : Cell, s'.heap = s.heap ++ [some d] → ¬ o < s.heap.length → (d.content = .undef ∨ d.content = .object [] []) →
          (valuesOf k props).length ≤ 1 := by
        intro d hd hl hcase
        rw [hd] at hg hlen
        have ho : o = s.heap.length := by simp at hlen; omega
        subst ho
        simp [get] at hg
        subst hg
        rcases hcase with h1 | h1
        · rw [hc] at h1; cases h1
        · rw [hc] at h1; injection h1 with h1 _; subst h1; simp [valuesOf]
      have hop : op = .new ∨ op = .new1 ∨ op = .newObj := by
        apply Classical.byContradiction; intro h; exact hl fun h' => absurd h' h
      have hl' : ¬ o < s.heap.length := fun h => hl fun _ => h
      rcases hop with rfl | rfl | rfl
      · simp only [exec] at he; injection he with he; subst he; exact new _ rfl hl' (Or.inl rfl)
      · simp only [exec] at he; injection he with he; subst he; exact new _ rfl hl' (Or.inl rfl)
      · simp only [exec] at he; injection he with he; subst he; exact new _ rfl hl' (Or.inr rfl)

theorem unique_run : ∀ (l : List Op) (s s' : State), Unique s → runOps s l = some s' → Unique s'
  | [], s, s', hu, h => by injection h with h; subst h; exact hu
  | op :: l, s, s', hu, h => by
    obtain ⟨s1, e1, e2⟩ := Option.bind_eq_some_iff.1 h
    exact unique_run l s1 s' (unique_exec hu e1) e2

/-- **C62 (properties).**  In every history, after `Jsi_ObjInsert(o, key, v)` the object has exactly one property with that name,
and its value is `v`; all other properties and the array elements are as before. -/
theorem C62_insert_sets {l : List Op} {s s' : State} (hr : runOps ⟨[], [], []⟩ l = some s) {o v : Nat} {key : List UInt8}
    (he : exec s (.insert o key v) = some s') {c' : Cell} (hg : get s'.heap o = some c') :
    ∃ c props props' arr, get s.heap o = some c ∧ c.content = .object props arr ∧ c'.content = .object props' arr ∧
      valuesOf key props' = [v] ∧ ∀ k, k ≠ key → valuesOf k props' = valuesOf k props := by
  have hu : Unique s := unique_run l ⟨[], [], []⟩ s (by intro o c p a k hg; simp [get] at hg) hr
  obtain ⟨c, p, p', a, h1, h2, h3, h4, h5⟩ := insert_sets he hg
  exact ⟨c, p, p', a, h1, h2, h3, h4 (hu o c p a key h1 h2), h5⟩

/-- **C62 (one property of a name).**  In every history. -/
theorem C62_names_are_unique {l : List Op} {s : State} (hr : runOps ⟨[], [], []⟩ l = some s) {o : Nat} {c : Cell}
    {props : List (List UInt8 × Nat)} {arr : List (Option Nat)} (hg : get s.heap o = some c) (hc : c.content = .object props arr)
    (key : List UInt8) : (valuesOf key props).length ≤ 1 :=
  unique_run l ⟨[], [], []⟩ s (by intro o c p a k hg; simp [get] at hg) hr o c props arr key hg hc

/-- The hypotheses of C62 are met by a history with copies, properties and elements. -/
example : ∃ s s', runOps ⟨[], [], []⟩ (exHistory.take 10) = some s ∧ exec s (.insert 1 (asc "x") 3) = some s' ∧ Live s' 1 ∧
    ¬ Live s' 2 := by
  refine ⟨_, _, rfl, rfl, ⟨_, rfl⟩, ?_⟩
  rintro ⟨c, hc⟩
  revert hc
  rw [show get _ 2 = none from by decide]
  intro hc; cases hc

end Verif.Ref
