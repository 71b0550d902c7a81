import Verif.Ref.Exec
/-!
`Jsi_ValueCopy` and `Jsi_ValueMove` keep the counts right.
-/
namespace Verif.Ref

/-- Lines 249-252 and 277-278: the variable that is kept. -/
theorem keep_inv {s : State} (hs : Ok s) {t : Nat} {T : Cell} (hg : get s.heap t = some T) (hp : ¬ Path s.heap t t) :
    ∃ h1 K, keep s.heap T.content = some h1 ∧ Inv h1 (K ++ s.held) s.fresh [] ∧ get h1 t = some T ∧
      (∀ a c, get s.heap a = some c → ∃ c', get h1 a = some c' ∧ c'.content = c.content) ∧
      (∀ a c', get h1 a = some c' → ∃ c, get s.heap a = some c ∧ c'.content = c.content) ∧
      ∀ h' , Inv h' (K ++ s.held) s.fresh [] → ∃ h'', unkeep h' T.content = some h'' ∧ Inv h'' s.held s.fresh [] ∧ Rel h' h'' := by
  have triv : keep s.heap T.content = some s.heap → (∀ h', unkeep h' T.content = some h') →
      ∃ h1 K, keep s.heap T.content = some h1 ∧ Inv h1 (K ++ s.held) s.fresh [] ∧ get h1 t = some T ∧
      (∀ a c, get s.heap a = some c → ∃ c', get h1 a = some c' ∧ c'.content = c.content) ∧
      (∀ a c', get h1 a = some c' → ∃ c, get s.heap a = some c ∧ c'.content = c.content) ∧
      ∀ h' , Inv h' (K ++ s.held) s.fresh [] → ∃ h'', unkeep h' T.content = some h'' ∧ Inv h'' s.held s.fresh [] ∧ Rel h' h'' := by
    intro h1 h2
    refine ⟨s.heap, [], h1, hs, hg, fun a c h => ⟨c, h, rfl⟩, fun a c h => ⟨c, h, rfl⟩, ?_⟩
    intro h' hi
    exact ⟨h', h2 h', hi, Rel.refl h'⟩
  cases hc : T.content with
  | undef => rw [hc] at triv; exact triv rfl (fun _ => rfl)
  | prim n => rw [hc] at triv; exact triv rfl (fun _ => rfl)
  | ref o => rw [hc] at triv; exact triv rfl (fun _ => rfl)
  | object p a => rw [hc] at triv; exact triv rfl (fun _ => rfl)
  | var x =>
    have he : Edge s.heap t x := ⟨T, hg, by rw [hc]; simp [refsIn]⟩
    have hne : t ≠ x := by rintro rfl; exact hp (.one _ he)
    have hfr := count_of_edge hs he
    obtain ⟨X, hx⟩ : ∃ X, get s.heap x = some X := by
      cases h : get s.heap x with
      | none => have h1 := (hs.dead x h).1; have h2 := edge_total he; unfold refsW at h1; omega
      | some X => exact ⟨X, rfl⟩
    obtain ⟨i1, i2⟩ := inv_incr hs hx
    have hfr' : s.fresh.filter (· ≠ x) = s.fresh := hfr
    rw [hfr'] at i2
    refine ⟨_, [x], i1, i2, by rw [get_put_other _ hne]; exact hg, ?_, ?_, ?_⟩
    · intro a c ha
      by_cases e : a = x
      · subst e
        rw [hx] at ha; injection ha with ha; subst ha
        exact ⟨_, get_put_same hx, rfl⟩
      · exact ⟨c, by rw [get_put_other _ e]; exact ha, rfl⟩
    · intro a c ha
      by_cases e : a = x
      · subst e
        rw [get_put_same hx] at ha; injection ha with ha; subst ha
        exact ⟨X, hx, rfl⟩
      · exact ⟨c, by rw [get_put_other _ e] at ha; exact ha, rfl⟩
    · intro h' hi
      obtain ⟨h'', h1, h2, h3, _⟩ := release_inv hi (a := x) (by simp)
      exact ⟨h'', h1, by simpa using h2, h3⟩

/-- The first half of `jsi_ValueCopyMove`: the target is emptied, its count is what it was, and the source is as
before. -/
theorem copy_first {s : State} (hs : Ok s) {t f : Nat} {T : Cell} (hT : get s.heap t = some T) (ht : t ∈ s.held)
    (hf : Reachable (s.withContent t .undef) f) (hp : ¬ Path s.heap t t) {F : Cell} (hF : get s.heap f = some F) (htf : t ≠ f) :
    ∃ h1 h2 K F2, keep s.heap T.content = some h1 ∧ reset h1 t = some h2 ∧ Inv h2 (K ++ s.held) s.fresh [] ∧
      get h2 t = some ⟨T.rc, .undef⟩ ∧ get h2 f = some F2 ∧ F2.content = F.content ∧
      ∀ h' , Inv h' (K ++ s.held) s.fresh [] → ∃ h'', unkeep h' T.content = some h'' ∧ Inv h'' s.held s.fresh [] ∧ Rel h' h'' := by
  obtain ⟨h1, K, k1, k2, k3, k4, k5, k6⟩ := keep_inv hs hT hp
  have own : ∀ h, Reachable ⟨h, K ++ s.held, s.fresh⟩ t := fun h => .own t (Or.inl (List.mem_append_right _ ht))
  obtain ⟨h2, c', r1, r2, r3, _, r5, r6⟩ := reset_inv k2 k3 (own _)
  rw [get_withContent hT] at hf
  have hf' : Reachable ⟨put h1 t ⟨T.rc, .undef⟩, K ++ s.held, s.fresh⟩ f := by
    have a : Reachable ⟨put s.heap t ⟨T.rc, .undef⟩, K ++ s.held, s.fresh⟩ f := by
      refine reachable_held ?_ hf
      intro a ha
      rcases ha with ha | ha
      · exact Or.inl (List.mem_append_right _ ha)
      · exact Or.inr ha
    refine reachable_rc ?_ a
    intro a c ha
    by_cases e : a = t
    · subst e
      rw [get_put_same hT] at ha; injection ha with ha; subst ha
      exact ⟨_, get_put_same k3, rfl⟩
    · rw [get_put_other _ e] at ha
      obtain ⟨c', h3, h4⟩ := k4 a c ha
      exact ⟨c', by rw [get_put_other _ e]; exact h3, h4⟩
  obtain ⟨F1, F2, f1, f2, f3⟩ := survive r2 r3 hf'
  rw [get_put_other _ (Ne.symm htf)] at f1
  obtain ⟨F0, f4, f5⟩ := k5 f F1 f1
  rw [hF] at f4; injection f4 with f4; subst f4
  refine ⟨h1, h2, K, F2, k1, r1, r2, ?_, f2, f3.trans f5, k6⟩
  have hframe : get h2 t = get (put h1 t ⟨T.rc, .undef⟩) t := by
    have r1' : drain (enough (put h1 t ⟨T.rc, .undef⟩) ((links T.content).map .dec)) (put h1 t ⟨T.rc, .undef⟩)
        ((links T.content).map .dec) = some h2 := by
      simp only [reset, k3] at r1; exact r1
    refine drain_frame (Path s.heap t) _ _ _ _ r1' ?_ ?_ t hp
    · intro a b ha hab
      have hat : a ≠ t := by rintro rfl; exact hp ha
      obtain ⟨c, hc, hr⟩ := hab
      rw [get_put_other _ hat] at hc
      obtain ⟨c0, h3, h4⟩ := k5 a c hc
      exact .more a b ha ⟨c0, h3, by rw [← h4]; exact hr⟩
    · intro a ha
      rcases ha with ha | ha
      · have : a ∈ links T.content := by simpa using ha
        refine .one a ⟨T, hT, ?_⟩
        rw [← links_count]; exact List.count_pos_iff.2 this
      · simp at ha
  rw [hframe, get_put_same k3]

theorem live_of_held {s : State} (hs : Ok s) {t : Nat} (ht : t ∈ s.held) : ∃ T, get s.heap t = some T ∧ 0 < T.rc := by
  have : 0 < s.held.count t := List.count_pos_iff.2 ht
  cases h : get s.heap t with
  | none => have h1 := (hs.dead t h).1; unfold refsW at h1; omega
  | some T =>
    refine ⟨T, rfl, ?_⟩
    have := rc_nonneg hs h
    unfold refsW at this; omega

theorem exec_copy {s : State} (hs : Ok s) {t f : Nat} (ha : Allowed s (.copy t f)) :
    ∃ s', exec s (.copy t f) = some s' ∧ Ok s' := by
  obtain ⟨ht, hf, hp, hft, hobj, hfresh⟩ := ha
  by_cases e : t = f
  · exact ⟨s, by simp only [exec, copyMove, if_pos e, Option.map_some], hs⟩
  obtain ⟨T, hT, hrc⟩ := live_of_held hs ht
  obtain ⟨F, hF⟩ := live_of_undef hs hf
  obtain ⟨h1, h2, K, F2, k1, k2, k3, k4, k5, k6, k7⟩ := copy_first hs hT ht hf hp hF e
  have hn : ¬ T.rc ≤ 0 := by omega
  have done : ∀ h4, (if F2.rc ≠ 0 then share (put h2 t ⟨F2.rc, F2.content⟩) F2.content else some (put h2 t ⟨F2.rc, F2.content⟩)) = some h4 →
      get h4 t = some ⟨F2.rc, F2.content⟩ → Inv (put h4 t ⟨T.rc, F2.content⟩) (K ++ s.held) s.fresh [] →
      ∃ s', exec s (.copy t f) = some s' ∧ Ok s' := by
    intro h4 e1 e2 e3
    obtain ⟨h5, u1, u2, _⟩ := k7 _ e3
    refine ⟨⟨h5, s.held, s.fresh⟩, ?_, u2⟩
    by_cases hz : F2.rc ≠ 0
    · rw [if_pos hz] at e1
      simp only [exec, copyMove, if_neg e, hT, Option.bind_eq_bind, Option.bind_some, if_neg hn, k1, k2, k5, k4, if_true]
      rw [if_pos hz, e1]
      simp only [Option.bind_some, e2, u1, Option.map_some]
    · rw [if_neg hz] at e1
      injection e1 with e1
      subst e1
      simp only [exec, copyMove, if_neg e, hT, Option.bind_eq_bind, Option.bind_some, if_neg hn, k1, k2, k5, k4, if_true]
      rw [if_neg hz]
      simp only [e2, Option.bind_some, u1, Option.map_some]
  have g3 : get (put h2 t ⟨F2.rc, F2.content⟩) t = some ⟨F2.rc, F2.content⟩ := get_put_same k4
  have plain : (∀ b, refsIn F2.content b = 0) → Inv (put (put h2 t ⟨F2.rc, F2.content⟩) t ⟨T.rc, F2.content⟩) (K ++ s.held) s.fresh [] := by
    intro h0
    rw [put_put]
    refine inv_balance k3 k4 (rc_ne k3 k4) _ _ _ ?_ (fun _ => rfl)
    intro b; rw [h0]; simp [refsIn]
  by_cases hz : F2.rc = 0
  · apply done (put h2 t ⟨F2.rc, F2.content⟩)
    · rw [if_neg (by simp [hz])]
    · exact g3
    · apply plain
      have hm := k3.zero f F2 k5 hz
      rcases hfresh with hfr | hfr
      · exact absurd hm hfr
      · intro b
        have := hfr b
        rw [k6]
        cases hb : refsIn F.content b with
        | zero => rfl
        | succ n => exact absurd ⟨F, hF, by omega⟩ this
  · have hgen : ∀ y, share (put h2 t ⟨F2.rc, F2.content⟩) F2.content = incr (put h2 t ⟨F2.rc, F2.content⟩) y →
        (∀ b, refsIn F2.content b = if y = b then 1 else 0) → ∃ s', exec s (.copy t f) = some s' ∧ Ok s' := by
      intro y hsh hy
      have hyt : y ≠ t := by
        rintro rfl
        exact hft ⟨F, hF, by rw [← k6, hy]; simp⟩
      have he : Edge h2 f y := ⟨F2, k5, by rw [hy]; simp⟩
      have hfr := count_of_edge (s := ⟨h2, K ++ s.held, s.fresh⟩) k3 he
      obtain ⟨Y, hY⟩ : ∃ Y, get h2 y = some Y := by
        cases h : get h2 y with
        | none => have h1 := (k3.dead y h).1; have h2 := edge_total he; unfold refsW at h1; omega
        | some Y => exact ⟨Y, rfl⟩
      obtain ⟨i1, i2⟩ := inv_incr k3 hY
      have hfr' : s.fresh.filter (· ≠ y) = s.fresh := hfr
      rw [hfr'] at i2
      have gy : get (put h2 t ⟨F2.rc, F2.content⟩) y = some Y := by rw [get_put_other _ hyt]; exact hY
      apply done (put (put h2 t ⟨F2.rc, F2.content⟩) y ⟨Y.rc + 1, Y.content⟩)
      · rw [if_pos hz, hsh]; simp only [incr, gy]
      · rw [get_put_other _ (Ne.symm hyt)]; exact g3
      · rw [put_comm _ _ (Ne.symm hyt), put_put]
        have gt : get (put h2 y ⟨Y.rc + 1, Y.content⟩) t = some ⟨T.rc, .undef⟩ := by rw [get_put_other _ (Ne.symm hyt)]; exact k4
        exact fill_inv (c := ⟨T.rc, .undef⟩) i2 gt rfl hy
    cases hc : F2.content with
    | undef =>
      apply done (put h2 t ⟨F2.rc, F2.content⟩)
      · rw [if_pos hz, hc]; rfl
      · exact g3
      · apply plain; intro b; rw [hc]; rfl
    | prim n =>
      apply done (put h2 t ⟨F2.rc, F2.content⟩)
      · rw [if_pos hz, hc]; rfl
      · exact g3
      · apply plain; intro b; rw [hc]; rfl
    | ref o => exact hgen o (by rw [hc]; rfl) (by intro b; rw [hc]; rfl)
    | var o => exact hgen o (by rw [hc]; rfl) (by intro b; rw [hc]; rfl)
    | object p a => exact absurd ⟨F, hF, by rw [← k6, hc]⟩ (hobj p a)

theorem exec_move {s : State} (hs : Ok s) {t f : Nat} (ha : Allowed s (.move t f)) :
    ∃ s', exec s (.move t f) = some s' ∧ Ok s' := by
  obtain ⟨ht, hf, hp, hft, hown⟩ := ha
  by_cases e : t = f
  · exact ⟨s, by simp only [exec, copyMove, if_pos e, Option.map_some], hs⟩
  obtain ⟨T, hT, hrc⟩ := live_of_held hs ht
  obtain ⟨F, hF⟩ := live_of_undef hs hf
  obtain ⟨h1, h2, K, F2, k1, k2, k3, k4, k5, k6, k7⟩ := copy_first hs hT ht hf hp hF e
  have hn : ¬ T.rc ≤ 0 := by omega
  have i1 : Inv (put h2 f ⟨F2.rc, .undef⟩) (links F2.content ++ (K ++ s.held)) s.fresh [] := by
    refine inv_balance k3 k5 (rc_ne k3 k5) _ _ _ ?_ (fun _ => rfl)
    intro b
    simp only [List.count_append, links_count]; simp [refsIn]; omega
  have gt : get (put h2 f ⟨F2.rc, .undef⟩) t = some ⟨T.rc, .undef⟩ := by rw [get_put_other _ e]; exact k4
  have i2 : Inv (put (put h2 f ⟨F2.rc, .undef⟩) t ⟨T.rc, F2.content⟩) (K ++ s.held) s.fresh [] := by
    refine inv_balance i1 gt (rc_ne i1 gt) _ _ _ ?_ (fun _ => rfl)
    intro b
    simp only [List.count_append, links_count]; simp [refsIn]; omega
  have eq : put (put (put h2 t ⟨F2.rc, F2.content⟩) t ⟨T.rc, F2.content⟩) f ⟨F2.rc, .undef⟩ =
      put (put h2 f ⟨F2.rc, .undef⟩) t ⟨T.rc, F2.content⟩ := by
    rw [put_put, put_comm _ _ e]
  obtain ⟨h5, u1, u2, u3⟩ := k7 _ i2
  obtain ⟨_, F5, _, u4, _⟩ := survive u2 u3 (x := f) (.own f hown)
  refine ⟨⟨h5, s.held, s.fresh⟩, ?_, u2⟩
  simp only [exec, copyMove, if_neg e, hT, Option.bind_eq_bind, Option.bind_some, if_neg hn, k1, k2, k5, k4, Bool.false_eq_true,
    if_false, eq, u1, u4, Option.map_some]

end Verif.Ref
