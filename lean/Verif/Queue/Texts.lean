import Verif.Queue.Extra

/-! What a callback gets done, and the texts. -/

namespace Verif.Queue

variable {M R : Type}

theorem Inv.empty_started {s : St M R} (h : Inv s) (hh : s.head = none) (hd : doneOf s.frames.head? = none) (hr : runOf s.frames.head? = none) :
    s.started = s.posted := by
  obtain ⟨q, hc, _⟩ := h.q
  have := hc.chain.head_eq
  rw [hh] at this
  have hq : q = [] := by cases q with
    | nil => rfl
    | cons => cases this
  rw [hc.po hd, hc.st hr, hq]; simp [posts]

theorem Sn.step {T : List (Post M)} {s s' : St M R} (h : Sn T s) (hi : Inv s) {l : Lab M R} (hg : l.good = true)
    (e : step s l = some s') : Sn T s' := by
  cases l with
  | nest => cases hg
  | timeout => cases hg
  | delete => cases hg
  | post t m b =>
    simp only [Queue.step] at e
    split at e <;> cases e
    exact h
  | eval t x =>
    simp only [Queue.step] at e
    split at e
    · split at e <;> cases e <;> exact h
    · cases e
  | start =>
    simp only [Queue.step] at e
    split at e
    · cases e; exact ⟨h.1, fun h => by cases h⟩
    · cases e
  | prod t =>
    obtain ⟨h1, h2, _, h3, _⟩ := stepP_frames e
    exact ⟨h.1.trans h3, by rw [h1, h2]; exact h.2⟩
  | cons x =>
    refine ⟨by rw [(stepC_prods e).2.1]; exact h.1, fun hn => ?_⟩
    simp only [Queue.step, stepC] at e
    split at e
    · cases e
    · next c fs hf =>
      have hfs := frames_one hi.one hf
      subst hfs
      have h0 := h.2
      rw [hf] at h0
      have hem : s.head = none → doneOf (some c) = none → runOf (some c) = none → T <+: s.started := fun a b d => by
        rw [hi.empty_started a (by rw [hf]; exact b) (by rw [hf]; exact d)]; exact h.1
      have hcr : s.crash.frames = s.frames := rfl
      cases c with
      | c7 => cases e; exact hem (by cases hh : s.head with
          | none => rfl
          | some => rw [hh] at hn; cases hn) rfl rfl
      | c12 a b => cases e; exact hem (by cases hh : s.head with
          | none => rfl
          | some => rw [hh] at hn; cases hn) rfl rfl
      | c8 se => cases e; cases se with
        | none => exact h0 rfl
        | some => cases hn
      | c13 a b se => cases e; cases se with
        | none => exact h0 rfl
        | some => cases hn
      | loop se =>
        cases se with
        | none => cases e; exact h0 rfl
        | some a =>
          simp only at e
          repeat' split at e
          all_goals (cases e; rw [show _ = seNone _ from rfl] at hn; first | (rw [hcr, hf] at hn; cases hn) | cases hn)
      | c14 a b se =>
        have hse : ∀ {P : Prop}, (seNone (some (.loop se)) = true → P) → (seNone (some (.c14 a b se)) = true → P) := by
          intro P h; cases se <;> exact h
        simp only at e
        repeat' split at e
        all_goals (cases e; first | (rw [hcr, hf] at hn; exact h0 hn) | (cases se with
            | none => exact h0 rfl
            | some => cases hn))
      | _ =>
        simp only at e
        repeat' split at e
        all_goals first
          | (cases e; done)
          | (cases e; cases hn; done)
          | (cases e; rw [hcr, hf] at hn; cases hn; done)
          | (have e := Option.some.inj e; subst e; cases hn)

/-! ### Texts -/

theorem semis_cons {t : List UInt8} {ts : List (List UInt8)} (h : ts ≠ []) : semis (t :: ts) = t ++ 59 :: semis ts := by
  cases ts with
  | nil => exact absurd rfl h
  | cons => rfl

theorem semis_nil {ts : List (List UInt8)} (h : ∀ x ∈ ts, x ≠ []) (hs : semis ts = []) : ts = [] := by
  cases ts with
  | nil => rfl
  | cons t ts =>
    exfalso
    have ht := h t List.mem_cons_self
    cases ts with
    | nil => exact ht hs
    | cons => rw [semis_cons (by simp)] at hs; simp at hs

theorem semis_snoc (x : List UInt8) : ∀ {ts : List (List UInt8)}, (∀ x ∈ ts, x ≠ []) → semis (ts ++ [x]) = joinQ (semis ts) x
  | [], _ => rfl
  | [t], h => by
    have := h t List.mem_cons_self
    show t ++ 59 :: x = joinQ t x
    rw [joinQ, if_neg this]
  | t :: u :: ts, h => by
    have ih := semis_snoc x (ts := u :: ts) (fun y hy => h y (List.mem_cons_of_mem _ hy))
    have hn : semis (u :: ts) ≠ [] := fun e => by
      have := semis_nil (fun y hy => h y (List.mem_cons_of_mem _ hy)) e
      cases this
    rw [List.cons_append, semis_cons (by simp), ih, semis_cons (t := t) (ts := u :: ts) (by simp), joinQ, joinQ, if_neg hn, if_neg (by simp)]
    simp

/-- The text taken but not evaluated yet. -/
def cur : Option CPc → List (List UInt8)
  | some (.c3 b) => [b]
  | _ => []

/-- The callback has taken the texts. -/
def taken : Option CPc → Bool
  | some .c1 => false
  | some .c2 => false
  | _ => true

/-- The texts that were sent, those taken and those left. -/
def Tx (T : List (Nat × List UInt8)) (s : St M R) : Prop :=
  (∀ x ∈ s.texts, x.2 ≠ []) ∧ (∀ t x, s.prods t = .evWant x ∨ s.prods t = .evPut x → x ≠ []) ∧ T <+: s.texts ∧
  ∃ (gs : List (List (Nat × List UInt8))) (pd : List (Nat × List UInt8)), s.texts = gs.flatten ++ pd ∧ (∀ g ∈ gs, g ≠ []) ∧
    s.batches ++ cur s.frames.head? = gs.map (fun g => semis (g.map (·.2))) ∧ s.evalQ = semis (pd.map (·.2)) ∧
    (taken s.frames.head? = true → T <+: gs.flatten)

theorem Tx.same {T : List (Nat × List UInt8)} {s s' : St M R} (h : Tx T s) (h1 : s'.texts = s.texts)
    (h2 : ∀ t x, s'.prods t = .evWant x ∨ s'.prods t = .evPut x → s.prods t = .evWant x ∨ s.prods t = .evPut x ∨ x ≠ [])
    (h3 : s'.batches ++ cur s'.frames.head? = s.batches ++ cur s.frames.head?) (h4 : s'.evalQ = s.evalQ)
    (h5 : taken s'.frames.head? = true → taken s.frames.head? = true ∨ s.evalQ = []) : Tx T s' := by
  obtain ⟨a1, a2, a3, gs, pd, b1, b2, b3, b4, b5⟩ := h
  refine ⟨by rw [h1]; exact a1, fun t x hx => ?_, by rw [h1]; exact a3, gs, pd, by rw [h1]; exact b1, b2, by rw [h3]; exact b3,
    by rw [h4]; exact b4, fun ht => ?_⟩
  · rcases h2 t x hx with g | g | g
    · exact a2 t x (.inl g)
    · exact a2 t x (.inr g)
    · exact g
  · rcases h5 ht with g | g
    · exact b5 g
    · have : pd = [] := by
        have h6 := semis_nil (ts := pd.map (·.2)) (fun x hx => ?_) (b4.symm.trans g)
        · simpa using h6
        · obtain ⟨p, hp, e⟩ := List.mem_map.1 hx
          rw [← e]; exact a1 p (by rw [b1]; exact List.mem_append_right _ hp)
      rw [b1, this, List.append_nil] at a3; exact a3

theorem Tx.step {T : List (Nat × List UInt8)} {s s' : St M R} (h : Tx T s) (hi : Inv s) {l : Lab M R} (hg : l.good = true)
    (e : step s l = some s') : Tx T s' := by
  have hset : ∀ (s1 : St M R) (t : Nat) (p : PPc M), s1.prods = s.prods → (∀ x, p = .evWant x ∨ p = .evPut x → x ≠ []) →
      ∀ u x, (s1.setP t p).prods u = .evWant x ∨ (s1.setP t p).prods u = .evPut x → s.prods u = .evWant x ∨ s.prods u = .evPut x ∨ x ≠ [] := by
    intro s1 t p h1 h2 u x hx
    simp only [St.setP, h1] at hx
    by_cases hu : u = t
    · rw [if_pos hu] at hx; exact .inr (.inr (h2 x hx))
    · rw [if_neg hu] at hx; rcases hx with g | g
      · exact .inl g
      · exact .inr (.inl g)
  have hno : ∀ u x, s.prods u = .evWant x ∨ s.prods u = .evPut x → s.prods u = .evWant x ∨ s.prods u = .evPut x ∨ x ≠ [] := by
    intro u x h
    rcases h with g | g
    · exact .inl g
    · exact .inr (.inl g)
  cases l with
  | nest => cases hg
  | timeout => cases hg
  | delete => cases hg
  | post t m b =>
    simp only [Queue.step] at e
    split at e <;> cases e
    exact h.same rfl (hset s t _ rfl (fun x hx => by rcases hx with g | g <;> cases g)) rfl rfl (fun g => .inl g)
  | eval t x =>
    simp only [Queue.step] at e
    split at e
    · split at e
      · cases e; exact h
      · next hx =>
        cases e
        exact h.same rfl (hset s t _ rfl (fun y hy => by rcases hy with g | g <;> cases g; exact hx)) rfl rfl (fun g => .inl g)
    · cases e
  | start =>
    simp only [Queue.step] at e
    split at e
    · next hf =>
      cases e
      exact h.same rfl hno (by rw [hf]; rfl) rfl (fun g => by cases g)
    · cases e
  | prod t =>
    simp only [Queue.step, stepP] at e
    cases hp : s.prods t with
    | evPut x =>
      rw [hp] at e
      cases e
      obtain ⟨a1, a2, a3, gs, pd, b1, b2, b3, b4, b5⟩ := h
      have hx : x ≠ [] := a2 t x (.inr hp)
      have hpd : ∀ x ∈ pd.map (·.2), x ≠ [] := fun x hx => by
        obtain ⟨p, hp, e⟩ := List.mem_map.1 hx
        rw [← e]; exact a1 p (by rw [b1]; exact List.mem_append_right _ hp)
      refine ⟨fun y hy => ?_, fun u y hy => ?_, a3.trans (List.prefix_append _ _), gs, pd ++ [(t, x)], ?_, b2, b3, ?_, b5⟩
      · rcases List.mem_append.1 hy with g | g
        · exact a1 y g
        · rw [List.mem_singleton.1 g]; exact hx
      · have := hset s t .evUnlock rfl (fun x hx => by rcases hx with g | g <;> cases g) u y hy
        rcases this with g | g | g
        · exact a2 u y (.inl g)
        · exact a2 u y (.inr g)
        · exact g
      · show s.texts ++ [(t, x)] = _
        rw [b1, List.append_assoc]
      · show joinQ s.evalQ x = _
        rw [List.map_append, List.map_cons, List.map_nil, semis_snoc _ hpd, b4]
    | evWant x =>
      rw [hp] at e
      simp only at e
      split at e
      · cases e
        exact h.same rfl (hset _ t _ rfl (fun y hy => by rcases hy with g | g <;> cases g; exact h.2.1 t x (.inl hp))) rfl rfl (fun g => .inl g)
      · cases e
    | unlock a b =>
      rw [hp] at e
      cases e
      exact h.same rfl (hset _ t _ rfl (fun y hy => by cases b <;> rcases hy with g | g <;> cases g)) rfl rfl (fun g => .inl g)
    | _ =>
      rw [hp] at e
      simp only at e
      repeat' split at e
      all_goals first
        | (cases e; done)
        | (have e := Option.some.inj e; subst e; exact h.same rfl (hset _ t _ rfl (fun x hx => by rcases hx with g | g <;> cases g)) rfl rfl (fun g => .inl g))
        | (have e := Option.some.inj e; subst e; exact h.same rfl hno rfl rfl (fun g => .inl g))
  | cons x =>
    simp only [Queue.step, stepC] at e
    split at e
    · cases e
    · next c fs hf =>
      have hfs := frames_one hi.one hf
      subst hfs
      cases c with
      | c2 =>
        simp only at e
        split at e
        · next he => cases e; exact h.same rfl hno (by rw [hf]; rfl) rfl (fun g => .inr he)
        · next he =>
          cases e
          obtain ⟨a1, a2, a3, gs, pd, b1, b2, b3, b4, b5⟩ := h
          refine ⟨a1, a2, a3, gs ++ [pd], [], ?_, fun g hg => ?_, ?_, rfl, fun _ => ?_⟩
          · show s.texts = _
            rw [b1]; simp
          · rcases List.mem_append.1 hg with g' | g'
            · exact b2 g g'
            · rw [List.mem_singleton.1 g']; intro e; rw [e] at b4; exact he b4
          · show s.batches ++ [s.evalQ] = _
            rw [hf] at b3
            have b3 : s.batches ++ [] = _ := b3
            rw [List.append_nil] at b3
            rw [b3, b4]; simp
          · rw [b1] at a3; simpa using a3
      | c3 b =>
        cases e
        refine h.same rfl hno ?_ rfl (fun g => .inl (by rw [hf]; rfl))
        rw [hf]; simp [cur]
      | c1 =>
        simp only at e
        split at e
        · cases e; exact h.same rfl hno (by rw [hf]; rfl) rfl (fun g => by cases g)
        · cases e
      | loop se =>
        cases se with
        | none => cases e; exact h.same rfl hno (by rw [hf]; rfl) rfl (fun g => .inl (by rw [hf]; rfl))
        | some a =>
          simp only at e
          repeat' split at e
          all_goals first
            | (cases e; exact h.same rfl hno rfl rfl (fun g => .inl g))
            | (cases e; exact h.same rfl hno (by rw [hf]; rfl) rfl (fun g => .inl (by rw [hf]; rfl)))
      | _ =>
        simp only at e
        repeat' split at e
        all_goals first
          | (cases e; done)
          | (have e := Option.some.inj e; subst e; exact h.same rfl hno rfl rfl (fun g => .inl g))
          | (have e := Option.some.inj e; subst e; exact h.same rfl hno (by rw [hf]; rfl) rfl (fun g => .inl (by rw [hf]; rfl)))

end Verif.Queue
