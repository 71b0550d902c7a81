import Verif.Queue.Pres

/-! The owner's statements keep the invariant. -/

namespace Verif.Queue

variable {M R : Type}

theorem resOf_append (l : List (Post M × R)) (p : Post M) (x : R) (t : Nat) :
    resOf (l ++ [(p, x)]) t = if p.who = t ∧ p.sync = true then resOf l t ++ [x] else resOf l t := by
  unfold resOf
  rw [List.filter_append]
  by_cases h : p.who = t ∧ p.sync = true
  · rw [if_pos h, List.filter_cons_of_pos (by simp [h])]; simp
  · rw [if_neg h, List.filter_cons_of_neg (by simpa using h)]; simp

/-- A body begins. -/
theorem Inv.begin {s : St M R} (h : Inv s) {a : Nat} (hf : s.frames = [.loop (some a)]) :
    ∃ r, s.heap a = some r ∧ r.filled = true ∧ Inv { s with started := s.started ++ [r.post], frames := [.run a r.isExec] } := by
  obtain ⟨q, hc, hq⟩ := h.q
  rw [hf] at hc
  have hqh := hc.se a rfl
  have haq : a ∈ q := List.mem_of_mem_head? hqh
  obtain ⟨r, hr, he, hfi⟩ := hc.recs a haq
  obtain ⟨hfi, hrc⟩ := hfi (fun e h => by cases h)
  refine ⟨r, hr, hfi, by simp, q, ?_, fun u => (hq u).same rfl rfl rfl rfl Iff.rfl⟩
  refine ⟨hc.nf, hc.chain, hc.nodup, hc.fresh, fun y hy => ?_, (fun y h => by cases h), fun y e h => ?_, (fun y e h => by cases h),
    (fun y e h => by cases h), (fun h => by cases h), fun _ => hc.po rfl, ?_⟩
  · obtain ⟨ry, h1, h2, h3⟩ := hc.recs y hy
    exact ⟨ry, h1, h2, fun _ => h3 (fun e h => by cases h)⟩
  · cases h
    exact ⟨hqh, r, hr, rfl, by rw [hc.st rfl]⟩
  · have := hc.lk
    simpa [critC] using this

/-- A body ends. -/
theorem Inv.ended {s : St M R} (h : Inv s) {a : Nat} {e : Bool} (hf : s.frames = [.run a e]) (x : R) :
    ∃ r, s.heap a = some r ∧ Inv { (s.put a (if e then { r with rc := some x } else { r with filled := false })) with
          finished := s.finished ++ [(r.post, x)], frames := [.c9 a e] } := by
  obtain ⟨q, hc, hq⟩ := h.q
  rw [hf] at hc
  obtain ⟨hqh, r, hr, hex, hst⟩ := hc.running a e rfl
  have haq : a ∈ q := List.mem_of_mem_head? hqh
  obtain ⟨r', hr', hes, hfr⟩ := hc.recs a haq
  rw [hr] at hr'; cases hr'
  obtain ⟨hfi, hrc⟩ := hfr (fun e h => by cases h)
  obtain ⟨q', hqq⟩ : ∃ q', q = a :: q' := by
    cases q with
    | nil => cases hqh
    | cons b q => cases hqh; exact ⟨q, rfl⟩
  have hnq : a ∉ q' := (List.nodup_cons.1 (hqq ▸ hc.nodup)).1
  have hpo : s.posted = s.finished.map (·.1) ++ posts s.heap q := hc.po rfl
  refine ⟨r, hr, ?_⟩
  generalize hr1 : (if e then { r with rc := some x } else { r with filled := false }) = r1
  have e1 : r1.post = r.post := by rw [← hr1]; split <;> rfl
  have e2 : r1.isExec = r.isExec := by rw [← hr1]; split <;> rfl
  have e3 : r1.next = r.next := by rw [← hr1]; split <;> rfl
  have e4 : e = true → r1.rc = some x := by intro h; rw [← hr1, if_pos h]
  have e5 : e = false → r1.filled = false := by intro h; rw [← hr1, h]; rfl
  have e6 : e = false → r1.rc = none := by intro h; rw [← hr1, h]; exact hrc
  have hha : (s.put a r1).heap a = some r1 := by simp [St.put]
  have hhn : ∀ y, y ≠ a → (s.put a r1).heap y = s.heap y := fun y hy => by simp [St.put, hy]
  refine ⟨by simp, q, ?_, fun u => ?_⟩
  · refine ⟨hc.nf, hc.chain.congr (fun y hy => ?_), hc.nodup, fun y hy => ?_, fun y hy => ?_, (fun y h => by cases h), (fun y e h => by cases h),
      fun y e' h => ?_, (fun y e h => by cases h), fun _ => ?_, (fun h => by cases h), ?_⟩
    · by_cases hy' : y = a
      · subst hy'
        show ((s.put y r1).heap y).map _ = _
        rw [hha, hr, Option.map_some, Option.map_some, e3]
      · show ((s.put a r1).heap y).map _ = _
        rw [hhn y hy']
    · show (s.put a r1).heap y = none
      have := hc.fresh y hy
      rw [hhn y]
      · exact this
      · intro e; rw [e, hr] at this; cases this
    · by_cases hy' : y = a
      · subst hy'
        exact ⟨r1, hha, by rw [e1, e2]; exact hes, fun h => absurd rfl (h e)⟩
      · obtain ⟨ry, h1, h2, h3⟩ := hc.recs y hy
        exact ⟨ry, (hhn y hy').trans h1, h2, fun _ => h3 (fun e h => by cases h)⟩
    · cases h
      refine ⟨q', hqq, r1, hha, by rw [e2]; exact hex, fun h => ⟨x, e4 h⟩, e5, ?_⟩
      show s.posted = s.started ++ posts (s.put a r1).heap q'
      rw [hpo, hst, hqq, posts_cons hr, List.append_assoc, posts_congr (h' := (s.put a r1).heap) (h := s.heap)]
      · rfl
      · intro y hy
        rw [hhn y (fun e => hnq (e ▸ hy))]
    · show s.started = (s.finished ++ [(r.post, x)]).map (·.1)
      rw [hst]; simp
    · have := hc.lk
      simpa [critC, St.put, St.free] using this
  · have hpu := hq u
    refine ⟨fun y b hb => ?_, hpu.walk, fun y hy => ?_, fun ho => ?_, fun y hy ry hry hw hs => ?_, fun y hy ry hry => ?_, hpu.lk⟩
    · obtain ⟨g1, g2⟩ := hpu.build y b hb
      refine ⟨g1, ?_⟩
      show ∃ r, (s.put a r1).heap y = some r ∧ _
      rw [hhn y (fun e => g1 (e ▸ haq))]; exact g2
    · obtain ⟨ry, h1, h2, h3, h4, h5, h6⟩ := hpu.own y hy
      by_cases hy' : y = a
      · subst hy'
        rw [hr] at h1; cases h1
        have het : e = true := by rw [← hex, hes]; exact h3
        refine ⟨r1, hha, by rw [e1]; exact h2, by rw [e1]; exact h3, fun _ => ⟨x, e4 het⟩, fun h => (by rw [e4 het] at h; cases h), ?_⟩
        show resOf (s.finished ++ [(r.post, x)]) u = _
        rw [resOf_append, if_pos ⟨h2, h3⟩, e4 het, h6, hrc]; simp [St.put]
      · refine ⟨ry, (hhn y hy').trans h1, h2, h3, h4, h5, ?_⟩
        show resOf (s.finished ++ [(r.post, x)]) u = _
        rw [resOf_append, if_neg]
        · exact h6
        · rintro ⟨g1, g2⟩
          have := hpu.uniq a haq r hr g1 g2
          rw [show ownOf (s.prods u) = some y from hy] at this; cases this; exact hy' rfl
    · have ho : ownOf (s.prods u) = none := ho
      show resOf (s.finished ++ [(r.post, x)]) u = _
      rw [resOf_append, if_neg]
      · exact hpu.noown ho
      · rintro ⟨g1, g2⟩
        have := hpu.uniq a haq r hr g1 g2
        rw [ho] at this; cases this
    · by_cases hy' : y = a
      · subst hy'
        rw [show _ = some r1 from hha] at hry; cases hry
        exact hpu.uniq y haq r hr (by rw [← e1]; exact hw) (by rw [← e1]; exact hs)
      · exact hpu.uniq y hy ry ((hhn y hy').symm.trans hry) hw hs
    · by_cases hy' : y = a
      · subst hy'
        rw [show _ = some r1 from hha] at hry; cases hry
        rw [e2]; exact hpu.fin y hy r hr
      · exact hpu.fin y hy ry ((hhn y hy').symm.trans hry)

/-- The first record leaves the queue. -/
theorem Inv.unhook {s : St M R} (h : Inv s) {a : Nat} {e : Bool} (hf : s.frames = [.c10 a e]) :
    ∃ r, s.heap a = some r ∧ Inv { s with head := r.next, frames := [.c11 a e] } := by
  obtain ⟨q, hc, hq⟩ := h.q
  rw [hf] at hc
  obtain ⟨q', hqq, r, hr, hex, hrc, hfi, hpo⟩ := hc.done a e rfl
  subst hqq
  obtain ⟨hnq, hnd⟩ := List.nodup_cons.1 hc.nodup
  obtain ⟨r', hr', hes, _⟩ := hc.recs a List.mem_cons_self
  rw [hr] at hr'; cases hr'
  have hch : Chain s.heap r.next q' := by
    have := hc.chain
    cases hh : s.head with
    | none => rw [hh] at this; exact this.elim
    | some b =>
      rw [hh] at this
      obtain ⟨e, r2, h2, h3⟩ := this
      subst e
      rw [hr] at h2; cases h2; exact h3
  refine ⟨r, hr, by simp, q', ?_, fun u => ?_⟩
  · refine ⟨hc.nf, hch, hnd, hc.fresh, fun y hy => ?_, (fun y h => by cases h), (fun y e h => by cases h), (fun y e h => by cases h),
      fun y e' h => ?_, hc.st, fun _ => ?_, ?_⟩
    · obtain ⟨ry, h1, h2, h3⟩ := hc.recs y (List.mem_cons_of_mem _ hy)
      exact ⟨ry, h1, h2, fun _ => h3 (fun e' h => by cases h; exact hnq hy)⟩
    · cases h
      exact ⟨hnq, r, hr, hex, hes.symm.trans hex, hrc, hfi⟩
    · rw [← hc.st rfl]; exact hpo
    · have := hc.lk
      simpa [critC, St.put, St.free] using this
  · have hpu := hq u
    refine ⟨fun y b hb => ?_, fun y b se hs => ?_, fun y hy => ?_, hpu.noown, fun y hy => hpu.uniq y (List.mem_cons_of_mem _ hy), hpu.fin, hpu.lk⟩
    · obtain ⟨g1, g2⟩ := hpu.build y b hb
      exact ⟨fun h => g1 (List.mem_cons_of_mem _ h), g2⟩
    · have h1 : s.lock = some none := hc.lk.2 rfl
      have h2 := hpu.lk.2 (by rw [show s.prods u = _ from hs]; rfl)
      rw [h1] at h2; cases h2
    · obtain ⟨ry, h1, h2, h3, h4, h5, h6⟩ := hpu.own y hy
      refine ⟨ry, h1, h2, h3, h4, fun hn => ?_, h6⟩
      rcases List.mem_cons.1 (h5 hn) with g | g
      · subst g
        rw [hr] at h1; cases h1
        obtain ⟨x, hx⟩ := hrc (by rw [← hex, hes]; exact h3)
        rw [hn] at hx; cases hx
      · exact g

/-- The record is freed. -/
theorem Inv.freed {s : St M R} (h : Inv s) {a : Nat} (hf : s.frames = [.c11 a false]) :
    (∃ r, s.heap a = some r) ∧ Inv { s.free a with frames := [.c12 a false] } := by
  obtain ⟨q, hc, hq⟩ := h.q
  rw [hf] at hc
  obtain ⟨haq, r, hr, hex, hsy, _, hfi⟩ := hc.old a false rfl
  have hh : ∀ y, y ≠ a → (s.free a).heap y = s.heap y := fun y hy => by simp [St.free, hy]
  refine ⟨⟨r, hr⟩, by simp, q, ?_, fun u => ?_⟩
  · refine hc.agree (fun y hy => hh y fun e => ?_) (fun y hy => ?_) rfl rfl rfl rfl rfl (fun y h => by cases h) rfl rfl (fun p h => by cases h) ?_
    · subst e
      rcases hy with hy | ⟨e, he⟩
      · exact haq hy
      · cases he
    · show (if y = a then none else s.heap y) = none
      split
      · rfl
      · exact hc.fresh y hy
    · have := hc.lk
      simpa [critC, St.put, St.free] using this
  · refine (hq u).agree (fun y hy => hh y fun e => ?_) rfl rfl rfl Iff.rfl
    subst e
    rcases hy with hy | hy | ⟨b, hb⟩
    · exact haq hy
    · obtain ⟨r2, h2, _, h3, _⟩ := (hq u).own y hy
      rw [hr] at h2; cases h2
      rw [hsy] at h3; cases h3
    · obtain ⟨_, r2, h2, _, _, h3, _⟩ := (hq u).build y b hb
      rw [hr] at h2; cases h2
      rw [hfi rfl] at h3; cases h3

/-- The waiting thread is told. -/
theorem Inv.told {s : St M R} (h : Inv s) {a : Nat} {se : Option Nat} (hf : s.frames = [.c14 a true se]) :
    ∃ r, s.heap a = some r ∧ Inv { (s.put a { r with isExec := false }) with frames := [.loop se] } := by
  obtain ⟨q, hc, hq⟩ := h.q
  rw [hf] at hc
  obtain ⟨haq, r, hr, hex, hsy, hrc, _⟩ := hc.old a true rfl
  obtain ⟨x, hx⟩ := hrc rfl
  have hh : ∀ y, y ≠ a → (s.put a { r with isExec := false }).heap y = s.heap y := fun y hy => by simp [St.put, hy]
  have hha : (s.put a { r with isExec := false }).heap a = some { r with isExec := false } := by simp [St.put]
  refine ⟨r, hr, by simp, q, ?_, fun u => ?_⟩
  · refine hc.agree (fun y hy => hh y fun e => ?_) (fun y hy => ?_) rfl rfl rfl rfl rfl (fun y h => hc.se y h) rfl rfl (fun p h => by cases h) ?_
    · subst e
      rcases hy with hy | ⟨e, he⟩
      · exact haq hy
      · cases he
    · show (s.put a { r with isExec := false }).heap y = none
      have := hc.fresh y hy
      rw [hh y]
      · exact this
      · intro e; rw [e, hr] at this; cases this
    · have := hc.lk
      simpa [critC, St.put, St.free] using this
  · have hpu := hq u
    refine ⟨fun y b hb => ?_, hpu.walk, fun y hy => ?_, hpu.noown, fun y hy ry hry hw hs => ?_, fun y hy ry hry => ?_, hpu.lk⟩
    · obtain ⟨g1, r2, h2, g2⟩ := hpu.build y b hb
      refine ⟨g1, r2, (hh y fun e => ?_).trans h2, g2⟩
      subst e
      rw [hr] at h2; cases h2
      rw [g2.2.2.2.2.1] at hx; cases hx
    · obtain ⟨ry, h1, h2, h3, h4, h5, h6⟩ := hpu.own y hy
      by_cases hy' : y = a
      · subst hy'
        rw [hr] at h1; cases h1
        exact ⟨_, hha, h2, h3, fun _ => ⟨x, hx⟩, h5, h6⟩
      · exact ⟨ry, (hh y hy').trans h1, h2, h3, h4, h5, h6⟩
    · exact hpu.uniq y hy ry ((hh y fun e => haq (e ▸ hy)).symm.trans hry) hw hs
    · by_cases hy' : y = a
      · subst hy'
        rw [show _ = some _ from hha] at hry; cases hry; rfl
      · exact hpu.fin y hy ry ((hh y hy').symm.trans hry)

/-- Every statement of the owner keeps the invariant. -/
theorem Inv.stepC {s s' : St M R} (h : Inv s) {x : R} (e : stepC s x = some s') : Inv s' := by
  unfold Queue.stepC at e
  cases hf : s.frames with
  | nil => rw [hf] at e; cases e
  | cons c fs =>
    have hfs := frames_one h.one hf
    subst hfs
    rw [hf] at e
    obtain ⟨q, hc, hq⟩ := h.q
    have hlk := hc.lk
    rw [hf] at hlk
    have hlp : ∀ u, s.lock = some none → s.lock ≠ some (some u) := fun u h1 h2 => by rw [h1] at h2; cases h2
    have lockstep : ∀ (c' : CPc), s.lock = none → (∀ a, seOf (some c') = some a → seOf s.frames.head? = some a ∨ s.head = some a) →
        runOf (some c') = runOf s.frames.head? → doneOf (some c') = doneOf s.frames.head? → (∀ p, oldOf (some c') = some p → oldOf s.frames.head? = some p) →
        critC (some c') = true → Inv { s with lock := some none, frames := [c'] } := fun c' hl a1 a2 a3 a4 a5 =>
      h.moveC rfl rfl rfl rfl rfl rfl rfl rfl (by simp) rfl a1 a2 a3 a4 (by simp [a5]) (fun u => by simp [hl])
    have unlockstep : ∀ (c' : CPc) (bs : List (List UInt8)), critC s.frames.head? = true →
        (∀ a, seOf (some c') = some a → seOf s.frames.head? = some a ∨ s.head = some a) →
        runOf (some c') = runOf s.frames.head? → doneOf (some c') = doneOf s.frames.head? → (∀ p, oldOf (some c') = some p → oldOf s.frames.head? = some p) →
        critC (some c') = false → Inv { s with lock := none, batches := bs, frames := [c'] } := fun c' bs hl a1 a2 a3 a4 a5 =>
      h.moveC rfl rfl rfl rfl rfl rfl rfl rfl (by simp) rfl a1 a2 a3 a4 (by simp [a5]) (fun u => by simp [hc.lk.2 hl])
    have stay : ∀ (c' : CPc) (eq : List UInt8), (∀ a, seOf (some c') = some a → seOf s.frames.head? = some a ∨ s.head = some a) →
        runOf (some c') = runOf s.frames.head? → doneOf (some c') = doneOf s.frames.head? → (∀ p, oldOf (some c') = some p → oldOf s.frames.head? = some p) →
        critC (some c') = critC s.frames.head? → Inv { s with evalQ := eq, frames := [c'] } := fun c' eq a1 a2 a3 a4 a5 =>
      h.moveC rfl rfl rfl rfl rfl rfl rfl rfl (by simp) rfl a1 a2 a3 a4 (by show s.lock = some none ↔ critC (some c') = true; rw [a5]; exact hc.lk) (fun u => Iff.rfl)
    have nos : ∀ {c' : CPc}, seOf (some c') = none → ∀ a, seOf (some c') = some a → seOf s.frames.head? = some a ∨ s.head = some a :=
      fun h a h' => by rw [h] at h'; cases h'
    have noo : ∀ {c' : CPc}, oldOf (some c') = none → ∀ p, oldOf (some c') = some p → oldOf s.frames.head? = some p :=
      fun h a h' => by rw [h] at h'; cases h'
    cases c with
    | c1 =>
      simp only at e
      split at e
      · next hl => cases e; exact lockstep .c2 hl (nos rfl) (by rw [hf]; rfl) (by rw [hf]; rfl) (noo rfl) rfl
      · cases e
    | c2 =>
      simp only at e
      split at e
      · cases e; exact stay .c5 _ (nos rfl) (by rw [hf]; rfl) (by rw [hf]; rfl) (noo rfl) (by rw [hf]; rfl)
      · cases e; exact stay (.c3 _) _ (nos rfl) (by rw [hf]; rfl) (by rw [hf]; rfl) (noo rfl) (by rw [hf]; rfl)
    | c3 b => cases e; exact unlockstep .ev _ (by rw [hf]; rfl) (nos rfl) (by rw [hf]; rfl) (by rw [hf]; rfl) (noo rfl) rfl
    | ev => cases e; exact stay .c4 _ (nos rfl) (by rw [hf]; rfl) (by rw [hf]; rfl) (noo rfl) (by rw [hf]; rfl)
    | c4 =>
      simp only at e
      split at e
      · next hl => cases e; exact lockstep .c5 hl (nos rfl) (by rw [hf]; rfl) (by rw [hf]; rfl) (noo rfl) rfl
      · cases e
    | c5 => cases e; exact unlockstep .c6 _ (by rw [hf]; rfl) (nos rfl) (by rw [hf]; rfl) (by rw [hf]; rfl) (noo rfl) rfl
    | c6 =>
      simp only at e
      split at e
      · next hl => cases e; exact lockstep .c7 hl (nos rfl) (by rw [hf]; rfl) (by rw [hf]; rfl) (noo rfl) rfl
      · cases e
    | c7 => cases e; exact stay (.c8 _) _ (fun a ha => .inr ha) (by rw [hf]; rfl) (by rw [hf]; rfl) (noo rfl) (by rw [hf]; rfl)
    | c8 se =>
      cases e
      exact unlockstep (.loop se) _ (by rw [hf]; rfl) (fun a ha => .inl (by rw [hf]; exact ha)) (by rw [hf]; rfl) (by rw [hf]; rfl) (noo rfl) rfl
    | loop se =>
      cases se with
      | none =>
        cases e
        exact h.moveC rfl rfl rfl rfl rfl rfl rfl rfl (by simp) rfl (fun a ha => by cases ha) (by rw [hf]; rfl) (by rw [hf]; rfl)
          (fun p hp => by cases hp) (by rw [hc.lk, hf]; rfl) (fun u => Iff.rfl)
      | some a =>
        obtain ⟨r, hr, hfi, hi⟩ := h.begin hf
        simp only [hr, hfi, if_true] at e
        cases e; exact hi
    | run a b =>
      obtain ⟨r, hr, hi⟩ := h.ended hf x
      simp only [hr] at e
      have e := Option.some.inj e
      subst e; exact hi
    | c9 a b =>
      simp only at e
      split at e
      · next hl => cases e; exact lockstep (.c10 a b) hl (nos rfl) (by rw [hf]; rfl) (by rw [hf]; rfl) (noo rfl) rfl
      · cases e
    | c10 a b =>
      obtain ⟨r, hr, hi⟩ := h.unhook hf
      simp only [hr] at e
      cases e; exact hi
    | c11 a b =>
      cases b with
      | true => cases e; exact stay (.c12 a true) _ (nos rfl) (by rw [hf]; rfl) (by rw [hf]; rfl) (fun p hp => by rw [hf]; exact hp) (by rw [hf]; rfl)
      | false =>
        obtain ⟨⟨r, hr⟩, hi⟩ := h.freed hf
        simp only [hr, Bool.false_eq_true, if_false] at e
        cases e; exact hi
    | c12 a b => cases e; exact stay (.c13 a b _) _ (fun a ha => .inr ha) (by rw [hf]; rfl) (by rw [hf]; rfl) (fun p hp => by rw [hf]; exact hp) (by rw [hf]; rfl)
    | c13 a b se =>
      cases e
      exact unlockstep (.c14 a b se) _ (by rw [hf]; rfl) (fun a ha => .inl (by rw [hf]; exact ha)) (by rw [hf]; rfl) (by rw [hf]; rfl)
        (fun p hp => by rw [hf]; exact hp) rfl
    | c14 a b se =>
      cases b with
      | true =>
        obtain ⟨r, hr, hi⟩ := h.told hf
        simp only [hr, if_true] at e
        cases e; exact hi
      | false =>
        simp only [Bool.false_eq_true, if_false] at e
        cases e
        exact stay (.loop se) _ (fun a ha => .inl (by rw [hf]; exact ha)) (by rw [hf]; rfl) (by rw [hf]; rfl) (noo rfl) (by rw [hf]; rfl)

end Verif.Queue
