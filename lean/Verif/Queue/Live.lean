import Verif.Queue.Texts

/-! Nobody is stuck. -/

namespace Verif.Queue

variable {M R : Type}

/-- How many statements are left at most, apart from those for further records. -/
def rank : Option CPc → Nat
  | none => 0
  | some .c1 => 10
  | some .c2 => 9
  | some (.c3 _) => 8
  | some .ev => 7
  | some .c4 => 6
  | some .c5 => 5
  | some .c6 => 4
  | some .c7 => 3
  | some (.c8 _) => 2
  | some (.loop _) => 1
  | some (.run _ _) => 0
  | some (.c9 _ _) => 8
  | some (.c10 _ _) => 7
  | some (.c11 _ _) => 6
  | some (.c12 _ _) => 5
  | some (.c13 _ _ _) => 4
  | some (.c14 _ _ _) => 3

/-- The messages that are not finished. -/
def rem (s : St M R) : Nat := s.posted.length - s.finished.length

/-- How many statements of the owner are left at most. -/
def mu (s : St M R) : Nat := if s.frames = [] then 0 else rank s.frames.head? + 9 * rem s

theorem Inv.rem_pos {s : St M R} (h : Inv s) {a : Nat} {e : Bool} (hf : s.frames = [.run a e]) : s.finished.length < s.posted.length := by
  obtain ⟨q, hc, _⟩ := h.q
  rw [hf] at hc
  obtain ⟨hq, r, hr, _⟩ := hc.running a e rfl
  rw [hc.po rfl]
  cases q with
  | nil => cases hq
  | cons b q => cases hq; rw [posts_cons hr]; simp

theorem Inv.nofault {s : St M R} (h : Inv s) : s.fault = false := by
  obtain ⟨q, hc, _⟩ := h.q; exact hc.nf

theorem Inv.nocrash {s s' : St M R} (h : Inv s') (e : some s.crash = some s') : False := by
  cases e; exact absurd h.nofault (by simp [St.crash])

/-- A statement of the owner. -/
theorem mu_cons {s s' : St M R} (h : Inv s) {x : R} (e : stepC s x = some s') : mu s' < mu s := by
  have h' := h.stepC e
  have hpo := (stepC_prods e).2.1
  unfold stepC at e
  split at e
  · cases e
  · next c fs hf =>
    have hfs := frames_one h.one hf
    subst hfs
    cases c with
    | run a b =>
      have := h.rem_pos hf
      simp only at e
      split at e
      · exact (h'.nocrash e).elim
      · have e := Option.some.inj e
        subst e
        simp only [mu, hf, rem, St.put, rank, List.head?_cons]
        simp
        omega
    | loop se =>
      cases se with
      | none => cases e; simp [mu, hf, rank]; omega
      | some a =>
        simp only at e
        repeat' split at e
        · exact (h'.nocrash e).elim
        · cases e; simp [mu, hf, rank, rem]
        · exact (h'.nocrash e).elim
    | _ =>
      simp only at e
      repeat' split at e
      all_goals first
        | (cases e; done)
        | (exact (h'.nocrash e).elim)
        | (have e := Option.some.inj e; subst e; simp [mu, hf, rank, rem, St.put, St.free]; done)

/-- The owner can go on unless another thread has the lock. -/
theorem Inv.cons_some {s : St M R} (h : Inv s) (hf : s.frames ≠ []) (hl : ∀ t, s.lock ≠ some (some t)) (x : R) :
    ∃ s', Queue.stepC s x = some s' := by
  obtain ⟨q, hc, _⟩ := h.q
  have hlk := hc.lk
  have hn : critC s.frames.head? = false → s.lock = none := by
    intro hcr
    cases hs : s.lock with
    | none => rfl
    | some o =>
      cases o with
      | none => rw [hs] at hlk; rw [hlk.1 rfl] at hcr; cases hcr
      | some t => exact absurd hs (hl t)
  unfold Queue.stepC
  cases hfr : s.frames with
  | nil => exact absurd hfr hf
  | cons c fs =>
    rw [hfr] at hn
    cases c with
    | c1 => simp [hn rfl]
    | c4 => simp [hn rfl]
    | c6 => simp [hn rfl]
    | c9 a b => simp [hn rfl]
    | loop se => cases se <;> simp only <;> repeat' split
                 all_goals exact ⟨_, rfl⟩
    | _ => simp only; repeat' split
           all_goals exact ⟨_, rfl⟩

theorem stepC_lock {s s' : St M R} {x : R} (e : stepC s x = some s') (hl : ∀ t, s.lock ≠ some (some t)) : ∀ t, s'.lock ≠ some (some t) := by
  unfold stepC at e
  repeat' split at e
  all_goals first
    | (cases e; done)
    | (have e := Option.some.inj e; subst e; intro t; first | exact hl t | (simp; done))

/-- Left alone, the callback comes to its end. -/
theorem Inv.callback_ends (x : R) : ∀ (n : Nat) {s : St M R}, mu s = n → Inv s → (∀ t, s.lock ≠ some (some t)) →
    ∃ k, (run s (List.replicate k (.cons x))).frames = [] ∧ (run s (List.replicate k (.cons x))).posted = s.posted ∧
      (run s (List.replicate k (.cons x))).prods = s.prods := by
  intro n
  induction n using Nat.strongRecOn with
  | _ n ih =>
    intro s hn h hl
    by_cases hf : s.frames = []
    · exact ⟨0, hf, rfl, rfl⟩
    · obtain ⟨s', e⟩ := h.cons_some hf hl x
      have hd := mu_cons h e
      obtain ⟨k, h1, h2, h3⟩ := ih (mu s') (by omega) rfl (h.stepC e) (stepC_lock e hl)
      refine ⟨k + 1, ?_⟩
      rw [List.replicate_succ, run, show Queue.step s (.cons x) = Queue.stepC s x from rfl, e, Option.getD_some]
      refine ⟨h1, ?_, ?_⟩
      · rw [h2, (stepC_prods e).2.1]
      · rw [h3, (stepC_prods e).1]

/-- How many statements of the owner were carried out in a schedule. -/
def consumed (s : St M R) : List (Lab M R) → Nat
  | [] => 0
  | .cons x :: r => (if (step s (.cons x)).isSome then 1 else 0) + consumed ((step s (.cons x)).getD s) r
  | l :: r => consumed ((step s l).getD s) r

/-- Schedules without the beginning of another callback. -/
def Lab.noStart : Lab M R → Bool
  | .start => false
  | _ => true

theorem finished_le {s : St M R} (h : Inv s) : s.finished.length ≤ s.posted.length := by
  obtain ⟨q, hc, _⟩ := h.q
  cases hd : doneOf s.frames.head? with
  | none => rw [hc.po hd]; simp
  | some p =>
    obtain ⟨q', _, r, _, _, _, _, hp⟩ := hc.done p.1 p.2 hd
    have hr : runOf s.frames.head? = none := by
      cases hh : s.frames.head? with
      | none => rfl
      | some c => rw [hh] at hd; cases c <;> first | rfl | cases hd
    rw [hp, hc.st hr]; simp

theorem mu_le {s s' : St M R} (h1 : s'.frames = s.frames) (h2 : s'.finished = s.finished) (h3 : s.posted.length ≤ s'.posted.length)
    (h4 : s.finished.length ≤ s.posted.length) : mu s' ≤ mu s + 9 * (s'.posted.length - s.posted.length) := by
  unfold mu rem
  rw [h1, h2]
  split
  · omega
  · omega

theorem step_posted {s s' : St M R} {l : Lab M R} (hg : l.good = true) (e : step s l = some s') : s.posted <+: s'.posted := by
  cases l with
  | nest => cases hg
  | timeout => cases hg
  | delete => cases hg
  | prod t => exact (stepP_frames e).2.2.2.1
  | cons x => rw [(stepC_prods e).2.1]; exact List.prefix_refl _
  | _ =>
    simp only [step] at e
    repeat' split at e
    all_goals first
      | (cases e; done)
      | (cases e; exact List.prefix_refl _)

theorem run_posted : ∀ (ls : List (Lab M R)) (s : St M R), (∀ l ∈ ls, l.good = true) → s.posted <+: (run s ls).posted
  | [], _, _ => List.prefix_refl _
  | l :: ls, s, hg => by
    have hl := hg l List.mem_cons_self
    have hg' : ∀ l ∈ ls, l.good = true := fun l hl => hg l (List.mem_cons_of_mem _ hl)
    rw [run]
    cases e : step s l with
    | none => exact run_posted ls s hg'
    | some s' => exact (step_posted hl e).trans (run_posted ls s' hg')

/-- 1 for the owner's steps. -/
def isCons : Lab M R → Nat
  | .cons _ => 1
  | _ => 0

/-- In every schedule the callback needs only as many statements as there is work. -/
theorem consumed_le : ∀ (ls : List (Lab M R)) (s : St M R), Inv s → (∀ l ∈ ls, l.good = true ∧ l.noStart = true) →
    consumed s ls + mu (run s ls) ≤ mu s + 9 * ((run s ls).posted.length - s.posted.length)
  | [], s, _, _ => by simp [consumed, run]
  | l :: ls, s, h, hg => by
    have hl := (hg l List.mem_cons_self).1
    have hst := (hg l List.mem_cons_self).2
    have hg' : ∀ l ∈ ls, l.good = true ∧ l.noStart = true := fun l hl => hg l (List.mem_cons_of_mem _ hl)
    have ih0 := consumed_le ls s h hg'
    have key : ∀ s', step s l = some s' → mu s' + isCons l ≤ mu s + 9 * (s'.posted.length - s.posted.length) := by
      intro s' e
      have hle := (step_posted hl e).length_le
      have hfin := finished_le h
      cases l with
      | nest => cases hl
      | timeout => cases hl
      | delete => cases hl
      | start => cases hst
      | cons x => have := mu_cons h e; simp only [isCons]; omega
      | prod t =>
        obtain ⟨h1, _, _, _, h2, _⟩ := stepP_frames e
        exact mu_le h1 h2 hle hfin
      | post t m b =>
        simp only [step] at e
        split at e <;> cases e
        exact mu_le rfl rfl hle hfin
      | eval t x =>
        simp only [step] at e
        repeat' split at e
        all_goals first
          | (cases e; done)
          | (cases e; exact mu_le rfl rfl hle hfin)
    cases e : step s l with
    | none =>
      have : consumed s (l :: ls) = consumed s ls := by cases l <;> simp [consumed, e]
      rw [this, run, e, Option.getD_none]; exact ih0
    | some s' =>
      have hk := key s' e
      have ih := consumed_le ls s' (h.step hl e) hg'
      have h1 := (step_posted hl e).length_le
      have h2 := (run_posted ls s' (fun l hl => (hg' l hl).1)).length_le
      have : consumed s (l :: ls) = consumed s' ls + isCons l := by
        cases l <;> simp [consumed, e, isCons]; omega
      rw [this, run, e, Option.getD_some]; omega

/-! ### Threads -/

theorem run_append : ∀ (l1 l2 : List (Lab M R)) (s : St M R), run s (l1 ++ l2) = run (run s l1) l2
  | [], _, _ => rfl
  | l :: l1, l2, s => by rw [List.cons_append, run, run, run_append l1 l2]

theorem Chain.suffix {h : Nat → Option (Rec M R)} {se : Nat} : ∀ {hd : Option Nat} {q : List Nat}, Chain h hd q → se ∈ q →
    ∃ q2, Chain h (some se) q2
  | none, [], _, hs => by cases hs
  | some x, y :: q, hc, hs => by
    obtain ⟨e, r, hr, hc'⟩ := hc
    subst e
    by_cases e : se = x
    · subst e; exact ⟨se :: q, rfl, r, hr, hc'⟩
    · exact hc'.suffix ((List.mem_cons.1 hs).resolve_left e)
  | none, _ :: _, hc, _ => hc.elim
  | some _, [], hc, _ => hc.elim

/-- Steps of thread `t` alone. -/
def alone (t k : Nat) : List (Lab M R) := List.replicate k (.prod t)

theorem alone_good (t k : Nat) : ∀ l ∈ (alone t k : List (Lab M R)), l.good = true := fun l hl => by
  rw [List.eq_of_mem_replicate hl]; rfl

theorem run_alone_succ {s s' : St M R} {t : Nat} (e : stepP s t = some s') (k : Nat) : run s (alone t (k + 1)) = run s' (alone t k) := by
  rw [alone, List.replicate_succ, run, show step s (.prod t) = stepP s t from rfl, e]; rfl

/-- At the end of posting: a thread that waits, or that is done, without the lock. -/
def Out (s : St M R) (t : Nat) : Prop := s.lock = none ∧ (s.prods t = .idle ∨ ∃ a, s.prods t = .wait a)

theorem out_unlock {s : St M R} {t a : Nat} {b : Bool} (hp : s.prods t = .unlock a b) : Out (run s (alone t 1)) t := by
  have e : stepP s t = some ({ s with lock := none }.setP t (if b then .wait a else .idle)) := by
    unfold stepP; rw [hp]
  rw [run_alone_succ e]
  refine ⟨rfl, ?_⟩
  cases b
  · exact .inl (by simp [alone, run, St.setP])
  · exact .inr ⟨a, by simp [alone, run, St.setP]⟩

theorem out_walk {t a : Nat} {b : Bool} : ∀ (q2 : List Nat) (se : Nat) (s : St M R), Inv s → s.prods t = .walk a b se → Chain s.heap (some se) q2 →
    ∃ k, Out (run s (alone t k)) t
  | [], _, _, _, _, hc => hc.elim
  | y :: q2, se, s, h, hp, hc => by
    obtain ⟨e, r, hr, hc'⟩ := hc
    obtain ⟨q, _, hq⟩ := h.q
    obtain ⟨_, ra, hra, _⟩ := (hq t).build a b (by rw [hp]; rfl)
    cases hn : r.next with
    | some se' =>
      have e : stepP s t = some (s.setP t (.walk a b se')) := by
        unfold stepP; simp only [hp, hr, hn]
      rw [hn] at hc'
      obtain ⟨k, hk⟩ := out_walk (t := t) (a := a) (b := b) q2 se' _ (h.stepP e) (by simp [St.setP]) hc'
      exact ⟨k + 1, by rw [run_alone_succ e]; exact hk⟩
    | none =>
      have e : stepP s t = some (({ s with posted := s.posted ++ [ra.post] }.put se { r with next := some a }).setP t (.unlock a b)) := by
        unfold stepP; simp only [hp, hr, hn, hra]
      exact ⟨2, by rw [run_alone_succ e]; exact out_unlock (b := b) (a := a) (by simp [St.setP])⟩

/-- A thread that has the lock gives it back. -/
theorem Inv.holder {s : St M R} (h : Inv s) {t : Nat} (hl : s.lock = some (some t)) : ∃ k, Out (run s (alone t k)) t := by
  obtain ⟨q, hc, hq⟩ := h.q
  have hcr := (hq t).lk.1 hl
  have look : ∀ (s : St M R) (a : Nat) (b : Bool), Inv s → s.prods t = .look a b → ∃ k, Out (run s (alone t k)) t := by
    intro s a b h hp
    obtain ⟨q, hc, hq⟩ := h.q
    obtain ⟨_, ra, hra, _⟩ := (hq t).build a b (by rw [hp]; rfl)
    cases hh : s.head with
    | none =>
      have e : Queue.stepP s t = some ({ s with head := some a, posted := s.posted ++ [ra.post] }.setP t (.unlock a b)) := by
        unfold Queue.stepP; simp only [hp, hh, hra]
      exact ⟨2, by rw [run_alone_succ e]; exact out_unlock (b := b) (a := a) (by simp [St.setP])⟩
    | some se =>
      have e : Queue.stepP s t = some (s.setP t (.walk a b se)) := by
        unfold Queue.stepP; simp only [hp, hh]
      have hch := hc.chain
      rw [hh] at hch
      obtain ⟨k, hk⟩ := out_walk (t := t) (a := a) (b := b) q se _ (h.stepP e) (by simp [St.setP]) hch
      exact ⟨k + 1, by rw [run_alone_succ e]; exact hk⟩
  cases hp : s.prods t with
  | alloc m b =>
    have e : Queue.stepP s t = some (({ s with fresh := s.fresh + 1 }.put s.fresh ⟨⟨t, m, b⟩, true, b, none, none⟩).setP t (.look s.fresh b)) := by
      unfold Queue.stepP; rw [hp]
    obtain ⟨k, hk⟩ := look _ s.fresh b (h.stepP e) (by simp [St.setP])
    exact ⟨k + 1, by rw [run_alone_succ e]; exact hk⟩
  | look a b => exact look s a b h hp
  | walk a b se =>
    obtain ⟨q2, h2⟩ := hc.chain.suffix ((hq t).walk a b se hp)
    exact out_walk q2 se s h hp h2
  | unlock a b => exact ⟨1, out_unlock hp⟩
  | evPut x =>
    have e : Queue.stepP s t = some ({ s with evalQ := joinQ s.evalQ x, texts := s.texts ++ [(t, x)] }.setP t .evUnlock) := by
      unfold Queue.stepP; rw [hp]
    have e2 : Queue.stepP ({ s with evalQ := joinQ s.evalQ x, texts := s.texts ++ [(t, x)] }.setP t .evUnlock) t =
        some ({ ({ s with evalQ := joinQ s.evalQ x, texts := s.texts ++ [(t, x)] }.setP t .evUnlock) with lock := none }.setP t .idle) := by
      unfold Queue.stepP; simp [St.setP]
    exact ⟨2, by rw [run_alone_succ e, run_alone_succ e2]; exact ⟨rfl, .inl (by simp [alone, run, St.setP])⟩⟩
  | evUnlock =>
    have e : Queue.stepP s t = some ({ s with lock := none }.setP t .idle) := by
      unfold Queue.stepP; rw [hp]
    exact ⟨1, by rw [run_alone_succ e]; exact ⟨rfl, .inl (by simp [alone, run, St.setP])⟩⟩
  | _ => rw [hp] at hcr; cases hcr

end Verif.Queue
