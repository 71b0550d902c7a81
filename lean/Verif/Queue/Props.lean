import Verif.Queue.Live

/-!
C88: messages sent to the interpreter of another thread are carried out once each, in order, and no
freed record is touched.  C89: a thread that waits gets the result of its own message.  C90: texts sent
with asynchronous eval are evaluated once each, in order.  C91: nobody is stuck.
-/

namespace Verif.Queue

variable {M R : Type}

/-- No schedule makes a thread use a freed record. -/
theorem C88_memory_partial (ls : List (Lab M R)) (hg : ∀ l ∈ ls, l.good = true) : (run (init M R) ls).fault = false :=
  (reach_inv ls hg).nofault

theorem started_posted {s : St M R} (h : Inv s) : s.started <+: s.posted := by
  obtain ⟨q, hc, _⟩ := h.q
  cases hd : doneOf s.frames.head? with
  | some p =>
    obtain ⟨q', _, r, _, _, _, _, hp⟩ := hc.done p.1 p.2 hd
    exact ⟨_, hp.symm⟩
  | none =>
    have hp := hc.po hd
    cases hr : runOf s.frames.head? with
    | none => rw [hc.st hr]; exact ⟨_, hp.symm⟩
    | some p =>
      obtain ⟨hq, r, hr', _, hs⟩ := hc.running p.1 p.2 hr
      cases q with
      | nil => cases hq
      | cons b q =>
        cases hq
        rw [posts_cons hr'] at hp
        exact ⟨posts s.heap q, by rw [hs, hp, List.append_assoc]; rfl⟩

theorem finished_started {s : St M R} (h : Inv s) : s.started = s.finished.map (·.1) ∨ ∃ p, s.started = s.finished.map (·.1) ++ [p] := by
  obtain ⟨q, hc, _⟩ := h.q
  cases hr : runOf s.frames.head? with
  | none => exact .inl (hc.st hr)
  | some p =>
    obtain ⟨_, r, _, _, hs⟩ := hc.running p.1 p.2 hr
    exact .inr ⟨_, hs⟩

theorem ofThread_prefix {t : Nat} {a b : List (Post M)} (h : a <+: b) : ofThread t a <+: ofThread t b := List.IsPrefix.filter _ h

/-- What has been started is, for every thread, a beginning of what that thread sent: every message is
carried out at most once, none is invented, left out or overtaken by a later one of the same thread. -/
theorem C88_in_order_partial (ls : List (Lab M R)) (hg : ∀ l ∈ ls, l.good = true) (t : Nat) :
    ofThread t (run (init M R) ls).started <+: ofThread t (calls (init M R) ls) := by
  have hi := reach_inv ls hg
  have h1 := calls_run t ls (init M R) init_inv hg
  have h2 : ofThread t (init M R).posted ++ pend (init M R) t = [] := rfl
  rw [h2, List.nil_append] at h1
  exact (ofThread_prefix (started_posted hi)).trans ⟨_, h1⟩

/-- One message at a time: those started are those finished, in the same order, and possibly one that is
under way. -/
theorem C88_one_at_a_time_partial (ls : List (Lab M R)) (hg : ∀ l ∈ ls, l.good = true) :
    (run (init M R) ls).started = (run (init M R) ls).finished.map (·.1) ∨
      ∃ p, (run (init M R) ls).started = (run (init M R) ls).finished.map (·.1) ++ [p] :=
  finished_started (reach_inv ls hg)

/-- What is in the queue when the owner begins to empty it is finished when it has ended. -/
theorem C88_emptied_partial (ls ls' : List (Lab M R)) (hg : ∀ l ∈ ls, l.good = true) (hg' : ∀ l ∈ ls', l.good = true)
    (h0 : (run (init M R) ls).frames = []) (h1 : (run (init M R) (ls ++ .start :: ls')).frames = []) :
    (run (init M R) ls).posted <+: (run (init M R) (ls ++ .start :: ls')).finished.map (·.1) := by
  have hi := reach_inv ls hg
  rw [run_append] at h1 ⊢
  generalize hs : run (init M R) ls = s at *
  have e : step s .start = some { s with frames := [.c1], since := s.posted } := by simp only [step, h0]
  rw [run, e, Option.getD_some] at h1 ⊢
  have hi' := hi.step (l := .start) rfl e
  obtain ⟨hj, hsn⟩ := run_inv (P := Sn s.posted) (fun s l s' hi hp hg e => hp.step hi hg e) ls' _ hi'
    ⟨List.prefix_refl _, fun h => by cases h⟩ hg'
  have h2 := hsn.2 (by rw [h1]; rfl)
  obtain ⟨q, hc, _⟩ := hj.q
  rw [← hc.st (by rw [h1]; rfl)]
  exact h2

/-! ### Waiting threads -/

theorem awaited_of (t : Nat) (l : List (Post M)) : awaited t l = (ofThread t l).filter (·.sync) := by
  simp [awaited, ofThread, List.filter_filter, Bool.and_comm]

theorem awaited_prefix {t : Nat} {a b : List (Post M)} (h : a <+: b) : awaited t a <+: awaited t b := List.IsPrefix.filter _ h

/-- What thread `t` waited for and is finished, with the results. -/
def answers (fin : List (Post M × R)) (t : Nat) : List (Post M × R) := fin.filter (fun p => p.1.who == t && p.1.sync)

theorem answers_posts (fin : List (Post M × R)) (t : Nat) : (answers fin t).map (·.1) = awaited t (fin.map (·.1)) := by
  unfold answers awaited
  rw [List.filter_map]; rfl

theorem ret_prefix {s : St M R} (h : Inv s) (t : Nat) : retOf s.returned t <+: resOf s.finished t ∧
    (ownOf (s.prods t) = none → retOf s.returned t = resOf s.finished t) := by
  obtain ⟨q, _, hq⟩ := h.q
  cases ho : ownOf (s.prods t) with
  | none =>
    have := (hq t).noown ho
    exact ⟨this ▸ List.prefix_refl _, fun _ => this.symm⟩
  | some a =>
    obtain ⟨r, _, _, _, _, _, h6⟩ := (hq t).own a ho
    exact ⟨⟨_, h6.symm⟩, fun h => by cases h⟩

/-- The results a thread got back are the results of the messages it waited for, one after the other. -/
theorem C89_own_result_partial (ls : List (Lab M R)) (hg : ∀ l ∈ ls, l.good = true) (t : Nat) :
    (answers (run (init M R) ls).finished t).map (·.1) <+: awaited t (calls (init M R) ls) ∧
    retOf (run (init M R) ls).returned t <+: (answers (run (init M R) ls).finished t).map (·.2) := by
  have hi := reach_inv ls hg
  refine ⟨?_, (ret_prefix hi t).1⟩
  rw [answers_posts, awaited_of, awaited_of]
  refine List.IsPrefix.filter _ ?_
  have h := C88_in_order_partial ls hg t
  rcases finished_started hi with e | ⟨p, e⟩
  · rw [e] at h; exact h
  · rw [e, ofThread_append] at h
    exact (List.prefix_append _ _).trans h

/-- A thread that is not in a call has got, for each message it waited for, the result of that message. -/
theorem C89_all_answered_partial (ls : List (Lab M R)) (hg : ∀ l ∈ ls, l.good = true) (t : Nat)
    (ht : (run (init M R) ls).prods t = .idle) :
    (answers (run (init M R) ls).finished t).map (·.1) = awaited t (calls (init M R) ls) ∧
    retOf (run (init M R) ls).returned t = (answers (run (init M R) ls).finished t).map (·.2) := by
  have hi := reach_inv ls hg
  refine ⟨?_, (ret_prefix hi t).2 (by rw [ht]; rfl)⟩
  have h1 := calls_run t ls (init M R) init_inv hg
  have h2 : ofThread t (init M R).posted ++ pend (init M R) t = [] := rfl
  have h3 : pend (run (init M R) ls) t = [] := by unfold pend; rw [ht]
  rw [h2, List.nil_append, h3, List.append_nil] at h1
  rw [answers_posts, awaited_of t (calls _ _), ← h1, ← awaited_of]
  generalize run (init M R) ls = s at *
  obtain ⟨q, hc, hq⟩ := hi.q
  have hno : ∀ q', (∀ a ∈ q', a ∈ q) → awaited t (posts s.heap q') = [] := by
    intro q' hs
    unfold awaited
    rw [List.filter_eq_nil_iff]
    intro p hp
    unfold posts at hp
    obtain ⟨a, ha, hm⟩ := List.mem_filterMap.1 hp
    cases hr : s.heap a with
    | none => rw [hr] at hm; cases hm
    | some r =>
      rw [hr] at hm; cases hm
      intro hw
      have hw := Bool.and_eq_true_iff.1 hw
      have := (hq t).uniq a (hs a ha) r hr (by simpa using hw.1) hw.2
      rw [ht] at this; cases this
  have hap : ∀ a b : List (Post M), awaited t (a ++ b) = awaited t a ++ awaited t b := fun a b => by simp [awaited]
  cases hd : doneOf s.frames.head? with
  | none => rw [hc.po hd, hap, hno q (fun a h => h), List.append_nil]
  | some p =>
    obtain ⟨q', hqq, r, _, _, _, _, hp⟩ := hc.done p.1 p.2 hd
    have hr : runOf s.frames.head? = none := by
      cases hh : s.frames.head? with
      | none => rfl
      | some c => rw [hh] at hd; cases c <;> first | rfl | cases hd
    rw [hp, hap, hno q' (fun a h => hqq ▸ List.mem_cons_of_mem _ h), List.append_nil, hc.st hr]

/-! ### Texts -/

/-- What thread `t` is about to send. -/
def pendT (s : St M R) (t : Nat) : List (Nat × List UInt8) :=
  match s.prods t with
  | .evWant x => [(t, x)]
  | .evPut x => [(t, x)]
  | _ => []

theorem textsOf_append (t : Nat) (l l' : List (Nat × List UInt8)) : textsOf t (l ++ l') = textsOf t l ++ textsOf t l' := by
  simp [textsOf]

theorem pendT_step {s s' : St M R} {l : Lab M R} (hg : l.good = true) (e : step s l = some s') (u : Nat) :
    textsOf u s'.texts ++ pendT s' u = textsOf u s.texts ++ pendT s u ++ textsOf u (begunText s l) := by
  have hb : begunText s l = (match l with | .eval t x => if x = [] then [] else [(t, x)] | _ => []) := by
    unfold begunText; rw [e]; cases l <;> rfl
  rw [hb]
  cases l with
  | nest => cases hg
  | timeout => cases hg
  | delete => cases hg
  | start =>
    simp only [step] at e
    split at e <;> cases e
    simp [pendT, textsOf]
  | cons x =>
    obtain ⟨h1, _, h2, _⟩ := stepC_prods e
    simp [pendT, h1, h2, textsOf]
  | post t m b =>
    simp only [step] at e
    split at e
    · next hp =>
      cases e
      by_cases hu : u = t
      · subst hu; simp [pendT, St.setP, hp, textsOf]
      · simp [pendT, St.setP, hu, textsOf]
    · cases e
  | eval t x =>
    simp only [step] at e
    split at e
    · next hp =>
      split at e
      · next hx => cases e; simp [hx, textsOf]
      · next hx =>
        cases e
        by_cases hu : u = t
        · subst hu; simp [pendT, St.setP, hp, textsOf, hx]
        · have hu' : ¬ t = u := fun e => hu e.symm
          simp [pendT, St.setP, hu, textsOf, hx, hu']
    · cases e
  | prod t =>
    simp only [step, stepP] at e
    have hnil : textsOf u [] = [] := rfl
    rw [hnil, List.append_nil]
    by_cases hu : u = t
    · subst hu
      repeat' split at e
      all_goals first
        | (cases e; done)
        | (have e := Option.some.inj e; subst e
           simp_all [pendT, St.setP, St.put, St.free, St.crash, textsOf]; done)
        | (have e := Option.some.inj e; subst e
           rename_i b _
           cases b <;> simp_all [pendT, St.setP, St.put, St.free, St.crash, textsOf]; done)
    · have hu' : ¬ t = u := fun e => hu e.symm
      repeat' split at e
      all_goals first
        | (cases e; done)
        | (have e := Option.some.inj e; subst e
           simp [pendT, St.setP, St.put, St.free, St.crash, textsOf, hu, hu']; done)

theorem evals_run (t : Nat) : ∀ (ls : List (Lab M R)) (s : St M R), (∀ l ∈ ls, l.good = true) →
    textsOf t (run s ls).texts ++ pendT (run s ls) t = textsOf t s.texts ++ pendT s t ++ textsOf t (evals s ls)
  | [], _, _ => by simp [run, evals, textsOf]
  | l :: ls, s, hg => by
    have hl := hg l List.mem_cons_self
    rw [run, evals, textsOf_append]
    cases e : step s l with
    | none =>
      have h1 := evals_run t ls s (fun l hl => hg l (List.mem_cons_of_mem _ hl))
      rw [Option.getD_none, h1]
      cases l <;> simp [textsOf, begunText, e]
    | some s' =>
      have h1 := evals_run t ls s' (fun l hl => hg l (List.mem_cons_of_mem _ hl))
      rw [Option.getD_some, h1, pendT_step hl e t]
      simp

theorem tx_init : Tx [] (init M R) :=
  ⟨(fun x h => by cases h), (fun t x h => by rcases h with h | h <;> cases h), List.prefix_refl _, [], [], rfl, (fun g h => by cases h), rfl, rfl,
    fun _ => List.prefix_refl _⟩

/-- What is evaluated: the texts in the order in which they came, each once, those that came together with
semicolons between them; and for every thread they are a beginning of what that thread sent. -/
theorem C90_texts_partial (ls : List (Lab M R)) (hg : ∀ l ∈ ls, l.good = true) :
    (∃ gs : List (List (Nat × List UInt8)), (∀ g ∈ gs, g ≠ []) ∧
      (run (init M R) ls).batches <+: gs.map (fun g => semis (g.map (·.2))) ∧ gs.flatten <+: (run (init M R) ls).texts) ∧
    ∀ t, textsOf t (run (init M R) ls).texts <+: textsOf t (evals (init M R) ls) := by
  obtain ⟨_, _, _, _, gs, pd, h1, h2, h3, _⟩ := run_inv (P := Tx []) (fun s l s' hi hp hg e => hp.step hi hg e) ls _ init_inv tx_init hg
  refine ⟨⟨gs, h2, ⟨_, h3⟩, ⟨_, h1.symm⟩⟩, fun t => ?_⟩
  have h := evals_run t ls (init M R) hg
  have h2 : textsOf t (init M R).texts ++ pendT (init M R) t = [] := rfl
  rw [h2, List.nil_append] at h
  exact ⟨_, h⟩

theorem Tx.weaken {T : List (Nat × List UInt8)} {s : St M R} (h : Tx [] s) (hT : T <+: s.texts) (ht : taken s.frames.head? = false) : Tx T s := by
  obtain ⟨a1, a2, _, gs, pd, b1, b2, b3, b4, _⟩ := h
  exact ⟨a1, a2, hT, gs, pd, b1, b2, b3, b4, fun h => by rw [ht] at h; cases h⟩

/-- The texts that are there when the owner begins to empty the queue have been evaluated when it ends. -/
theorem C90_emptied_partial (ls ls' : List (Lab M R)) (hg : ∀ l ∈ ls, l.good = true) (hg' : ∀ l ∈ ls', l.good = true)
    (h0 : (run (init M R) ls).frames = []) (h1 : (run (init M R) (ls ++ .start :: ls')).frames = []) :
    ∃ gs : List (List (Nat × List UInt8)), (∀ g ∈ gs, g ≠ []) ∧
      (run (init M R) (ls ++ .start :: ls')).batches = gs.map (fun g => semis (g.map (·.2))) ∧
      gs.flatten <+: (run (init M R) (ls ++ .start :: ls')).texts ∧ (run (init M R) ls).texts <+: gs.flatten := by
  obtain ⟨hi, htx⟩ := run_inv (P := Tx []) (fun s l s' hi hp hg e => hp.step hi hg e) ls _ init_inv tx_init hg
  rw [run_append] at h1 ⊢
  generalize hs : run (init M R) ls = s at *
  have e : step s .start = some { s with frames := [.c1], since := s.posted } := by simp only [step, h0]
  rw [run, e, Option.getD_some] at h1 ⊢
  have hi' := hi.step (l := .start) rfl e
  have htx' := (htx.step hi (l := .start) rfl e).weaken (T := s.texts) (List.prefix_refl _) rfl
  obtain ⟨_, hx⟩ := run_inv (P := Tx s.texts) (fun s l s' hi hp hg e => hp.step hi hg e) ls' _ hi' htx' hg'
  obtain ⟨_, _, _, gs, pd, b1, b2, b3, _, b5⟩ := hx
  rw [h1] at b3 b5
  exact ⟨gs, b2, by simpa [cur] using b3, ⟨_, b1.symm⟩, b5 rfl⟩

/-! ### Progress -/

/-- A thread that cannot go on is not in a call, or waits for the lock while its holder can go on. -/
theorem C91_no_deadlock_partial (ls : List (Lab M R)) (hg : ∀ l ∈ ls, l.good = true) (t : Nat) (x : R)
    (hn : step (run (init M R) ls) (.prod t) = none) :
    (run (init M R) ls).prods t = .idle ∨
    (∃ u, (run (init M R) ls).lock = some (some u) ∧ step (run (init M R) ls) (.prod u) ≠ none) ∨
    ((run (init M R) ls).lock = some none ∧ step (run (init M R) ls) (.cons x) ≠ none) := by
  have hi := reach_inv ls hg
  generalize run (init M R) ls = s at *
  obtain ⟨q, hc, hq⟩ := hi.q
  have key : s.lock ≠ none → (∃ u, s.lock = some (some u) ∧ step s (.prod u) ≠ none) ∨ (s.lock = some none ∧ step s (.cons x) ≠ none) := by
    intro hl
    cases hs : s.lock with
    | none => exact absurd hs hl
    | some o =>
      cases o with
      | none =>
        refine .inr ⟨rfl, ?_⟩
        have hcr := hc.lk.1 hs
        have hf : s.frames ≠ [] := fun e => by rw [e] at hcr; cases hcr
        obtain ⟨s', e⟩ := hi.cons_some hf (fun t h => by rw [hs] at h; cases h) x
        intro h
        rw [show step s (.cons x) = stepC s x from rfl, e] at h; cases h
      | some u =>
        refine .inl ⟨u, rfl, ?_⟩
        have hcr := (hq u).lk.1 hs
        simp only [step, stepP]
        cases hp : s.prods u with
        | alloc m b => simp
        | look a b => simp only; repeat' split
                      all_goals simp
        | walk a b se => simp only; repeat' split
                         all_goals simp
        | unlock a b => simp
        | evPut x => simp
        | evUnlock => simp
        | _ => rw [hp] at hcr; cases hcr
  simp only [step, stepP] at hn
  cases hp : s.prods t with
  | idle => exact .inl rfl
  | want m b =>
    rw [hp] at hn
    exact .inr (key (fun h => by simp [h] at hn))
  | evWant m =>
    rw [hp] at hn
    exact .inr (key (fun h => by simp [h] at hn))
  | _ =>
    rw [hp] at hn
    simp only at hn
    repeat' split at hn
    all_goals cases hn

/-- A thread that has the lock gives it back after finitely many of its own statements, whatever else. -/
theorem C91_lock_given_back_partial (ls : List (Lab M R)) (hg : ∀ l ∈ ls, l.good = true) (t : Nat)
    (hl : (run (init M R) ls).lock = some (some t)) :
    ∃ k, (run (run (init M R) ls) (List.replicate k (.prod t))).lock = none := by
  obtain ⟨k, hk⟩ := (reach_inv ls hg).holder hl
  exact ⟨k, hk.1⟩

/-- In every schedule the owner has, after at most ten statements and nine for each message that is not
finished, come to the end of the emptying that it has begun (or waits for the lock). -/
theorem C91_bounded_partial (ls ls' : List (Lab M R)) (hg : ∀ l ∈ ls, l.good = true)
    (hg' : ∀ l ∈ ls', l.good = true ∧ l.noStart = true) :
    consumed (run (init M R) ls) ls' ≤ 10 + 9 * ((run (init M R) (ls ++ ls')).posted.length - (run (init M R) ls).finished.length) := by
  have hi := reach_inv ls hg
  rw [run_append]
  generalize run (init M R) ls = s at *
  have h := consumed_le ls' s hi hg'
  have h2 := (run_posted ls' s (fun l hl => (hg' l hl).1)).length_le
  have h3 := finished_le hi
  have : mu s ≤ 10 + 9 * (s.posted.length - s.finished.length) := by
    unfold mu rem
    split
    · omega
    · have : rank s.frames.head? ≤ 10 := by
        cases s.frames.head? with
        | none => simp [rank]
        | some c => cases c <;> simp [rank]
      omega
  omega

theorem replicate_good (k : Nat) {l : Lab M R} (hl : l.good = true) : ∀ l' ∈ List.replicate k l, l'.good = true := fun l' h => by
  rw [List.eq_of_mem_replicate h]; exact hl

/-- From every state there is a way on which the owner and the threads, with nothing new being sent, bring
the call of thread `t` to its end. -/
theorem C91_call_ends_partial (ls : List (Lab M R)) (hg : ∀ l ∈ ls, l.good = true) (t : Nat) (x : R) :
    ∃ ls', (∀ l ∈ ls', l = .start ∨ l = .cons x ∨ ∃ u, l = .prod u) ∧ (run (init M R) (ls ++ ls')).prods t = .idle := by
  have hok : ∀ l : Lab M R, (l = .start ∨ l = .cons x ∨ ∃ u, l = .prod u) → l.good = true := by
    intro l h; rcases h with h | h | ⟨u, h⟩ <;> rw [h] <;> rfl
  have hrep : ∀ u k, ∀ l ∈ (alone u k : List (Lab M R)), (l = .start ∨ l = .cons x ∨ ∃ u, l = .prod u) := fun u k l hl =>
    .inr (.inr ⟨u, List.eq_of_mem_replicate hl⟩)
  have hrepc : ∀ k, ∀ l ∈ (List.replicate k (.cons x) : List (Lab M R)), (l = .start ∨ l = .cons x ∨ ∃ u, l = .prod u) := fun k l hl =>
    .inr (.inl (List.eq_of_mem_replicate hl))
  have happ : ∀ {a b : List (Lab M R)}, (∀ l ∈ a, (l = .start ∨ l = .cons x ∨ ∃ u, l = .prod u)) →
      (∀ l ∈ b, (l = .start ∨ l = .cons x ∨ ∃ u, l = .prod u)) → ∀ l ∈ a ++ b, (l = .start ∨ l = .cons x ∨ ∃ u, l = .prod u) :=
    fun h1 h2 l hl => (List.mem_append.1 hl).elim (h1 l) (h2 l)
  obtain ⟨hi, hex⟩ := run_inv (P := Ex) (fun s l s' hi hp hg e => hp.step hi hg e) ls _ init_inv (fun a r h => by cases h) hg
  rw [show (∃ ls', (∀ l ∈ ls', l = .start ∨ l = .cons x ∨ ∃ u, l = .prod u) ∧ (run (init M R) (ls ++ ls')).prods t = .idle) ↔
    (∃ ls', (∀ l ∈ ls', l = .start ∨ l = .cons x ∨ ∃ u, l = .prod u) ∧ (run (run (init M R) ls) ls').prods t = .idle) by
      simp only [run_append]]
  generalize run (init M R) ls = s at *
  have hkeep : ∀ {s : St M R} {l : List (Lab M R)}, Inv s → Ex s → (∀ l' ∈ l, (l' = .start ∨ l' = .cons x ∨ ∃ u, l' = .prod u)) →
      Inv (run s l) ∧ Ex (run s l) := fun hi hx h =>
    run_inv (P := Ex) (fun s l s' hi hp hg e => hp.step hi hg e) _ _ hi hx (fun l hl => hok l (h l hl))
  have noprod : ∀ {s : St M R}, s.lock = none → ∀ t, s.lock ≠ some (some t) := fun h t h' => by rw [h] at h'; cases h'
  -- a thread that waits
  have waiting : ∀ {s : St M R}, Inv s → Ex s → s.lock = none → ∀ a, s.prods t = .wait a →
      ∃ l, (∀ l' ∈ l, l' = .start ∨ l' = .cons x ∨ ∃ u, l' = .prod u) ∧ (run s l).prods t = .idle := by
    intro s hi hx hl a hp
    obtain ⟨k, k1, k2, k3⟩ := hi.callback_ends x _ rfl (noprod hl)
    obtain ⟨hi1, hx1⟩ := hkeep hi hx (hrepc k)
    generalize hs1 : run s (List.replicate k (.cons x)) = s1 at *
    obtain ⟨q1, hc1, hq1⟩ := hi1.q
    have hl1 : ∀ u, s1.lock ≠ some (some u) := by
      intro u hu
      have h1 := (hq1 u).lk.1 hu
      rw [k3] at h1
      obtain ⟨q, _, hq⟩ := hi.q
      have := (hq u).lk.2 h1
      rw [hl] at this; cases this
    have e : step s1 .start = some { s1 with frames := [.c1], since := s1.posted } := by simp only [step, k1]
    have hi2 := hi1.step (l := .start) rfl e
    have hx2 := hx1.step hi1 (l := .start) rfl e
    obtain ⟨k', m1, m2, m3⟩ := hi2.callback_ends x _ rfl hl1
    obtain ⟨hi3, hx3⟩ := hkeep hi2 hx2 (hrepc k')
    obtain ⟨_, hsn⟩ := run_inv (P := Sn s1.posted) (fun s l s' hi hp hg e => hp.step hi hg e) (List.replicate k' (.cons x)) _ hi2
      ⟨List.prefix_refl _, fun h => by cases h⟩ (replicate_good k' rfl)
    generalize hs3 : run { s1 with frames := [.c1], since := s1.posted } (List.replicate k' (.cons x)) = s3 at *
    have hp3 : s3.prods t = .wait a := by rw [m3]; exact (congrFun k3 t).trans hp
    have hst : s1.posted <+: s3.started := hsn.2 (by rw [m1]; rfl)
    have m2 : s3.posted = s1.posted := m2
    obtain ⟨q, hc, hq⟩ := hi3.q
    rw [m1] at hc
    have hpo := hc.po rfl
    have hq0 : posts s3.heap q = [] := by
      have h1 := hst.length_le
      rw [hc.st rfl, ← m2, hpo] at h1
      simp only [List.length_append, List.length_map] at h1
      exact List.length_eq_zero_iff.1 (by omega)
    have hqe : q = [] := by
      cases q with
      | nil => rfl
      | cons b q =>
        obtain ⟨r, hr, _⟩ := hc.recs b List.mem_cons_self
        rw [posts_cons hr] at hq0; cases hq0
    obtain ⟨r, hr, _, _, _, h5, _⟩ := (hq t).own a (by rw [hp3]; rfl)
    have hrc : r.rc ≠ none := fun h => by have := h5 h; rw [hqe] at this; cases this
    have hie : r.isExec = false := by
      cases hh : r.isExec with
      | false => rfl
      | true =>
        rcases hx3 a r hr hh with g | g | g
        · exact absurd g hrc
        · rw [m1] at g; cases g
        · rw [m1] at g; cases g
    obtain ⟨y, hy⟩ := Option.ne_none_iff_exists'.1 hrc
    have e1 : stepP s3 t = some (s3.setP t (.fin a)) := by
      unfold stepP; simp [hp3, hr, hie]
    have e2 : stepP (s3.setP t (.fin a)) t = some ({ (s3.setP t (.fin a)).free a with returned := s3.returned ++ [(t, y)] }.setP t .idle) := by
      unfold stepP
      have : (s3.setP t (.fin a)).prods t = .fin a := by simp [St.setP]
      rw [this]
      have : (s3.setP t (.fin a)).heap a = some r := hr
      simp only [this, hy]; rfl
    refine ⟨List.replicate k (.cons x) ++ (.start :: (List.replicate k' (.cons x) ++ alone t 2)), happ (hrepc k) ?_, ?_⟩
    · intro l hl
      rcases List.mem_cons.1 hl with h | h
      · exact .inl h
      · exact happ (hrepc k') (hrep t 2) l h
    · rw [run_append, hs1, run, e, Option.getD_some, run_append, hs3, run_alone_succ e1, run_alone_succ e2]
      simp [alone, run, St.setP]
  have out : ∀ {s : St M R}, Inv s → Ex s → Out s t →
      ∃ l, (∀ l' ∈ l, l' = .start ∨ l' = .cons x ∨ ∃ u, l' = .prod u) ∧ (run s l).prods t = .idle := by
    intro s hi hx ho
    rcases ho with ⟨hl, h | ⟨a, h⟩⟩
    · exact ⟨[], (fun l h => by cases h), h⟩
    · exact waiting hi hx hl a h
  have join : ∀ {s : St M R} {l1 : List (Lab M R)}, (∀ l' ∈ l1, l' = .start ∨ l' = .cons x ∨ ∃ u, l' = .prod u) →
      (∃ l, (∀ l' ∈ l, l' = .start ∨ l' = .cons x ∨ ∃ u, l' = .prod u) ∧ (run (run s l1) l).prods t = .idle) →
      ∃ l, (∀ l' ∈ l, l' = .start ∨ l' = .cons x ∨ ∃ u, l' = .prod u) ∧ (run s l).prods t = .idle := by
    intro s l1 h1 ⟨l, h2, h3⟩
    exact ⟨l1 ++ l, happ h1 h2, by rw [run_append]; exact h3⟩
  -- the lock is free
  have free : ∀ {s : St M R}, Inv s → Ex s → s.lock = none →
      ∃ l, (∀ l' ∈ l, l' = .start ∨ l' = .cons x ∨ ∃ u, l' = .prod u) ∧ (run s l).prods t = .idle := by
    intro s hi hx hl
    have crit : critP (s.prods t) = false := by
      obtain ⟨q, _, hq⟩ := hi.q
      cases hc : critP (s.prods t) with
      | false => rfl
      | true => have := (hq t).lk.2 hc; rw [hl] at this; cases this
    have hold : ∀ p, stepP s t = some ({ s with lock := some (some t) }.setP t p) → critP p = true →
        ∃ l, (∀ l' ∈ l, l' = .start ∨ l' = .cons x ∨ ∃ u, l' = .prod u) ∧ (run s l).prods t = .idle := by
      intro p e hcp
      have hi1 := hi.stepP e
      have hx1 := hx.step hi (l := .prod t) rfl e
      obtain ⟨k, hk⟩ := hi1.holder (t := t) rfl
      obtain ⟨hi2, hx2⟩ := hkeep hi1 hx1 (hrep t k)
      refine join (l1 := alone t (k + 1)) (hrep t (k + 1)) ?_
      rw [run_alone_succ e]
      exact out hi2 hx2 hk
    cases hp : s.prods t with
    | idle => exact ⟨[], (fun l h => by cases h), hp⟩
    | want m b => exact hold (.alloc m b) (by unfold stepP; simp [hp, hl]) rfl
    | evWant m => exact hold (.evPut m) (by unfold stepP; simp [hp, hl]) rfl
    | wait a => exact waiting hi hx hl a hp
    | fin a =>
      obtain ⟨q, _, hq⟩ := hi.q
      obtain ⟨r, hr, _, _, h4, _, _⟩ := (hq t).own a (by rw [hp]; rfl)
      obtain ⟨y, hy⟩ := h4 ((hq t).fin a hp r hr)
      have e2 : stepP s t = some ({ s.free a with returned := s.returned ++ [(t, y)] }.setP t .idle) := by
        unfold stepP; simp only [hp, hr, hy]
      exact ⟨alone t 1, hrep t 1, by rw [run_alone_succ e2]; simp [alone, run, St.setP]⟩
    | _ => rw [hp] at crit; cases crit
  cases hl : s.lock with
  | none => exact free hi hex hl
  | some o =>
    cases o with
    | some u =>
      obtain ⟨k, hk⟩ := hi.holder hl
      obtain ⟨hi2, hx2⟩ := hkeep hi hex (hrep u k)
      exact join (hrep u k) (free hi2 hx2 hk.1)
    | none =>
      obtain ⟨k, k1, _, k3⟩ := hi.callback_ends x _ rfl (fun u h => by rw [hl] at h; cases h)
      obtain ⟨hi2, hx2⟩ := hkeep hi hex (hrepc k)
      refine join (hrepc k) (free hi2 hx2 ?_)
      obtain ⟨q, _, hq⟩ := hi.q
      obtain ⟨q2, hc2, hq2⟩ := hi2.q
      cases hl2 : (run s (List.replicate k (.cons x))).lock with
      | none => rfl
      | some o =>
        cases o with
        | none => have := hc2.lk.1 hl2; rw [k1] at this; cases this
        | some u =>
          have := (hq2 u).lk.1 hl2
          rw [k3] at this
          have := (hq u).lk.2 this
          rw [hl] at this; cases this

end Verif.Queue
