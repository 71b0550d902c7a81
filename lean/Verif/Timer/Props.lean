import Verif.Timer.Spec
/-!
C36 (timers never fire early, one-shot timers run once, cleared timers do not run) and C37 (`update`).
-/
namespace Verif.Timer

theorem schedule_eq (t ms : Nat) : schedule t ms = ((t + ms) / 1000, (t + ms) % 1000) := by
  unfold schedule
  by_cases h : t % 1000 + ms % 1000 ≥ 1000
  · simp only [if_pos h, Prod.mk.injEq]; omega
  · simp only [if_neg h, Prod.mk.injEq]; omega

theorem notDue_false {cur : Nat} {e : Ev} {d : Nat} (h1 : e.whenSec = d / 1000) (h2 : e.whenMs = d % 1000)
    (hd : 1000 ≤ d) (h : notDue cur e = false) : d ≤ cur ∨ d % 1000 = 0 := by
  unfold notDue at h
  by_cases hc : d ≤ cur
  · exact Or.inl hc
  · right
    by_cases hz : d % 1000 = 0
    · exact hz
    · exfalso
      rw [h1, h2] at h
      have a : cur / 1000 ≤ d / 1000 := by omega
      have c : d / 1000 ≠ 0 := by omega
      have b : cur / 1000 ≠ d / 1000 ∨ cur % 1000 < d % 1000 := by omega
      simp [a, c, hz] at h
      omega

/-- The history is as it should be, act by act. -/
def Good : List Act → Prop
  | [] => True
  | .run id cur t :: l => (∃ d, due id l = some d ∧ cur ≤ t ∧ (d ≤ cur ∨ d % 1000 = 0)) ∧ Act.clear id ∉ l ∧
      (∀ ms, asked id l = some (true, ms) → runs id l = 0) ∧ Good l
  | .set id _ _ _ :: l => sets id l = 0 ∧ runs id l = 0 ∧ Act.clear id ∉ l ∧ Good l
  | .clear _ :: l => Good l

/-- The events that `frames` are running. -/
def running (fs : List Frame) : List Nat := fs.filterMap (·.running)

/-- What holds in every state that can be reached. -/
structure Inv (t0 : Nat) (s : State) : Prop where
  now : t0 ≤ s.now
  small : ∀ id e, s.table id = some e → id ≤ s.idx
  fresh : ∀ id, s.idx < id → sets id s.log = 0 ∧ runs id s.log = 0 ∧ Act.clear id ∉ s.log
  clr : ∀ id, Act.clear id ∈ s.log → s.table id = none
  ask : ∀ id e, s.table id = some e → asked id s.log = some (e.once, e.initialms)
  idle : ∀ id e, s.table id = some e → e.busy = false →
    ∃ d, due id s.log = some d ∧ t0 ≤ d ∧ e.whenSec = d / 1000 ∧ e.whenMs = d % 1000
  onceI : ∀ id e, s.table id = some e → e.busy = false → e.once = true → runs id s.log = 0
  runI : ∀ f ∈ s.frames, ∀ id, f.running = some id → id ≤ s.idx ∧ ∀ e, s.table id = some e →
    e.busy = true ∧ due id s.log = some (f.cur + e.initialms)
  nodup : (running s.frames).Nodup
  curs : ∀ f ∈ s.frames, t0 ≤ f.cur ∧ f.cur ≤ s.now
  good : Good s.log

theorem init_inv (t0 : Nat) : Inv t0 (init t0) where
  now := Nat.le_refl _
  small := by intro id e h; cases h
  fresh := by intro id _; simp [init, sets, runs]
  clr := by intro id h; simp [init] at h
  ask := by intro id e h; cases h
  idle := by intro id e h; cases h
  onceI := by intro id e h; cases h
  runI := by intro f h; simp [init] at h
  nodup := by simp [init, running]
  curs := by intro f h; simp [init] at h
  good := trivial

theorem upd_same (f : Nat → Option Ev) (id : Nat) (e : Option Ev) : upd f id e id = e := by simp [upd]
theorem upd_other (f : Nat → Option Ev) {id j : Nat} (e : Option Ev) (h : j ≠ id) : upd f id e j = f j := by
  simp [upd, h]

theorem tick_inv {t0 : Nat} {s : State} (t : Nat) (ht : s.now ≤ t) (h : Inv t0 s) : Inv t0 { s with now := t } where
  now := Nat.le_trans h.now ht
  small := h.small
  fresh := h.fresh
  clr := h.clr
  ask := h.ask
  idle := h.idle
  onceI := h.onceI
  runI := h.runI
  nodup := h.nodup
  curs := fun f hf => ⟨(h.curs f hf).1, Nat.le_trans (h.curs f hf).2 ht⟩
  good := h.good

theorem set_inv {t0 : Nat} {s : State} (once : Bool) (ms : Nat) (h : Inv t0 s) : Inv t0 (setTimer s once ms) := by
  have hs := schedule_eq s.now ms
  have key : ∀ id e, (setTimer s once ms).table id = some e →
      (id = s.idx + 1 ∧ e = ⟨(s.now + ms) / 1000, (s.now + ms) % 1000, ms, once, false⟩) ∨
      (id ≠ s.idx + 1 ∧ s.table id = some e) := by
    intro id e he
    by_cases hid : id = s.idx + 1
    · subst hid
      left
      simp only [setTimer, upd_same, hs, Option.some.injEq] at he
      exact ⟨rfl, he.symm⟩
    · right
      simp only [setTimer] at he
      rw [upd_other _ _ hid] at he
      exact ⟨hid, he⟩
  refine ⟨h.now, ?_, ?_, ?_, ?_, ?_, ?_, ?_, h.nodup, h.curs, ?_⟩
  · intro id e he
    rcases key id e he with ⟨rfl, _⟩ | ⟨_, h2⟩
    · exact Nat.le_refl _
    · exact Nat.le_succ_of_le (h.small id e h2)
  · intro id hid
    have hid' : s.idx + 1 < id := hid
    have := h.fresh id (by omega)
    simp only [setTimer, sets, runs]
    rw [if_neg (by omega)]
    simpa using this
  · intro id hid
    have hid' : Act.clear id ∈ s.log := by simpa [setTimer] using hid
    have hne : id ≠ s.idx + 1 := by
      rintro rfl
      exact (h.fresh _ (Nat.lt_succ_self _)).2.2 hid'
    simp only [setTimer]
    rw [upd_other _ _ hne]
    exact h.clr id hid'
  · intro id e he
    simp only [setTimer, asked]
    rcases key id e he with ⟨rfl, rfl⟩ | ⟨h1, h2⟩
    · rw [if_pos rfl]
    · rw [if_neg (Ne.symm h1)]; exact h.ask id e h2
  · intro id e he hb
    simp only [setTimer, due]
    rcases key id e he with ⟨rfl, rfl⟩ | ⟨h1, h2⟩
    · rw [if_pos rfl]
      exact ⟨_, rfl, Nat.le_trans h.now (Nat.le_add_right _ _), rfl, rfl⟩
    · rw [if_neg (Ne.symm h1)]; exact h.idle id e h2 hb
  · intro id e he hb ho
    simp only [setTimer, runs]
    rcases key id e he with ⟨rfl, rfl⟩ | ⟨h1, h2⟩
    · exact (h.fresh _ (Nat.lt_succ_self _)).2.1
    · exact h.onceI id e h2 hb ho
  · intro f hf id hr
    have hf' : f ∈ s.frames := hf
    obtain ⟨a, b⟩ := h.runI f hf' id hr
    refine ⟨Nat.le_succ_of_le a, ?_⟩
    intro e he
    simp only [setTimer, due]
    rcases key id e he with ⟨rfl, rfl⟩ | ⟨h1, h2⟩
    · omega
    · rw [if_neg (Ne.symm h1)]; exact b e h2
  · have := h.fresh (s.idx + 1) (Nat.lt_succ_self _)
    exact ⟨this.1, this.2.1, this.2.2, h.good⟩

theorem clear_inv {t0 : Nat} {s : State} (id : Nat) (hid : s.table id ≠ none) (h : Inv t0 s) : Inv t0 (clearTimer s id) := by
  have key : ∀ j e, (clearTimer s id).table j = some e → j ≠ id ∧ s.table j = some e := by
    intro j e he
    by_cases hj : j = id
    · subst hj; simp only [clearTimer, upd_same] at he; cases he
    · simp only [clearTimer] at he; rw [upd_other _ _ hj] at he; exact ⟨hj, he⟩
  refine ⟨h.now, ?_, ?_, ?_, ?_, ?_, ?_, ?_, h.nodup, h.curs, h.good⟩
  · intro j e he; exact h.small j e (key j e he).2
  · intro j hj
    have hj' : s.idx < j := hj
    obtain ⟨a, b, c⟩ := h.fresh j hj'
    refine ⟨a, b, ?_⟩
    intro hm
    rcases List.mem_cons.mp hm with hm | hm
    · have e : j = id := by injection hm
      subst e
      cases ht : s.table j with
      | none => exact hid ht
      | some e => have := h.small j e ht; omega
    · exact c hm
  · intro j hj
    by_cases e : j = id
    · subst e; simp [clearTimer, upd_same]
    · rcases List.mem_cons.mp hj with hm | hm
      · exact absurd (by injection hm) e
      · simp only [clearTimer]; rw [upd_other _ _ e]; exact h.clr j hm
  · intro j e he; exact h.ask j e (key j e he).2
  · intro j e he; exact h.idle j e (key j e he).2
  · intro j e he; exact h.onceI j e (key j e he).2
  · intro f hf j hj
    obtain ⟨a, b⟩ := h.runI f hf j hj
    exact ⟨a, fun e he => b e (key j e he).2⟩

theorem enter_inv {t0 : Nat} {s : State} (h : Inv t0 s) : Inv t0 (enter s) := by
  refine ⟨h.now, h.small, h.fresh, h.clr, h.ask, h.idle, h.onceI, ?_, ?_, ?_, h.good⟩
  · intro f hf id hr
    rcases List.mem_cons.mp hf with rfl | hf
    · cases hr
    · exact h.runI f hf id hr
  · simpa [enter, running] using h.nodup
  · intro f hf
    rcases List.mem_cons.mp hf with rfl | hf
    · exact ⟨h.now, Nat.le_refl _⟩
    · exact h.curs f hf

theorem mem_running {fs : List Frame} {id : Nat} : id ∈ running fs ↔ ∃ f ∈ fs, f.running = some id := by
  simp [running]

theorem start_inv {t0 : Nat} {s : State} (f : Frame) (fs : List Frame) (id : Nat) (e : Ev) (next : Option Nat)
    (h1000 : 1000 ≤ t0) (hf : s.frames = f :: fs) (hr : f.running = none) (ht : s.table id = some e)
    (hd : notDue f.cur e = false) (hb : e.busy = false) (h : Inv t0 s) : Inv t0 (start s f fs id e next) := by
  have key : ∀ j e', (start s f fs id e next).table j = some e' →
      (j = id ∧ e' = { e with busy := true }) ∨ (j ≠ id ∧ s.table j = some e') := by
    intro j e' he
    by_cases hj : j = id
    · subst hj; simp only [start, upd_same, Option.some.injEq] at he; exact Or.inl ⟨rfl, he.symm⟩
    · simp only [start] at he; rw [upd_other _ _ hj] at he; exact Or.inr ⟨hj, he⟩
  obtain ⟨d, hd1, hd2, hd3, hd4⟩ := h.idle id e ht hb
  have hle := h.small id e ht
  have hask := h.ask id e ht
  have hnr : ∀ g ∈ s.frames, g.running ≠ some id := by
    intro g hg hgr
    have := ((h.runI g hg id hgr).2 e ht).1
    rw [hb] at this; cases this
  have hcur := h.curs f (hf ▸ List.mem_cons_self)
  refine ⟨h.now, ?_, ?_, ?_, ?_, ?_, ?_, ?_, ?_, ?_, ?_⟩
  · intro j e' he
    rcases key j e' he with ⟨rfl, _⟩ | ⟨_, h2⟩
    · exact hle
    · exact h.small j e' h2
  · intro j hj
    have hj' : s.idx < j := hj
    obtain ⟨a, b, c⟩ := h.fresh j hj'
    refine ⟨a, ?_, ?_⟩
    · simp only [start, runs]; rw [if_neg (by omega)]; exact b
    · simpa [start] using c
  · intro j hj
    have hj' : Act.clear j ∈ s.log := by simpa [start] using hj
    have hn := h.clr j hj'
    have hne : j ≠ id := by rintro rfl; rw [ht] at hn; cases hn
    simp only [start]; rw [upd_other _ _ hne]; exact hn
  · intro j e' he
    simp only [start, asked]
    rcases key j e' he with ⟨rfl, rfl⟩ | ⟨_, h2⟩
    · exact hask
    · exact h.ask j e' h2
  · intro j e' he hb'
    rcases key j e' he with ⟨rfl, rfl⟩ | ⟨h1, h2⟩
    · cases hb'
    · simp only [start, due]; rw [if_neg (Ne.symm h1)]; exact h.idle j e' h2 hb'
  · intro j e' he hb' ho
    rcases key j e' he with ⟨rfl, rfl⟩ | ⟨h1, h2⟩
    · cases hb'
    · simp only [start, runs]; rw [if_neg (Ne.symm h1)]; exact h.onceI j e' h2 hb' ho
  · intro g hg j hj
    rcases List.mem_cons.mp hg with rfl | hg
    · have e1 : id = j := by injection hj
      subst e1
      refine ⟨hle, ?_⟩
      intro e' he
      rcases key id e' he with ⟨_, rfl⟩ | ⟨h1, _⟩
      · refine ⟨rfl, ?_⟩
        simp only [start, due]
        rw [if_pos trivial, hask]; rfl
      · exact absurd rfl h1
    · have hg' : g ∈ s.frames := hf ▸ List.mem_cons_of_mem _ hg
      obtain ⟨a, b⟩ := h.runI g hg' j hj
      refine ⟨a, ?_⟩
      intro e' he
      have hne : j ≠ id := by rintro rfl; exact hnr g hg' hj
      rcases key j e' he with ⟨h1, _⟩ | ⟨_, h2⟩
      · exact absurd h1 hne
      · simp only [start, due]; rw [if_neg (Ne.symm hne)]; exact b e' h2
  · have hn := h.nodup
    rw [hf] at hn
    have e1 : running (f :: fs) = running fs := by simp [running, hr]
    rw [e1] at hn
    have e2 : running (start s f fs id e next).frames = id :: running fs := by simp [start, running]
    rw [e2]
    refine List.nodup_cons.mpr ⟨?_, hn⟩
    intro hm
    obtain ⟨g, hg, hgr⟩ := mem_running.mp hm
    exact hnr g (hf ▸ List.mem_cons_of_mem _ hg) hgr
  · intro g hg
    rcases List.mem_cons.mp hg with rfl | hg
    · exact hcur
    · exact h.curs g (hf ▸ List.mem_cons_of_mem _ hg)
  · refine ⟨⟨d, hd1, hcur.2, notDue_false hd3 hd4 (by omega) hd⟩, ?_, ?_, h.good⟩
    · intro hm
      have := h.clr id hm
      rw [ht] at this; cases this
    · intro ms hms
      rw [hask] at hms
      have : e.once = true := by injection hms with h'; exact congrArg Prod.fst h'
      exact h.onceI id e ht hb this

theorem finish_inv {t0 : Nat} {s : State} (f : Frame) (fs : List Frame) (id : Nat) (e : Ev)
    (hf : s.frames = f :: fs) (hr : f.running = some id) (ht : s.table id = some e) (h : Inv t0 s) :
    Inv t0 (finish s f fs id e) := by
  have hsch := schedule_eq f.cur e.initialms
  have key : ∀ j e', (finish s f fs id e).table j = some e' →
      (j = id ∧ e.once = false ∧ e' = { e with busy := false, whenSec := (f.cur + e.initialms) / 1000, whenMs := (f.cur + e.initialms) % 1000 }) ∨
      (j ≠ id ∧ s.table j = some e') := by
    intro j e' he
    by_cases hj : j = id
    · subst hj
      simp only [finish, upd_same, hsch] at he
      by_cases ho : e.once = true
      · rw [if_pos ho] at he; cases he
      · rw [if_neg ho] at he
        exact Or.inl ⟨rfl, by simpa using ho, by injection he with he; exact he.symm⟩
    · simp only [finish] at he; rw [upd_other _ _ hj] at he; exact Or.inr ⟨hj, he⟩
  have hmem : f ∈ s.frames := hf ▸ List.mem_cons_self
  obtain ⟨hle, hrun⟩ := h.runI f hmem id hr
  obtain ⟨hbusy, hdue⟩ := hrun e ht
  have hn := h.nodup
  rw [hf] at hn
  have e1 : running (f :: fs) = id :: running fs := by simp [running, hr]
  rw [e1] at hn
  obtain ⟨hn1, hn2⟩ := List.nodup_cons.mp hn
  have hcur := h.curs f hmem
  refine ⟨h.now, ?_, h.fresh, ?_, ?_, ?_, ?_, ?_, ?_, ?_, h.good⟩
  · intro j e' he
    rcases key j e' he with ⟨rfl, _⟩ | ⟨_, h2⟩
    · exact hle
    · exact h.small j e' h2
  · intro j hj
    have hj' := h.clr j hj
    have hne : j ≠ id := by rintro rfl; rw [ht] at hj'; cases hj'
    simp only [finish]; rw [upd_other _ _ hne]; exact hj'
  · intro j e' he
    rcases key j e' he with ⟨rfl, _, rfl⟩ | ⟨_, h2⟩
    · exact h.ask j e ht
    · exact h.ask j e' h2
  · intro j e' he hb'
    rcases key j e' he with ⟨rfl, _, rfl⟩ | ⟨_, h2⟩
    · exact ⟨_, hdue, Nat.le_trans hcur.1 (Nat.le_add_right _ _), rfl, rfl⟩
    · exact h.idle j e' h2 hb'
  · intro j e' he hb' ho
    rcases key j e' he with ⟨rfl, h1, rfl⟩ | ⟨_, h2⟩
    · simp only [h1] at ho; cases ho
    · exact h.onceI j e' h2 hb' ho
  · intro g hg j hj
    rcases List.mem_cons.mp hg with rfl | hg
    · cases hj
    · obtain ⟨a, b⟩ := h.runI g (hf ▸ List.mem_cons_of_mem _ hg) j hj
      refine ⟨a, ?_⟩
      intro e' he
      have hm : j ∈ running fs := mem_running.mpr ⟨g, hg, hj⟩
      have hne : j ≠ id := by rintro rfl; exact hn1 hm
      rcases key j e' he with ⟨h1, _⟩ | ⟨_, h2⟩
      · exact absurd h1 hne
      · exact b e' h2
  · have e2 : running (finish s f fs id e).frames = running fs := by simp [finish, running]
    rw [e2]; exact hn2
  · intro g hg
    rcases List.mem_cons.mp hg with rfl | hg
    · exact hcur
    · exact h.curs g (hf ▸ List.mem_cons_of_mem _ hg)

theorem step_inv {bucket : Nat → Nat} {t0 : Nat} (h1000 : 1000 ≤ t0) {s s' : State} (hs : Step bucket s s')
    (h : Inv t0 s) : Inv t0 s' := by
  cases hs with
  | tick t ht => exact tick_inv t ht h
  | set once ms _ => exact set_inv once ms h
  | clear id _ hid => exact clear_inv id hid h
  | enter _ => exact enter_inv h
  | visit f fs id e next hf hr _ ht _ hd hb _ => exact start_inv f fs id e next h1000 hf hr ht hd hb h
  | skip f fs id e next hf hr _ _ _ _ =>
    have hn := h.nodup
    refine ⟨h.now, h.small, h.fresh, h.clr, h.ask, h.idle, h.onceI, ?_, ?_, ?_, h.good⟩
    · intro g hg j hj
      rcases List.mem_cons.mp hg with rfl | hg
      · exact h.runI f (hf ▸ List.mem_cons_self) j hj
      · exact h.runI g (hf ▸ List.mem_cons_of_mem _ hg) j hj
    · rw [hf] at hn; simpa only [running, List.filterMap_cons] using hn
    · intro g hg
      rcases List.mem_cons.mp hg with rfl | hg
      · exact h.curs f (hf ▸ List.mem_cons_self)
      · exact h.curs g (hf ▸ List.mem_cons_of_mem _ hg)
  | finish f fs id e hf hr ht => exact finish_inv f fs id e hf hr ht h
  | leave f fs hf hr _ =>
    have hn := h.nodup
    refine ⟨h.now, h.small, h.fresh, h.clr, h.ask, h.idle, h.onceI, ?_, ?_, ?_, h.good⟩
    · intro g hg; exact h.runI g (hf ▸ List.mem_cons_of_mem _ hg)
    · rw [hf] at hn; simpa [running, hr] using hn
    · intro g hg; exact h.curs g (hf ▸ List.mem_cons_of_mem _ hg)

theorem reach_inv {bucket : Nat → Nat} {t0 : Nat} (h1000 : 1000 ≤ t0) {s : State} (h : Reach bucket t0 s) : Inv t0 s := by
  induction h with
  | init => exact init_inv t0
  | step s s' _ hs ih => exact step_inv h1000 hs ih

theorem good_append : ∀ (a b : List Act), Good (a ++ b) → Good b
  | [], _, h => h
  | .run _ _ _ :: a, b, h => good_append a b h.2.2.2
  | .set _ _ _ _ :: a, b, h => good_append a b h.2.2.2
  | .clear _ :: a, b, h => good_append a b h

/-- **C36, time.**  Whatever scripts, callbacks and nested calls of `update` do, a callback is called only in an
event processing that began when the timer was due (the delay after it was set, or after the processing that
last called it began) - or the timer was due on a whole second.  `before` is the history before the call.
(The clock is past the first second of 1970.) -/
theorem C36_not_early_partial (bucket : Nat → Nat) (t0 : Nat) (h1000 : 1000 ≤ t0) (s : State) (h : Reach bucket t0 s)
    (after before : List Act) (id cur t : Nat) (hl : s.log = after ++ .run id cur t :: before) :
    ∃ d, due id before = some d ∧ cur ≤ t ∧ (d ≤ cur ∨ d % 1000 = 0) := by
  have hg := (reach_inv h1000 h).good
  rw [hl] at hg
  exact (good_append _ _ hg).1

/-- **C36, identifiers.**  No identifier is given out twice. -/
theorem C36_ids (bucket : Nat → Nat) (t0 : Nat) (h1000 : 1000 ≤ t0) (s : State) (h : Reach bucket t0 s) (id : Nat) :
    sets id s.log ≤ 1 := by
  have hg := (reach_inv h1000 h).good
  generalize s.log = l at hg
  induction l with
  | nil => simp [sets]
  | cons a l ih =>
    cases a with
    | set i once ms t =>
      have h0 := hg.1
      simp only [sets]
      by_cases e : i = id
      · subst e; rw [if_pos rfl, h0]; omega
      · rw [if_neg e]; exact ih hg.2.2.2
    | run i cur t => exact ih hg.2.2.2
    | clear i => exact ih hg

theorem runs_asked {l : List Act} (hg : Good l) {id ms : Nat} (ha : asked id l = some (true, ms)) : runs id l ≤ 1 := by
  induction l with
  | nil => cases ha
  | cons a l ih =>
    cases a with
    | set i once m t =>
      simp only [asked] at ha
      by_cases e : i = id
      · subst e; have := hg.2.1; simp only [runs]; omega
      · rw [if_neg e] at ha; exact ih hg.2.2.2 ha
    | run i cur t =>
      simp only [asked] at ha
      simp only [runs]
      by_cases e : i = id
      · subst e; rw [if_pos rfl, hg.2.2.1 ms ha]; omega
      · rw [if_neg e]; exact ih hg.2.2.2 ha
    | clear i => exact ih hg ha

/-- **C36, once.**  The callback of a timer set with `setTimeout` is called at most once. -/
theorem C36_once (bucket : Nat → Nat) (t0 : Nat) (h1000 : 1000 ≤ t0) (s : State) (h : Reach bucket t0 s) (id ms : Nat)
    (ha : asked id s.log = some (true, ms)) : runs id s.log ≤ 1 :=
  runs_asked (reach_inv h1000 h).good ha

/-- **C36, cleared.**  After `clearInterval(id)` the callback of `id` is not called. -/
theorem C36_cleared (bucket : Nat → Nat) (t0 : Nat) (h1000 : 1000 ≤ t0) (s : State) (h : Reach bucket t0 s)
    (after before : List Act) (id : Nat) (hl : s.log = after ++ .clear id :: before) :
    ∀ cur t, Act.run id cur t ∉ after := by
  have hg := (reach_inv h1000 h).good
  rw [hl] at hg
  intro cur t hm
  obtain ⟨a, b, rfl⟩ := List.append_of_mem hm
  have hg' : Good ((.run id cur t :: b) ++ .clear id :: before) := by
    rw [List.append_assoc] at hg
    exact good_append a _ hg
  exact hg'.2.1 (by simp)

/-! ### What goes wrong -/

/-- The state after `setTimeout(f, ms)` at time `t0` and the beginning of a pass at time `t1`, when `f` runs. -/
theorem reach_run (bucket : Nat → Nat) (t0 ms t1 : Nat) (once : Bool) (h1 : t0 ≤ t1)
    (hd : notDue t1 ⟨(t0 + ms) / 1000, (t0 + ms) % 1000, ms, once, false⟩ = false) :
    ∃ s, Reach bucket t0 s ∧ s.log = [.run 1 t1 t1, .set 1 once ms t0] ∧ s.frames = [⟨t1, 1, some 1, none⟩] ∧
      s.table 1 ≠ none := by
  have r0 : Reach bucket t0 (init t0) := .init
  have r1 := Reach.step _ _ r0 (Step.set (init t0) once ms trivial)
  have r2 := Reach.step _ _ r1 (Step.tick (setTimer (init t0) once ms) t1 h1)
  have r3 := Reach.step _ _ r2 (Step.enter _ trivial)
  have r4 := Reach.step _ _ r3 (Step.visit _ ⟨t1, 1, none, none⟩ [] 1
    ⟨(t0 + ms) / 1000, (t0 + ms) % 1000, ms, once, false⟩ none rfl rfl (by intro j h; cases h)
    (by simp [enter, setTimer, init, upd_same, schedule_eq]) (Nat.le_refl _) hd rfl (by intro j h; cases h))
  exact ⟨_, r4, rfl, rfl, by simp [start, upd_same]⟩

/-- **C36 fails on whole seconds**: whatever the delay, a timer set so that it is due on a whole second runs in
the first pass, which may begin at the very time it is set. -/
theorem C36_not_early_refuted (bucket : Nat → Nat) (t0 ms : Nat) (once : Bool) (hz : (t0 + ms) % 1000 = 0) :
    ∃ s, Reach bucket t0 s ∧ s.log = [.run 1 t0 t0, .set 1 once ms t0] := by
  obtain ⟨s, h1, h2, _⟩ := reach_run bucket t0 ms t0 once (Nat.le_refl _) (by simp [notDue, hz])
  exact ⟨s, h1, h2⟩

/-- Such delays exist, of any length: one below every multiple of a second from now. -/
example (t0 k : Nat) (h : 1000 ≤ t0) : ∃ ms, ms ≥ k * 1000 ∧ (t0 + ms) % 1000 = 0 :=
  ⟨k * 1000 + (1000 - t0 % 1000), by omega, by omega⟩

/-- **C36, memory.**  A callback that clears its own timer - the usual way to end an interval - makes the
interpreter use freed memory when it returns. -/
theorem C36_clear_self_refuted (bucket : Nat → Nat) (t0 ms : Nat) (once : Bool) :
    ∃ s, Reach bucket t0 s ∧ s.log = [.clear 1, .run 1 (t0 + ms) (t0 + ms), .set 1 once ms t0] ∧ Crash s := by
  obtain ⟨s, h1, h2, h3, h4⟩ := reach_run bucket t0 ms (t0 + ms) once (Nat.le_add_right _ _)
    (by simp only [notDue, ne_eq, not_true_eq_false, Nat.lt_irrefl]; simp)
  have hsc : scripting s := by unfold scripting; rw [h3]; simp
  refine ⟨clearTimer s 1, Reach.step _ _ h1 (Step.clear s 1 hsc h4), by rw [clearTimer, h2], ?_⟩
  exact Crash.ret ⟨t0 + ms, 1, some 1, none⟩ [] 1 h3 rfl (by simp [clearTimer, upd_same])

/-- The state after `setTimeout(f, 0)` was called `n` times. -/
def many (t0 : Nat) : Nat → State
  | 0 => init t0
  | n + 1 => setTimer (many t0 n) true 0

theorem many_spec (bucket : Nat → Nat) (t0 : Nat) : ∀ n, Reach bucket t0 (many t0 n) ∧ (many t0 n).idx = n ∧
    (many t0 n).frames = [] ∧ (many t0 n).now = t0 ∧ (∀ k, Act.clear k ∉ (many t0 n).log) ∧
    ∀ i, 1 ≤ i → i ≤ n → (many t0 n).table i = some ⟨t0 / 1000, t0 % 1000, 0, true, false⟩
  | 0 => ⟨.init, rfl, rfl, rfl, by simp [many, init], by intro i h1 h2; omega⟩
  | n + 1 => by
    obtain ⟨h1, h2, h3, h4, h6, h5⟩ := many_spec bucket t0 n
    refine ⟨.step _ _ h1 (.set _ _ _ (by unfold scripting; rw [h3]; trivial)), ?_, h3, h4, by intro k; simpa [many, setTimer] using h6 k, ?_⟩
    · simp [many, setTimer, h2]
    · intro i hi1 hi2
      simp only [many, setTimer, h2, h4, schedule_eq, Nat.add_zero]
      by_cases e : i = n + 1
      · subst e; rw [upd_same]
      · rw [upd_other _ _ e]; exact h5 i hi1 (by omega)

/-- A pass begins and comes to the timer `j`; it holds `i`, which is in the same bucket. -/
theorem reach_hold (bucket : Nat → Nat) (t0 i j : Nat) (hi : 1 ≤ i) (hij : i < j) (hb : bucket i = bucket j) :
    ∃ s, Reach bucket t0 s ∧ s.frames = [⟨t0, j, some j, some i⟩] ∧ s.now = t0 ∧ s.idx = j ∧ (∀ k, Act.clear k ∉ s.log) ∧
      s.table j = some ⟨t0 / 1000, t0 % 1000, 0, true, true⟩ ∧ s.table i = some ⟨t0 / 1000, t0 % 1000, 0, true, false⟩ := by
  obtain ⟨h1, h2, h3, h4, h6, h5⟩ := many_spec bucket t0 j
  have r1 := Reach.step _ _ h1 (Step.enter _ (by unfold scripting; rw [h3]; trivial))
  have hi' := h5 i hi (by omega)
  have hj' := h5 j (by omega) (Nat.le_refl _)
  have r2 := Reach.step _ _ r1 (Step.visit _ ⟨t0, j, none, none⟩ [] j ⟨t0 / 1000, t0 % 1000, 0, true, false⟩ (some i)
    (by simp [enter, h2, h3, h4]) rfl (by intro k h; cases h) hj' (Nat.le_refl _)
    (by simp only [notDue, ne_eq, not_true_eq_false, Nat.lt_irrefl]; simp) rfl
    (by
      intro k h
      have e : i = k := by injection h
      subst e
      exact ⟨by omega, by show (many t0 j).table i ≠ none; rw [hi']; simp, hb⟩))
  refine ⟨_, r2, rfl, h4, h2, by intro k; simpa [start, enter] using h6 k, by simp [start, upd_same], ?_⟩
  show upd _ _ _ i = _
  rw [upd_other _ _ (by omega)]; exact hi'

/-- **C36, memory.**  A callback that clears another timer can make the pass over the events use freed memory:
for any two timers in the same bucket of the table. -/
theorem C36_clear_other_refuted (bucket : Nat → Nat) (t0 i j : Nat) (hi : 1 ≤ i) (hij : i < j) (hb : bucket i = bucket j) :
    ∃ s, Reach bucket t0 s ∧ s.log.head? = some (.clear i) ∧
      ∃ s', Step bucket s s' ∧ s'.log = s.log ∧ Crash s' := by
  obtain ⟨s, h1, h2, h3, h4, h7, h5, h6⟩ := reach_hold bucket t0 i j hi hij hb
  have r := Reach.step _ _ h1 (Step.clear s i (by unfold scripting; rw [h2]; simp) (by rw [h6]; simp))
  refine ⟨_, r, rfl, _, Step.finish _ ⟨t0, j, some j, some i⟩ [] j ⟨t0 / 1000, t0 % 1000, 0, true, true⟩ h2 rfl ?_, rfl, ?_⟩
  · show upd _ _ _ j = _
    rw [upd_other _ _ (by omega)]; exact h5
  · refine Crash.search ⟨t0, j, none, some i⟩ [] i rfl rfl rfl ?_
    show upd _ _ _ i = _
    rw [upd_other _ _ (by omega)]
    show upd _ _ _ i = _
    rw [upd_same]

/-- **C36, memory.**  So can a callback that calls `update`: the inner pass runs and frees a one-shot timer that
the outer pass holds.  Nothing is cleared here. -/
theorem C36_nested_refuted (bucket : Nat → Nat) (t0 i j : Nat) (hi : 1 ≤ i) (hij : i < j) (hb : bucket i = bucket j) :
    ∃ s, Reach bucket t0 s ∧ s.log.head? = some (.run i t0 t0) ∧ (∀ k, Act.clear k ∉ s.log) ∧ Crash s := by
  obtain ⟨s, h1, h2, h3, h4, h7, h5, h6⟩ := reach_hold bucket t0 i j hi hij hb
  have r1 := Reach.step _ _ h1 (Step.enter s (by unfold scripting; rw [h2]; simp))
  have r2 := Reach.step _ _ r1 (Step.visit _ ⟨t0, j, none, none⟩ s.frames i ⟨t0 / 1000, t0 % 1000, 0, true, false⟩ none
    (by simp [enter, h3, h4]) rfl (by intro k h; cases h) h6 (by show i ≤ j; omega)
    (by simp only [notDue, ne_eq, not_true_eq_false, Nat.lt_irrefl]; simp) rfl (by intro k h; cases h))
  have r3 := Reach.step _ _ r2 (Step.finish _ ⟨t0, j, some i, none⟩ s.frames i ⟨t0 / 1000, t0 % 1000, 0, true, true⟩ rfl rfl
    (by simp [start, upd_same]))
  have r4 := Reach.step _ _ r3 (Step.leave _ ⟨t0, j, none, none⟩ s.frames rfl rfl rfl)
  have r5 := Reach.step _ _ r4 (Step.finish _ ⟨t0, j, some j, some i⟩ [] j ⟨t0 / 1000, t0 % 1000, 0, true, true⟩ h2 rfl
    (by
      show upd _ _ _ j = _
      rw [upd_other _ _ (by omega)]
      show upd _ _ _ j = _
      rw [upd_other _ _ (by omega)]
      exact h5))
  refine ⟨_, r5, ?_, ?_, ?_⟩
  · show some (Act.run i t0 s.now) = _
    rw [h3]
  · intro k hk
    exact h7 k (by simpa [finish, start, enter] using hk)
  · refine Crash.search ⟨t0, j, none, some i⟩ [] i rfl rfl rfl ?_
    show upd _ _ _ i = _
    rw [upd_other _ _ (by omega)]
    show upd _ _ _ i = _
    rw [upd_same]; rfl

/-- What holds when timers are cleared and `update` is called only outside of callbacks. -/
def Held (s : State) : Prop :=
  s.frames = [] ∨ ∃ f, s.frames = [f] ∧ (∀ id, f.running = some id → s.table id ≠ none) ∧
    ∀ id, f.next = some id → s.table id ≠ none ∧ f.running ≠ some id

theorem held_step {bucket : Nat → Nat} {t0 : Nat} {s s' : State} (hi : Inv t0 s) (hs : Step bucket s s') (hc : Calm s s')
    (h : Held s) : Held s' := by
  have mono : ∀ {P : Nat → Option Ev}, (∀ id, s.table id ≠ none → P id ≠ none) → ∀ f : Frame,
      ((∀ id, f.running = some id → s.table id ≠ none) ∧ ∀ id, f.next = some id → s.table id ≠ none ∧ f.running ≠ some id) →
      ((∀ id, f.running = some id → P id ≠ none) ∧ ∀ id, f.next = some id → P id ≠ none ∧ f.running ≠ some id) := by
    intro P hP f hf
    exact ⟨fun id h => hP id (hf.1 id h), fun id h => ⟨hP id (hf.2 id h).1, (hf.2 id h).2⟩⟩
  cases hs with
  | tick t ht => exact h
  | set once ms _ =>
    rcases h with h | ⟨f, h1, h2⟩
    · exact Or.inl h
    · refine Or.inr ⟨f, h1, mono ?_ f h2⟩
      intro id hid
      simp only [setTimer]
      by_cases e : id = s.idx + 1
      · subst e; rw [upd_same]; simp
      · rw [upd_other _ _ e]; exact hid
  | clear id _ hid =>
    rcases hc with hc | ⟨_, hc⟩
    · exact Or.inl hc
    · exact absurd (hi.clr id (hc id List.mem_cons_self)) hid
  | enter _ =>
    rcases hc with hc | ⟨hc, _⟩
    · exact Or.inr ⟨⟨s.now, s.idx, none, none⟩, by simp [enter, hc], by simp, by simp⟩
    · simp only [enter, List.length_cons] at hc; omega
  | visit f fs id e next hf hr _ ht _ _ _ hn =>
    rcases h with h | ⟨g, h1, h2⟩
    · rw [h] at hf; cases hf
    · rw [h1] at hf
      injection hf with hfg hfs
      subst hfg; subst hfs
      refine Or.inr ⟨_, rfl, ?_, ?_⟩
      · intro j hj
        have e1 : id = j := by injection hj
        subst e1
        simp [start, upd_same]
      · intro j hj
        obtain ⟨a, b, _⟩ := hn j hj
        refine ⟨?_, ?_⟩
        · simp only [start]; rw [upd_other _ _ a]; exact b
        · intro hk; injection hk with hk; exact a hk.symm
  | skip f fs id e next hf hr _ ht _ hn =>
    rcases h with h | ⟨g, h1, h2⟩
    · rw [h] at hf; cases hf
    · rw [h1] at hf
      injection hf with hfg hfs
      subst hfg; subst hfs
      refine Or.inr ⟨_, rfl, ?_, ?_⟩
      · intro j hj; exact h2.1 j hj
      · intro j hj
        refine ⟨(hn j hj).2.1, ?_⟩
        show g.running ≠ _
        rw [hr]; simp
  | finish f fs id e hf hr ht =>
    rcases h with h | ⟨g, h1, h2⟩
    · rw [h] at hf; cases hf
    · rw [h1] at hf
      injection hf with hfg hfs
      subst hfg; subst hfs
      refine Or.inr ⟨_, rfl, ?_, ?_⟩
      · intro j hj; cases hj
      intro j hj
      obtain ⟨a, b⟩ := h2.2 j hj
      refine ⟨?_, by simp⟩
      have hne : j ≠ id := by rintro rfl; exact b hr
      simp only [finish]; rw [upd_other _ _ hne]; exact a
  | leave f fs hf hr _ =>
    rcases h with h | ⟨g, h1, h2⟩
    · rw [h] at hf; cases hf
    · rw [h1] at hf
      injection hf with hfg hfs
      exact Or.inl hfs.symm

/-- **C36, memory.**  When scripts clear timers and call `update` only outside of timer callbacks, freed events
are never used. -/
theorem C36_safe_partial (bucket : Nat → Nat) (t0 : Nat) (h1000 : 1000 ≤ t0) (s : State) (h : CalmReach bucket t0 s) :
    ¬ Crash s := by
  have hh : Inv t0 s ∧ Held s := by
    induction h with
    | init => exact ⟨init_inv t0, Or.inl rfl⟩
    | step s s' _ hs hc ih => exact ⟨step_inv h1000 hs ih.1, held_step ih.1 hs hc ih.2⟩
  intro hcr
  rcases hh.2 with h0 | ⟨f, h1, h2, h3⟩
  · cases hcr with
    | ret f fs id hf _ _ => rw [h0] at hf; cases hf
    | search f fs id hf _ _ _ => rw [h0] at hf; cases hf
  · cases hcr with
    | ret g fs id hf hr ht =>
      rw [h1] at hf; injection hf with e _; subst e
      exact h2 id hr ht
    | search g fs id hf _ hn ht =>
      rw [h1] at hf; injection hf with e _; subst e
      exact (h3 id hn).1 ht

/-- Timers do run, more than once for an interval: set at 1500 for 100 ms, run at 1600 and at 1750. -/
example (bucket : Nat → Nat) : ∃ s, CalmReach bucket 1500 s ∧
    s.log = [.run 1 1750 1750, .run 1 1600 1605, .set 1 false 100 1500] := by
  have r0 : CalmReach bucket 1500 (init 1500) := .init
  have r1 := CalmReach.step _ _ r0 (Step.set (init 1500) false 100 trivial) (Or.inl rfl)
  have r2 := CalmReach.step _ _ r1 (Step.tick _ 1600 (by simp [setTimer, init])) (Or.inl rfl)
  have r3 := CalmReach.step _ _ r2 (Step.enter _ trivial) (Or.inl rfl)
  have r4 := CalmReach.step _ _ r3 (Step.tick _ 1605 (by simp [enter])) (Or.inr ⟨Nat.le_refl _, fun _ h => h⟩)
  have r5 := CalmReach.step _ _ r4 (Step.visit _ ⟨1600, 1, none, none⟩ [] 1 ⟨1, 600, 100, false, false⟩ none
    rfl rfl (by intro j h; cases h) rfl (Nat.le_refl _) (by decide) rfl (by intro j h; cases h))
    (Or.inr ⟨Nat.le_refl _, by intro id h; simpa [start] using h⟩)
  have r6 := CalmReach.step _ _ r5 (Step.finish _ ⟨1600, 1, some 1, none⟩ [] 1 ⟨1, 600, 100, false, true⟩ rfl rfl rfl)
    (Or.inr ⟨Nat.le_refl _, fun _ h => h⟩)
  have r7 := CalmReach.step _ _ r6 (Step.leave _ ⟨1600, 1, none, none⟩ [] rfl rfl rfl) (Or.inr ⟨Nat.zero_le _, fun _ h => h⟩)
  have r8 := CalmReach.step _ _ r7 (Step.tick _ 1750 (by simp [finish, start])) (Or.inl rfl)
  have r9 := CalmReach.step _ _ r8 (Step.enter _ trivial) (Or.inl rfl)
  have r10 := CalmReach.step _ _ r9 (Step.visit _ ⟨1750, 1, none, none⟩ [] 1 ⟨1, 700, 100, false, false⟩ none
    rfl rfl (by intro j h; cases h) rfl (Nat.le_refl _) (by decide) rfl (by intro j h; cases h))
    (Or.inr ⟨Nat.le_refl _, by intro id h; simpa [start] using h⟩)
  exact ⟨_, r10, rfl⟩

/-! ### update -/

/-- The time `update` takes to have passed: what has passed, and a second more as soon as the seconds differ. -/
theorem diftime_eq (start cur : Nat) (h : start ≤ cur) :
    diftime start cur = (cur - start : Int) + (if cur / 1000 = start / 1000 then 0 else 1000) := by
  unfold diftime
  by_cases e : cur / 1000 = start / 1000
  · rw [if_pos e, if_pos e]; omega
  · rw [if_neg e, if_neg e]; omega

theorem updateLoop_some {m start : Nat} {clock : Nat → Nat} : ∀ {fuel k r : Nat}, updateLoop m start clock fuel k = some r →
    k ≤ r ∧ diftime start (clock r) ≥ m ∧ ∀ i, k ≤ i → i < r → diftime start (clock i) < m
  | 0, _, _, h => by cases h
  | fuel + 1, k, r, h => by
    rw [updateLoop] at h
    by_cases e : diftime start (clock k) ≥ m
    · rw [if_pos e] at h
      have : k = r := by injection h
      subst this
      exact ⟨Nat.le_refl _, e, by intro i h1 h2; omega⟩
    · rw [if_neg e] at h
      obtain ⟨a, b, c⟩ := updateLoop_some h
      refine ⟨by omega, b, ?_⟩
      intro i h1 h2
      by_cases ei : i = k
      · subst ei; omega
      · exact c i (by omega) h2

/-- **C37.**  `update(ms)` returns no sooner than `ms` milliseconds after its start if the clock still shows the same
second, and in any case not more than a second too early. -/
theorem C37_update_partial (m start : Nat) (clock : Nat → Nat) (hmono : ∀ i, start ≤ clock i) (fuel r : Nat)
    (h : updateLoop m start clock fuel 0 = some r) :
    start + m ≤ clock r + 1000 ∧ (clock r / 1000 = start / 1000 → start + m ≤ clock r) := by
  obtain ⟨_, b, _⟩ := updateLoop_some h
  rw [diftime_eq _ _ (hmono r)] at b
  constructor
  · by_cases e : clock r / 1000 = start / 1000
    · rw [if_pos e] at b; omega
    · rw [if_neg e] at b; omega
  · intro e
    rw [if_pos e] at b; omega

/-- It is not longer than that either: it ends with the first pass after which the time is over. -/
theorem C37_update_ends (m start : Nat) (clock : Nat → Nat) (hmono : ∀ i, start ≤ clock i) (n : Nat)
    (h : start + m ≤ clock n) : ∃ r, updateLoop m start clock (n + 1) 0 = some r ∧ r ≤ n := by
  have key : ∀ fuel k, k ≤ n → n < k + fuel → ∃ r, updateLoop m start clock fuel k = some r ∧ r ≤ n := by
    intro fuel
    induction fuel with
    | zero => intro k h1 h2; omega
    | succ fuel ih =>
      intro k h1 h2
      rw [updateLoop]
      by_cases e : diftime start (clock k) ≥ m
      · rw [if_pos e]; exact ⟨k, rfl, h1⟩
      · rw [if_neg e]
        have hk : k ≠ n := by
          rintro rfl
          apply e
          rw [diftime_eq _ _ (hmono k)]
          by_cases e : clock k / 1000 = start / 1000
          · rw [if_pos e]; omega
          · rw [if_neg e]; omega
        exact ih (k + 1) (by omega) (by omega)
  exact key (n + 1) 0 (Nat.zero_le _) (by omega)

/-- **C37 fails as soon as a second begins**: whenever the first pass ends in the second after the start, `update` of any
time up to 1000 ms longer than what has passed returns - started one millisecond before, after one. -/
theorem C37_update_refuted (m start : Nat) (clock : Nat → Nat) (h0 : start ≤ clock 0)
    (hsec : clock 0 / 1000 ≠ start / 1000) (hm : start + m ≤ clock 0 + 1000) :
    updateLoop m start clock 1 0 = some 0 := by
  rw [updateLoop, if_pos]
  rw [diftime_eq _ _ h0, if_neg hsec]; omega

example : updateLoop 1001 5999 (fun i => 6000 + i) 1 0 = some 0 := by decide
example : updateLoop 100 5100 (fun i => 5100 + 30 * (i + 1)) 10 0 = some 3 := by decide

end Verif.Timer
