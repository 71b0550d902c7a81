import Verif.Sql.CacheSpec

/-! The cache keeps its records, list and hash table in order. -/

namespace Verif.Sql.Cache
open Verif.LList (Rep rep_pop rep_insert rep_kill rep_weaken)

variable {E : Env}

theorem set_same {α β : Type} [DecidableEq α] (f : α → β) (i : α) (v : β) : set f i v i = v := by simp [set]
theorem set_ne {α β : Type} [DecidableEq α] (f : α → β) {i j : α} (v : β) (h : j ≠ i) : set f i v j = f j := by
  simp [set, h]

/-- A record in order. -/
structure Ok (s : St E) (seq U : List Nat) (i : Nat) (r : Rec E) : Prop where
  lt : i < s.fresh
  hash : s.hash r.key = some i
  place : i ∈ U ∨ ∃ n ∈ seq, s.nval n = i
  el : ∀ n, r.el = some n → s.nval n = i ∧ s.l.alive n = true
  nSql : r.nSql = (E.split r.key).1
  real : (E.split r.key).2 = false
  len : r.binds.length = (E.params (r.key.take r.nSql)).length

/-- The cache in order: the list is `seq`, the records `U` are in use and not in the list. -/
structure Inv (s : St E) (seq U : List Nat) : Prop where
  rep : ∃ det, Rep s.l ⟨seq, det, s.l.fresh⟩ False
  cached : ∀ n ∈ seq, s.nval n ∉ U ∧ ∃ r, s.recs (s.nval n) = some r ∧ r.el = some n ∧ r.cur = E.init
  used : ∀ i ∈ U, ∃ r, s.recs i = some r ∧ ∀ n, r.el = some n → n ∉ seq
  all : ∀ i r, s.recs i = some r → Ok s seq U i r
  hash : ∀ k i, s.hash k = some i → ∃ r, s.recs i = some r ∧ r.key = k
  nodup : U.Nodup

theorem inv_free {s : St E} {seq U : List Nat} {i : Nat} (h : Inv s seq (i :: U)) :
    ∃ s', free s i = some s' ∧ Inv s' seq U ∧ s'.max = s.max ∧ s'.l.num = s.l.num ∧
      (∀ j, j ≠ i → s'.recs j = s.recs j) ∧ s'.cnt = s.cnt - 1 := by
  obtain ⟨r, hr, hel⟩ := h.used i List.mem_cons_self
  have ok := h.all i r hr
  have hiU : i ∉ U := (List.nodup_cons.1 h.nodup).1
  obtain ⟨det, rep⟩ := h.rep
  -- the list behind the deletion of the entry
  have hl : ∃ l, delEl s.l r.el = some l ∧
      l.num = s.l.num ∧ (∃ det', Rep l ⟨seq, det', l.fresh⟩ False) ∧
      (∀ n, r.el ≠ some n → l.alive n = s.l.alive n) := by
    cases he : r.el with
    | none => exact ⟨s.l, rfl, rfl, ⟨det, rep⟩, fun _ _ => rfl⟩
    | some n =>
      have hns := hel n he
      have hal := (ok.el n he).2
      obtain ⟨d1, d2⟩ := rep.det n hns hal
      refine ⟨{ s.l with alive := LList.upd s.l.alive n false }, ?_, rfl, ⟨_, rep_kill rep n hns⟩, ?_⟩
      · simp [delEl, LList.entryDelete, LList.next_ok hal, LList.prev_ok hal, d1, d2, hal]
      · intro m hm
        exact LList.upd_ne _ _ (fun e => hm (by rw [e]))
  obtain ⟨l, e1, e2, e3, e4⟩ := hl
  refine ⟨⟨set s.recs i none, s.fresh, set s.hash r.key none, l, s.nval, s.cnt - 1, s.max⟩, ?_, ?_, rfl, e2,
    fun j hj => set_ne _ _ hj, rfl⟩
  · unfold free
    rw [hr]
    simp only
    rw [e1]
  · constructor
    · exact e3
    · intro n hn
      obtain ⟨a, r', b, c⟩ := h.cached n hn
      have hne : s.nval n ≠ i := fun e => a (by rw [e]; exact List.mem_cons_self)
      exact ⟨fun hh => a (List.mem_cons_of_mem _ hh), r', (set_ne _ _ hne).trans b, c⟩
    · intro j hj
      have hne : j ≠ i := fun e => hiU (e ▸ hj)
      obtain ⟨r', a, b⟩ := h.used j (List.mem_cons_of_mem _ hj)
      exact ⟨r', (set_ne _ _ hne).trans a, b⟩
    · intro j r' hj'
      have hj : set s.recs i none j = some r' := hj'
      clear hj'
      have hne : j ≠ i := by
        intro e; subst e; rw [set_same] at hj; cases hj
      rw [set_ne _ _ hne] at hj
      have o := h.all j r' hj
      have hk : r'.key ≠ r.key := by
        intro e
        have := o.hash
        rw [e, ok.hash] at this
        exact hne (Option.some.inj this).symm
      refine ⟨o.lt, (set_ne _ _ hk).trans o.hash, ?_, ?_, o.nSql, o.real, o.len⟩
      · rcases o.place with p | p
        · rcases List.mem_cons.1 p with p | p
          · exact absurd p hne
          · exact Or.inl p
        · exact Or.inr p
      · intro n hn
        obtain ⟨a, b⟩ := o.el n hn
        refine ⟨a, ?_⟩
        show l.alive n = true
        rw [e4 n (fun e => hne (by rw [← a, (ok.el n e).1])), b]
    · intro k j hj'
      have hj : set s.hash r.key none k = some j := hj'
      clear hj'
      have hk : k ≠ r.key := by
        intro e; subst e; rw [set_same] at hj; cases hj
      rw [set_ne _ _ hk] at hj
      obtain ⟨r', a, b⟩ := h.hash k j hj
      have hne : j ≠ i := by
        intro e; subst e; rw [hr] at a; rw [← Option.some.inj a] at b; exact hk b.symm
      exact ⟨r', (set_ne _ _ hne).trans a, b⟩
    · exact (List.nodup_cons.1 h.nodup).2

theorem insertFront (l : List Nat) (i : Nat) : LList.insertBefore l l.head? i = i :: l := by
  cases l with
  | nil => rfl
  | cons a t => simp [LList.insertBefore]

theorem inv_push {s : St E} {seq U : List Nat} {i : Nat} (h : Inv s seq (i :: U)) {r : Rec E} (hr : s.recs i = some r)
    (hc : r.cur = E.init) :
    ∃ s' n, pushFront s i r = some s' ∧ Inv s' (n :: seq) U ∧ s'.max = s.max ∧ s'.cnt = s.cnt ∧
      (∀ j, j ≠ i → s'.recs j = s.recs j) := by
  have ok := h.all i r hr
  have hiU : i ∉ U := (List.nodup_cons.1 h.nodup).1
  obtain ⟨det, rep⟩ := h.rep
  have hel : ∀ n, r.el = some n → n ∉ seq := by
    obtain ⟨r', a, b⟩ := h.used i List.mem_cons_self
    rw [hr] at a
    rw [Option.some.inj a]; exact b
  have hnew : ∀ n, s.nval n = i → n ∉ seq := fun n e hn => (h.cached n hn).1 (by rw [e]; exact List.mem_cons_self)
  have hhead : s.l.head = seq.head? := rep.head
  unfold pushFront
  cases he : r.el with
  | some n =>
    have hns := hel n he
    obtain ⟨hv, hal⟩ := ok.el n he
    obtain ⟨l, e1, e2, e3⟩ := rep_insert rep n s.l.head hal hns (by
      intro x hx; rw [hhead] at hx; exact List.mem_of_mem_head? hx)
    simp only [hhead, insertFront] at e3
    have hfr : l.fresh = s.l.fresh := e3.fresh
    simp only [e1]
    refine ⟨_, n, rfl, ?_, rfl, rfl, fun _ _ => rfl⟩
    constructor
    · exact ⟨_, by rw [show (⟨s.recs, s.fresh, s.hash, l, s.nval, s.cnt, s.max⟩ : St E).l.fresh = s.l.fresh from hfr]; exact e3⟩
    · intro m hm
      rcases List.mem_cons.1 hm with hm | hm
      · subst hm
        exact ⟨by rw [hv]; exact hiU, r, by rw [hv]; exact hr, he, hc⟩
      · obtain ⟨a, b⟩ := h.cached m hm
        exact ⟨fun hh => a (List.mem_cons_of_mem _ hh), b⟩
    · intro j hj
      have hne : j ≠ i := fun e => hiU (e ▸ hj)
      obtain ⟨r', a, b⟩ := h.used j (List.mem_cons_of_mem _ hj)
      refine ⟨r', a, fun m hm hh => ?_⟩
      rcases List.mem_cons.1 hh with hh | hh
      · subst hh
        exact hne (by rw [← ((h.all j r' a).el m hm).1, hv])
      · exact b m hm hh
    · intro j r' hj
      have o := h.all j r' hj
      refine ⟨o.lt, o.hash, ?_, fun m hm => ⟨(o.el m hm).1, by show l.alive m = true; rw [e2]; exact (o.el m hm).2⟩, o.nSql, o.real, o.len⟩
      rcases o.place with p | ⟨m, p, q⟩
      · rcases List.mem_cons.1 p with p | p
        · exact Or.inr ⟨n, List.mem_cons_self, by rw [p]; exact hv⟩
        · exact Or.inl p
      · exact Or.inr ⟨m, List.mem_cons_of_mem _ p, q⟩
    · exact h.hash
    · exact (List.nodup_cons.1 h.nodup).2
  | none =>
    have hfr0 : s.l.alive s.l.fresh = false := by
      cases ha : s.l.alive s.l.fresh with
      | false => rfl
      | true => exact absurd (rep.alive _ ha) (Nat.lt_irrefl _)
    have hns : s.l.fresh ∉ seq := fun hh => by rw [rep.mem _ hh] at hfr0; cases hfr0
    have ha1 : ∀ m, m ≠ s.l.fresh → LList.upd s.l.alive s.l.fresh true m = s.l.alive m :=
      fun m hm => LList.upd_ne _ _ hm
    -- the list with the new entry not yet in it
    have rep1 : Rep ⟨LList.upd s.l.nx s.l.fresh none, LList.upd s.l.pv s.l.fresh none,
        LList.upd s.l.alive s.l.fresh true, s.l.head, s.l.tail, s.l.num, s.l.fresh + 1⟩
        ⟨seq, s.l.fresh :: det, s.l.fresh + 1⟩ False := by
      have hx : ∀ a ∈ seq, a ≠ s.l.fresh := fun a ha e => hns (e ▸ ha)
      refine ⟨rep.nodup, fun a ha => ?_, fun a ha => ?_, rfl, rep.head, rep.tail, rep.num, ?_, ?_, ?_, fun hh => hh.elim⟩
      · show LList.upd s.l.alive s.l.fresh true a = true
        rw [ha1 a (hx a ha)]; exact rep.mem a ha
      · by_cases e : a = s.l.fresh
        · rw [e]; exact Nat.lt_succ_self _
        · have ha' : LList.upd s.l.alive s.l.fresh true a = true := ha
          rw [ha1 a e] at ha'
          exact Nat.lt_succ_of_lt (rep.alive a ha')
      · exact LList.links_congr seq (fun a ha => (LList.upd_ne _ _ (hx a ha)).symm)
          (fun a ha => (LList.upd_ne _ _ (hx a (List.mem_of_mem_tail ha))).symm) rep.links
      · intro a ha hal
        by_cases e : a = s.l.fresh
        · subst e; exact ⟨LList.upd_same _ _ _, LList.upd_same _ _ _⟩
        · have hal' : LList.upd s.l.alive s.l.fresh true a = true := hal
          rw [ha1 a e] at hal'
          have := rep.det a ha hal'
          exact ⟨(LList.upd_ne _ _ e).trans this.1, (LList.upd_ne _ _ e).trans this.2⟩
      · intro a
        show a ∈ s.l.fresh :: det ↔ LList.upd s.l.alive s.l.fresh true a = true ∧ a ∉ seq
        by_cases e : a = s.l.fresh
        · subst e; simp [hns]
        · rw [ha1 a e]
          have := rep.detmem a
          simp only at this
          simp [e, this]
    obtain ⟨l, e1, e2, e3⟩ := rep_insert rep1 s.l.fresh s.l.head (LList.upd_same _ _ _) hns (by
      intro x hx; rw [hhead] at hx; exact List.mem_of_mem_head? hx)
    simp only [hhead, insertFront] at e3
    have hfr : l.fresh = s.l.fresh + 1 := e3.fresh
    have e1' : LList.entryNew s.l s.l.head = some l := e1
    simp only [e1']
    have hal : ∀ m, m ≠ s.l.fresh → l.alive m = s.l.alive m := fun m hm => by
      rw [e2]; exact ha1 m hm
    have hnv : ∀ m, s.l.alive m = true → m ≠ s.l.fresh := fun m hm e => by rw [e, hfr0] at hm; cases hm
    refine ⟨_, s.l.fresh, rfl, ?_, rfl, rfl, fun j hj => set_ne _ _ hj⟩
    constructor
    · exact ⟨_, by
        show Rep l ⟨s.l.fresh :: seq, _, l.fresh⟩ False
        rw [hfr]; exact e3⟩
    · intro m hm
      rcases List.mem_cons.1 hm with hm | hm
      · subst hm
        show set s.nval s.l.fresh i s.l.fresh ∉ U ∧ _
        rw [set_same]
        exact ⟨hiU, ⟨r.key, r.nSql, r.binds, r.cur, some s.l.fresh⟩, by
          show set s.recs i _ (set s.nval s.l.fresh i s.l.fresh) = _
          rw [set_same, set_same], rfl, hc⟩
      · have hmf : m ≠ s.l.fresh := fun e => hns (e ▸ hm)
        show set s.nval s.l.fresh i m ∉ U ∧ ∃ r', set s.recs i _ (set s.nval s.l.fresh i m) = some r' ∧ _
        rw [set_ne _ _ hmf]
        obtain ⟨a, r', b, c⟩ := h.cached m hm
        have hne : s.nval m ≠ i := fun e => a (by rw [e]; exact List.mem_cons_self)
        exact ⟨fun hh => a (List.mem_cons_of_mem _ hh), r', by rw [set_ne _ _ hne]; exact b, c⟩
    · intro j hj
      have hne : j ≠ i := fun e => hiU (e ▸ hj)
      obtain ⟨r', a, b⟩ := h.used j (List.mem_cons_of_mem _ hj)
      refine ⟨r', by show set s.recs i _ j = _; rw [set_ne _ _ hne]; exact a, fun m hm hh => ?_⟩
      rcases List.mem_cons.1 hh with hh | hh
      · exact hnv m ((h.all j r' a).el m hm).2 hh
      · exact b m hm hh
    · intro j r' hj
      by_cases hne : j = i
      · subst hne
        have hj' : set s.recs j (some (⟨r.key, r.nSql, r.binds, r.cur, some s.l.fresh⟩ : Rec E)) j = some r' := hj
        rw [set_same] at hj'
        have := Option.some.inj hj'
        subst this
        refine ⟨ok.lt, ok.hash, Or.inr ⟨s.l.fresh, List.mem_cons_self, set_same _ _ _⟩, ?_, ok.nSql, ok.real, ok.len⟩
        intro m hm
        have := Option.some.inj hm
        subst this
        exact ⟨set_same _ _ _, by show l.alive _ = true; rw [e2]; exact LList.upd_same _ _ _⟩
      · have hj' : set s.recs i (some (⟨r.key, r.nSql, r.binds, r.cur, some s.l.fresh⟩ : Rec E)) j = some r' := hj
        rw [set_ne _ _ hne] at hj'
        have o := h.all j r' hj'
        refine ⟨o.lt, o.hash, ?_, ?_, o.nSql, o.real, o.len⟩
        · rcases o.place with p | ⟨m, p, q⟩
          · rcases List.mem_cons.1 p with p | p
            · exact absurd p hne
            · exact Or.inl p
          · exact Or.inr ⟨m, List.mem_cons_of_mem _ p, by
              show set s.nval s.l.fresh i m = j
              have hmf : m ≠ s.l.fresh := fun e => hns (e ▸ p)
              rw [set_ne _ _ hmf]; exact q⟩
        · intro m hm
          obtain ⟨a, b⟩ := o.el m hm
          exact ⟨by show set s.nval s.l.fresh i m = j; rw [set_ne _ _ (hnv m b)]; exact a, by
            show l.alive m = true; rw [hal m (hnv m b)]; exact b⟩
    · intro k j hj
      obtain ⟨r', a, b⟩ := h.hash k j hj
      by_cases hne : j = i
      · subst hne
        rw [hr] at a
        have := Option.some.inj a
        subst this
        exact ⟨_, set_same _ _ _, b⟩
      · exact ⟨r', by show set s.recs i _ j = _; rw [set_ne _ _ hne]; exact a, b⟩
    · exact (List.nodup_cons.1 h.nodup).2

/-- An entry of the list leaves it and its record is in use. -/
theorem inv_pop {s : St E} {seq U : List Nat} (h : Inv s seq U) {n : Nat} (hn : n ∈ seq) :
    ∃ l, LList.pop s.l n = some l ∧ l.num = (seq.erase n).length ∧
      ∀ c, Inv ⟨s.recs, s.fresh, s.hash, l, s.nval, c, s.max⟩ (seq.erase n) (s.nval n :: U) := by
  obtain ⟨det, rep⟩ := h.rep
  obtain ⟨l, e1, e2, e3⟩ := rep_pop rep n hn
  have hfr : l.fresh = s.l.fresh := e3.fresh
  have hmem : ∀ m, m ∈ seq.erase n → m ∈ seq := fun m hm => List.mem_of_mem_erase hm
  have hnn : n ∉ seq.erase n := fun hm => (rep.nodup.mem_erase_iff.1 hm).1 rfl
  obtain ⟨hnU, rn, hrn, hen, hcn⟩ := h.cached n hn
  refine ⟨l, e1, e3.num, fun c => ⟨?_, ?_, ?_, ?_, h.hash, List.nodup_cons.2 ⟨hnU, h.nodup⟩⟩⟩
  · exact ⟨_, by
      show Rep l ⟨seq.erase n, _, l.fresh⟩ False
      rw [hfr]; exact rep_weaken e3 (fun hh => hh.elim)⟩
  · intro m hm
    obtain ⟨a, r, b1, b2, b3⟩ := h.cached m (hmem m hm)
    refine ⟨fun hh => ?_, r, b1, b2, b3⟩
    rcases List.mem_cons.1 hh with hh | hh
    · rw [show s.recs (s.nval m) = s.recs (s.nval n) from by rw [show s.nval m = s.nval n from hh], hrn] at b1
      have := Option.some.inj b1
      rw [← this, hen] at b2
      exact hnn ((Option.some.inj b2) ▸ hm)
    · exact a hh
  · intro j hj
    rcases List.mem_cons.1 hj with hj | hj
    · subst hj
      refine ⟨rn, hrn, fun m hm => ?_⟩
      rw [hen] at hm
      exact (Option.some.inj hm) ▸ hnn
    · obtain ⟨r, a, b⟩ := h.used j hj
      exact ⟨r, a, fun m hm hh => b m hm (hmem m hh)⟩
  · intro j r hj
    have o := h.all j r hj
    refine ⟨o.lt, o.hash, ?_, fun m hm => ⟨(o.el m hm).1, by show l.alive m = true; rw [e2]; exact (o.el m hm).2⟩, o.nSql, o.real, o.len⟩
    rcases o.place with p | ⟨m, p, q⟩
    · exact Or.inl (List.mem_cons_of_mem _ p)
    · by_cases e : m = n
      · subst e; exact Or.inl (by rw [← q]; exact List.mem_cons_self)
      · exact Or.inr ⟨m, (rep.nodup.mem_erase_iff.2 ⟨e, p⟩), q⟩

theorem inv_limit : ∀ (fuel : Nat) {s : St E} {seq U : List Nat}, Inv s seq U → seq.length < fuel →
    0 ≤ s.max → (s.cnt > s.max → seq ≠ []) →
    ∃ s' seq', limit fuel s = some s' ∧ Inv s' seq' U ∧ s'.max = s.max ∧ (∀ j ∈ U, s'.recs j = s.recs j) ∧
      (s.cnt ≤ s.max ∧ seq' = seq ∨ (seq'.length : Int) ≤ s.max)
  | 0, _, _, _, _, hf, _, _ => absurd hf (Nat.not_lt_zero _)
  | fuel + 1, s, seq, U, h, hf, hm, hne => by
    unfold limit
    by_cases hc : s.cnt > s.max
    · rw [if_pos hc]
      have hs := hne hc
      obtain ⟨det, rep⟩ := h.rep
      have ht : s.l.tail = seq.getLast? := rep.tail hs
      rw [List.getLast?_eq_some_getLast hs] at ht
      rw [ht]
      simp only
      have hn : seq.getLast hs ∈ seq := List.getLast_mem hs
      obtain ⟨l, e1, e2, e3⟩ := inv_pop h hn
      rw [e1]
      simp only
      obtain ⟨s2, f1, f2, f3, f4, f5, _⟩ := inv_free (e3 s.cnt)
      rw [f1]
      simp only
      have hlen : (seq.erase (seq.getLast hs)).length = seq.length - 1 := List.length_erase_of_mem hn
      have hnum : s2.l.num = (seq.erase (seq.getLast hs)).length := f4.trans e2
      have f2' : Inv (⟨s2.recs, s2.fresh, s2.hash, s2.l, s2.nval, (s2.l.num : Int), s2.max⟩ : St E)
          (seq.erase (seq.getLast hs)) U :=
        ⟨f2.rep, f2.cached, f2.used, fun i r hi => let o := f2.all i r hi; ⟨o.lt, o.hash, o.place, o.el, o.nSql, o.real, o.len⟩,
          f2.hash, f2.nodup⟩
      have hm2 : s2.max = s.max := f3
      obtain ⟨s3, seq3, g1, g2, g3, g4, g5⟩ := inv_limit fuel f2' (by
          have : 0 < seq.length := List.length_pos_iff.2 hs
          omega) (by show 0 ≤ s2.max; rw [hm2]; exact hm) (by
        intro hgt e
        rw [e] at hnum
        have hgt' : (s2.l.num : Int) > s2.max := hgt
        rw [hnum, hm2] at hgt'
        simp at hgt'
        omega)
      refine ⟨s3, seq3, g1, g2, g3.trans hm2, fun j hj => ?_, Or.inr ?_⟩
      · rw [g4 j hj]
        show s2.recs j = _
        refine f5 j (fun e => ?_)
        exact (h.cached _ hn).1 (e ▸ hj)
      · rcases g5 with ⟨a, b⟩ | b
        · have a' : (s2.l.num : Int) ≤ s2.max := a
          rw [b, ← hnum, ← hm2]; exact a'
        · rw [← hm2]; exact b
    · rw [if_neg hc]
      exact ⟨s, seq, rfl, h, rfl, fun _ _ => rfl, Or.inl ⟨by omega, rfl⟩⟩

theorem num_eq {s : St E} {seq U : List Nat} (h : Inv s seq U) : s.l.num = seq.length := by
  obtain ⟨det, rep⟩ := h.rep
  exact rep.num

theorem inv_cnt {s : St E} {seq U : List Nat} (h : Inv s seq U) (c : Int) :
    Inv ⟨s.recs, s.fresh, s.hash, s.l, s.nval, c, s.max⟩ seq U :=
  ⟨h.rep, h.cached, h.used, fun i r hi => let o := h.all i r hi; ⟨o.lt, o.hash, o.place, o.el, o.nSql, o.real, o.len⟩,
    h.hash, h.nodup⟩

theorem inv_release {s : St E} {seq U : List Nat} {i : Nat} (h : Inv s seq (i :: U)) {r : Rec E}
    (hr : s.recs i = some r) (hc : r.cur = E.init) (hm : 0 ≤ s.max) (b : Bool) :
    ∃ s' seq', release s i b = some s' ∧ Inv s' seq' U ∧ s'.max = s.max ∧ (∀ j ∈ U, s'.recs j = s.recs j) := by
  have hiU : i ∉ U := (List.nodup_cons.1 h.nodup).1
  have hne : ∀ j ∈ U, j ≠ i := fun j hj e => hiU (e ▸ hj)
  unfold release
  by_cases hd : s.max ≤ 0 ∨ b = true
  · rw [if_pos hd]
    obtain ⟨s', a1, a2, a3, a4, a5, _⟩ := inv_free h
    exact ⟨s', seq, a1, a2, a3, fun j hj => a5 j (hne j hj)⟩
  · rw [if_neg hd, hr]
    simp only
    obtain ⟨s1, n, e1, e2, e3, e4, e5⟩ := inv_push h hr hc
    rw [e1]
    simp only
    obtain ⟨s2, seq2, f1, f2, f3, f4, _⟩ := inv_limit (s1.l.num + 2) e2 (by rw [num_eq e2]; omega) (by rw [e3]; exact hm)
      (fun _ => List.cons_ne_nil _ _)
    rw [f1]
    exact ⟨_, seq2, rfl, inv_cnt f2 _, f3.trans e3, fun j hj => (f4 j hj).trans (e5 j (hne j hj))⟩

theorem inv_setCur {s : St E} {seq U : List Nat} {i : Nat} (h : Inv s seq U) (hi : i ∈ U) {r : Rec E}
    (hr : s.recs i = some r) {b : List E.Val} (hb : b.length = r.binds.length) (c : E.Cur) :
    Inv (setCur s i r b c) seq U := by
  have ok := h.all i r hr
  refine ⟨h.rep, ?_, ?_, ?_, ?_, h.nodup⟩
  · intro n hn
    obtain ⟨a, r', b'⟩ := h.cached n hn
    exact ⟨a, r', by show set s.recs i _ (s.nval n) = _ ∧ _; rw [set_ne _ _ (fun e => a (by rw [e]; exact hi))]; exact b'⟩
  · intro j hj
    by_cases e : j = i
    · subst e
      obtain ⟨r', a, b'⟩ := h.used j hj
      rw [hr] at a
      have := Option.some.inj a
      subst this
      exact ⟨_, set_same _ _ _, b'⟩
    · obtain ⟨r', a, b'⟩ := h.used j hj
      exact ⟨r', by show set s.recs i _ j = _; rw [set_ne _ _ e]; exact a, b'⟩
  · intro j r' hj
    have hj' : set s.recs i (some (⟨r.key, r.nSql, b, c, r.el⟩ : Rec E)) j = some r' := hj
    by_cases e : j = i
    · subst e
      rw [set_same] at hj'
      have := Option.some.inj hj'
      subst this
      exact ⟨ok.lt, ok.hash, ok.place, ok.el, ok.nSql, ok.real, hb.trans ok.len⟩
    · rw [set_ne _ _ e] at hj'
      have o := h.all j r' hj'
      exact ⟨o.lt, o.hash, o.place, o.el, o.nSql, o.real, o.len⟩
  · intro k j hj
    obtain ⟨r', a, b'⟩ := h.hash k j hj
    by_cases e : j = i
    · subst e
      rw [hr] at a
      have := Option.some.inj a
      subst this
      exact ⟨_, set_same _ _ _, b'⟩
    · exact ⟨r', by show set s.recs i _ j = _; rw [set_ne _ _ e]; exact a, b'⟩

/-- The ids a context uses. -/
def idOf (c : Ctx) : List Nat := match c.stmt with | none => [] | some i => [i]

theorem inv_finalize {s : St E} {seq U : List Nat} {c : Ctx} (h : Inv s seq (idOf c ++ U)) (hm : 0 ≤ s.max) :
    ∃ s' seq', finalize s c = some s' ∧ Inv s' seq' U ∧ s'.max = s.max ∧ (∀ j ∈ U, s'.recs j = s.recs j) := by
  unfold finalize
  obtain ⟨rest, stmt, nc⟩ := c
  cases stmt with
  | none => exact ⟨s, seq, rfl, h, rfl, fun _ _ => rfl⟩
  | some i =>
    have h' : Inv s seq (i :: U) := h
    obtain ⟨r, hr, _⟩ := h'.used i List.mem_cons_self
    simp only [hr]
    obtain ⟨s', seq', a, b, c, d⟩ := inv_release (inv_setCur h' List.mem_cons_self hr (b := r.binds) rfl E.init)
      (r := ⟨r.key, r.nSql, r.binds, E.init, r.el⟩) (set_same _ _ _) rfl hm nc
    refine ⟨s', seq', a, b, c, fun j hj => (d j hj).trans (set_ne _ _ (fun e => ?_))⟩
    exact (List.nodup_cons.1 h'.nodup).1 (e ▸ hj)

/-- The entry of a record that is in use is not in the list: taking it out again uses a NULL pointer. -/
theorem pop_detached {s : LList.L} {sp : LList.Spec} {c : Prop} (h : Rep s sp c) {n : Nat} (hn : n ∉ sp.seq)
    (ha : s.alive n = true) : LList.pop s n = none := by
  unfold LList.pop
  obtain ⟨d1, d2⟩ := h.det n hn ha
  rw [h.head]
  cases hs : sp.seq with
  | nil => rfl
  | cons a t =>
    have ht := h.tail (by rw [hs]; simp)
    rw [List.getLast?_eq_some_getLast (by rw [hs]; simp)] at ht
    have hna : n ≠ a := fun e => hn (by rw [hs, e]; exact List.mem_cons_self)
    have hnt : n ≠ sp.seq.getLast (by rw [hs]; simp) := fun e => hn (by rw [e]; exact List.getLast_mem _)
    rw [ht]
    simp [hna, hnt, LList.prev_ok ha, LList.next_ok ha, d1, d2]

end Verif.Sql.Cache
