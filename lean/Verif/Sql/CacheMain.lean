import Verif.Sql.CacheProof

/-! Queries through the cache give what they give without it. -/

namespace Verif.Sql.Cache
open Verif.LList (Rep)

variable {E : Env}

/-- The record of a statement agrees with the statement. -/
def SimS (s : St E) : Option Nat → Option (SStmt E) → Prop
  | none, none => True
  | some i, some x => ∃ r, s.recs i = some r ∧ r.key = x.key ∧ r.binds = x.binds ∧ r.cur = x.cur
  | _, _ => False

/-- The texts in use. -/
def Used (s : St E) (U : List Nat) (used : List Str) : Prop :=
  ∀ t, t ∈ used ↔ ∃ i ∈ U, ∃ r, s.recs i = some r ∧ r.key = t

theorem Used.congr {s s' : St E} {U : List Nat} {used : List Str} (h : Used s U used)
    (he : ∀ j ∈ U, s'.recs j = s.recs j) : Used s' U used := by
  intro t
  rw [h t]
  constructor
  · rintro ⟨i, hi, r, hr, hk⟩
    exact ⟨i, hi, r, by rw [he i hi]; exact hr, hk⟩
  · rintro ⟨i, hi, r, hr, hk⟩
    exact ⟨i, hi, r, by rw [← he i hi]; exact hr, hk⟩

theorem bindAll_eq {V : Type} (vals : Str → Option V) : ∀ (ps : List Str) (old : List V), old.length = ps.length →
    bindAll false vals ps old = ps.mapM vals
  | [], _, _ => rfl
  | p :: ps, [], h => by cases h
  | p :: ps, o :: os, h => by
    have ih := bindAll_eq vals ps os (by simpa using h)
    simp only [bindAll, List.mapM_cons]
    cases vals p with
    | none => rfl
    | some v =>
      simp only [ih]
      cases ps.mapM vals <;> rfl

theorem bindAll_length {V : Type} {warn : Bool} {vals : Str → Option V} : ∀ {ps : List Str} {old b : List V},
    bindAll warn vals ps old = some b → b.length = ps.length
  | [], _, b, h => by cases h; rfl
  | p :: ps, old, b, h => by
    simp only [bindAll] at h
    split at h
    · obtain ⟨c, hc, rfl⟩ := Option.map_eq_some_iff.1 h
      simp [bindAll_length hc]
    · obtain ⟨c, hc, rfl⟩ := Option.map_eq_some_iff.1 h
      simp [bindAll_length hc]
    · split at h
      · obtain ⟨c, hc, rfl⟩ := Option.map_eq_some_iff.1 h
        simp [bindAll_length hc]
      · cases h
    · cases h

/-- The text of a record in use: compiling it again is a fault. -/
theorem prep_used {s : St E} {seq U : List Nat} (h : Inv s seq U) {rest : Str} {i : Nat} (hi : i ∈ U) {r : Rec E}
    (hr : s.recs i = some r) (hk : r.key = rest.dropWhile isspace) (d : E.D) : prepare s d rest = .fault := by
  have ok := h.all i r hr
  obtain ⟨det, rep⟩ := h.rep
  obtain ⟨r', a, b⟩ := h.used i hi
  rw [hr] at a
  have := Option.some.inj a
  subst this
  have hh := ok.hash
  rw [hk] at hh
  simp only [prepare, hh, hr]
  cases he : r.el with
  | none => rfl
  | some n =>
    simp only
    rw [pop_detached rep (b n he) (ok.el n he).2]

/-- The text of a cached statement. -/
theorem prep_cached {s : St E} {seq U : List Nat} (h : Inv s seq U) {rest : Str} {i : Nat}
    (hh : s.hash (rest.dropWhile isspace) = some i) (hi : i ∉ U) (d : E.D) :
    ∃ s' seq' r, prepare s d rest = .ok s' i ((rest.dropWhile isspace).drop (E.split (rest.dropWhile isspace)).1) ∧
      Inv s' seq' (i :: U) ∧ s'.max = s.max ∧ s'.recs = s.recs ∧ s.recs i = some r ∧ r.key = rest.dropWhile isspace ∧
      r.cur = E.init := by
  obtain ⟨r, hr, hk⟩ := h.hash _ i hh
  have ok := h.all i r hr
  have hp : ∃ n ∈ seq, s.nval n = i := by
    rcases ok.place with p | p
    · exact absurd p hi
    · exact p
  obtain ⟨n, hn, hv⟩ := hp
  obtain ⟨_, r', a, b, c⟩ := h.cached n hn
  rw [hv, hr] at a
  have := Option.some.inj a
  subst this
  obtain ⟨l, e1, e2, e3⟩ := inv_pop h hn
  refine ⟨⟨s.recs, s.fresh, s.hash, l, s.nval, (l.num : Int), s.max⟩, seq.erase n, r, ?_, ?_, rfl, rfl, hr, hk, c⟩
  · simp only [prepare, hh, hr, b, e1, ok.nSql, hk]
  · have := e3 (l.num : Int)
    rw [hv] at this
    exact this

/-- A text that is not in the cache. -/
theorem prep_new {s : St E} {seq U : List Nat} (h : Inv s seq U) {t : Str} (hh : s.hash t = none)
    (hs : (E.split t).2 = false) (c : Int) :
    Inv (⟨set s.recs s.fresh (some ⟨t, (E.split t).1, (E.params (t.take (E.split t).1)).map fun _ => E.null, E.init, none⟩),
      s.fresh + 1, set s.hash t (some s.fresh), s.l, s.nval, c, s.max⟩ : St E) seq (s.fresh :: U) := by
  have hfr : s.recs s.fresh = none := by
    cases hr : s.recs s.fresh with
    | none => rfl
    | some r => exact absurd (h.all _ r hr).lt (Nat.lt_irrefl _)
  have hne : ∀ i r, s.recs i = some r → i ≠ s.fresh := fun i r hr e => by rw [e, hfr] at hr; cases hr
  refine ⟨h.rep, ?_, ?_, ?_, ?_, ?_⟩
  · intro n hn
    obtain ⟨a, r, b, b'⟩ := h.cached n hn
    refine ⟨fun hm => ?_, r, (set_ne _ _ (hne _ r b)).trans b, b'⟩
    rcases List.mem_cons.1 hm with hm | hm
    · exact hne _ r b hm
    · exact a hm
  · intro i hi
    rcases List.mem_cons.1 hi with hi | hi
    · exact ⟨_, by rw [hi]; exact set_same _ _ _, fun n hn => by cases hn⟩
    · obtain ⟨r, a, b⟩ := h.used i hi
      exact ⟨r, (set_ne _ _ (hne _ r a)).trans a, b⟩
  · intro i r hi
    have hi' : set s.recs s.fresh (some (⟨t, (E.split t).1, (E.params (t.take (E.split t).1)).map fun _ => E.null,
      E.init, none⟩ : Rec E)) i = some r := hi
    by_cases e : i = s.fresh
    · subst e
      rw [set_same] at hi'
      have := Option.some.inj hi'
      subst this
      exact ⟨Nat.lt_succ_self _, set_same _ _ _, Or.inl List.mem_cons_self, fun n hn => (by cases hn), rfl, hs,
        by simp⟩
    · rw [set_ne _ _ e] at hi'
      have o := h.all i r hi'
      have hk : r.key ≠ t := fun e => by
        have := o.hash
        rw [e, hh] at this; cases this
      refine ⟨Nat.lt_succ_of_lt o.lt, (set_ne _ _ hk).trans o.hash, ?_, o.el, o.nSql, o.real, o.len⟩
      rcases o.place with p | p
      · exact Or.inl (List.mem_cons_of_mem _ p)
      · exact Or.inr p
  · intro k i hi
    have hi' : set s.hash t (some s.fresh) k = some i := hi
    by_cases e : k = t
    · subst e
      rw [set_same] at hi'
      have := Option.some.inj hi'
      subst this
      exact ⟨_, set_same _ _ _, rfl⟩
    · rw [set_ne _ _ e] at hi'
      obtain ⟨r, a, b⟩ := h.hash k i hi'
      exact ⟨r, (set_ne _ _ (hne _ r a)).trans a, b⟩
  · refine List.nodup_cons.2 ⟨fun hm => ?_, h.nodup⟩
    obtain ⟨r, a, _⟩ := h.used _ hm
    exact hne _ r a rfl

/-- A step of the innermost query with the cache, when a step without it gives `o`. -/
def StepSim (s : St E) (U : List Nat) (o : Option (E.D × SCtx E × Ans E.Row))
    (p : Option (St E × E.D × Ctx × Ans E.Row)) : Prop :=
  match o with
  | none => p = none
  | some (d1, sc1, a) => ∃ s1 c1 seq1, p = some (s1, d1, c1, a) ∧ Inv s1 seq1 (idOf c1 ++ U) ∧ s1.max = s.max ∧
      (∀ j ∈ U, s1.recs j = s.recs j) ∧ (∀ x, a = .row x → c1.rest = sc1.rest ∧ SimS s1 c1.stmt sc1.stmt)

theorem sub_sim {s : St E} {seq U : List Nat} {used : List Str} {i : Nat} {x : SStmt E} {d : E.D} {rest : Str} {nc : Bool}
    (h : Inv s seq (i :: U)) (hm : 0 ≤ s.max) (hu : Used s U used) {r : Rec E} (hr : s.recs i = some r)
    (hk : r.key = x.key) (hb : r.binds = x.binds) (hc : r.cur = x.cur)
    {again : St E → E.D → Ctx → Option (St E × E.D × Ctx × Ans E.Row)} {again' : E.D → SCtx E → Option (E.D × SCtx E × Ans E.Row)}
    (hagain : ∀ {s2 : St E} {seq2 : List Nat} (d' : E.D), Inv s2 seq2 U → 0 ≤ s2.max → Used s2 U used →
      StepSim s2 U (again' d' ⟨rest, none⟩) (again s2 d' ⟨rest, none, nc⟩)) :
    StepSim s U (specSub again' d rest x) (stepSub again nc s d rest i) := by
  have hiU : i ∉ U := (List.nodup_cons.1 h.nodup).1
  have hne : ∀ j ∈ U, j ≠ i := fun j hj e => hiU (e ▸ hj)
  have ok := h.all i r hr
  have hfirst : r.key.take r.nSql = firstOf E x.key := by rw [ok.nSql, hk]; rfl
  have hset : ∀ cu, ∀ j ∈ U, (setCur s i r r.binds cu).recs j = s.recs j := fun cu j hj => set_ne _ _ (hne j hj)
  have hrel := fun b => inv_release (inv_setCur h List.mem_cons_self hr (b := r.binds) rfl E.init)
      (r := ⟨r.key, r.nSql, r.binds, E.init, r.el⟩) (set_same _ _ _) rfl hm b
  unfold specSub stepSub
  rw [hr]
  simp only
  rw [hfirst, hb, hc]
  generalize E.step d (firstOf E x.key) x.binds x.cur = q
  rw [← hb]
  obtain ⟨d', o⟩ := q
  cases o with
  | row y cu =>
    refine ⟨_, _, seq, rfl, inv_setCur h List.mem_cons_self hr rfl cu, rfl, hset cu, fun _ _ => ⟨rfl, ?_⟩⟩
    exact ⟨_, set_same _ _ _, hk, rfl, rfl⟩
  | busy cu =>
    exact ⟨_, _, seq, rfl, inv_setCur h List.mem_cons_self hr rfl cu, rfl, hset cu, fun _ hh => by cases hh⟩
  | done =>
    obtain ⟨s2, seq2, e1, e2, e3, e4⟩ := hrel nc
    simp only [e1]
    have e4' : ∀ j ∈ U, s2.recs j = s.recs j := fun j hj => (e4 j hj).trans (hset _ j hj)
    have key := hagain d' e2 (by rw [e3]; exact hm) (hu.congr e4')
    unfold StepSim at key ⊢
    generalize again' d' ⟨rest, none⟩ = o at key ⊢
    cases o with
    | none => exact key
    | some v =>
      obtain ⟨d1, sc1, a⟩ := v
      obtain ⟨s3, c3, seq3, f1, f2, f3, f4, f5⟩ := key
      exact ⟨s3, c3, seq3, f1, f2, f3.trans e3, fun j hj => (f4 j hj).trans (e4' j hj), f5⟩
  | err =>
    obtain ⟨s2, seq2, e1, e2, e3, e4⟩ := hrel true
    simp only [e1]
    exact ⟨s2, _, seq2, rfl, e2, e3, fun j hj => (e4 j hj).trans (hset _ j hj), fun _ hh => by cases hh⟩

theorem StepSim.congr {s s' : St E} {U : List Nat} {o : Option (E.D × SCtx E × Ans E.Row)}
    {p : Option (St E × E.D × Ctx × Ans E.Row)} (h : StepSim s U o p) (he : ∀ j ∈ U, s.recs j = s'.recs j)
    (hm : s.max = s'.max) : StepSim s' U o p := by
  unfold StepSim at h ⊢
  cases o with
  | none => exact h
  | some v =>
    obtain ⟨d1, sc1, a⟩ := v
    obtain ⟨s3, c3, seq3, f1, f2, f3, f4, f5⟩ := h
    exact ⟨s3, c3, seq3, f1, f2, f3.trans hm, fun j hj => (f4 j hj).trans (he j hj), f5⟩

theorem StepSim.err {s : St E} {U : List Nat} {d : E.D} {sc sc' : SCtx E}
    {p : Option (St E × E.D × Ctx × Ans E.Row)} (h : StepSim s U (some (d, sc, .err)) p) :
    StepSim s U (some (d, sc', .err)) p := by
  obtain ⟨s3, c3, seq3, f1, f2, f3, f4, f5⟩ := h
  exact ⟨s3, c3, seq3, f1, f2, f3, f4, fun _ hx => by cases hx⟩

/-- Behind `dbPrepareStmt`: the values are bound and the first step is made. -/
theorem bind_sim {vals : Str → Option E.Val} {s : St E} {seq U : List Nat} {used : List Str} {i : Nat} {d : E.D}
    {rest rest0 t : Str} {nc : Bool}
    (h : Inv s seq (i :: U)) (hm : 0 ≤ s.max) (hu : Used s U used) {r : Rec E} (hr : s.recs i = some r)
    (hk : r.key = t) (hc : r.cur = E.init)
    {again : St E → E.D → Ctx → Option (St E × E.D × Ctx × Ans E.Row)} {again' : E.D → SCtx E → Option (E.D × SCtx E × Ans E.Row)}
    (hagain : ∀ {s2 : St E} {seq2 : List Nat} (d' : E.D), Inv s2 seq2 U → 0 ≤ s2.max → Used s2 U used →
      StepSim s2 U (again' d' ⟨rest, none⟩) (again s2 d' ⟨rest, none, nc⟩)) :
    StepSim s U (if E.compiles d (firstOf E t) = false then some (d, ⟨rest0, none⟩, Ans.err)
        else match (E.params (firstOf E t)).mapM vals with
          | none => some (d, ⟨rest0, none⟩, Ans.err)
          | some b => specSub again' d rest ⟨t, b, E.init⟩)
      (match bindAll false vals (E.params (r.key.take r.nSql)) r.binds with
        | none => some (s, d, ⟨rest, some i, nc⟩, Ans.err)
        | some b => stepSub again nc (setCur s i r b r.cur) d rest i) := by
  have hiU : i ∉ U := (List.nodup_cons.1 h.nodup).1
  have ok := h.all i r hr
  have hfirst : r.key.take r.nSql = firstOf E t := by rw [ok.nSql, hk]; rfl
  have hlen := ok.len
  rw [hfirst] at hlen
  rw [hfirst, bindAll_eq vals _ _ hlen]
  cases hb : (E.params (firstOf E t)).mapM vals with
  | none =>
    simp only [ite_self]
    exact ⟨s, _, seq, rfl, h, rfl, fun _ _ => rfl, fun _ hx => by cases hx⟩
  | some b =>
    have hbl : b.length = r.binds.length := by
      rw [hlen, ← bindAll_length ((bindAll_eq vals _ _ hlen).trans hb)]
    have hset : ∀ j ∈ U, (setCur s i r b r.cur).recs j = s.recs j :=
      fun j hj => set_ne _ _ (fun e => hiU (e ▸ hj))
    have key := (sub_sim (x := ⟨t, b, E.init⟩) (d := d) (nc := nc) (inv_setCur h List.mem_cons_self hr hbl r.cur) hm (hu.congr hset)
      (r := ⟨r.key, r.nSql, b, r.cur, r.el⟩) (set_same _ _ _) hk rfl hc hagain).congr hset rfl
    by_cases hcomp : E.compiles d (firstOf E t) = false
    · rw [if_pos hcomp]
      have : specSub again' d rest ⟨t, b, E.init⟩ = some (d, ⟨rest, none⟩, Ans.err) := by
        simp only [specSub, E.stale d _ b hcomp]
      rw [this] at key
      exact key.err
    · rw [if_neg hcomp]
      exact key

theorem step_sim (vals : Str → Option E.Val) : ∀ (fuel : Nat) {s : St E} {seq U : List Nat} {used : List Str} (d : E.D)
    {c : Ctx} {sc : SCtx E}, Inv s seq (idOf c ++ U) → 0 ≤ s.max → Used s U used → c.rest = sc.rest → SimS s c.stmt sc.stmt →
    StepSim s U (specStep vals used fuel d sc) (evalStep false vals fuel s d c)
  | 0, _, _, _, _, _, _, _, _, _, _, _, _ => rfl
  | fuel + 1, s, seq, U, used, d, c, sc, h, hm, hu, hrest, hsim => by
    have again : ∀ {rest : Str} {nc : Bool} {s2 : St E} {seq2 : List Nat} (d' : E.D), Inv s2 seq2 U → 0 ≤ s2.max → Used s2 U used →
        StepSim s2 U (specStep vals used fuel d' ⟨rest, none⟩) (evalStep false vals fuel s2 d' ⟨rest, none, nc⟩) :=
      fun d' h2 hm2 hu2 => step_sim vals fuel d' h2 hm2 hu2 rfl trivial
    obtain ⟨rest, stmt, nc⟩ := c
    obtain ⟨rest', stmt'⟩ := sc
    have hrest' : rest = rest' := hrest
    subst hrest'
    unfold specStep evalStep
    cases stmt with
    | some i =>
      cases stmt' with
      | none => exact hsim.elim
      | some x =>
        obtain ⟨r, hr, hk, hb, hc⟩ := hsim
        exact sub_sim (nc := nc) h hm hu hr hk hb hc (fun d' => again d')
    | none =>
      cases stmt' with
      | some x => exact hsim.elim
      | none =>
        have h' : Inv s seq U := h
        simp only
        by_cases he : rest = []
        · rw [if_pos he, if_pos he]
          exact ⟨s, _, seq, rfl, h, rfl, fun _ _ => rfl, fun _ hh => by cases hh⟩
        · rw [if_neg he, if_neg he]
          by_cases hin : rest.dropWhile isspace ∈ used
          · obtain ⟨i, hi, r, hr, hk⟩ := (hu _).1 hin
            rw [if_pos (Or.inl hin), prep_used h' hi hr hk]
            rfl
          · cases hh : s.hash (rest.dropWhile isspace) with
            | some i =>
              have hiU : i ∉ U := by
                intro hi
                obtain ⟨r, hr, hk⟩ := h'.hash _ i hh
                exact hin ((hu _).2 ⟨i, hi, r, hr, hk⟩)
              obtain ⟨s1, seq1, r, e1, e2, e3, e4, e5, e6, e7⟩ := prep_cached h' hh hiU d
              have ok := h'.all i r e5
              have hreal : (E.split (rest.dropWhile isspace)).2 = false := e6 ▸ ok.real
              rw [if_neg (by rintro (hx | hx)
                             · exact hin hx
                             · rw [hreal] at hx; cases hx), e1]
              simp only
              rw [e4, e5]
              simp only
              exact (bind_sim e2 (by rw [e3]; exact hm) (hu.congr (fun j _ => by rw [e4])) (by rw [e4]; exact e5) e6 e7
                (fun d' => again d')).congr (fun j _ => by rw [e4]) e3
            | none =>
              unfold prepare
              simp only [hh]
              cases hs : (E.split (rest.dropWhile isspace)).2 with
              | true =>
                rw [if_pos (Or.inr rfl), if_pos rfl]
                rfl
              | false =>
                rw [if_neg (by rintro (hx | hx)
                               · exact hin hx
                               · cases hx), if_neg Bool.false_ne_true]
                by_cases hcomp : E.compiles d (firstOf E (rest.dropWhile isspace)) = false
                · rw [if_pos hcomp]
                  have hcomp' := hcomp
                  unfold firstOf at hcomp'
                  rw [if_pos hcomp']
                  exact ⟨s, _, seq, rfl, h, rfl, fun _ _ => rfl, fun _ hx => by cases hx⟩
                · have hcomp' := hcomp
                  unfold firstOf at hcomp'
                  rw [if_neg hcomp']
                  have hnew := prep_new h' hh hs (s.cnt + 1)
                  have hne : ∀ j ∈ U, j ≠ s.fresh := by
                    intro j hj e
                    obtain ⟨r, a, _⟩ := h'.used j hj
                    exact absurd (h'.all j r a).lt (by omega)
                  simp only [set_same]
                  exact (bind_sim hnew hm (hu.congr (fun j hj => set_ne _ _ (hne j hj))) (set_same _ _ _) rfl rfl
                    (fun d' => again d')).congr (fun j hj => set_ne _ _ (hne j hj)) rfl

end Verif.Sql.Cache
