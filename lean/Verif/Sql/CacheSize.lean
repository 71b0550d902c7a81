import Verif.Sql.CacheProps

/-! # How many statements the cache keeps (C100) -/

namespace Verif.Sql.Cache
open Verif Verif.LList

variable {E : Env}

/-- No query running: the list is within the limit, and the count is not too large. -/
def J0 (s : St E) (seq : List Nat) : Prop :=
  (seq.length : Int) ≤ s.max ∧ (s.cnt = seq.length ∨ s.cnt + 1 = seq.length ∧ (seq.length : Int) < s.max)

/-- A statement is being executed. -/
def J1 (s : St E) (seq : List Nat) : Prop :=
  s.cnt = seq.length ∧ (seq.length : Int) < s.max ∨ s.cnt = seq.length + 1 ∧ (seq.length : Int) ≤ s.max

/-- By whether a statement is being executed. -/
def J (s : St E) (seq : List Nat) (stmt : Option Nat) : Prop :=
  match stmt with
  | none => J0 s seq
  | some _ => J1 s seq

theorem J.le {s : St E} {seq : List Nat} {o : Option Nat} (h : J s seq o) : (seq.length : Int) ≤ s.max := by
  cases o with
  | none => exact h.1
  | some _ => rcases h with h | h <;> omega

theorem size_release {s : St E} {seq : List Nat} {i : Nat} (h : Inv s seq [i]) {r : Rec E}
    (hr : s.recs i = some r) (hc : r.cur = E.init) (hm : 0 ≤ s.max) (b : Bool) (hj : J1 s seq) :
    ∃ s' seq', release s i b = some s' ∧ Inv s' seq' [] ∧ s'.max = s.max ∧ J0 s' seq' := by
  unfold release
  by_cases hd : s.max ≤ 0 ∨ b = true
  · rw [if_pos hd]
    obtain ⟨s', a1, a2, a3, a4, a5, a6⟩ := inv_free h
    refine ⟨s', seq, a1, a2, a3, ?_⟩
    unfold J0
    rw [a3, a6]
    rcases hj with ⟨x, y⟩ | ⟨x, y⟩
    · exact ⟨by omega, by omega⟩
    · exact ⟨y, by omega⟩
  · rw [if_neg hd, hr]
    simp only
    obtain ⟨s1, n, e1, e2, e3, e4, e5⟩ := inv_push h hr hc
    rw [e1]
    simp only
    obtain ⟨s2, seq2, f1, f2, f3, f4, f5⟩ := inv_limit (s1.l.num + 2) e2 (by rw [num_eq e2]; omega) (by rw [e3]; exact hm)
      (fun _ => List.cons_ne_nil _ _)
    rw [f1]
    refine ⟨_, seq2, rfl, inv_cnt f2 _, f3.trans e3, ?_⟩
    have hn : (s2.l.num : Int) = seq2.length := by rw [num_eq f2]
    have hmm : s2.max = s.max := f3.trans e3
    refine ⟨?_, Or.inl hn⟩
    show (seq2.length : Int) ≤ s2.max
    rw [hmm]
    rcases f5 with ⟨g1, g2⟩ | g
    · rw [e3, e4] at g1
      rw [g2]
      simp only [List.length_cons]
      rcases hj with ⟨x, y⟩ | ⟨x, y⟩ <;> push_cast <;> omega
    · rw [e3] at g; exact g

/-- `dbReleaseStmt` behind a change of the record. -/
theorem size_setCur {s : St E} {seq : List Nat} {i : Nat} (h : Inv s seq [i]) {r : Rec E}
    (hr : s.recs i = some r) (hm : 0 ≤ s.max) (b : Bool) (hj : J1 s seq) :
    ∃ s' seq', release (setCur s i r r.binds E.init) i b = some s' ∧ Inv s' seq' [] ∧ s'.max = s.max ∧ J0 s' seq' :=
  size_release (inv_setCur h List.mem_cons_self hr (b := r.binds) rfl E.init)
    (r := ⟨r.key, r.nSql, r.binds, E.init, r.el⟩) (set_same _ _ _) rfl hm b hj

theorem size_prep {s : St E} {seq : List Nat} (h : Inv s seq []) (d : E.D) (rest : Str) (hj : J0 s seq)
    {s1 : St E} {i : Nat} {rest' : Str} (e : prepare s d rest = .ok s1 i rest') :
    ∃ seq1, Inv s1 seq1 [i] ∧ s1.max = s.max ∧ J1 s1 seq1 := by
  unfold prepare at e
  simp only at e
  cases hh : s.hash (rest.dropWhile isspace) with
  | some j =>
    rw [hh] at e
    simp only at e
    obtain ⟨r, hr, hk⟩ := h.hash _ j hh
    have ok := h.all j r hr
    have hp : ∃ n ∈ seq, s.nval n = j := by
      rcases ok.place with p | p
      · cases p
      · exact p
    obtain ⟨n, hn, hv⟩ := hp
    obtain ⟨_, r', a, b, c⟩ := h.cached n hn
    rw [hv, hr] at a
    have := Option.some.inj a
    subst this
    obtain ⟨l, e1, e2, e3⟩ := inv_pop h hn
    rw [hr] at e
    simp only [b, e1] at e
    injection e with q1 q2 q3
    subst q1 q2
    have hI := e3 (l.num : Int)
    rw [hv] at hI
    refine ⟨seq.erase n, hI, rfl, Or.inl ⟨by rw [e2], ?_⟩⟩
    have hlen := List.length_erase_of_mem hn
    have hpos : 0 < seq.length := List.length_pos_of_mem hn
    have h1 := hj.1
    show ((seq.erase n).length : Int) < s.max
    omega
  | none =>
    rw [hh] at e
    simp only at e
    cases hs : (E.split (rest.dropWhile isspace)).2 with
    | true => rw [if_pos hs] at e; cases e
    | false =>
      rw [if_neg (by rw [hs]; exact Bool.false_ne_true)] at e
      split at e
      · cases e
      · injection e with q1 q2 q3
        subst q1 q2
        refine ⟨seq, prep_new h hh hs (s.cnt + 1), rfl, ?_⟩
        unfold J1
        show s.cnt + 1 = seq.length ∧ (seq.length : Int) < s.max ∨ s.cnt + 1 = seq.length + 1 ∧ (seq.length : Int) ≤ s.max
        obtain ⟨h1, h2⟩ := hj
        omega

theorem size_sub {s : St E} {seq : List Nat} {i : Nat} {d : E.D} {rest : Str} {nc : Bool}
    (h : Inv s seq [i]) (hm : 0 ≤ s.max) (hj : J1 s seq)
    {again : St E → E.D → Ctx → Option (St E × E.D × Ctx × Ans E.Row)}
    (hagain : ∀ {s2 : St E} {seq2 : List Nat} (d' : E.D), Inv s2 seq2 [] → s2.max = s.max → J0 s2 seq2 →
      ∀ {s1 d1 c1 a}, again s2 d' ⟨rest, none, nc⟩ = some (s1, d1, c1, a) →
      ∃ seq1, Inv s1 seq1 (idOf c1) ∧ s1.max = s.max ∧ J s1 seq1 c1.stmt)
    {s1 d1 c1 a} (e : stepSub again nc s d rest i = some (s1, d1, c1, a)) :
    ∃ seq1, Inv s1 seq1 (idOf c1) ∧ s1.max = s.max ∧ J s1 seq1 c1.stmt := by
  obtain ⟨r, hr, _⟩ := h.used i List.mem_cons_self
  unfold stepSub at e
  rw [hr] at e
  simp only at e
  have key : ∀ cu, Inv (setCur s i r r.binds cu) seq [i] := fun cu => inv_setCur h List.mem_cons_self hr rfl cu
  split at e
  · cases e; exact ⟨seq, key _, rfl, hj⟩
  · cases e; exact ⟨seq, key _, rfl, hj⟩
  · obtain ⟨s2, seq2, f1, f2, f3, f4⟩ := size_setCur h hr hm nc hj
    rw [f1] at e
    exact hagain _ f2 f3 f4 e
  · obtain ⟨s2, seq2, f1, f2, f3, f4⟩ := size_setCur h hr hm true hj
    rw [f1] at e
    cases e
    exact ⟨seq2, f2, f3, f4⟩

theorem size_step (warn : Bool) (vals : Str → Option E.Val) : ∀ (fuel : Nat) {s : St E} {seq : List Nat} (d : E.D) {c : Ctx},
    Inv s seq (idOf c) → 0 ≤ s.max → J s seq c.stmt → ∀ {s1 d1 c1 a}, evalStep warn vals fuel s d c = some (s1, d1, c1, a) →
    ∃ seq1, Inv s1 seq1 (idOf c1) ∧ s1.max = s.max ∧ J s1 seq1 c1.stmt
  | 0, _, _, _, _, _, _, _, _, _, _, _, e => by cases e
  | fuel + 1, s, seq, d, c, h, hm, hj, s1, d1, c1, a, e => by
    have again : ∀ {rest : Str} {nc : Bool} {s2 : St E} {seq2 : List Nat} (d' : E.D), Inv s2 seq2 [] → s2.max = s.max → J0 s2 seq2 →
        ∀ {s1 d1 c1 a}, evalStep warn vals fuel s2 d' ⟨rest, none, nc⟩ = some (s1, d1, c1, a) →
        ∃ seq1, Inv s1 seq1 (idOf c1) ∧ s1.max = s.max ∧ J s1 seq1 c1.stmt := by
      intro rest nc s2 seq2 d' h2 hm2 hj2 s1 d1 c1 a e
      obtain ⟨q, x, y, z⟩ := size_step warn vals fuel d' (c := ⟨rest, none, nc⟩) h2 (by rw [hm2]; exact hm) hj2 e
      exact ⟨q, x, y.trans hm2, z⟩
    obtain ⟨rest, stmt, nc⟩ := c
    unfold evalStep at e
    cases stmt with
    | some i => exact size_sub h hm hj (fun d' => again d') e
    | none =>
      simp only at e
      split at e
      · cases e; exact ⟨seq, h, rfl, hj⟩
      · cases hp : prepare s d rest with
        | fault => rw [hp] at e; cases e
        | err => rw [hp] at e; cases e; exact ⟨seq, h, rfl, hj⟩
        | ok s2 i rest' =>
          rw [hp] at e
          simp only at e
          obtain ⟨seq2, f1, f2, f3⟩ := size_prep h d rest hj hp
          obtain ⟨r, hr, _⟩ := f1.used i List.mem_cons_self
          rw [hr] at e
          simp only at e
          cases hb : bindAll warn vals (E.params (r.key.take r.nSql)) r.binds with
          | none => rw [hb] at e; cases e; exact ⟨seq2, f1, f2, f3⟩
          | some b =>
            rw [hb] at e
            simp only at e
            have hbl : b.length = r.binds.length := by
              have ok := f1.all i r hr
              have := bindAll_length hb
              rw [ok.len]; exact this
            obtain ⟨q, x, y, z⟩ := size_sub (inv_setCur f1 List.mem_cons_self hr hbl r.cur) (by show 0 ≤ s2.max; rw [f2]; exact hm) f3
              (fun d' h2 hm2 hj2 => by
                intro s1 d1 c1 a e
                obtain ⟨q, x, y, z⟩ := again d' h2 (hm2.trans f2) hj2 e
                exact ⟨q, x, y.trans f2.symm, z⟩) e
            exact ⟨q, x, y.trans f2, z⟩

/-- A script without queries inside the callback of another query, and without a change of `stmtCacheMax`;
the flag says whether a query is running. -/
inductive Flat {α : Type} : Bool → Prog E α → Prop
  | done (o : Bool) (x : α) : Flat o (.done x)
  | query {sql nc k} (h : Flat true k) : Flat false (.query sql nc k)
  | next {vals} {k : Ans E.Row → Prog E α} (h : ∀ r, Flat true (k (.row r))) (h1 : Flat false (k .brk)) (h2 : Flat false (k .err)) :
      Flat true (.next vals k)
  | leave {k} (h : Flat false k) : Flat true (.leave k)
  | other {o f k} (h : Flat o k) : Flat o (.other f k)
  | look {o} {k : E.D → Prog E α} (h : ∀ d, Flat o (k d)) : Flat o (.look k)

/-- The stack of queries of such a script. -/
def StackOk (s : St E) (seq : List Nat) : Bool → List Ctx → Prop
  | false, st => st = [] ∧ Inv s seq [] ∧ J0 s seq
  | true, st => ∃ c, st = [c] ∧ Inv s seq (idOf c) ∧ J s seq c.stmt

theorem size_finalize {s : St E} {seq : List Nat} {c : Ctx} (h : Inv s seq (idOf c)) (hm : 0 ≤ s.max) (hj : J s seq c.stmt)
    {s2 : St E} (e : finalize s c = some s2) : ∃ seq2, Inv s2 seq2 [] ∧ s2.max = s.max ∧ J0 s2 seq2 := by
  obtain ⟨rest, stmt, nc⟩ := c
  unfold finalize at e
  cases stmt with
  | none => cases e; exact ⟨seq, h, rfl, hj⟩
  | some i =>
    have h' : Inv s seq [i] := h
    obtain ⟨r, hr, _⟩ := h'.used i List.mem_cons_self
    simp only [hr] at e
    obtain ⟨s', seq', a, b, c, d⟩ := size_setCur h' hr hm nc hj
    rw [a] at e
    cases e
    exact ⟨seq', b, c, d⟩

theorem size_run (warn : Bool) {α : Type} {o : Bool} {p : Prog E α} (hp : Flat o p) : ∀ {s : St E} {seq : List Nat} (d : E.D) {st : List Ctx},
    StackOk s seq o st → 0 ≤ s.max → ∀ {x s' d' st'}, run warn p s d st = some (x, s', d', st') →
    ∃ seq' o', StackOk s' seq' o' st' ∧ s'.max = s.max := by
  induction hp with
  | done o x => intro s seq d st h hm x s' d' st' e; cases e; exact ⟨seq, o, h, rfl⟩
  | @query sql nc k h ih =>
    intro s seq d st hs hm x s' d' st' e
    obtain ⟨rfl, h1, h2⟩ := hs
    exact ih d (st := [⟨sql, none, nc⟩]) ⟨⟨sql, none, nc⟩, rfl, h1, h2⟩ hm e
  | @next vals k h h1 h2 ih ih1 ih2 =>
    intro s seq d st hs hm x s' d' st' e
    obtain ⟨c, rfl, hI, hJ⟩ := hs
    unfold run at e
    cases he : evalStep warn vals (c.rest.length + 2) s d c with
    | none => rw [he] at e; cases e
    | some v =>
      obtain ⟨s1, d1, c1, a⟩ := v
      rw [he] at e
      obtain ⟨seq1, g1, g2, g3⟩ := size_step warn vals _ d hI hm hJ he
      have hm1 : 0 ≤ s1.max := by rw [g2]; exact hm
      have fin : ∀ s2, finalize s1 c1 = some s2 → ∃ seq2, StackOk s2 seq2 false [] ∧ s2.max = s.max := by
        intro s2 ef
        obtain ⟨seq2, x1, x2, x3⟩ := size_finalize g1 hm1 g3 ef
        exact ⟨seq2, ⟨rfl, x1, x3⟩, x2.trans g2⟩
      cases a with
      | row y =>
        obtain ⟨q, o', z1, z2⟩ := ih y d1 ⟨c1, rfl, g1, g3⟩ hm1 e
        exact ⟨q, o', z1, z2.trans g2⟩
      | brk =>
        simp only at e
        cases ef : finalize s1 c1 with
        | none => rw [ef] at e; cases e
        | some s2 =>
          rw [ef] at e
          obtain ⟨seq2, x1, x2⟩ := fin s2 ef
          obtain ⟨q, o', z1, z2⟩ := ih1 d1 x1 (by rw [x2]; exact hm) e
          exact ⟨q, o', z1, z2.trans x2⟩
      | err =>
        simp only at e
        cases ef : finalize s1 c1 with
        | none => rw [ef] at e; cases e
        | some s2 =>
          rw [ef] at e
          obtain ⟨seq2, x1, x2⟩ := fin s2 ef
          obtain ⟨q, o', z1, z2⟩ := ih2 d1 x1 (by rw [x2]; exact hm) e
          exact ⟨q, o', z1, z2.trans x2⟩
  | @leave k h ih =>
    intro s seq d st hs hm x s' d' st' e
    obtain ⟨c, rfl, hI, hJ⟩ := hs
    unfold run at e
    cases ef : finalize s c with
    | none => rw [ef] at e; cases e
    | some s2 =>
      rw [ef] at e
      obtain ⟨seq2, x1, x2, x3⟩ := size_finalize hI hm hJ ef
      obtain ⟨q, o', z1, z2⟩ := ih d ⟨rfl, x1, x3⟩ (by rw [x2]; exact hm) e
      exact ⟨q, o', z1, z2.trans x2⟩
  | other h ih => intro s seq d st hs hm x s' d' st' e; exact ih _ hs hm e
  | look h ih => intro s seq d st hs hm x s' d' st' e; exact ih d d hs hm e

/-- Statements of the cache that are not being executed. -/
def kept (s : St E) : Nat := s.l.num

/-- **C100.** However many queries a script makes one after another, and whichever of them fail, the cache
keeps at most `stmtCacheMax` compiled statements, and when no query is running `stmtCacheCnt` is at most
that too.  Missing: queries inside callbacks of others, and a change of `stmtCacheMax`, both of which
break the limit (`C100_nested_refuted`, `C100_conf_refuted`). -/
theorem C100_size_partial (warn : Bool) (max : Nat) {α : Type} (p : Prog E α) (hp : Flat false p) (d : E.D)
    {x : α} {s : St E} {d' : E.D} {st : List Ctx} (e : run warn p (opened max) d [] = some (x, s, d', st)) :
    kept s ≤ max ∧ (st = [] → s.cnt ≤ max) := by
  obtain ⟨seq, o, h, hm⟩ := size_run warn hp d (seq := []) ⟨rfl, inv_opened max, Int.natCast_nonneg _, Or.inl rfl⟩ (Int.natCast_nonneg _) e
  have hmax : s.max = max := hm
  have key : ∀ {U : List Nat}, Inv s seq U → (seq.length : Int) ≤ s.max → kept s ≤ max := by
    intro U hI hl
    rw [kept, num_eq hI]
    rw [hmax] at hl
    omega
  cases o with
  | false =>
    obtain ⟨h1, h2, h3⟩ := h
    refine ⟨key h2 h3.1, fun _ => ?_⟩
    have := h3.1
    have := h3.2
    omega
  | true =>
    obtain ⟨c, h1, h2, h3⟩ := h
    exact ⟨key h2 h3.le, fun hst => by rw [h1] at hst; cases hst⟩

end Verif.Sql.Cache
