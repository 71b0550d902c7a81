import Verif.Sql.CacheMain

/-! The property of the statement cache. -/

namespace Verif.Sql.Cache
open Verif

variable {E : Env} {α : Type}

/-- The records in use by the queries. -/
def ids : List Ctx → List Nat
  | [] => []
  | c :: st => idOf c ++ ids st

/-- The queries agree. -/
def StackSim (s : St E) : List Ctx → List (SCtx E) → Prop
  | [], [] => True
  | c :: st, x :: xs => c.rest = x.rest ∧ SimS s c.stmt x.stmt ∧ StackSim s st xs
  | _, _ => False

theorem SimS.congr {s s' : St E} {a : Option Nat} {b : Option (SStmt E)} (h : SimS s a b)
    (he : ∀ i, a = some i → s'.recs i = s.recs i) : SimS s' a b := by
  cases a with
  | none => cases b <;> exact h
  | some i =>
    cases b with
    | none => exact h
    | some x => obtain ⟨r, hr, h'⟩ := h; exact ⟨r, by rw [he i rfl]; exact hr, h'⟩

theorem StackSim.congr {s s' : St E} : ∀ {st : List Ctx} {xs : List (SCtx E)}, StackSim s st xs →
    (∀ j ∈ ids st, s'.recs j = s.recs j) → StackSim s' st xs
  | [], [], _, _ => trivial
  | [], _ :: _, h, _ => h.elim
  | _ :: _, [], h, _ => h.elim
  | c :: st, x :: xs, h, he => by
    refine ⟨h.1, h.2.1.congr (fun i hi => he i ?_), h.2.2.congr (fun j hj => he j ?_)⟩
    · exact List.mem_append_left _ (by rw [idOf, hi]; exact List.mem_cons_self)
    · exact List.mem_append_right _ hj

theorem used_of {s : St E} : ∀ {st : List Ctx} {xs : List (SCtx E)}, StackSim s st xs → Used s (ids st) (usedOf xs)
  | [], [], _ => by intro t; simp [ids, usedOf]
  | [], _ :: _, h => h.elim
  | _ :: _, [], h => h.elim
  | c :: st, x :: xs, h => by
    intro t
    have ih := used_of h.2.2 t
    obtain ⟨rest, stmt, nc⟩ := c
    obtain ⟨rest', stmt'⟩ := x
    have hs : SimS s stmt stmt' := h.2.1
    cases stmt with
    | none =>
      cases stmt' with
      | some y => exact hs.elim
      | none => simpa [ids, usedOf, idOf] using ih
    | some i =>
      cases stmt' with
      | none => exact hs.elim
      | some y =>
        obtain ⟨r, hr, hk, _⟩ := hs
        simp only [ids, usedOf, idOf, List.cons_append, List.nil_append, List.mem_cons]
        constructor
        · rintro (e | e)
          · exact ⟨i, Or.inl rfl, r, hr, by rw [hk, e]⟩
          · obtain ⟨j, hj, h'⟩ := ih.1 e
            exact ⟨j, Or.inr hj, h'⟩
        · rintro ⟨j, hj | hj, r', hr', hk'⟩
          · subst hj
            rw [hr] at hr'
            have := Option.some.inj hr'
            subst this
            exact Or.inl (by rw [← hk', hk])
          · exact Or.inr (ih.2 ⟨j, hj, r', hr', hk'⟩)

/-- What the script sees of a run. -/
def seen : Option (α × St E × E.D × List Ctx) → Option (α × E.D) := fun o => o.map fun r => (r.1, r.2.2.1)

theorem run_sim {p : Prog E α} (hp : NoConf p) : ∀ {s : St E} {seq : List Nat} (d : E.D) {st : List Ctx} {xs : List (SCtx E)},
    Inv s seq (ids st) → 0 ≤ s.max → StackSim s st xs → seen (run false p s d st) = specRun p d xs := by
  induction hp with
  | done x => intros; rfl
  | query h ih =>
    intro s seq d st xs hi hm hs
    exact ih d hi hm ⟨rfl, trivial, hs⟩
  | @next vals k h ih =>
    intro s seq d st xs hi hm hs
    cases st with
    | nil =>
      cases xs with
      | cons => exact hs.elim
      | nil => exact ih .brk d hi hm hs
    | cons c st =>
      cases xs with
      | nil => exact hs.elim
      | cons x xs =>
        have key := step_sim vals (c.rest.length + 2) d (U := ids st) hi hm (used_of hs.2.2) hs.1 hs.2.1
        simp only [run, specRun]
        rw [← hs.1]
        unfold StepSim at key
        generalize specStep vals (usedOf xs) (c.rest.length + 2) d x = o at key ⊢
        cases o with
        | none => rw [key]; rfl
        | some v =>
          obtain ⟨d1, sc1, a⟩ := v
          obtain ⟨s1, c1, seq1, e1, e2, e3, e4, e5⟩ := key
          rw [e1]
          have hs1 : StackSim s1 st xs := hs.2.2.congr e4
          have hm1 : 0 ≤ s1.max := by rw [e3]; exact hm
          obtain ⟨s2, seq2, f1, f2, f3, f4⟩ := inv_finalize e2 hm1
          cases a with
          | row y => exact ih (.row y) d1 e2 hm1 ⟨(e5 y rfl).1, (e5 y rfl).2, hs1⟩
          | brk =>
            simp only [f1]
            exact ih .brk d1 f2 (by rw [f3]; exact hm1) (hs1.congr f4)
          | err =>
            simp only [f1]
            exact ih .err d1 f2 (by rw [f3]; exact hm1) (hs1.congr f4)
  | @leave k h ih =>
    intro s seq d st xs hi hm hs
    cases st with
    | nil =>
      cases xs with
      | cons => exact hs.elim
      | nil => exact ih d hi hm hs
    | cons c st =>
      cases xs with
      | nil => exact hs.elim
      | cons x xs =>
        obtain ⟨s2, seq2, f1, f2, f3, f4⟩ := inv_finalize (U := ids st) hi hm
        simp only [run, specRun, f1]
        exact ih d f2 (by rw [f3]; exact hm) (hs.2.2.congr f4)
  | other h ih => intro s seq d st xs hi hm hs; exact ih _ hi hm hs
  | look h ih => intro s seq d st xs hi hm hs; exact ih d d hi hm hs

theorem inv_opened (max : Nat) : Inv (opened max : St E) [] [] :=
  ⟨⟨[], LList.rep_new False⟩, fun n hn => (by cases hn), fun i hi => (by cases hi), fun i r hr => (by cases hr),
    fun k i hi => (by cases hi), List.nodup_nil⟩

/-- **C99.** Every script that only queries, at any depth of callbacks, with any size of the cache, gets
through the cache exactly what it would get if each statement were compiled for its query: the same
rows, errors and contents.  Two things go wrong, and nothing else does: a text that is empty or a comment
where a statement is expected, and the text of a statement that is being executed further out, are a
fault (use of a NULL pointer) - `specRun` gives `none` exactly then (`specStep`).  Missing:
`bindWarn`, and changes of `stmtCacheMax` while the script runs. -/
theorem C99_cache_transparent_partial (max : Nat) (p : Prog E α) (hp : NoConf p) (d : E.D) :
    seen (run false p (opened max) d []) = specRun p d [] :=
  run_sim hp d (inv_opened max) (Int.natCast_nonneg _) trivial

/-- The number of steps allowed to one call of `dbEvalStep` in the model is never reached: more of them
change nothing. -/
theorem spec_fuel (vals : Str → Option E.Val) (used : List Str) : ∀ (f g : Nat) (d : E.D) (c : SCtx E),
    c.rest.length + (if c.stmt.isSome then 2 else 1) ≤ f → f ≤ g →
    specStep vals used f d c = specStep vals used g d c
  | 0, _, _, c, hf, _ => by split at hf <;> omega
  | f + 1, 0, _, _, _, hg => by omega
  | f + 1, g + 1, d, c, hf, hg => by
    have sub : ∀ (rest : Str) (x : SStmt E), rest.length + 1 ≤ f →
        specSub (specStep vals used f) d rest x = specSub (specStep vals used g) d rest x := by
      intro rest x hr
      unfold specSub
      split
      · rfl
      · rfl
      · exact spec_fuel vals used f g _ ⟨rest, none⟩ hr (by omega)
      · rfl
    obtain ⟨rest, stmt⟩ := c
    unfold specStep
    cases stmt with
    | some x => exact sub rest x (by simp at hf ⊢; omega)
    | none =>
      simp only
      by_cases he : rest = []
      · rw [if_pos he, if_pos he]
      · rw [if_neg he, if_neg he]
        by_cases h1 : rest.dropWhile isspace ∈ used ∨ (E.split (rest.dropWhile isspace)).2 = true
        · rw [if_pos h1, if_pos h1]
        · rw [if_neg h1, if_neg h1]
          by_cases h2 : E.compiles d (firstOf E (rest.dropWhile isspace)) = false
          · rw [if_pos h2, if_pos h2]
          · rw [if_neg h2, if_neg h2]
            cases (E.params (firstOf E (rest.dropWhile isspace))).mapM vals with
            | none => rfl
            | some b =>
              refine sub _ _ ?_
              have hpos := E.pos (rest.dropWhile isspace) (by
                cases hx : (E.split (rest.dropWhile isspace)).2 with
                | false => rfl
                | true => exact absurd (Or.inr hx) h1)
              have hle : (rest.dropWhile isspace).length ≤ rest.length := (List.dropWhile_sublist _).length_le
              have : 0 < rest.length := List.length_pos_iff.2 he
              simp only [List.length_drop]
              simp at hf
              omega

theorem C99_steps (vals : Str → Option E.Val) (used : List Str) (d : E.D) (c : SCtx E) (g : Nat) (hg : c.rest.length + 2 ≤ g) :
    specStep vals used (c.rest.length + 2) d c = specStep vals used g d c :=
  spec_fuel vals used _ g d c (by split <;> omega) hg

end Verif.Sql.Cache
