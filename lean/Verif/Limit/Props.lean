import Verif.Limit.Model

/-!
C145 (the cap on instructions), C146 (exit), C148 (the depth of calls).
-/

namespace Verif.Limit

variable {σ φ : Type}

/-- Number of instructions executed. -/
def runs (t : List Ev) : Nat := t.countP fun e => match e with | .run _ => true | _ => false

/-- Has the script been ended by exit() or the cap? -/
def ends (t : List Ev) : Bool := t.any fun e => e = .exit || e = .cap

/-- Nothing is executed behind exit() or the cap. -/
def Quiet (t : List Ev) : Prop := ∀ t1 e t2, t = t1 ++ e :: t2 → e = .exit ∨ e = .cap → runs t2 = 0

@[simp] theorem runs_nil : runs [] = 0 := rfl
@[simp] theorem runs_append (a b : List Ev) : runs (a ++ b) = runs a + runs b := by simp [runs]
@[simp] theorem runs_run (d : Nat) (t : List Ev) : runs (.run d :: t) = runs t + 1 := by simp [runs]
@[simp] theorem runs_exit (t : List Ev) : runs (.exit :: t) = runs t := by simp [runs]
@[simp] theorem runs_intr (t : List Ev) : runs (.intr :: t) = runs t := by simp [runs]
@[simp] theorem runs_cap (t : List Ev) : runs (.cap :: t) = runs t := by simp [runs]
@[simp] theorem ends_append (a b : List Ev) : ends (a ++ b) = (ends a || ends b) := by simp [ends]

/-- What holds of everything that happens between two states. -/
structure Good (d : Nat) (c c' : Ctl) (t : List Ev) : Prop where
  ex : c'.exited = (c.exited || ends t)
  lvl : c'.level = c.level
  dep : c'.maxDepth = c.maxDepth
  still : c.exited = true → runs t = 0
  cnt : c'.exited = false → c'.maxOpCnt = c.maxOpCnt ∧ c'.opCnt = c.opCnt + runs t
  bound : 0 < c.maxOpCnt → c.opCnt + runs t ≤ max c.maxOpCnt c.opCnt
  quiet : Quiet t
  deep : c.level = d → (0 < c.maxDepth → d ≤ c.maxDepth) →
    ∀ k, .run k ∈ t → d ≤ k ∧ (0 < c.maxDepth → k ≤ c.maxDepth)

theorem quiet_nil : Quiet [] := by
  intro t1 e t2 h
  simp at h

theorem quiet_append {a b : List Ev} (ha : Quiet a) (hb : Quiet b) (h : ends a = true → runs b = 0) :
    Quiet (a ++ b) := by
  intro t1 e t2 h1 he
  rcases List.append_eq_append_iff.mp h1 with ⟨q, rfl, h2⟩ | ⟨q, rfl, h2⟩
  · exact hb q e t2 h2 he
  · cases q with
    | nil => exact hb [] e t2 (by simpa using h2.symm) he
    | cons e' q =>
      simp only [List.cons_append, List.cons.injEq] at h2
      obtain ⟨rfl, rfl⟩ := h2
      have e1 := ha t1 e q rfl he
      have : ends (t1 ++ e :: q) = true := by
        rcases he with rfl | rfl <;> simp [ends]
      rw [runs_append, e1, h this]

theorem quiet_one (e : Ev) : Quiet [e] := by
  intro t1 e' t2 h _
  cases t1 with
  | nil => simp only [List.nil_append, List.cons.injEq] at h; rw [← h.2]; rfl
  | cons x t1 => simp at h

theorem Good.refl (d : Nat) (c : Ctl) : Good d c c [] :=
  ⟨by simp [ends], rfl, rfl, fun _ => rfl, fun _ => ⟨rfl, rfl⟩, fun _ => Nat.le_max_right _ _, quiet_nil, by simp⟩

theorem Good.trans {d : Nat} {c c1 c2 : Ctl} {t1 t2 : List Ev} (a : Good d c c1 t1) (b : Good d c1 c2 t2) :
    Good d c c2 (t1 ++ t2) := by
  have hs : c1.exited = true → runs t2 = 0 := b.still
  refine ⟨by rw [b.ex, a.ex, ends_append, Bool.or_assoc], by rw [b.lvl, a.lvl], by rw [b.dep, a.dep], ?_, ?_, ?_, ?_, ?_⟩
  · intro h
    have : c1.exited = true := by rw [a.ex, h]; rfl
    rw [runs_append, a.still h, hs this]
  · intro h
    have h1 : c1.exited = false := by
      have := b.ex
      rw [h] at this
      cases e : c1.exited with
      | false => rfl
      | true => rw [e] at this; simp at this
    rw [runs_append, (b.cnt h).1, (b.cnt h).2, (a.cnt h1).1, (a.cnt h1).2]
    exact ⟨rfl, by omega⟩
  · intro h
    rw [runs_append]
    cases e : c1.exited with
    | true => have := a.bound h; rw [hs e]; omega
    | false =>
      have h1 := a.cnt e
      have h2 := b.bound (by rw [h1.1]; exact h)
      have h3 := a.bound h
      rw [h1.1, h1.2] at h2
      omega
  · exact quiet_append a.quiet b.quiet fun h => hs (by rw [a.ex, h]; simp)
  · intro hl hd k hk
    rcases List.mem_append.mp hk with h | h
    · exact a.deep hl hd k h
    · have := b.deep (by rw [a.lvl, hl]) (by rw [a.dep]; exact hd) k h
      rw [a.dep] at this
      exact this

theorem good_exit (d : Nat) (c : Ctl) : Good d c { c with exited := true } [.exit] :=
  ⟨by simp [ends], rfl, rfl, fun _ => rfl, fun h => (by simp at h), fun _ => (by simp [runs]; omega), quiet_one _,
    by simp⟩

theorem good_intr (d : Nat) (c : Ctl) (k : Nat) : Good d c { c with interrupted := k } [] :=
  ⟨by simp [ends], rfl, rfl, fun _ => rfl, fun _ => ⟨rfl, rfl⟩, fun _ => (by simp [runs]; omega), quiet_nil, by simp⟩

theorem good_intr1 (d : Nat) (c : Ctl) (k : Nat) : Good d c { c with interrupted := k } [.intr] :=
  ⟨by simp [ends], rfl, rfl, fun _ => rfl, fun _ => ⟨rfl, rfl⟩, fun _ => (by simp [runs]; omega), quiet_one _, by simp⟩

theorem good_body {d : Nat} {ev : Ctl → σ → φ → Option (Result σ)}
    (hev : ∀ c s g r, ev c s g = some r → Good d c r.2.1 r.2.2.2) :
    ∀ (b : Body σ φ) (c : Ctl) r, runBody ev b c = some r → Good d c r.2.1 r.2.2.2
  | .done f s, c, r, h => by
    simp only [runBody, Option.some.injEq] at h
    subst h; exact Good.refl d c
  | .exit k, c, r, h => by
    simp only [runBody] at h
    cases e : runBody ev k { c with exited := true } with
    | none => rw [e] at h; simp at h
    | some q =>
      rw [e] at h
      simp only [Option.some.injEq] at h
      subst h
      exact (good_exit d c).trans (good_body hev k _ q e)
  | .intr k, c, r, h => by
    simp only [runBody] at h
    cases e : runBody ev k { c with interrupted := 1 } with
    | none => rw [e] at h; simp at h
    | some q =>
      rw [e] at h
      simp only [Option.some.injEq] at h
      subst h
      exact (good_intr1 d c 1).trans (good_body hev k _ q e)
  | .call s g k, c, r, h => by
    simp only [runBody] at h
    cases e : ev c s g with
    | none => rw [e] at h; simp at h
    | some q =>
      obtain ⟨rc, c1, s1, t1⟩ := q
      rw [e] at h
      simp only at h
      cases e2 : runBody ev (k rc s1) c1 with
      | none => rw [e2] at h; simp at h
      | some q =>
        rw [e2] at h
        simp only [Option.some.injEq] at h
        subst h
        exact (hev _ _ _ _ e).trans (good_body hev (k rc s1) c1 q e2)

theorem good_call {d : Nat} {lp : Ctl → σ → Frame φ → Option (Result σ)}
    (hlp : ∀ c s f r, lp c s f = some r → Good (d + 1) c r.2.1 r.2.2.2) (c : Ctl) (s : σ) (g : φ) (r : Result σ)
    (h : call lp c s g = some r) : Good d c r.2.1 r.2.2.2 := by
  unfold call at h
  split at h
  · simp only [Option.some.injEq] at h; subst h; exact Good.refl d c
  split at h
  · simp only [Option.some.injEq] at h; subst h; exact Good.refl d c
  rename_i hd
  cases e : lp { c with level := c.level + 1 } s ⟨0, g⟩ with
  | none => rw [e] at h; simp [ret] at h
  | some q =>
    rw [e] at h
    simp only [ret, Option.some.injEq] at h
    subst h
    have i := hlp _ _ _ _ e
    refine ⟨i.ex, ?_, i.dep, i.still, i.cnt, i.bound, i.quiet, ?_⟩
    · have := i.lvl
      show q.2.1.level - 1 = c.level
      rw [this]; rfl
    · intro hl hm k hk
      have := i.deep (by simp only; omega) (by simp only; omega) k hk
      simp only at this
      exact ⟨by omega, this.2⟩

theorem good_run {d : Nat} {c c' : Ctl} {t : List Ev} (h1 : c.exited = false) (h2 : ¬ (0 < c.maxOpCnt ∧ c.maxOpCnt < c.opCnt + 1))
    (g : Good d { c with opCnt := c.opCnt + 1 } c' t) : Good d c c' (.run d :: t) := by
  obtain ⟨a1, a2, a3, a4, a5, a6, a7, a8⟩ := g
  simp only at a1 a2 a3 a4 a5 a6 a8
  refine ⟨by rw [a1]; simp [ends], a2, a3, by rw [h1]; simp, ?_, ?_, ?_, ?_⟩
  · intro h
    have := a5 h
    rw [runs_run]; exact ⟨this.1, by omega⟩
  · intro h
    have := a6 h
    rw [runs_run]; omega
  · exact quiet_append (a := [.run d]) (quiet_one _) a7 (by simp [ends])
  · intro hl hm k hk
    rcases List.mem_cons.mp hk with h | h
    · simp only [Ev.run.injEq] at h; subst h; exact ⟨Nat.le_refl _, hm⟩
    · exact a8 hl hm k h

theorem good_pre {d : Nat} {c c1 : Ctl} {t : List Ev} {x : Option (Result σ)} {r : Result σ} (g : Good d c c1 t)
    (hx : ∀ r, x = some r → Good d c1 r.2.1 r.2.2.2) (h : pre t x = some r) : Good d c r.2.1 r.2.2.2 := by
  cases x with
  | none => simp [pre] at h
  | some q =>
    simp only [pre, Option.some.injEq] at h
    subst h
    exact g.trans (hx q rfl)

theorem good_loop (M : Machine σ φ) : ∀ (n base d : Nat) (c : Ctl) (s : σ) (f : Frame φ) (r : Result σ),
    loop M n base d c s f = some r → Good d c r.2.1 r.2.2.2
  | 0, _, _, _, _, _, r, h => by simp [loop] at h
  | n + 1, base, d, c, s, f, r, h => by
    rw [loop] at h
    cases ho : M.op s f with
    | none => rw [ho] at h; simp only [Option.some.injEq] at h; subst h; exact Good.refl d c
    | some b =>
      rw [ho] at h
      simp only at h
      split at h
      · split at h
        · simp only [Option.some.injEq] at h; subst h; exact good_intr d c _
        · simp only [Option.some.injEq] at h; subst h; exact good_intr d c _
      split at h
      · simp only [Option.some.injEq] at h; subst h; exact Good.refl d c
      rename_i hx
      split at h
      · simp only [Option.some.injEq] at h; subst h
        refine ⟨by simp [ends], rfl, rfl, fun _ => rfl, fun h => (by simp at h), fun _ => (by simp [runs]; omega),
          quiet_one _, by simp⟩
      rename_i hc
      simp only [Bool.not_eq_true] at hx
      cases hr : runBody (call (loop M n (base + f.tries) (d + 1))) b { c with opCnt := c.opCnt + 1 } with
      | none => rw [hr] at h; simp at h
      | some q =>
        have g := good_run hx hc (good_body (fun c s g r => good_call (good_loop M n (base + f.tries) (d + 1)) c s g r)
          b _ q hr)
        rw [hr] at h
        obtain ⟨fi, c', s', t⟩ := q
        cases fi with
        | next f' => exact good_pre g (good_loop M n base d c' s' f') h
        | leave rc => simp only [Option.some.injEq] at h; subst h; exact g
        | fail v =>
          simp only at h
          split at h
          · simp only [Option.some.injEq] at h; subst h; exact g
          split at h
          · simp only [Option.some.injEq] at h; subst h; exact g
          cases hh : M.handle s' ⟨f.tries, v⟩ with
          | none => rw [hh] at h; simp only [Option.some.injEq] at h; subst h; exact g
          | some q => rw [hh] at h; exact good_pre g (good_loop M n base d c' q.2 q.1) h

theorem good_start (M : Machine σ φ) (n N D : Nat) (s : σ) (g : φ) (r : Result σ) (h : start M n N D s g = some r) :
    Good 0 ⟨0, N, false, 0, 0, D⟩ r.2.1 r.2.2.2 :=
  good_call (good_loop M n 0 1) _ s g r h

/-- C145: with a cap of N > 0 at most N instructions are executed, whatever the script and the native functions do,
exceptions included. -/
theorem C145_cap (M : Machine σ φ) (n N D : Nat) (hN : 0 < N) (s : σ) (g : φ) (rc : RC) (c : Ctl) (s' : σ)
    (t : List Ev) (h : start M n N D s g = some (rc, c, s', t)) : runs t ≤ N := by
  have := (good_start M n N D s g _ h).bound hN
  simp only at this
  omega

/-- C146: nothing is executed behind exit() or the cap, in particular no catch or finally, and the script fails. -/
theorem C146_exit (M : Machine σ φ) (n N D : Nat) (s : σ) (g : φ) (rc : RC) (c : Ctl) (s' : σ) (t1 t2 : List Ev)
    (e : Ev) (he : e = .exit ∨ e = .cap) (h : start M n N D s g = some (rc, c, s', t1 ++ e :: t2)) :
    (∀ k, .run k ∉ t2) ∧ rc = .error := by
  have g := good_start M n N D s g _ h
  constructor
  · intro k hk
    have := g.quiet t1 e t2 rfl he
    unfold runs at this
    rw [List.countP_eq_zero] at this
    exact this _ hk rfl
  · have hx : c.exited = true := by
      have := g.ex
      simp only at this
      rw [this]
      rcases he with rfl | rfl <;> simp [ends]
    unfold start call at h
    simp only [Bool.false_eq_true, if_false] at h
    split at h
    · simp only [Option.some.injEq, Prod.mk.injEq] at h; exact h.1.symm
    · generalize loop M n 0 1 _ s _ = q at h
      cases q with
      | none => simp [ret] at h
      | some q =>
        simp only [ret, Option.some.injEq, Prod.mk.injEq] at h
        obtain ⟨h1, rfl, _⟩ := h
        simp only at hx
        rw [hx] at h1
        exact h1.symm

/-- C148: with maxDepth D > 0 no instruction is executed at a depth of more than D calls. -/
theorem C148_depth (M : Machine σ φ) (n N D : Nat) (hD : 0 < D) (s : σ) (g : φ) (rc : RC) (c : Ctl) (s' : σ)
    (t : List Ev) (h : start M n N D s g = some (rc, c, s', t)) : ∀ k, .run k ∈ t → k ≤ D := by
  intro k hk
  exact (((good_start M n N D s g _ h).deep rfl (fun _ => Nat.zero_le _)) k hk).2 hD

/-! ### Termination -/

/-- How much is left to do. -/
def rem (c : Ctl) : Nat := if c.exited then 0 else c.maxOpCnt + 1 - c.opCnt

theorem rem_le {d : Nat} {c c' : Ctl} {t : List Ev} (g : Good d c c' t) : rem c' ≤ rem c := by
  unfold rem
  cases e : c'.exited with
  | true => simp
  | false =>
    have := g.cnt e
    have h2 : c.exited = false := by
      have := g.ex
      rw [e] at this
      cases h : c.exited with
      | false => rfl
      | true => rw [h] at this; simp at this
    simp only [h2, Bool.false_eq_true, if_false]
    omega

theorem pos_of {d : Nat} {c c' : Ctl} {t : List Ev} (g : Good d c c' t) (h : c'.exited = true ∨ 0 < c.maxOpCnt) :
    c'.exited = true ∨ 0 < c'.maxOpCnt := by
  cases e : c'.exited with
  | true => exact .inl rfl
  | false => rw [(g.cnt e).1]; rw [e] at h; exact .inr (by simpa using h)

theorem some_body {d k : Nat} {ev : Ctl → σ → φ → Option (Result σ)}
    (hev : ∀ c s g, (c.exited = true ∨ 0 < c.maxOpCnt) → rem c ≤ k → (ev c s g).isSome)
    (hg : ∀ c s g r, ev c s g = some r → Good d c r.2.1 r.2.2.2) :
    ∀ (b : Body σ φ) (c : Ctl), (c.exited = true ∨ 0 < c.maxOpCnt) → rem c ≤ k → (runBody ev b c).isSome
  | .done f s, c, _, _ => rfl
  | .exit b, c, hp, hk => by
    have := some_body hev hg b { c with exited := true } (.inl rfl) (by simp [rem])
    simp only [runBody]
    generalize runBody ev b _ = q at this
    cases q with
    | none => simp at this
    | some q => rfl
  | .intr b, c, hp, hk => by
    have := some_body hev hg b { c with interrupted := 1 } hp hk
    simp only [runBody]
    generalize runBody ev b _ = q at this
    cases q with
    | none => simp at this
    | some q => rfl
  | .call s g kk, c, hp, hk => by
    have h1 := hev c s g hp hk
    simp only [runBody]
    cases e : ev c s g with
    | none => rw [e] at h1; simp at h1
    | some q =>
      have gg := hg _ _ _ _ e
      obtain ⟨rc, c1, s1, t1⟩ := q
      have := some_body hev hg (kk rc s1) c1 (pos_of gg (by
        rcases hp with h | h
        · exact .inl (by rw [gg.ex, h]; rfl)
        · exact .inr h)) (Nat.le_trans (rem_le gg) hk)
      simp only
      generalize runBody ev (kk rc s1) c1 = q at this
      cases q with
      | none => simp at this
      | some q => rfl

theorem some_loop (M : Machine σ φ) : ∀ (n base d : Nat) (c : Ctl) (s : σ) (f : Frame φ),
    (c.exited = true ∨ 0 < c.maxOpCnt) → rem c + 1 ≤ n → (loop M n base d c s f).isSome
  | 0, _, _, _, _, _, _, h => by omega
  | n + 1, base, d, c, s, f, hp, hk => by
    rw [loop]
    cases ho : M.op s f with
    | none => rfl
    | some b =>
      simp only
      split
      · split <;> rfl
      split
      · rfl
      rename_i hx
      split
      · rfl
      rename_i hc
      simp only [Bool.not_eq_true] at hx
      have hN : 0 < c.maxOpCnt := by rw [hx] at hp; simpa using hp
      have hrem : rem { c with opCnt := c.opCnt + 1 } + 1 ≤ n := by
        simp only [rem, hx, Bool.false_eq_true, if_false] at hk ⊢
        omega
      have hgood : ∀ c s g r, call (loop M n (base + f.tries) (d + 1)) c s g = some r → Good d c r.2.1 r.2.2.2 :=
        fun c s g r => good_call (good_loop M n (base + f.tries) (d + 1)) c s g r
      have hb := some_body (d := d) (k := n - 1) (ev := call (loop M n (base + f.tries) (d + 1))) (fun c s g hp hk => by
          unfold call
          split
          · rfl
          split
          · rfl
          have := some_loop M n (base + f.tries) (d + 1) { c with level := c.level + 1 } s ⟨0, g⟩ hp (by
            have : rem { c with level := c.level + 1 } = rem c := rfl
            omega)
          generalize loop M n _ _ _ s _ = q at this
          cases q with
          | none => simp at this
          | some q => rfl) hgood b { c with opCnt := c.opCnt + 1 } (.inr hN) (by omega)
      cases hr : runBody (call (loop M n (base + f.tries) (d + 1))) b { c with opCnt := c.opCnt + 1 } with
      | none => rw [hr] at hb; simp at hb
      | some q =>
        have g := good_body hgood b _ q hr
        obtain ⟨fi, c', s', t⟩ := q
        have hc' := pos_of g (.inr hN)
        have hl := rem_le g
        simp only at hc' hl
        cases fi with
        | next f' =>
          have := some_loop M n base d c' s' f' hc' (by omega)
          simp only
          generalize loop M n base d c' s' f' = q at this
          cases q with
          | none => simp at this
          | some q => rfl
        | leave rc => rfl
        | fail v =>
          simp only
          split
          · rfl
          split
          · rfl
          cases hh : M.handle s' ⟨f.tries, v⟩ with
          | none => rfl
          | some q =>
            have := some_loop M n base d c' q.2 q.1 hc' (by omega)
            simp only
            generalize loop M n base d c' q.2 q.1 = q at this
            cases q with
            | none => simp at this
            | some q => rfl

/-- C145: with a cap every script ends, if its native functions do (they are finite trees of calls). -/
theorem C145_ends (M : Machine σ φ) (N D : Nat) (hN : 0 < N) (s : σ) (g : φ) :
    ∀ n, N + 2 ≤ n → (start M n N D s g).isSome := by
  intro n hn
  unfold start call
  simp only [Bool.false_eq_true, if_false]
  split
  · rfl
  have := some_loop M n 0 1 ⟨0, N, false, 0, 0 + 1, D⟩ s ⟨0, g⟩ (.inr hN) (by
    simp only [rem, Bool.false_eq_true, if_false]; omega)
  generalize loop M n 0 1 _ s _ = q at this
  cases q with
  | none => simp at this
  | some q => rfl

end Verif.Limit
