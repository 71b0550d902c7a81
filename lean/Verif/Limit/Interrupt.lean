import Verif.Limit.Props

/-!
C147 (an interruption cannot be caught), C149 (the number of objects made with `new`), and examples.
-/

namespace Verif.Limit

variable {σ φ : Type}

/-- The native functions hand errors of the functions they call on. -/
inductive Strict : Body σ φ → Prop where
  | done (f : Fin φ) (s : σ) : Strict (.done f s)
  | exit {k : Body σ φ} : Strict k → Strict (.exit k)
  | intr {k : Body σ φ} : Strict k → Strict (.intr k)
  | call {s : σ} {g : φ} {k : RC → σ → Body σ φ} : (∀ s', ∃ v s'', k .error s' = .done (.fail v) s'') →
      (∀ rc s', Strict (k rc s')) → Strict (.call s g k)

/-- Nothing is executed behind an interruption; if `p`, nothing at all. -/
structure Hush (p : Prop) (t : List Ev) : Prop where
  none : p → runs t = 0
  after : ∀ t1 t2, t = t1 ++ .intr :: t2 → runs t2 = 0

theorem hush_append {p q : Prop} {a b : List Ev} (ha : Hush p a) (hb : Hush q b) (h : p ∨ .intr ∈ a → q) :
    Hush p (a ++ b) := by
  refine ⟨fun hp => by rw [runs_append, ha.none hp, hb.none (h (.inl hp))], fun t1 t2 h1 => ?_⟩
  rcases List.append_eq_append_iff.mp h1 with ⟨r, rfl, h2⟩ | ⟨r, rfl, h2⟩
  · exact hb.after r t2 h2
  · cases r with
    | nil => exact hb.after [] t2 (by simpa using h2.symm)
    | cons e r =>
      simp only [List.cons_append, List.cons.injEq] at h2
      obtain ⟨rfl, rfl⟩ := h2
      rw [runs_append, ha.after t1 r rfl, hb.none (h (.inr (by simp)))]

theorem hush_nil (p : Prop) : Hush p [] := ⟨fun _ => rfl, fun t1 t2 h => by simp at h⟩

theorem hush_calm {p : Prop} {t : List Ev} (hp : ¬ p) (h : .intr ∉ t) : Hush p t :=
  ⟨fun a => absurd a hp, fun t1 t2 e => by rw [e] at h; simp at h⟩

/-- What can happen between two states, below `b` active tries: no interruption; an interruption that is still to be
seen; or one that has been seen, which made everything fail. -/
inductive Seg (b : Nat) (failed : Prop) (c c' : Ctl) (t : List Ev) : Prop where
  | calm : c.interrupted = 0 → c'.interrupted = 0 → .intr ∉ t → Seg b failed c c' t
  | pend : 0 < c'.interrupted → Hush (0 < c.interrupted) t → Seg b failed c c' t
  | clear : c'.interrupted = 0 → failed → b = 0 → Hush (0 < c.interrupted) t → Seg b failed c c' t

theorem Seg.hush {b : Nat} {failed : Prop} {c c' : Ctl} {t : List Ev} (h : Seg b failed c c' t) :
    Hush (0 < c.interrupted) t := by
  cases h with
  | calm h1 _ h2 => exact hush_calm (by omega) h2
  | pend _ h => exact h
  | clear _ _ _ h => exact h

theorem seg_refl (b : Nat) (failed : Prop) (c : Ctl) : Seg b failed c c [] := by
  cases e : c.interrupted with
  | zero => exact .calm e e (by simp)
  | succ n => exact .pend (by omega) (hush_nil _)

theorem seg_trans {b : Nat} {F G : Prop} {c c1 c2 : Ctl} {t1 t2 : List Ev} (a : Seg b F c c1 t1) (hF : ¬ F)
    (h : Seg b G c1 c2 t2) : Seg b G c c2 (t1 ++ t2) := by
  cases a with
  | calm a1 a2 a3 =>
    have hh : Hush (0 < c.interrupted) (t1 ++ t2) :=
      hush_append (hush_calm (by omega) a3) h.hush (fun x => by
        rcases x with x | x
        · omega
        · exact absurd x a3)
    cases h with
    | calm h1 h2 h3 => exact .calm a1 h2 (by simp [a3, h3])
    | pend h1 _ => exact .pend h1 hh
    | clear h1 h2 h3 _ => exact .clear h1 h2 h3 hh
  | pend a1 a2 =>
    have hh : Hush (0 < c.interrupted) (t1 ++ t2) := hush_append a2 h.hush (fun _ => a1)
    cases h with
    | calm h1 h2 h3 => omega
    | pend h1 _ => exact .pend h1 hh
    | clear h1 h2 h3 _ => exact .clear h1 h2 h3 hh
  | clear _ a2 _ _ => exact absurd a2 hF

def Fin.Failed : Fin φ → Prop
  | .fail _ => True
  | _ => False

theorem seg_body {b : Nat} {ev : Ctl → σ → φ → Option (Result σ)}
    (hev : ∀ c s g r, ev c s g = some r → Seg b (r.1 = .error) c r.2.1 r.2.2.2) :
    ∀ (x : Body σ φ) (_ : Strict x) (c : Ctl) r, runBody ev x c = some r → Seg b r.1.Failed c r.2.1 r.2.2.2
  | .done f s, _, c, r, h => by
    simp only [runBody, Option.some.injEq] at h
    subst h; exact seg_refl _ _ c
  | .exit k, hs, c, r, h => by
    simp only [runBody] at h
    have hk : Strict k := by cases hs; assumption
    cases e : runBody ev k { c with exited := true } with
    | none => rw [e] at h; simp at h
    | some q =>
      rw [e] at h
      simp only [Option.some.injEq] at h
      subst h
      have i := seg_body hev k hk _ q e
      refine seg_trans (t1 := [.exit]) (F := False) ?_ id i
      cases e : c.interrupted with
      | zero => exact .calm e rfl (by simp)
      | succ n => exact .pend (by simp) ⟨fun _ => rfl, fun t1 t2 h => by
          cases t1 with
          | nil => simp at h
          | cons x t1 => simp at h⟩
  | .intr k, hs, c, r, h => by
    simp only [runBody] at h
    have hk : Strict k := by cases hs; assumption
    cases e : runBody ev k { c with interrupted := 1 } with
    | none => rw [e] at h; simp at h
    | some q =>
      rw [e] at h
      simp only [Option.some.injEq] at h
      subst h
      have i := seg_body hev k hk _ q e
      refine seg_trans (t1 := [.intr]) (F := False) ?_ id i
      exact .pend (by simp) ⟨fun _ => rfl, fun t1 t2 h => by
        cases t1 with
        | nil => simp only [List.nil_append, List.cons.injEq] at h; rw [← h.2]; rfl
        | cons x t1 => simp at h⟩
  | .call s g k, hs, c, r, h => by
    have ⟨hk1, hk2⟩ : (∀ s', ∃ v s'', k .error s' = .done (.fail v) s'') ∧ ∀ rc s', Strict (k rc s') := by
      cases hs with | call a b => exact ⟨a, b⟩
    simp only [runBody] at h
    cases e : ev c s g with
    | none => rw [e] at h; simp at h
    | some q =>
      have i := hev _ _ _ _ e
      obtain ⟨rc, c1, s1, t1⟩ := q
      rw [e] at h
      simp only at h i
      by_cases hrc : rc = .error
      · obtain ⟨v, s2, e2⟩ := hk1 s1
        rw [hrc, e2] at h
        simp only [runBody, List.append_nil, Option.some.injEq] at h
        subst h
        cases i with
        | calm a b c => exact .calm a b c
        | pend a b => exact .pend a b
        | clear a _ b c => exact .clear a trivial b c
      cases e2 : runBody ev (k rc s1) c1 with
      | none => rw [e2] at h; simp at h
      | some q =>
        rw [e2] at h
        simp only [Option.some.injEq] at h
        subst h
        exact seg_trans i hrc (seg_body hev (k rc s1) (hk2 rc s1) c1 q e2)

theorem seg_call {b : Nat} {lp : Ctl → σ → Frame φ → Option (Result σ)}
    (hlp : ∀ c s f r, lp c s f = some r → Seg b (r.1 = .error) c r.2.1 r.2.2.2) (c : Ctl) (s : σ) (g : φ) (r : Result σ)
    (h : call lp c s g = some r) : Seg b (r.1 = .error) c r.2.1 r.2.2.2 := by
  unfold call at h
  split at h
  · simp only [Option.some.injEq] at h; subst h; exact seg_refl _ _ c
  split at h
  · simp only [Option.some.injEq] at h; subst h; exact seg_refl _ _ c
  cases e : lp { c with level := c.level + 1 } s ⟨0, g⟩ with
  | none => rw [e] at h; simp [ret] at h
  | some q =>
    rw [e] at h
    simp only [ret, Option.some.injEq] at h
    subst h
    cases hlp _ _ _ _ e with
    | calm a b c => exact .calm a b c
    | pend a b => exact .pend a b
    | clear a b c d => exact .clear a (by simp only [b]; split <;> rfl) c d

theorem seg_run {b : Nat} {F : Prop} {c c1 c' : Ctl} {t : List Ev} (d : Nat) (h0 : ¬ 0 < c.interrupted)
    (h1 : c1.interrupted = c.interrupted) (h : Seg b F c1 c' t) : Seg b F c c' (.run d :: t) := by
  have hz : c.interrupted = 0 := by omega
  refine seg_trans (t1 := [.run d]) (F := False) (c1 := c1) (.calm hz (by omega) (by simp)) id h

theorem seg_pre {b : Nat} {F : Prop} {c c1 : Ctl} {t : List Ev} {x : Option (Result σ)} {r : Result σ}
    (g : Seg b F c c1 t) (hF : ¬ F) (hx : ∀ r, x = some r → Seg b (r.1 = .error) c1 r.2.1 r.2.2.2)
    (h : pre t x = some r) : Seg b (r.1 = .error) c r.2.1 r.2.2.2 := by
  cases x with
  | none => simp [pre] at h
  | some q =>
    simp only [pre, Option.some.injEq] at h
    subst h
    exact seg_trans g hF (hx q rfl)

theorem seg_weak {b b' : Nat} {F G : Prop} {c c' : Ctl} {t : List Ev} (h : Seg b F c c' t) (hb : b = 0 → b' = 0)
    (hF : F → b = 0 → G) : Seg b' G c c' t := by
  cases h with
  | calm a b c => exact .calm a b c
  | pend a b => exact .pend a b
  | clear a f c d => exact .clear a (hF f c) (hb c) d

theorem seg_loop (M : Machine σ φ) (hM : ∀ s f b, M.op s f = some b → Strict b) :
    ∀ (n base d : Nat) (c : Ctl) (s : σ) (f : Frame φ) (r : Result σ),
    loop M n base d c s f = some r → Seg base (r.1 = .error) c r.2.1 r.2.2.2
  | 0, _, _, _, _, _, r, h => by simp [loop] at h
  | n + 1, base, d, c, s, f, r, h => by
    rw [loop] at h
    cases ho : M.op s f with
    | none => rw [ho] at h; simp only [Option.some.injEq] at h; subst h; exact seg_refl _ _ c
    | some b =>
      rw [ho] at h
      simp only at h
      split at h
      · split at h
        · simp only [Option.some.injEq] at h; subst h; exact .clear rfl rfl (by omega) (hush_nil _)
        · simp only [Option.some.injEq] at h; subst h; exact .pend (by simp) (hush_nil _)
      rename_i hi
      split at h
      · simp only [Option.some.injEq] at h; subst h; exact seg_refl _ _ c
      split at h
      · simp only [Option.some.injEq] at h; subst h
        exact .calm (by omega) (by simp only; omega) (by simp)
      cases hr : runBody (call (loop M n (base + f.tries) (d + 1))) b { c with opCnt := c.opCnt + 1 } with
      | none => rw [hr] at h; simp at h
      | some q =>
        have g := seg_run (c1 := { c with opCnt := c.opCnt + 1 }) d hi rfl (seg_body (fun c s g r => seg_call (seg_loop M hM n (base + f.tries) (d + 1)) c s g r)
          b (hM s f b ho) _ q hr)
        rw [hr] at h
        obtain ⟨fi, c', s', t⟩ := q
        simp only at g
        cases fi with
        | next f' =>
          exact seg_pre (seg_weak (G := False) g (by omega) fun h _ => h) id (seg_loop M hM n base d c' s' f') h
        | leave rc =>
          simp only [Option.some.injEq] at h; subst h
          exact seg_weak g (by omega) fun h _ => absurd h id
        | fail v =>
          simp only at h
          split at h
          · simp only [Option.some.injEq] at h; subst h
            exact seg_weak g (by omega) fun _ _ => rfl
          split at h
          · simp only [Option.some.injEq] at h; subst h
            exact seg_weak g (by omega) fun _ _ => rfl
          rename_i ht
          cases hh : M.handle s' ⟨f.tries, v⟩ with
          | none =>
            rw [hh] at h; simp only [Option.some.injEq] at h; subst h
            exact seg_weak g (by omega) fun _ _ => rfl
          | some q =>
            rw [hh] at h
            exact seg_pre (seg_weak (G := False) g (by omega) fun _ h => by omega) id
              (seg_loop M hM n base d c' q.2 q.1) h

/-- C147: after an interruption no instruction of the script is executed any more, whatever try, catch and finally it
has, if the native functions hand errors on. -/
theorem C147_interrupt (M : Machine σ φ) (hM : ∀ s f b, M.op s f = some b → Strict b) (n N D : Nat) (s : σ) (g : φ)
    (rc : RC) (c : Ctl) (s' : σ) (t1 t2 : List Ev) (h : start M n N D s g = some (rc, c, s', t1 ++ .intr :: t2)) :
    ∀ k, .run k ∉ t2 := by
  intro k hk
  have := (seg_call (seg_loop M hM n 0 1) _ s g _ h).hush.after t1 t2 rfl
  unfold runs at this
  rw [List.countP_eq_zero] at this
  exact this _ hk rfl

/-! ### C149: the number of objects -/

/-- OP_NEWFCALL for a class of user objects (src/jsiEval.c:1261-1265) and `Jsi_UserObjNew` (src/jsiUserObj.c:106). -/
def newObj (max cnt : Nat) : Option Nat := if max ≠ 0 ∧ max < cnt then none else some (cnt + 1)

/-- A history of `n` attempts: the number of objects made. -/
def made (max : Nat) : Nat → Nat
  | 0 => 0
  | n + 1 => (newObj max (made max n)).getD (made max n)

/-- C149: with maxUserObjs N > 0 at most N + 1 objects are made. -/
theorem C149_objects_partial (N n : Nat) (hN : 0 < N) : made N n ≤ N + 1 := by
  induction n with
  | zero => exact Nat.zero_le _
  | succ n ih =>
    simp only [made, newObj]
    split
    · simpa using ih
    · simp only [Option.getD_some]; omega

/-- C149 fails: one object more than the limit is made. -/
theorem C149_objects_refuted : ∀ N, 0 < N → made N (N + 1) = N + 1 := by
  intro N hN
  have : ∀ n, n ≤ N + 1 → made N n = n := by
    intro n
    induction n with
    | zero => intro _; rfl
    | succ n ih =>
      intro h
      simp only [made, ih (by omega), newObj]
      rw [if_neg (by omega)]; rfl
  exact this _ (Nat.le_refl _)

/-! ### Examples -/

/-- `for (;;) { try { f(); } catch (e) {} }` with `function f() { f(); }`: in the main frame (0) instructions 0 (try), 1
(call), 2 (end of try); in f one instruction that calls f.  The handler goes back to instruction 0. -/
def spin : Machine Unit (Nat × Nat) where
  op _ f := some <| match f.v with
    | (0, 0) => .done (.next ⟨1, (0, 1)⟩) ()
    | (0, 1) => .call () (1, 0) fun rc s => .done (if rc = .error then .fail (0, 1) else .next ⟨1, (0, 2)⟩) s
    | (0, _) => .done (.next ⟨0, (0, 0)⟩) ()
    | _ => .call () (1, 0) fun rc s => .done (if rc = .error then .fail (1, 0) else .leave .ok) s
  handle s _ := some (⟨0, (0, 0)⟩, s)

example : ∀ s f b, spin.op s f = some b → Strict b := by
  intro s f b h
  simp only [spin, Option.some.injEq] at h
  subst h
  split
  · exact .done _ _
  · exact .call (fun s' => ⟨(0, 1), s', rfl⟩) fun rc s' => .done _ _
  · exact .done _ _
  · exact .call (fun s' => ⟨(1, 0), s', rfl⟩) fun rc s' => .done _ _

/-- The rest of the result that can be compared. -/
def seen (r : Option (Result Unit)) : Option (RC × List Ev) := r.map fun q => (q.1, q.2.2.2)

example : seen (start spin 20 11 4 () (0, 0)) = some (.error,
    [.run 1, .run 1, .run 2, .run 3, .run 4, .run 1, .run 1, .run 2, .run 3, .run 4, .run 1, .cap]) := by
  decide +kernel

/-- `try { try { exit(); } finally { … } } catch (e) { … }`, or the same with an interruption in place of exit. -/
def quit (x : Body Unit Nat → Body Unit Nat) : Machine Unit Nat where
  op _ f := match f.v with
    | 0 => some (.done (.next ⟨1, 1⟩) ())
    | 1 => some (.done (.next ⟨2, 2⟩) ())
    | 2 => some (x (.done (.fail 2) ()))
    | 3 => some (.done (.next ⟨1, 4⟩) ())
    | 4 => some (.done (.next ⟨0, 5⟩) ())
    | _ => none
  handle s _ := some (⟨2, 3⟩, s)

example : seen (start (quit .exit) 20 0 0 () 0) = some (.error, [.run 1, .run 1, .run 1, .exit]) := by decide +kernel
example : seen (start (quit .intr) 20 0 0 () 0) = some (.error, [.run 1, .run 1, .run 1, .intr]) := by decide +kernel
example : seen (start (quit id) 20 0 0 () 0)
    = some (.ok, [.run 1, .run 1, .run 1, .run 1, .run 1]) := by decide +kernel

example : made 3 10 = 4 := by decide

/-- A native function that ignores errors (an event loop) goes on after an interruption has been reported. -/
def deaf : Machine Unit Nat where
  op _ f := match f.v with
    | 0 => some (.call () 1 fun _ s => .call s 3 fun _ s => .done (.leave .ok) s)
    | 1 => some (.intr (.done (.next ⟨0, 2⟩) ()))
    | 2 => some (.done (.leave .ok) ())
    | 3 => some (.done (.leave .ok) ())
    | _ => none
  handle _ _ := none

example : seen (start deaf 20 0 0 () 0) = some (.ok, [.run 1, .run 2, .intr, .run 2]) := by decide +kernel

end Verif.Limit
