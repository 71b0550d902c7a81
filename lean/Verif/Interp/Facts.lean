import Verif.Interp.Spec

namespace Verif.Interp

theorem Rec.set_same (r : Rec) (o : Opt) (v : Val) : r.set o v o = v := by simp [Rec.set]

theorem Rec.set_ne (r : Rec) {o o' : Opt} (v : Val) (h : o' ≠ o) : r.set o v o' = r o' := by simp [Rec.set, h]

/-! ### finding an option -/

theorem findLoop_mem (name : Str) : ∀ (l : List Spec) (m : Option Spec) (s : Spec),
    findLoop name m l = some s → m = some s ∨ (s ∈ l ∧ name <+: s.name) := by
  intro l
  induction l with
  | nil => intro m s h; exact Or.inl h
  | cons t l ih =>
    intro m s h
    rw [findLoop] at h
    split at h
    · rcases ih _ _ h with h | ⟨h, h'⟩
      · exact Or.inl h
      · exact Or.inr ⟨List.mem_cons_of_mem _ h, h'⟩
    · rename_i hp
      have hp : t.name.take name.length = name := by
        by_cases hq : t.name.take name.length = name
        · exact hq
        · exact absurd (Or.inr hq) hp
      have hpre : name <+: t.name := hp ▸ List.take_prefix _ _
      split at h
      · cases h; exact Or.inr ⟨List.mem_cons_self, hpre⟩
      · split at h
        · cases h
        · rcases ih _ _ h with h | ⟨h, h'⟩
          · cases h; exact Or.inr ⟨List.mem_cons_self, hpre⟩
          · exact Or.inr ⟨List.mem_cons_of_mem _ h, h'⟩

theorem find_mem {name : Str} {s : Spec} (h : find name = some s) : s ∈ table ∧ name <+: s.name := by
  rcases findLoop_mem name table none s h with h | h
  · cases h
  · exact h

/-! ### processing options -/

theorem process_keeps (cust : Opt → Val → Option Val) (upd safe extra : Bool) (o : Opt)
    (l : List (Str × Val)) : ∀ (r : Rec),
    (∀ kv ∈ l, ∀ sp, find kv.1 = some sp → sp.opt = o →
      sp.readOnly = true ∨ (upd = true ∧ sp.initOnly = true) ∨ (safe = true ∧ upd = true ∧ sp.lockSafe = true)) →
    (process cust upd safe extra r l).1 o = r o := by
  induction l with
  | nil => intro r _; rfl
  | cons kv t ih =>
    intro r h
    obtain ⟨k, v⟩ := kv
    have ht := fun r => ih r (fun kv hm => h kv (List.mem_cons_of_mem _ hm))
    rw [process]
    split
    · split
      · exact ht r
      · rfl
    · rename_i s hs
      split
      · rfl
      · rename_i h1
        split
        · rfl
        · rename_i h2
          split
          · rfl
          · rename_i h3
            split
            · rfl
            · rw [ht, Rec.set_ne]
              intro he
              rcases h (k, v) List.mem_cons_self s hs he.symm with hc | ⟨hc, hc'⟩ | ⟨hc, hc', hc''⟩
              · exact h1 hc
              · exact h2 (by simp [hc, hc'])
              · exact h3 (by simp [hc, hc', hc''])

/-- In the table, each of these options is fixed at creation or locked in safe interpreters. -/
theorem table_locked : ∀ sp ∈ table, sp.opt ∈ guarded → sp.opt ≠ .lockDown →
    sp.readOnly = true ∨ sp.initOnly = true ∨ sp.lockSafe = true := by decide +kernel

theorem conf_keeps (e : Env) (self : Bool) (r : Rec) (hs : isSafe r = true) (opts : List (Str × Val)) (o : Opt)
    (ho : o ∈ guarded) (hl : o ≠ .lockDown) : confRec e self r opts o = r o := by
  unfold confRec
  split
  · rfl
  · apply process_keeps
    intro kv _ sp hf he
    rcases table_locked sp (find_mem hf).1 (he ▸ ho) (he ▸ hl) with h | h | h
    · exact Or.inl h
    · exact Or.inr (Or.inl ⟨rfl, h⟩)
    · exact Or.inr (Or.inr ⟨hs, rfl, h⟩)

theorem conf_keeps_lock (e : Env) (self : Bool) (r : Rec) (opts : List (Str × Val)) (o : Opt)
    (hn : NotNamed o opts) : confRec e self r opts o = r o := by
  unfold confRec
  split
  · rfl
  · apply process_keeps
    intro kv hm sp hf he
    exact absurd he (hn kv hm sp hf)

/-! ### creating -/

theorem mayRead_none (e : Env) (r : Rec) (h : isSafe r = true) (hd : r .safeReadDirs = .null) (f : Str) :
    mayRead e r f = false := by
  simp [mayRead, mayFile, h, hd, dirs, Path.interpAccess]

theorem confUser_imposed (e : Env) (r : Rec) (h : isSafe r = true) (hd : r .safeReadDirs = .null) :
    (confUser e r).1 = r := by
  unfold confUser
  split
  · rw [mayRead_none e r h hd]; rfl
  · rfl

theorem confEtc_keeps (e : Env) (he : EtcOk e) (r : Rec) (h : isSafe r = true) (o : Opt) (ho : o ∈ guarded) :
    confEtc e r o = r o := by
  rw [confEtc]
  rcases hl : e.etc with _ | _ | l
  · rfl
  · rfl
  · simp only [if_pos h]
    by_cases hi : o = .isSafe
    · subst hi
      rw [Rec.set_same]
      simp only [isSafe, decide_eq_true_eq] at h
      exact h.symm
    · rw [Rec.set_ne _ _ hi]
      unfold confApply
      have := he l hl (isSafe (r.set .isSafe (.bool false))) (r.set .isSafe (.bool false))
      rw [if_pos this.1, this.2 o ho, Rec.set_ne _ _ hi]

theorem confFiles_keeps (e : Env) (he : EtcOk e) (r : Rec) (h : isSafe r = true) (hd : r .safeReadDirs = .null)
    (o : Opt) (ho : o ∈ guarded) : confFiles e r o = r o := by
  unfold confFiles
  split
  · rw [confUser_imposed e r h hd]; exact confEtc_keeps e he r h o ho
  · rw [confUser_imposed e r h hd]

theorem impose_safe (p r : Rec) : isSafe (impose p r) = true := by simp [isSafe, impose]

theorem modeSafe_ne (r : Rec) {o : Opt} (h : o ≠ .isSafe) : modeSafe r o = r o := by
  unfold modeSafe; split
  · exact Rec.set_ne _ _ h
  · rfl

theorem modeSafe_safe (r : Rec) (h : isSafe r = true) : isSafe (modeSafe r) = true := by
  unfold modeSafe; split
  · simp [isSafe, Rec.set]
  · exact h

theorem clampDepth_ne (r : Rec) {o : Opt} (h : o ≠ .maxDepth) : clampDepth r o = r o := by
  unfold clampDepth
  cases r .maxDepth with
  | num n =>
    simp only []
    split
    · exact Rec.set_ne _ _ h
    · rfl
  | _ => rfl

theorem clampDepth_le (r : Rec) : limit (clampDepth r) .maxDepth ≤ limit r .maxDepth := by
  unfold clampDepth; split
  · rename_i n hn
    split
    · simp only [limit, Rec.set_same, hn]; omega
    · exact Int.le_refl _
  · exact Int.le_refl _

theorem settle_safe (e : Env) (he : EtcOk e) (p r : Rec) (h : isSafe p = true) :
    isSafe (settle e p r) = true := by
  have h1 : isSafe (confFiles e (impose p r)) = true := by
    have := confFiles_keeps e he (impose p r) (impose_safe p r) rfl .isSafe (by decide)
    simp only [isSafe, this]
    rfl
  have h2 := modeSafe_safe _ h1
  unfold settle
  rw [if_pos h]
  simp only [isSafe] at h2 ⊢
  rw [clampDepth_ne _ (by decide)]
  exact h2

theorem settle_eq (e : Env) (he : EtcOk e) (p r : Rec) (h : isSafe p = true) (o : Opt) (ho : o ∈ guarded)
    (h1 : o ≠ .isSafe) (h2 : o ≠ .maxDepth) : settle e p r o = impose p r o := by
  unfold settle
  rw [if_pos h, clampDepth_ne _ h2, modeSafe_ne _ h1]
  exact confFiles_keeps e he _ (impose_safe p r) rfl o ho

theorem settle_depth (e : Env) (he : EtcOk e) (p r : Rec) (h : isSafe p = true) :
    limit (settle e p r) .maxDepth ≤ limit p .maxDepth := by
  unfold settle
  rw [if_pos h]
  refine Int.le_trans (clampDepth_le _) ?_
  have : modeSafe (confFiles e (impose p r)) .maxDepth = p .maxDepth := by
    rw [modeSafe_ne _ (by decide), confFiles_keeps e he _ (impose_safe p r) rfl _ (by decide)]
    rfl
  simp only [limit, this]
  exact Int.le_refl _

theorem lockRec_ne (e : Env) (r : Rec) (path : Str) (o : Opt)
    (h : o ∉ [Opt.isSafe, .safeMode, .safeWriteDirs, .safeReadDirs]) : lockRec e r path o = r o := by
  cases o <;> first | rfl | simp at h

/-- What comes out of `finish`. -/
theorem finish_cases (e : Env) (a : Nat) (d : Int) (r : Rec) (c : Ip) (h : finish e a d r = some c) :
    c.parent = some a ∧ c.depth = d ∧ c.hasLoad = !isSafe r ∧ c.included = false ∧
      c.startSafe = decide (r .safeMode ≠ modeNone) ∧
      ((c.opt = r ∧ ∀ p, r .lockDown ≠ .str p) ∨ ∃ p, r .lockDown = .str p ∧ c.opt = lockRec e r p) := by
  unfold finish at h
  split at h
  · rename_i p hp
    split at h
    · cases h
      exact ⟨rfl, rfl, rfl, rfl, rfl, Or.inr ⟨p, hp, rfl⟩⟩
    · cases h
  · rename_i hp
    cases h
    exact ⟨rfl, rfl, rfl, rfl, rfl, Or.inl ⟨rfl, hp⟩⟩

/-- What comes out of `newInterp`. -/
theorem newInterp_cases (e : Env) (a : Nat) (p : Ip) (opts : List (Str × Val)) (c : Ip)
    (h : newInterp e a p opts = some c) :
    flag p.opt .noSubInterps = false ∧ p.depth + 1 ≤ limit p.opt .maxInterpDepth ∧
      (process e.cust false false false (fresh p.opt) opts).2 = true ∧
      finish e a (p.depth + 1) (settle e p.opt (process e.cust false false false (fresh p.opt) opts).1) =
        some c := by
  unfold newInterp at h
  split at h
  · cases h
  · rename_i h1
    split at h
    · cases h
    · rename_i h2
      split at h
      · cases h
      · rename_i h3
        split at h
        · cases h
        · refine ⟨by simpa using h1, ?_, by simpa using h3, h⟩
          omega

theorem finish_isSafe (e : Env) (a : Nat) (d : Int) (r : Rec) (c : Ip) (h : finish e a d r = some c)
    (hs : isSafe r = true) : isSafe c.opt = true := by
  obtain ⟨-, -, -, -, -, h | ⟨p, -, h⟩⟩ := finish_cases e a d r c h
  · rw [h.1]; exact hs
  · rw [h]; rfl

theorem finish_ne (e : Env) (a : Nat) (d : Int) (r : Rec) (c : Ip) (h : finish e a d r = some c) (o : Opt)
    (ho : o ∉ [Opt.isSafe, .safeMode, .safeWriteDirs, .safeReadDirs]) : c.opt o = r o := by
  obtain ⟨-, -, -, -, -, h | ⟨p, -, h⟩⟩ := finish_cases e a d r c h
  · rw [h.1]
  · rw [h]; exact lockRec_ne e r p o ho

end Verif.Interp
