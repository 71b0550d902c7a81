import Verif.Interp.Inv

/-! C69, C70: what the descendants of a safe interpreter may do, after any history. -/

namespace Verif.Interp

theorem kind_guarded : ∀ o ∈ guarded, kindOf o = .array → o = .safeReadDirs ∨ o = .safeWriteDirs := by
  decide +kernel

theorem edit_guarded (i : Ip) (o o' : Opt) (l : List Str) (ho : kindOf o = .array) (hg : o' ∈ guarded)
    (h1 : o' ≠ .safeReadDirs) (h2 : o' ≠ .safeWriteDirs) : editRec i o l o' = i.opt o' := by
  unfold editRec
  split
  · rw [Rec.set_ne _ _ h2, Rec.set_ne _ _ h1]
  · rw [Rec.set_ne]
    rintro rfl
    rcases kind_guarded _ hg ho with h | h
    · exact h1 h
    · exact h2 h

theorem argv0_guarded (e : Env) (r : Rec) (f : Str) (o : Opt) (h1 : o ≠ .safeReadDirs) (h2 : o ≠ .safeWriteDirs) :
    argv0Rec e r f o = r o := by
  unfold argv0Rec
  split
  · rw [Rec.set_ne _ _ h2, Rec.set_ne _ _ h1]
  · split
    · rw [Rec.set_ne _ _ h2, Rec.set_ne _ _ h1]
    · rw [Rec.set_ne _ _ h1]

theorem source_guarded (e : Env) (i : Ip) (f : Str) (o : Opt) (h1 : o ≠ .safeReadDirs)
    (h2 : o ≠ .safeWriteDirs) : (source e i f).1.opt o = i.opt o := by
  unfold source sourceFirst
  split
  · rfl
  · split
    · split
      · rfl
      · exact argv0_guarded e i.opt f o h1 h2
    · rfl

theorem source_load (e : Env) (i : Ip) (f : Str) : (source e i f).1.hasLoad = i.hasLoad := by
  unfold source sourceFirst
  split
  · rfl
  · split
    · split <;> rfl
    · rfl

/-- `Bound` speaks of the guarded options only. -/
theorem Bound.congr {s i i' : Ip} (h : Bound s i) (hl : i'.hasLoad = i.hasLoad)
    (ho : ∀ o ∈ guarded, o ≠ .lockDown → o ≠ .safeReadDirs → o ≠ .safeWriteDirs → i'.opt o = i.opt o) :
    Bound s i' := by
  have hf : ∀ o ∈ [Opt.noLoad, .noNetwork, .noStderr, .noSubInterps], flag i'.opt o = flag i.opt o := by
    intro o hm
    unfold flag
    rw [ho o] <;> revert hm o <;> decide
  have hn : ∀ o ∈ [Opt.maxArrayList, .maxIncDepth, .maxInterpDepth, .maxUserObjs, .maxOpCnt, .memLeakCnt],
      i'.opt o = i.opt o := by
    intro o hm
    rw [ho o] <;> revert hm o <;> decide
  refine ⟨?_, ?_, ?_, ?_, ?_, ?_⟩
  · have := h.safe
    unfold isSafe at this ⊢
    rw [ho .isSafe (by decide) (by decide) (by decide) (by decide)]
    exact this
  · have := h.depth
    unfold limit at this ⊢
    rw [ho .maxDepth (by decide) (by decide) (by decide) (by decide)]
    exact this
  · intro o hm; rw [hn o hm]; exact h.limits o hm
  · unfold mayNet; rw [hf .noNetwork (by decide)]; exact h.net
  · unfold mayLoad; rw [hf .noLoad (by decide), hl]; exact h.load
  · intro o hm; rw [hf o hm]; exact h.switch o hm

theorem bound_create (e : Env) (he : EtcOk e) (s : Ip) (a : Nat) (p : Ip) (opts : List (Str × Val)) (c : Ip)
    (h : Bound s p) (hc : newInterp e a p opts = some c) : Bound s c := by
  obtain ⟨-, -, -, hf⟩ := newInterp_cases e a p opts c hc
  generalize (process e.cust false false false (fresh p.opt) opts).1 = r at hf
  have hsafe := settle_safe e he p.opt r h.safe
  have hx := finish_ne e _ _ _ c hf
  have hl : c.hasLoad = false := by
    rw [(finish_cases e _ _ _ c hf).2.2.1, hsafe]; rfl
  have hsw : ∀ o ∈ [Opt.noLoad, .noNetwork, .noStderr, .noSubInterps], flag p.opt o = true →
      flag c.opt o = true := by
    intro o hm hp
    unfold flag
    rw [hx o (by clear hp; revert hm o; decide), settle_eq e he p.opt r h.safe o (by clear hp; revert hm o; decide)
      (by clear hp; revert hm o; decide) (by clear hp; revert hm o; decide)]
    simp only [List.mem_cons, List.not_mem_nil, or_false] at hm
    rcases hm with rfl | rfl | rfl | rfl <;> simp [impose, hp]
  refine ⟨finish_isSafe e _ _ _ c hf hsafe, ?_, ?_, ?_, ?_, ?_⟩
  · have h1 := settle_depth e he p.opt r h.safe
    have h2 := h.depth
    unfold limit at h1 h2 ⊢
    rw [hx .maxDepth (by decide)]
    omega
  · intro o hm
    rw [← h.limits o hm, hx o (by revert hm o; decide), settle_eq e he p.opt r h.safe o (by revert hm o; decide)
      (by revert hm o; decide) (by revert hm o; decide)]
    simp only [List.mem_cons, List.not_mem_nil, or_false] at hm
    rcases hm with rfl | rfl | rfl | rfl | rfl | rfl <;> rfl
  · intro hn
    apply h.net
    unfold mayNet at hn ⊢
    cases hp : flag p.opt .noNetwork with
    | false => rfl
    | true => rw [hsw _ (by decide) hp] at hn; exact hn
  · intro hn; unfold mayLoad at hn; rw [hl] at hn; cases hn
  · intro o hm hs
    exact hsw o hm (h.switch o hm hs)

theorem bound_keeps (e : Env) (he : EtcOk e) (s : Nat) (S : Ip) :
    Keeps e (fun _ => True) (fun _ i => Bound S i) s where
  create := fun a p opts c _ _ hp _ hc => bound_create e he S a p opts c hp hc
  conf := fun _ _ i self opts hp _ =>
    hp.congr rfl (fun o ho hl _ _ => conf_keeps e self i.opt hp.safe opts o ho hl)
  source := fun _ _ i f hp _ =>
    hp.congr (source_load e i f) (fun o _ _ h1 h2 => source_guarded e i f o h1 h2)
  plain := fun _ _ hp => hp.congr rfl (fun _ _ _ _ _ => rfl)
  edit := fun _ i o l hp _ hk => hp.congr rfl (fun o' ho' _ h1 h2 => edit_guarded i o o' l hk ho' h1 h2)

theorem bound_refl (S : Ip) (h : isSafe S.opt = true) : Bound S S :=
  ⟨h, Int.le_refl _, fun _ _ => rfl, id, id, fun _ _ => id⟩

/-- **C69**: whatever scripts do, every interpreter created below a safe one is safe, keeps the safe one's limits
(call depth at most the same, the others the same), has no network and cannot load libraries or create interpreters
unless the safe one may.  This is true of the safe interpreter itself too.  The machine's own configuration file is
assumed to leave these options alone. -/
theorem C69_limits (e : Env) (he : EtcOk e) (w : World) (hw : Wf w) (s : Nat) (S : Ip) (hS : w[s]? = some S)
    (hsafe : isSafe S.opt = true) (hn : NoSubs w s) (ops : List Op) (j : Nat) (i : Ip)
    (hi : (run e w ops)[j]? = some i) (hj : Within (run e w ops) s j) : Bound S i :=
  run_all (bound_keeps e he s S) ops w (fun _ _ => trivial) hw (List.getElem?_eq_some_iff.1 hS).1
    (all_start hS hn (bound_refl S hsafe)) j i hi hj

/-- **C69**: a safe interpreter with `noSubInterps` never has a sub-interpreter. -/
theorem C69_noSubs (e : Env) (w : World) (hw : Wf w) (s : Nat) (S : Ip) (hS : w[s]? = some S)
    (hsafe : isSafe S.opt = true) (hno : flag S.opt .noSubInterps = true) (hn : NoSubs w s) (ops : List Op)
    (j : Nat) (i : Ip) (hi : (run e w ops)[j]? = some i) (hj : Within (run e w ops) s j) : j = s := by
  have hk : Keeps e (fun _ => True)
      (fun j i => isSafe i.opt = true ∧ flag i.opt .noSubInterps = true ∧ j = s) s := by
    have two : ∀ (r r' : Rec), (∀ o ∈ guarded, o ≠ .lockDown → o ≠ .safeReadDirs → o ≠ .safeWriteDirs →
        r' o = r o) → isSafe r = true ∧ flag r .noSubInterps = true →
        isSafe r' = true ∧ flag r' .noSubInterps = true := by
      intro r r' h h'
      unfold isSafe flag at h' ⊢
      rw [h .isSafe (by decide) (by decide) (by decide) (by decide),
        h .noSubInterps (by decide) (by decide) (by decide) (by decide)]
      exact h'
    refine ⟨?_, ?_, ?_, ?_, ?_⟩
    · intro a p opts c n _ hp _ hc
      rw [(newInterp_cases e a p opts c hc).1] at hp
      exact absurd hp.2.1 (by decide)
    · intro _ j i self opts hp _
      obtain ⟨h1, h2⟩ := two i.opt _ (fun o ho hl _ _ => conf_keeps e self i.opt hp.1 opts o ho hl) ⟨hp.1, hp.2.1⟩
      exact ⟨h1, h2, hp.2.2⟩
    · intro _ j i f hp _
      obtain ⟨h1, h2⟩ := two i.opt _ (fun o _ _ h1 h2 => source_guarded e i f o h1 h2) ⟨hp.1, hp.2.1⟩
      exact ⟨h1, h2, hp.2.2⟩
    · intro _ i hp; exact hp
    · intro _ i o l hp _ hk
      obtain ⟨h1, h2⟩ := two i.opt _ (fun o' ho' _ h1 h2 => edit_guarded i o o' l hk ho' h1 h2) ⟨hp.1, hp.2.1⟩
      exact ⟨h1, h2, hp.2.2⟩
  exact (run_all hk ops w (fun _ _ => trivial) hw (List.getElem?_eq_some_iff.1 hS).1
    (all_start hS hn ⟨hsafe, hno, rfl⟩) j i hi hj).2.2

/-! ### files and programs -/

/-- **C70**: what a safe interpreter may read or write is what its own list of directories allows (see C34 for what
that means on a file system); without a list it is nothing. -/
theorem C70_access (e : Env) (r : Rec) (hs : isSafe r = true) (f : Str) :
    (mayRead e r f = true ↔
      ∃ l, r .safeReadDirs = .list l ∧ Path.interpAccess e.realpath e.home e.cwd (some l) f = true) ∧
    (mayWrite e r f = true ↔
      ∃ l, r .safeWriteDirs = .list l ∧ Path.interpAccess e.realpath e.home e.cwd (some l) f = true) := by
  have h : ∀ o, mayFile e r o f = true ↔
      ∃ l, r o = .list l ∧ Path.interpAccess e.realpath e.home e.cwd (some l) f = true := by
    intro o
    unfold mayFile
    rw [hs]
    cases r o <;> simp [dirs, Path.interpAccess]
  exact ⟨h _, h _⟩

/-- What holds throughout an ordinary history. -/
structure Calm (s : Nat) (S : Ip) (j : Nat) (i : Ip) : Prop where
  safe : isSafe i.opt = true
  mode : i.opt .safeMode = S.opt .safeMode
  same : j = s → i.startSafe = S.startSafe ∧
    ∀ o ∈ [Opt.safeReadDirs, .safeWriteDirs, .safeExecPattern, .lockDown], i.opt o = S.opt o
  none : j ≠ s → i.startSafe = decide (S.opt .safeMode ≠ modeNone) ∧
    ∀ o ∈ [Opt.safeReadDirs, .safeWriteDirs, .safeExecPattern, .lockDown], i.opt o = .null

theorem Calm.congr {s : Nat} {S : Ip} {j : Nat} {i i' : Ip} (h : Calm s S j i) (hl : i'.startSafe = i.startSafe)
    (ho : ∀ o ∈ [Opt.isSafe, .safeMode, .safeReadDirs, .safeWriteDirs, .safeExecPattern, .lockDown],
      i'.opt o = i.opt o) : Calm s S j i' := by
  have hd : ∀ o ∈ [Opt.safeReadDirs, .safeWriteDirs, .safeExecPattern, .lockDown], i'.opt o = i.opt o := by
    intro o hm; apply ho; revert hm o; decide
  refine ⟨?_, ?_, ?_, ?_⟩
  · have := h.safe
    unfold isSafe at this ⊢
    rw [ho .isSafe (by decide)]
    exact this
  · rw [ho .safeMode (by decide)]; exact h.mode
  · intro hj
    exact ⟨hl ▸ (h.same hj).1, fun o hm => by rw [hd o hm]; exact (h.same hj).2 o hm⟩
  · intro hj
    exact ⟨hl ▸ (h.none hj).1, fun o hm => by rw [hd o hm]; exact (h.none hj).2 o hm⟩

theorem calm_create (e : Env) (he : EtcOk e) (s : Nat) (S : Ip) (a : Nat) (p : Ip) (opts : List (Str × Val))
    (c : Ip) (n : Nat) (hn : n ≠ s) (h : Calm s S a p) (hq : NotNamed .lockDown opts)
    (hc : newInterp e a p opts = some c) : Calm s S n c := by
  obtain ⟨-, -, -, hf⟩ := newInterp_cases e a p opts c hc
  have hlk : (process e.cust false false false (fresh p.opt) opts).1 .lockDown = .null := by
    rw [process_keeps]
    · show zero (kindOf .lockDown) = .null
      decide +kernel
    · intro kv hm sp hf he
      exact absurd he (hq kv hm sp hf)
  generalize (process e.cust false false false (fresh p.opt) opts).1 = r at hf hlk
  have hsafe := settle_safe e he p.opt r h.safe
  have hx := settle_eq e he p.opt r h.safe
  have hlk' : settle e p.opt r .lockDown = .null := by
    rw [hx .lockDown (by decide) (by decide) (by decide)]; exact hlk
  obtain ⟨-, -, -, -, hst, h2 | ⟨q, hq', -⟩⟩ := finish_cases e _ _ _ c hf
  · have hmode : settle e p.opt r .safeMode = S.opt .safeMode := by
      rw [hx .safeMode (by decide) (by decide) (by decide), ← h.mode]; rfl
    refine ⟨h2.1 ▸ hsafe, h2.1 ▸ hmode, fun hj => absurd hj hn, fun _ => ⟨?_, ?_⟩⟩
    · rw [hst, hmode]
    · intro o hm
      rw [h2.1]
      simp only [List.mem_cons, List.not_mem_nil, or_false] at hm
      rcases hm with rfl | rfl | rfl | rfl
      · rw [hx _ (by decide) (by decide) (by decide)]; rfl
      · rw [hx _ (by decide) (by decide) (by decide)]; rfl
      · rw [hx _ (by decide) (by decide) (by decide)]
        show (if _ then Val.null else _) = _
        split
        · rfl
        · rename_i hh
          by_cases hh' : r .safeExecPattern = .null
          · exact hh'
          · exact absurd (Or.inr (Or.inr hh')) hh
      · exact hlk'
  · rw [hlk'] at hq'; cases hq'

theorem calm_source (e : Env) (s : Nat) (S : Ip) (j : Nat) (i : Ip) (f : Str) (h : Calm s S j i)
    (h1 : S.startSafe = false) (h2 : S.opt .safeMode = modeNone) :
    (source e i f).1.startSafe = i.startSafe ∧ (source e i f).1.opt = i.opt ∧
      ((source e i f).2 = true → mayRead e i.opt f = true) := by
  have hs : i.startSafe = false := by
    by_cases hj : j = s
    · rw [(h.same hj).1, h1]
    · rw [(h.none hj).1, h2]; rfl
  unfold source sourceFirst
  rw [hs]
  split
  · exact ⟨hs, rfl, id⟩
  · exact ⟨rfl, rfl, id⟩

theorem calm_keeps (e : Env) (he : EtcOk e) (s : Nat) (S : Ip) : Keeps e (Quiet S) (Calm s S) s where
  create := fun a p opts c n hn hp hq hc => calm_create e he s S a p opts c n hn hp hq hc
  conf := fun _ _ i self opts hp hq => hp.congr rfl (fun o ho => by
    by_cases hl : o = .lockDown
    · subst hl; exact conf_keeps_lock e self i.opt opts _ hq
    · exact conf_keeps e self i.opt hp.safe opts o (by revert ho hl o; decide) hl)
  source := fun _ j i f hp hq =>
    have h := calm_source e s S j i f hp hq.1 hq.2
    hp.congr h.1 (fun _ _ => by rw [h.2.1])
  plain := fun _ _ hp => hp.congr rfl (fun _ _ => rfl)
  edit := fun _ i o l hp hq hk => hp.congr rfl (fun o' ho' => by
    show editRec i o l o' = _
    unfold editRec
    rw [if_neg (by simp [hq.1, hq.2]), Rec.set_ne]
    rintro rfl
    rcases kind_guarded _ (by clear hq hk; revert ho'; revert o'; decide) hk with h | h
    · exact hq.1 h
    · exact hq.2 h)

theorem calm_confined (e : Env) (s : Nat) (S : Ip) (hsafe : isSafe S.opt = true) (j : Nat) (i : Ip)
    (h : Calm s S j i) : Confined e S i := by
  by_cases hj : j = s
  · have hd := (h.same hj).2
    have h1 := hd .safeReadDirs (by decide)
    have h2 := hd .safeWriteDirs (by decide)
    have h3 := hd .safeExecPattern (by decide)
    have h4 := hd .lockDown (by decide)
    have h5 := h.safe
    refine ⟨fun f => ?_, fun f => ?_, fun nr cmd t => ?_⟩
    · simp only [mayRead, mayFile, h1, h5, hsafe]; exact id
    · simp only [mayWrite, mayFile, h2, h5, hsafe]; exact id
    · simp only [exec, execGate, h3, h4, h5, hsafe]; exact id
  · have hd := (h.none hj).2
    have h1 := hd .safeReadDirs (by decide)
    have h2 := hd .safeWriteDirs (by decide)
    have h3 := hd .safeExecPattern (by decide)
    have h4 := hd .lockDown (by decide)
    have h5 := h.safe
    refine ⟨fun f => ?_, fun f => ?_, fun nr cmd t => ?_⟩
    · rw [mayRead_none e i.opt h5 h1]; intro h; cases h
    · simp [mayWrite, mayFile, h2, h5, dirs, Path.interpAccess]
    · simp [exec, execGate, h3, h4, h5]

/-- **C70**, the part that holds: in every history without the `lockDown` option, without changes to the arrays of
directories that `Interp.conf` gives out, and with `Interp.source` only where `safeMode` is not in use, an interpreter
created below a safe one reads, writes and executes nothing that the safe one, as it was at the start, may not.
Missing: the actions left out, each of which gives more rights (`C70_lockDown_refuted`, `C70_source_refuted`,
`C70_selfSource_refuted`, `C70_edit_refuted`, `C70_conf_refuted`). -/
theorem C70_confined_partial (e : Env) (he : EtcOk e) (w : World) (hw : Wf w) (s : Nat) (S : Ip)
    (hS : w[s]? = some S) (hsafe : isSafe S.opt = true) (hn : NoSubs w s) (ops : List Op)
    (hq : ∀ op ∈ ops, Quiet S op) (j : Nat) (i : Ip) (hi : (run e w ops)[j]? = some i)
    (hj : Within (run e w ops) s j) : Confined e S i :=
  calm_confined e s S hsafe j i (run_all (calm_keeps e he s S) ops w hq hw (List.getElem?_eq_some_iff.1 hS).1
    (all_start hS hn ⟨hsafe, rfl, fun _ => ⟨rfl, fun _ _ => rfl⟩, fun h => absurd rfl h⟩) j i hi hj)

/-- **C70**, the file opened by `Interp.source` in such a history is one the safe interpreter may read. -/
theorem C70_sourced_partial (e : Env) (he : EtcOk e) (w : World) (hw : Wf w) (s : Nat) (S : Ip)
    (hS : w[s]? = some S) (hsafe : isSafe S.opt = true) (hn : NoSubs w s) (h1 : S.startSafe = false)
    (h2 : S.opt .safeMode = modeNone) (ops : List Op) (hq : ∀ op ∈ ops, Quiet S op) (j : Nat) (i : Ip)
    (hi : (run e w ops)[j]? = some i) (hj : Within (run e w ops) s j) (f : Str)
    (hf : (source e i f).2 = true) : mayRead e S.opt f = true := by
  have hc := run_all (calm_keeps e he s S) ops w hq hw (List.getElem?_eq_some_iff.1 hS).1
    (all_start hS hn ⟨hsafe, rfl, fun _ => ⟨rfl, fun _ _ => rfl⟩, fun h => absurd rfl h⟩) j i hi hj
  exact (calm_confined e s S hsafe j i hc).read f ((calm_source e s S j i f hc h1 h2).2.2 hf)

end Verif.Interp
