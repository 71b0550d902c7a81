import Verif.Pkg.Load
/-!
# What `require` and `provide` guarantee (C112–C116)
-/
namespace Verif.Pkg

/-! ## The table -/

theorem get_emit (w : World) (e : Event) (nm : Name) : get (emit w e) nm = get w nm := rfl

theorem get_add (w : World) (nm nm' : Name) (p : Pkg) : get (add w nm p) nm' = if nm = nm' then some p else get w nm' := by
  unfold get add
  by_cases h : nm = nm' <;> simp [h]

theorem get_change (w : World) (nm nm' : Name) (f : Pkg → Pkg) :
    get (change w nm f) nm' = if nm = nm' then (get w nm').map f else get w nm' := by
  unfold get change
  generalize w.pkgs = l
  induction l with
  | nil => simp
  | cons e l ih =>
    have hu : (upd f nm e).1 = e.1 := by unfold upd; split <;> rfl
    simp only [List.map_cons, List.find?_cons, hu]
    by_cases he : e.1 = nm'
    · simp only [he, decide_true, Option.map_some]
      by_cases h : nm = nm'
      · have h1 : e.1 = nm := he.trans h.symm
        simp [upd, h, he]
      · have h1 : ¬ e.1 = nm := fun q => h (q.symm.trans he)
        simp [upd, h1, h]
    · simp only [he, decide_false, ih]

/-! ## An induction for everything that evaluation does -/

/-- A relation between states, one for every number of requires that may still nest, that every single step
respects. -/
structure Respected (R : Nat → World → World → Prop) : Prop where
  refl : ∀ n w, R n w w
  trans : ∀ n a b c, R n a b → R n b c → R n a c
  mark : ∀ n w k, R n w (emit w (.mark k))
  add : ∀ n w nm p, get w nm = none → R n w (add w nm p)
  change : ∀ n w nm f, (∀ p : Pkg, (f p).ver = p.ver) → R n w (change w nm f)
  file : ∀ n w w' nm p, R n (emit w (.start nm p)) w' → R (n + 1) w (emit w' (.stop nm p))

theorem setReq_ver (v : Nat) (p : Pkg) : (setReq v p).ver = p.ver := by unfold setReq; split <;> rfl

section
variable {R : Nat → World → World → Prop} (hR : Respected R) (cfg : Cfg)
include hR

/-- `req` respects the relation of level `n`. -/
def ReqOk (R : Nat → World → World → Prop) (n : Nat) (req : Path → World → Name → Nat → World × Option Nat) : Prop :=
  ∀ cur w nm v, R n w (req cur w nm v).1

theorem provide_resp (n : Nat) (w : World) (cur : Path) (lib : Bool) (nm : Name) (v : Nat) : R n w (provide w cur lib nm v).1 := by
  unfold provide
  split
  · exact hR.refl n w
  · split
    · exact hR.refl n w
    · split
      · exact hR.refl n w
      · exact hR.add n w nm _ ‹_›

theorem sysRequire_resp {n : Nat} {req} (hq : ReqOk R n req) (cur : Path) (w : World) (nm : Name) (v : Option Nat) (o : Bool) :
    R n w (sysRequire cfg req cur w nm v o).1 := by
  unfold sysRequire
  split
  · exact hR.refl n w
  · have h := hq cur w nm (v.getD 0)
    split
    · rename_i e; rw [e] at h; exact h
    · rename_i e; rw [e] at h
      split
      · split
        · exact h
        · exact hR.trans _ _ _ _ h (hR.change _ _ _ _ (setReq_ver _))
      · exact h

theorem evalScr_resp {n : Nat} {req} (hq : ReqOk R n req) (cur : Path) (lib : Bool) (s : Scr) :
    ∀ w, R n w (evalScr cfg req cur lib s w).1 := by
  induction s with
  | done => intro w; exact hR.refl n w
  | throw => intro w; exact hR.refl n w
  | mark k s ih => intro w; exact hR.trans _ _ _ _ (hR.mark n w k) (ih _)
  | provide nm v s ih =>
    intro w
    have h := provide_resp hR n w cur lib nm v
    unfold evalScr
    split
    · rename_i e; rw [e] at h; exact hR.trans _ _ _ _ h (ih _)
    · rename_i e; rw [e] at h; exact h
  | require nm v o s ih =>
    intro w
    have h := sysRequire_resp hR cfg hq cur w nm v o
    unfold evalScr
    split
    · rename_i e; rw [e] at h; exact hR.trans _ _ _ _ h (ih _)
    · rename_i e; rw [e] at h; exact h
  | attempt b c s ihb ihc ih =>
    intro w
    have h := ihb w
    unfold evalScr
    split
    · rename_i e; rw [e] at h; exact hR.trans _ _ _ _ h (ih _)
    · rename_i w1 e; rw [e] at h
      have h2 := ihc w1
      split
      · rename_i e; rw [e] at h2; exact hR.trans _ _ _ _ h (hR.trans _ _ _ _ h2 (ih _))
      · rename_i e; rw [e] at h2; exact hR.trans _ _ _ _ h h2

theorem evalFile_resp {n : Nat} {req} (hq : ReqOk R n req) (cur : Path) (w : World) (nm : Name) (p : Path) (lib : Bool) (s : Scr) :
    R (n + 1) w (evalFile cfg req cur w nm p lib s).1 :=
  hR.file _ _ _ _ _ (evalScr_resp hR cfg hq _ lib s _)

theorem checkProvided_fst (nm : Name) (p : Path) (r : World × Bool) : (checkProvided nm p r).1 = r.1 := by
  unfold checkProvided; split <;> rfl

theorem loadOne_resp {n : Nat} {req} (hq : ReqOk R n req) (cur : Path) (nm : Name) (d : Path) (m : Nat) :
    ∀ i w, R (n + 1) w (loadOne cfg req cur nm d m i w).1 := by
  induction m with
  | zero => intro i w; exact hR.refl _ w
  | succ m ih =>
    intro i w
    unfold loadOne
    split
    · exact ih _ _
    · rw [checkProvided_fst hR]; exact evalFile_resp hR cfg hq _ _ _ _ _ _

theorem loadDirs_resp {n : Nat} {req} (hq : ReqOk R n req) (cur : Path) (nm : Name) (ds : List Path) :
    ∀ w, R (n + 1) w (loadDirs cfg req cur nm ds w).1 := by
  induction ds with
  | nil => intro w; exact hR.refl _ w
  | cons d ds ih =>
    intro w
    have h := loadOne_resp hR cfg hq cur nm d 4 0 w
    unfold loadDirs
    split
    · rename_i e; rw [e] at h; exact hR.trans _ _ _ _ h (ih _)
    · exact h

theorem noteFile_resp {n : Nat} {w : World} (nm : Name) (r : World × Rc) (h : R n w r.1) : R n w (noteFile cfg nm r).1 := by
  unfold noteFile
  split
  · exact hR.trans _ _ _ _ h (hR.change _ _ _ _ (fun _ => rfl))
  · exact h

/-- **The induction**: what every step respects, `require` respects. -/
theorem requireAt_resp (n : Nat) : ReqOk R n (requireAt cfg n) := by
  induction n with
  | zero =>
    intro cur w nm v
    unfold requireAt
    split
    · exact hR.change _ _ _ _ (setReq_ver _)
    · exact hR.refl _ w
  | succ n ih =>
    intro cur w nm v
    unfold requireAt
    split
    · exact hR.change _ _ _ _ (setReq_ver _)
    · have h := noteFile_resp hR cfg nm _ (loadDirs_resp hR cfg ih cur nm (dirs cfg cur) w)
      split
      · rename_i e; rw [e] at h; exact h
      · rename_i e; rw [e] at h; exact h

theorem top_resp (cur : Path) (s : Scr) (w : World) : R (cfg.maxInc + 1) w (top cfg cur s w).1 :=
  evalScr_resp hR cfg (requireAt_resp hR cfg _) cur false s w

theorem session_resp (l : List (Path × Scr)) : ∀ w, R (cfg.maxInc + 1) w (session cfg l w) := by
  induction l with
  | nil => intro w; exact hR.refl _ w
  | cons e l ih => intro w; exact hR.trans _ _ _ _ (top_resp hR cfg _ _ w) (ih _)

end

/-! ## C112 What `require` returns -/

theorem requireAt_some {cfg : Cfg} {n : Nat} {cur : Path} {w w' : World} {nm : Name} {v r : Nat}
    (h : requireAt cfg n cur w nm v = (w', some r)) : ∃ p, get w' nm = some p ∧ p.ver = r := by
  have known : ∀ p, get w nm = some p → (change w nm (setReq v), some p.ver) = (w', some r) → ∃ p, get w' nm = some p ∧ p.ver = r := by
    intro p hp e
    obtain ⟨e1, e2⟩ := Prod.mk.inj e
    subst e1
    refine ⟨setReq v p, by simp [get_change, hp], ?_⟩
    rw [setReq_ver]; exact Option.some.inj e2
  cases n with
  | zero =>
    unfold requireAt at h
    split at h
    · exact known _ ‹_› h
    · cases h
  | succ n =>
    unfold requireAt at h
    split at h
    · exact known _ ‹_› h
    · split at h
      · obtain ⟨e1, e2⟩ := Prod.mk.inj h
        subst e1
        obtain ⟨p, hp, e⟩ := Option.map_eq_some_iff.mp e2
        exact ⟨p, hp, e⟩
      · cases h

/-- **C112** `require(nm, v)` returns only if the package is there afterwards and the version it was provided
with, which is the one returned, is at least `v`. -/
theorem C112_at_least_partial {cfg : Cfg} (he : cfg.noError = false) {cur : Path} {w w' : World} {nm : Name} {v r : Nat}
    (h : topRequire cfg cur w nm (some v) false = (w', some r)) :
    ∃ p, get w' nm = some p ∧ p.ver = r ∧ v ≤ r := by
  unfold topRequire sysRequire at h
  split at h
  · cases h
  · split at h
    · cases h
    · rename_i w1 r1 e
      obtain ⟨p, hp, hr⟩ := requireAt_some e
      dsimp only at h
      split at h
      · cases h
      · rename_i hv
        obtain ⟨e1, e2⟩ := Prod.mk.inj h
        have e2 := Option.some.inj e2
        subst e1 e2
        refine ⟨setReq v p, by simp [get_change, hp], by rw [setReq_ver]; exact hr, ?_⟩
        rcases Nat.lt_or_ge r1 v with hlt | hge
        · exact absurd ⟨hlt, he⟩ hv
        · exact hge

/-- **C112** `require(nm)` returns only if the package is there afterwards, and returns its version. -/
theorem C112_there {cfg : Cfg} {cur : Path} {w w' : World} {nm : Name} {ver : Option Nat} {o : Bool} {r : Nat}
    (h : topRequire cfg cur w nm ver o = (w', some r)) : ∃ p, get w' nm = some p ∧ p.ver = r := by
  unfold topRequire sysRequire at h
  split at h
  · cases h
  · split at h
    · cases h
    · rename_i w1 r1 e
      obtain ⟨p, hp, hr⟩ := requireAt_some e
      split at h
      · split at h
        · cases h
        · obtain ⟨e1, e2⟩ := Prod.mk.inj h
          have e2 := Option.some.inj e2
          subst e1 e2
          exact ⟨_, by rw [get_change, if_pos rfl, hp]; rfl, by rw [setReq_ver]; exact hr⟩
      · obtain ⟨e1, e2⟩ := Prod.mk.inj h
        have e2 := Option.some.inj e2
        subst e1 e2
        exact ⟨p, hp, hr⟩

/-- **C112** A package that is there and has at least the version asked for is returned, without anything else
being evaluated. -/
theorem C112_known {cfg : Cfg} {cur : Path} {w : World} {nm : Name} {p : Pkg} (hn : isAlnum nm = true) (hp : get w nm = some p)
    (ver : Option Nat) (o : Bool) (hv : ver.getD 0 ≤ p.ver) :
    (topRequire cfg cur w nm ver o).2 = some p.ver ∧ (topRequire cfg cur w nm ver o).1.log = w.log := by
  have e : requireAt cfg (cfg.maxInc + 1) cur w nm (ver.getD 0) = (change w nm (setReq (ver.getD 0)), some p.ver) := by
    unfold requireAt; rw [hp]
  unfold topRequire sysRequire
  rw [hn, e]
  cases ver with
  | none => exact ⟨rfl, rfl⟩
  | some v =>
    cases o with
    | true => exact ⟨rfl, rfl⟩
    | false =>
      have : ¬ (p.ver < v ∧ cfg.noError = false) := fun q => absurd hv (by simp only [Option.getD_some]; omega)
      dsimp only
      rw [if_neg this]
      exact ⟨rfl, rfl⟩

/-- **C112** … and one whose version is lower is refused. -/
theorem C112_downlevel_partial {cfg : Cfg} (he : cfg.noError = false) {cur : Path} {w : World} {nm : Name} {p : Pkg} (hp : get w nm = some p)
    (v : Nat) (hv : p.ver < v) : (topRequire cfg cur w nm (some v) false).2 = none := by
  have e : requireAt cfg (cfg.maxInc + 1) cur w nm v = (change w nm (setReq v), some p.ver) := by
    unfold requireAt; rw [hp]
  unfold topRequire sysRequire
  split
  · rfl
  · simp only [Option.getD_some, e]
    rw [if_pos ⟨hv, he⟩]

/-! ## C113 What is provided stays -/

/-- Every package of `w` is in `w'`, with the same version. -/
def Keeps (_ : Nat) (w w' : World) : Prop := ∀ nm p, get w nm = some p → ∃ p', get w' nm = some p' ∧ p'.ver = p.ver

theorem keeps_respected : Respected Keeps where
  refl _ _ _ p h := ⟨p, h, rfl⟩
  trans _ _ _ _ h1 h2 nm p h := by
    obtain ⟨p', h', e⟩ := h1 nm p h
    obtain ⟨p'', h'', e'⟩ := h2 nm p' h'
    exact ⟨p'', h'', e'.trans e⟩
  mark _ _ _ _ p h := ⟨p, h, rfl⟩
  add _ w nm q hq nm' p h := by
    refine ⟨p, ?_, rfl⟩
    rw [get_add]
    by_cases e : nm = nm'
    · subst e; rw [hq] at h; cases h
    · rw [if_neg e]; exact h
  change _ w nm f hf nm' p h := by
    rw [get_change]
    by_cases e : nm = nm'
    · rw [if_pos e, h]; exact ⟨f p, rfl, hf p⟩
    · rw [if_neg e]; exact ⟨p, h, rfl⟩
  file _ _ _ _ _ h nm p hp := h nm p hp

/-- **C113** Whatever scripts are evaluated, a package that was provided stays, and so does its version. -/
theorem C113_stays (cfg : Cfg) (l : List (Path × Scr)) (w : World) {nm : Name} {p : Pkg} (h : get w nm = some p) :
    ∃ p', get (session cfg l w) nm = some p' ∧ p'.ver = p.ver :=
  session_resp keeps_respected cfg l w nm p h

/-- **C113** Once a package was provided `require` of it evaluates nothing, however much is done between. -/
theorem C113_not_again {cfg : Cfg} (l : List (Path × Scr)) (w : World) {nm : Name} {p : Pkg} (hn : isAlnum nm = true) (h : get w nm = some p)
    (cur : Path) :
    (topRequire cfg cur (session cfg l w) nm none false).2 = some p.ver ∧
    (topRequire cfg cur (session cfg l w) nm none false).1.log = (session cfg l w).log := by
  obtain ⟨p', h', e⟩ := C113_stays cfg l w h
  have := C112_known (cfg := cfg) (cur := cur) hn h' none false (by simp)
  rw [e] at this
  exact this

/-- **C113** `provide(nm, v)` is an error unless the package is there afterwards; if it was not there before, it
has version `v` then. -/
theorem C113_provided {w w' : World} {cur : Path} {lib : Bool} {nm : Name} {v : Nat} (h : provide w cur lib nm v = (w', true)) :
    (get w nm = none → ∃ p, get w' nm = some p ∧ p.ver = v) ∧ ∃ p, get w' nm = some p := by
  unfold provide at h
  split at h
  · cases h
  · split at h
    · cases h
    · split at h
      · rename_i p hp
        obtain ⟨e, _⟩ := Prod.mk.inj h
        subst e
        exact ⟨fun q => (by rw [hp] at q; cases q), p, hp⟩
      · obtain ⟨e, _⟩ := Prod.mk.inj h
        subst e
        exact ⟨fun _ => ⟨_, by rw [get_add, if_pos rfl], rfl⟩, _, by rw [get_add, if_pos rfl]⟩

/-- **C113** A second `provide` of a package by another file is an error and changes nothing. -/
theorem C113_other_file {w : World} {cur : Path} {lib : Bool} {nm : Name} {v : Nat} {p : Pkg} (h : get w nm = some p) (hc : p.load ≠ some cur) :
    provide w cur lib nm v = (w, false) := by
  unfold provide
  split
  · rfl
  · split
    · rfl
    · rw [h]; simp [hc]

/-! ## C114 Where a package is looked for -/

/-- The files a package can be in, in the order they are looked for: for every directory the extension, the
extension in a directory of its name, the script, the script in a directory of its name. -/
def places (ds : List Path) (nm : Name) : List (Path × Bool) :=
  ds.flatMap fun d =>
    [(d ++ asc "/" ++ nm ++ asc ".so", true), (d ++ asc "/" ++ nm ++ asc "/" ++ nm ++ asc ".so", true),
     (d ++ asc "/" ++ nm ++ asc ".jsi", false), (d ++ asc "/" ++ nm ++ asc "/" ++ nm ++ asc ".jsi", false)]

/-- The files of one directory from the `i`-th on. -/
def placesFrom (nm : Name) (d : Path) : Nat → Nat → List (Path × Bool)
  | 0, _ => []
  | n + 1, i => (fileAt d nm i, decide (i < 2)) :: placesFrom nm d n (i + 1)

theorem placesFrom_four (nm : Name) (d : Path) : placesFrom nm d 4 0 =
    [(d ++ asc "/" ++ nm ++ asc ".so", true), (d ++ asc "/" ++ nm ++ asc "/" ++ nm ++ asc ".so", true),
     (d ++ asc "/" ++ nm ++ asc ".jsi", false), (d ++ asc "/" ++ nm ++ asc "/" ++ nm ++ asc ".jsi", false)] := by
  have h : asc "/" = [47] := rfl
  simp [placesFrom, fileAt, h]

/-- The first of the places with a readable file. -/
def firstFile (cfg : Cfg) (l : List (Path × Bool)) : Option (Path × Bool) := l.find? fun e => (cfg.fs e.1).isSome

/-- What happens with the first file found. -/
def evalFirst (cfg : Cfg) (req : Path → World → Name → Nat → World × Option Nat) (cur : Path) (nm : Name) (w : World) (e : Path × Bool) : World × Rc :=
  checkProvided nm e.1 (evalFile cfg req cur w nm e.1 e.2 ((cfg.fs e.1).getD .done))

theorem loadOne_eq (cfg : Cfg) (req) (cur : Path) (nm : Name) (d : Path) (n : Nat) : ∀ i w,
    loadOne cfg req cur nm d n i w = match firstFile cfg (placesFrom nm d n i) with
      | none => (w, .cont)
      | some e => evalFirst cfg req cur nm w e := by
  induction n with
  | zero => intro i w; rfl
  | succ n ih =>
    intro i w
    unfold loadOne
    cases hf : cfg.fs (fileAt d nm i) with
    | none =>
      have : firstFile cfg (placesFrom nm d (n + 1) i) = firstFile cfg (placesFrom nm d n (i + 1)) := by
        simp [placesFrom, firstFile, hf]
      rw [this]; exact ih _ _
    | some s =>
      have : firstFile cfg (placesFrom nm d (n + 1) i) = some (fileAt d nm i, decide (i < 2)) := by
        simp [placesFrom, firstFile, hf]
      rw [this]
      simp [evalFirst, hf]

theorem checkProvided_ne_cont (nm : Name) (p : Path) (r : World × Bool) : (checkProvided nm p r).2 ≠ .cont := by
  unfold checkProvided; split <;> (intro h; cases h)

theorem loadDirs_eq (cfg : Cfg) (req) (cur : Path) (nm : Name) (ds : List Path) : ∀ w,
    loadDirs cfg req cur nm ds w = match firstFile cfg (places ds nm) with
      | none => (w, .err)
      | some e => evalFirst cfg req cur nm w e := by
  induction ds with
  | nil => intro w; rfl
  | cons d ds ih =>
    intro w
    have hp : places (d :: ds) nm = placesFrom nm d 4 0 ++ places ds nm := by rw [placesFrom_four]; rfl
    have hff : firstFile cfg (places (d :: ds) nm) = (firstFile cfg (placesFrom nm d 4 0)).or (firstFile cfg (places ds nm)) := by
      rw [hp]; exact List.find?_append
    rw [hff]
    unfold loadDirs
    rw [loadOne_eq]
    cases hf : firstFile cfg (placesFrom nm d 4 0) with
    | none => simp only [Option.none_or]; exact ih w
    | some e =>
      simp only [Option.some_or]
      have := checkProvided_ne_cont nm e.1 (evalFile cfg req cur w nm e.1 e.2 ((cfg.fs e.1).getD .done))
      split
      · rename_i h; unfold evalFirst at h; rw [h] at this; exact absurd rfl this
      · rfl

/-- What evaluation adds to the log. -/
def Extends (_ : Nat) (w w' : World) : Prop := ∃ l, w'.log = w.log ++ l

theorem extends_respected : Respected Extends where
  refl _ w := ⟨[], by simp⟩
  trans := by rintro _ a b c ⟨l, h⟩ ⟨l', h'⟩; exact ⟨l ++ l', by rw [h', h, List.append_assoc]⟩
  mark _ w k := ⟨_, rfl⟩
  add _ _ _ _ _ := ⟨[], by simp [add]⟩
  change _ _ _ _ _ := ⟨[], by simp [change]⟩
  file := by
    rintro _ w w' nm p ⟨l, h⟩
    exact ⟨[.start nm p] ++ l ++ [.stop nm p], by simp only [emit] at h ⊢; rw [h]; simp⟩

/-- **C114** A package that is not there yet is loaded from the first readable file among the places it can be in,
in the order of `places`: the directories of `pkgDirs`, then that of the executable, then that of the script;
and that file is the first thing evaluated. -/
theorem C114_first_place {cfg : Cfg} {cur : Path} {w : World} {nm : Name} (hn : isAlnum nm = true) (h0 : get w nm = none)
    {before after : List (Path × Bool)} {p : Path} {lib : Bool} {s : Scr}
    (hp : places (cfg.pkgDirs ++ cfg.execDir.toList ++ (scriptDir cfg cur).toList) nm = before ++ (p, lib) :: after)
    (hb : ∀ e ∈ before, cfg.fs e.1 = none) (hs : cfg.fs p = some s) (ver : Option Nat) (o : Bool) :
    ∃ rest, (topRequire cfg cur w nm ver o).1.log = w.log ++ .start nm p :: rest := by
  have hf : firstFile cfg (places (dirs cfg cur) nm) = some (p, lib) := by
    unfold dirs
    rw [hp]
    unfold firstFile
    rw [List.find?_append]
    have : before.find? (fun e => (cfg.fs e.1).isSome) = none := by
      rw [List.find?_eq_none]
      intro e he
      simp [hb e he]
    rw [this]
    simp [hs]
  have hl := evalScr_resp extends_respected cfg (requireAt_resp extends_respected cfg cfg.maxInc) (if lib then cur else p) lib s
    (emit w (.start nm p))
  obtain ⟨l, hl⟩ := hl
  have e1 : (requireAt cfg (cfg.maxInc + 1) cur w nm (ver.getD 0)).1.log = w.log ++ .start nm p :: (l ++ [.stop nm p]) := by
    unfold requireAt
    rw [h0, loadDirs_eq, hf]
    have hlog : (evalFirst cfg (requireAt cfg cfg.maxInc) cur nm w (p, lib)).1.log = w.log ++ .start nm p :: (l ++ [.stop nm p]) := by
      unfold evalFirst
      rw [checkProvided_fst extends_respected]
      simp only [hs, Option.getD_some, evalFile, emit] at hl ⊢
      rw [hl]; simp
    have hn : (noteFile cfg nm (evalFirst cfg (requireAt cfg cfg.maxInc) cur nm w (p, lib))).1.log =
        (evalFirst cfg (requireAt cfg cfg.maxInc) cur nm w (p, lib)).1.log := by
      unfold noteFile; split
      · rename_i e; rw [e]; rfl
      · rename_i e; rw [e]
    rw [hlog] at hn
    dsimp only
    split
    · rename_i e; rw [e] at hn; exact hn
    · rename_i e; rw [e] at hn; exact hn
  refine ⟨l ++ [.stop nm p], ?_⟩
  unfold topRequire sysRequire
  rw [hn]
  split
  · rename_i h; cases h
  · split
    · rename_i e; rw [e] at e1; exact e1
    · rename_i e; rw [e] at e1
      split
      · split
        · exact e1
        · exact e1
      · exact e1

/-- **C114** If there is no such file, `require` is an error and nothing happens. -/
theorem C114_nowhere {cfg : Cfg} {cur : Path} {w : World} {nm : Name} (h0 : get w nm = none)
    (hp : ∀ e ∈ places (cfg.pkgDirs ++ cfg.execDir.toList ++ (scriptDir cfg cur).toList) nm, cfg.fs e.1 = none) (ver : Option Nat) (o : Bool) :
    topRequire cfg cur w nm ver o = (w, none) := by
  have hf : firstFile cfg (places (dirs cfg cur) nm) = none := by
    unfold firstFile
    rw [List.find?_eq_none]
    intro e he
    simp [hp e he]
  have e : requireAt cfg (cfg.maxInc + 1) cur w nm (ver.getD 0) = (w, none) := by
    unfold requireAt
    rw [h0, loadDirs_eq, hf]
    rfl
  unfold topRequire sysRequire
  rw [e]
  split <;> rfl

/-! ## C115 A package that failed to load -/

/-- **C115** The first `require` of a package returns only if its file was evaluated to the end without an
exception and provided the package. -/
theorem C115_first_time_partial {cfg : Cfg} {cur : Path} {w w' : World} {nm : Name} {ver : Option Nat} {o : Bool} {r : Nat} (h0 : get w nm = none)
    (h : topRequire cfg cur w nm ver o = (w', some r)) :
    ∃ p lib s, (p, lib) ∈ places (cfg.pkgDirs ++ cfg.execDir.toList ++ (scriptDir cfg cur).toList) nm ∧ cfg.fs p = some s ∧
      (evalScr cfg (requireAt cfg cfg.maxInc) (if lib then cur else p) lib s (emit w (.start nm p))).2 = true ∧
      (get (evalScr cfg (requireAt cfg cfg.maxInc) (if lib then cur else p) lib s (emit w (.start nm p))).1 nm).isSome = true := by
  have key : ∃ w1 r1, requireAt cfg (cfg.maxInc + 1) cur w nm (ver.getD 0) = (w1, some r1) := by
    unfold topRequire sysRequire at h
    split at h
    · cases h
    · split at h
      · cases h
      · exact ⟨_, _, ‹_›⟩
  obtain ⟨w1, r1, e⟩ := key
  unfold requireAt at e
  rw [h0, loadDirs_eq] at e
  cases hf : firstFile cfg (places (dirs cfg cur) nm) with
  | none => rw [hf] at e; cases e
  | some f =>
    rw [hf] at e
    obtain ⟨p, lib⟩ := f
    have hm := List.mem_of_find?_eq_some hf
    have hs := List.find?_some hf
    obtain ⟨s, hs⟩ := Option.isSome_iff_exists.mp hs
    refine ⟨p, lib, s, hm, hs, ?_⟩
    dsimp only at e
    unfold evalFirst checkProvided at e
    simp only [hs, Option.getD_some] at e
    split at e
    · rename_i w2 h2
      split at h2
      · rename_i hc; exact hc
      · cases h2
    · cases e

/-- **C115** … so if the file throws, or does not provide the package, the first `require` is an error. -/
theorem C115_error_is_reported {cfg : Cfg} {cur : Path} {w : World} {nm : Name} (h0 : get w nm = none)
    {before after : List (Path × Bool)} {p : Path} {lib : Bool} {s : Scr}
    (hp : places (cfg.pkgDirs ++ cfg.execDir.toList ++ (scriptDir cfg cur).toList) nm = before ++ (p, lib) :: after)
    (hb : ∀ e ∈ before, cfg.fs e.1 = none) (hs : cfg.fs p = some s)
    (hr : (evalScr cfg (requireAt cfg cfg.maxInc) (if lib then cur else p) lib s (emit w (.start nm p))).2 = false)
    (ver : Option Nat) (o : Bool) : (topRequire cfg cur w nm ver o).2 = none := by
  have hf : firstFile cfg (places (dirs cfg cur) nm) = some (p, lib) := by
    unfold dirs
    rw [hp]
    unfold firstFile
    rw [List.find?_append]
    have : before.find? (fun e => (cfg.fs e.1).isSome) = none := by
      rw [List.find?_eq_none]
      intro e he
      simp [hb e he]
    rw [this]
    simp [hs]
  have e : (requireAt cfg (cfg.maxInc + 1) cur w nm (ver.getD 0)).2 = none := by
    unfold requireAt
    rw [h0, loadDirs_eq, hf]
    dsimp only
    unfold evalFirst checkProvided
    simp only [hs, Option.getD_some]
    rw [if_neg (fun q => by rw [show (evalFile cfg (requireAt cfg cfg.maxInc) cur w nm p lib s).2 = false from hr] at q; cases q.1)]
    rfl
  unfold topRequire sysRequire
  split
  · rfl
  · split
    · rfl
    · rename_i h; rw [h] at e; cases e

/-- A script that can neither require nor catch. -/
def Plain : Scr → Prop
  | .done => True
  | .throw => True
  | .mark _ k => Plain k
  | .provide _ _ k => Plain k
  | .require .. => False
  | .attempt .. => False

/-- `provide nm` is the last thing such a script does. -/
def ProvidesLast (nm : Name) : Scr → Prop
  | .done => True
  | .throw => True
  | .mark _ k => ProvidesLast nm k
  | .provide m _ k => if m = nm then k = .done else ProvidesLast nm k
  | .require .. => False
  | .attempt .. => False

theorem providesLast_eval {cfg : Cfg} {req} {cur : Path} {lib : Bool} {nm : Name} (s : Scr) (hs : ProvidesLast nm s) : ∀ w, get w nm = none →
    (evalScr cfg req cur lib s w).2 = false → get (evalScr cfg req cur lib s w).1 nm = none := by
  induction s with
  | done => intro w h0 h; cases h
  | throw => intro w h0 _; exact h0
  | mark n k ih => intro w h0 h; exact ih hs _ h0 h
  | provide m v k ih =>
    intro w h0 h
    unfold ProvidesLast at hs
    unfold evalScr at h ⊢
    by_cases e : m = nm
    · rw [if_pos e] at hs
      subst hs
      split at h
      · cases h
      · rename_i w' hw
        have : w' = w := by
          unfold provide at hw
          split at hw
          · cases hw; rfl
          · split at hw
            · cases hw; rfl
            · split at hw
              · exact (Prod.mk.inj hw).1.symm
              · cases hw
        rw [this]; exact h0
    · rw [if_neg e] at hs
      have hg : get (provide w cur lib m v).1 nm = none := by
        unfold provide
        split
        · exact h0
        · split
          · exact h0
          · split
            · exact h0
            · rw [get_add, if_neg e]; exact h0
      split at h
      · rename_i hw; rw [hw] at hg; exact ih hs _ hg h
      · rename_i hw; rw [hw] at hg; exact hg
  | require => exact absurd hs (fun h => h)
  | attempt => exact absurd hs (fun h => h)

/-- **C115** If the file of a package neither requires others nor catches, and provides the package as the last
thing it does, then a `require` that fails leaves the package unprovided: the next `require` evaluates the file
again. -/
theorem C115_provide_last_partial {cfg : Cfg} {cur : Path} {w : World} {nm : Name} (h0 : get w nm = none)
    {before after : List (Path × Bool)} {p : Path} {lib : Bool} {s : Scr}
    (hp : places (cfg.pkgDirs ++ cfg.execDir.toList ++ (scriptDir cfg cur).toList) nm = before ++ (p, lib) :: after)
    (hb : ∀ e ∈ before, cfg.fs e.1 = none) (hs : cfg.fs p = some s) (hl : ProvidesLast nm s)
    (hr : (evalScr cfg (requireAt cfg cfg.maxInc) (if lib then cur else p) lib s (emit w (.start nm p))).2 = false) :
    (topRequire cfg cur w nm none false).2 = none ∧ get (topRequire cfg cur w nm none false).1 nm = none := by
  refine ⟨C115_error_is_reported h0 hp hb hs hr none false, ?_⟩
  have hf : firstFile cfg (places (dirs cfg cur) nm) = some (p, lib) := by
    unfold dirs
    rw [hp]
    unfold firstFile
    rw [List.find?_append]
    have : before.find? (fun e => (cfg.fs e.1).isSome) = none := by
      rw [List.find?_eq_none]
      intro e he
      simp [hb e he]
    rw [this]
    simp [hs]
  have e : requireAt cfg (cfg.maxInc + 1) cur w nm 0 =
      ((evalFile cfg (requireAt cfg cfg.maxInc) cur w nm p lib s).1, none) := by
    unfold requireAt
    rw [h0, loadDirs_eq, hf]
    dsimp only
    unfold evalFirst checkProvided
    simp only [hs, Option.getD_some]
    rw [if_neg (fun q => by rw [show (evalFile cfg (requireAt cfg cfg.maxInc) cur w nm p lib s).2 = false from hr] at q; cases q.1)]
    rfl
  unfold topRequire sysRequire
  split
  · exact h0
  · simp only [Option.getD_none, e]
    exact providesLast_eval s hl _ h0 hr

/-! ## C116 Packages that require each other -/

/-- How many evaluations were begun. -/
def starts (l : List Event) : Nat := l.countP fun e => match e with | .start .. => true | _ => false
/-- How many ended. -/
def stops (l : List Event) : Nat := l.countP fun e => match e with | .stop .. => true | _ => false

/-- At no time are more than `n` evaluations begun in `l` under way, and none at the end. -/
def Within (n : Nat) (l : List Event) : Prop := (∀ pre post, l = pre ++ post → starts pre ≤ stops pre + n) ∧ starts l = stops l

theorem within_append {n : Nat} {a b : List Event} (ha : Within n a) (hb : Within n b) : Within n (a ++ b) := by
  refine ⟨?_, by simp only [starts, stops, List.countP_append] at *; have := ha.2; have := hb.2; simp only [starts, stops] at *; omega⟩
  intro pre post h
  rcases List.append_eq_append_iff.mp h with ⟨c, hc, hc'⟩ | ⟨c, hc, hc'⟩
  · subst hc
    have h1 := hb.1 c post hc'
    have h2 := ha.2
    simp only [starts, stops, List.countP_append] at *
    omega
  · exact ha.1 pre c hc

/-- The new events, and that they nest at most `n` deep. -/
def Nested (n : Nat) (w w' : World) : Prop := ∃ l, w'.log = w.log ++ l ∧ Within n l

theorem within_nil (n : Nat) : Within n [] := by
  refine ⟨?_, rfl⟩
  intro pre post h
  have := (List.append_eq_nil_iff.mp h.symm).1
  subst this
  simp [starts]

theorem within_single {n : Nat} {e : Event} (h1 : starts [e] = 0) (h2 : stops [e] = 0) : Within n [e] := by
  refine ⟨?_, by omega⟩
  intro pre post h
  cases pre with
  | nil => simp [starts]
  | cons a t =>
    obtain ⟨h', ht⟩ := List.cons.inj h
    have := (List.append_eq_nil_iff.mp ht.symm).1
    subst this; subst h'
    omega

theorem within_file {n : Nat} {l : List Event} (h : Within n l) (nm : Name) (p : Path) :
    Within (n + 1) (.start nm p :: (l ++ [.stop nm p])) := by
  refine ⟨?_, ?_⟩
  · intro pre post e
    cases pre with
    | nil => simp [starts]
    | cons a t =>
      obtain ⟨h', ht⟩ := List.cons.inj e
      subst h'
      have hs : starts (.start nm p :: t) = starts t + 1 := by simp [starts, List.countP_cons]
      have hs' : stops (.start nm p :: t) = stops t := by simp [stops, List.countP_cons]
      rw [hs, hs']
      rcases List.append_eq_append_iff.mp ht with ⟨c, hc, hc'⟩ | ⟨c, hc, hc'⟩
      · subst hc
        cases c with
        | nil =>
          have := h.1 l [] (by simp)
          simp only [List.append_nil]; omega
        | cons b c =>
          obtain ⟨h', ht'⟩ := List.cons.inj hc'
          have := (List.append_eq_nil_iff.mp ht'.symm).1
          subst this; subst h'
          have := h.2
          simp only [starts, stops, List.countP_append, List.countP_cons, List.countP_nil] at *
          simp at *
          omega
      · have := h.1 t c hc
        omega
  · have := h.2
    simp only [starts, stops, List.countP_append, List.countP_cons, List.countP_nil] at *
    simp at *
    omega

theorem nested_respected : Respected Nested where
  refl n w := ⟨[], by simp, within_nil n⟩
  trans := by
    rintro n a b c ⟨l, h, hw⟩ ⟨l', h', hw'⟩
    exact ⟨l ++ l', by rw [h', h, List.append_assoc], within_append hw hw'⟩
  mark n w k := ⟨_, rfl, within_single rfl rfl⟩
  add n _ _ _ _ := ⟨[], by simp [add], within_nil n⟩
  change n _ _ _ _ := ⟨[], by simp [change], within_nil n⟩
  file := by
    rintro n w w' nm p ⟨l, h, hw⟩
    refine ⟨.start nm p :: (l ++ [.stop nm p]), ?_, within_file hw nm p⟩
    simp only [emit] at h ⊢
    rw [h]; simp

/-- **C116** However packages require each other, at no time are more than `maxIncDepth + 1` package files being
evaluated, and every evaluation that begins ends. -/
theorem C116_depth (cfg : Cfg) (l : List (Path × Scr)) (w : World) :
    ∃ new, (session cfg l w).log = w.log ++ new ∧ Within (cfg.maxInc + 1) new :=
  session_resp nested_respected cfg l w

/-- Every file a package can be in begins with the `provide` of that package. -/
def ProvideFirst (cfg : Cfg) : Prop :=
  ∀ d nm i s, i < 4 → isAlnum nm = true → cfg.fs (fileAt d nm i) = some s → ∃ v k, 0 < v ∧ s = .provide nm v k

/-- The files evaluated for a package. -/
def evaluated (nm : Name) (l : List Event) : Nat := l.countP fun e => match e with | .start m _ => decide (m = nm) | _ => false

/-- No package was evaluated twice, and those evaluated are provided. -/
def Once (w : World) : Prop := ∀ nm, evaluated nm w.log ≤ 1 ∧ (get w nm = none → evaluated nm w.log = 0)

theorem once_change {w : World} (h : Once w) (nm : Name) (f : Pkg → Pkg) : Once (change w nm f) := by
  intro m
  refine ⟨(h m).1, fun hg => (h m).2 ?_⟩
  rw [get_change] at hg
  split at hg
  · exact Option.map_eq_none_iff.mp hg
  · exact hg

theorem once_add {w : World} (h : Once w) (nm : Name) (p : Pkg) : Once (add w nm p) := by
  intro m
  refine ⟨(h m).1, fun hg => (h m).2 ?_⟩
  rw [get_add] at hg
  split at hg
  · cases hg
  · exact hg

theorem once_emit {w : World} (h : Once w) {e : Event} (he : ∀ nm p, e ≠ .start nm p) : Once (emit w e) := by
  intro m
  have : evaluated m (emit w e).log = evaluated m w.log := by
    unfold evaluated emit
    rw [List.countP_append]
    cases e with
    | start nm p => exact absurd rfl (he nm p)
    | stop => simp
    | mark => simp
  rw [this]; exact h m

theorem once_provide {w : World} (h : Once w) (cur : Path) (lib : Bool) (nm : Name) (v : Nat) : Once (provide w cur lib nm v).1 := by
  unfold provide
  split
  · exact h
  · split
    · exact h
    · split
      · exact h
      · exact once_add h _ _

/-- `req` keeps `Once`. -/
def ReqOnce (req : Path → World → Name → Nat → World × Option Nat) : Prop :=
  ∀ cur w nm v, isAlnum nm = true → Once w → Once (req cur w nm v).1

theorem once_sysRequire {cfg : Cfg} {req} (hq : ReqOnce req) (cur : Path) {w : World} (h : Once w) (nm : Name) (v : Option Nat) (o : Bool) :
    Once (sysRequire cfg req cur w nm v o).1 := by
  unfold sysRequire
  split
  · exact h
  · rename_i ha
    have h1 := hq cur w nm (v.getD 0) (by simpa using ha) h
    split
    · rename_i e; rw [e] at h1; exact h1
    · rename_i e; rw [e] at h1
      split
      · split
        · exact h1
        · exact once_change h1 _ _
      · exact h1

theorem once_evalScr {cfg : Cfg} {req} (hq : ReqOnce req) (cur : Path) (lib : Bool) (s : Scr) :
    ∀ w, Once w → Once (evalScr cfg req cur lib s w).1 := by
  induction s with
  | done => intro w h; exact h
  | throw => intro w h; exact h
  | mark k s ih => intro w h; exact ih _ (once_emit h (by intro _ _ e; cases e))
  | provide nm v s ih =>
    intro w h
    have h1 := once_provide h cur lib nm v
    unfold evalScr
    split
    · rename_i e; rw [e] at h1; exact ih _ h1
    · rename_i e; rw [e] at h1; exact h1
  | require nm v o s ih =>
    intro w h
    have h1 := once_sysRequire (cfg := cfg) hq cur h nm v o
    unfold evalScr
    split
    · rename_i e; rw [e] at h1; exact ih _ h1
    · rename_i e; rw [e] at h1; exact h1
  | attempt b c s ihb ihc ih =>
    intro w h
    have h1 := ihb w h
    unfold evalScr
    split
    · rename_i e; rw [e] at h1; exact ih _ h1
    · rename_i w1 e; rw [e] at h1
      have h2 := ihc w1 h1
      split
      · rename_i e; rw [e] at h2; exact ih _ h2
      · rename_i e; rw [e] at h2; exact h2

theorem once_evalFile {cfg : Cfg} {req} (hq : ReqOnce req) (cur : Path) {w : World} (h : Once w) {nm : Name} (hn : isAlnum nm = true)
    (h0 : get w nm = none) (p : Path) (lib : Bool) {v : Nat} (hv : 0 < v) (k : Scr) :
    Once (evalFile cfg req cur w nm p lib (.provide nm v k)).1 := by
  unfold evalFile
  apply once_emit _ (by intro _ _ e; cases e)
  have hp : ∀ c, provide (emit w (.start nm p)) c lib nm v = (add (emit w (.start nm p)) nm ⟨v, loadOf c lib, 0⟩, true) := by
    intro c
    unfold provide
    rw [hn, get_emit, h0]
    have : ¬ v = 0 := by omega
    simp [this]
  show Once (evalScr cfg req _ lib (.provide nm v k) _).1
  unfold evalScr
  rw [hp]
  apply once_evalScr hq
  intro m
  have hlog : (add (emit w (.start nm p)) nm ⟨v, loadOf (if lib = true then cur else p) lib, 0⟩).log = w.log ++ [.start nm p] := rfl
  rw [hlog]
  have hc : evaluated m (w.log ++ [.start nm p]) = evaluated m w.log + (if nm = m then 1 else 0) := by
    unfold evaluated
    rw [List.countP_append]
    by_cases e : nm = m <;> simp [e]
  rw [hc]
  by_cases e : nm = m
  · subst e
    have := (h nm).2 h0
    refine ⟨by rw [if_pos rfl]; omega, ?_⟩
    intro hg
    rw [get_add, if_pos rfl] at hg; cases hg
  · have := h m
    rw [if_neg e]
    refine ⟨by omega, ?_⟩
    intro hg
    rw [get_add, if_neg e, get_emit] at hg
    have := this.2 hg
    omega

theorem once_loadOne {cfg : Cfg} (hP : ProvideFirst cfg) {req} (hq : ReqOnce req) (cur : Path) {nm : Name} (hn : isAlnum nm = true) (d : Path) (m : Nat) :
    ∀ i w, m + i ≤ 4 → Once w → get w nm = none → Once (loadOne cfg req cur nm d m i w).1 ∧
      ((loadOne cfg req cur nm d m i w).2 = .cont → get (loadOne cfg req cur nm d m i w).1 nm = none) := by
  induction m with
  | zero => intro i w _ h h0; exact ⟨h, fun _ => h0⟩
  | succ m ih =>
    intro i w hm h h0
    unfold loadOne
    split
    · exact ih _ _ (by omega) h h0
    · rename_i s hs
      obtain ⟨v, k, hv, rfl⟩ := hP d nm i s (by omega) hn hs
      refine ⟨?_, fun hc => absurd hc (checkProvided_ne_cont _ _ _)⟩
      rw [checkProvided_fst keeps_respected]
      exact once_evalFile hq cur h hn h0 _ _ hv k

theorem once_loadDirs {cfg : Cfg} (hP : ProvideFirst cfg) {req} (hq : ReqOnce req) (cur : Path) {nm : Name} (hn : isAlnum nm = true) (ds : List Path) :
    ∀ w, Once w → get w nm = none → Once (loadDirs cfg req cur nm ds w).1 := by
  induction ds with
  | nil => intro w h _; exact h
  | cons d ds ih =>
    intro w h h0
    have h1 := once_loadOne hP hq cur hn d 4 0 w (by omega) h h0
    unfold loadDirs
    split
    · rename_i e; rw [e] at h1; exact ih _ h1.1 (h1.2 rfl)
    · exact h1.1

theorem once_noteFile {cfg : Cfg} (nm : Name) (r : World × Rc) (h : Once r.1) : Once (noteFile cfg nm r).1 := by
  unfold noteFile
  split
  · exact once_change h _ _
  · exact h

theorem once_requireAt {cfg : Cfg} (hP : ProvideFirst cfg) (n : Nat) : ReqOnce (requireAt cfg n) := by
  induction n with
  | zero =>
    intro cur w nm v _ h
    unfold requireAt
    split
    · exact once_change h _ _
    · exact h
  | succ n ih =>
    intro cur w nm v hn h
    unfold requireAt
    split
    · exact once_change h _ _
    · rename_i h0
      have h1 := once_noteFile (cfg := cfg) nm _ (once_loadDirs hP ih cur hn (dirs cfg cur) w h h0)
      split
      · rename_i e; rw [e] at h1; exact h1
      · rename_i e; rw [e] at h1; exact h1

theorem once_session {cfg : Cfg} (hP : ProvideFirst cfg) (l : List (Path × Scr)) : ∀ w, Once w → Once (session cfg l w) := by
  induction l with
  | nil => intro w h; exact h
  | cons e l ih => intro w h; exact ih _ (once_evalScr (once_requireAt hP _) e.1 false e.2 w h)

/-- **C116** If every package file begins by providing its package, then in a whole session, however packages
require each other, no package is evaluated more than once. -/
theorem C116_once_partial {cfg : Cfg} (hP : ProvideFirst cfg) (l : List (Path × Scr)) (nm : Name) :
    evaluated nm (session cfg l empty).log ≤ 1 :=
  (once_session hP l empty (fun _ => ⟨Nat.zero_le _, fun _ => rfl⟩) nm).1

end Verif.Pkg
