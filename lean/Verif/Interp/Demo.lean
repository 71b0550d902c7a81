import Verif.Interp.Conf

/-! Counterexamples to C69, C70 and C74, and concrete histories that meet the hypotheses of the theorems. -/

namespace Verif.Interp

/-- A machine without symbolic links and without configuration files; enumerations are given by number. -/
def demo : Env where
  cust := fun _ v => some v
  realpath := some
  home := asc "/home"
  cwd := asc "/w"
  conf := fun _ => none
  etc := none
  lockOk := fun _ => true
  regex := fun p c => some (p.isPrefixOf c)

theorem demo_etc : EtcOk demo := by intro l h; cases h

/-- A safe top-level interpreter (`jsish -s`), with the given `safeMode`, that may read and write /w. -/
def root (mode : Val) : Ip where
  opt := fun o =>
    match o with
    | .isSafe => .bool true
    | .safeMode => mode
    | .safeReadDirs => .list [asc "/w"]
    | .safeWriteDirs => .list [asc "/w"]
    | .maxInterpDepth => .num 3
    | .noNetwork => .bool true
    | .noAutoLoad => .bool true
    | o => fresh (fun _ => .null) o
  parent := none
  depth := 0
  startSafe := decide (mode ≠ modeNone)
  included := false
  shared := false
  hasLoad := false

theorem root_wf (m : Val) : DepthOk [root m] := by
  refine ⟨?_, ?_⟩
  · intro j i a hj hp
    match j, hj with
    | 0, hj => cases hj; cases hp
  · intro j i a hj hp
    match j, hj with
    | 0, hj => cases hj; cases hp

theorem root_noSubs (m : Val) : NoSubs [root m] 0 := by
  intro j i hj hp
  match j, hj with
  | 0, hj => cases hj; cases hp

/-- The first interpreter created by `root`. -/
theorem below_root (m : Val) (ops : List Op) (i : Ip) (h : (run demo [root m] ops)[1]? = some i)
    (hp : i.parent = some 0) : Within (run demo [root m] ops) 0 1 := .sub .self h hp

def passwd : Str := asc "/etc/passwd"

/-! ### counterexamples -/

/-- **C70 refuted**, `lockDown`: a safe interpreter that may only read /w creates an interpreter with
`{lockDown:"/etc"}`, and that one may read and write /etc/passwd. -/
theorem C70_lockDown_refuted : ∃ i, (run demo [root modeNone] [.create 0 [(asc "lockDown", .str (asc "/etc"))]])[1]? =
      some i ∧ Within (run demo [root modeNone] [.create 0 [(asc "lockDown", .str (asc "/etc"))]]) 0 1 ∧
    mayRead demo i.opt passwd = true ∧ mayWrite demo i.opt passwd = true ∧
    mayRead demo (root modeNone).opt passwd = false ∧ mayWrite demo (root modeNone).opt passwd = false := by
  refine ⟨_, rfl, below_root _ _ _ rfl rfl, ?_⟩
  decide +kernel

/-- **C70 refuted**, `sub.source`: a safe interpreter with `safeMode` on that may only read /w creates an interpreter
and lets it source /etc/passwd: the file is opened, and the new interpreter may read all of /etc from then on. -/
theorem C70_source_refuted : ∃ i i', (run demo [root modeRead] [.create 0 []])[1]? = some i ∧
    (source demo i passwd).2 = true ∧
    (run demo [root modeRead] [.create 0 [], .source 0 1 passwd])[1]? = some i' ∧
    Within (run demo [root modeRead] [.create 0 [], .source 0 1 passwd]) 0 1 ∧
    mayRead demo i'.opt (asc "/etc/shadow") = true ∧ mayRead demo (root modeRead).opt (asc "/etc/shadow") = false ∧
    mayRead demo (root modeRead).opt passwd = false := by
  refine ⟨_, _, rfl, ?_, rfl, below_root _ _ _ rfl rfl, ?_⟩
  · decide +kernel
  · decide +kernel

/-- **C70 refuted**, `Interp.source`: a safe interpreter with `safeMode` on and directories given opens any file
whatever with its first `Interp.source`. -/
theorem C70_selfSource_refuted (e : Env) (i : Ip) (f : Str) (h1 : i.startSafe = true) (h2 : i.included = false)
    (h3 : i.opt .safeReadDirs ≠ .null) : (source e i f).2 = true := by
  simp [source, sourceFirst, h1, h2, h3]

/-- A case of it. -/
theorem C70_selfSource_case : (source demo (root modeRead) passwd).2 = true ∧
    mayRead demo (root modeRead).opt passwd = false := by decide +kernel

/-- **C70 refuted**, the live array: `Interp.conf("safeReadDirs").push("/etc")` lets a safe interpreter read /etc. -/
theorem C70_edit_refuted : ∃ i,
    (run demo [root modeNone] [.edit 0 .safeReadDirs [asc "/w", asc "/etc"]])[0]? = some i ∧
    mayRead demo i.opt passwd = true ∧ mayRead demo (root modeNone).opt passwd = false := by
  refine ⟨_, rfl, ?_⟩
  decide +kernel

/-- **C70 refuted**, `lockDown` set later: a safe interpreter that may execute nothing sets `lockDown` to "." with
`Interp.conf`; from then on every command that begins with "fossil " and has none of the refused characters is
executed — also one that goes on with a new line and another command. -/
theorem C70_conf_refuted (e : Env) (r : Rec) (hs : isSafe r = true) (hc : flag r .noConfig = false)
    (hp : r .safeExecPattern = .null) (hl : r .lockDown = .null) (cmd : Str) (hb : cmd.any badChar = false) :
    exec e r false false (asc "fossil " ++ 10 :: cmd) = none ∧
    exec e (confRec e true r [(asc "lockDown", .str (asc "."))]) false false (asc "fossil " ++ 10 :: cmd) =
      some (asc "fossil " ++ 10 :: cmd) := by
  refine ⟨C74_none e r hs (fun p h => by rw [hp] at h; cases h) (fun h => by rw [hl] at h; cases h) _ _, ?_⟩
  have hf : find (asc "lockDown") = some ⟨.lockDown, asc "lockDown", .strkey, false, false, false⟩ := by
    decide +kernel
  have hr : confRec e true r [(asc "lockDown", .str (asc "."))] = r.set .lockDown (.str (asc ".")) := by
    simp [confRec, hc, process, hf, setOption]
  have hfos : (asc "fossil ").any badChar = false := by decide +kernel
  have hlen : (asc "fossil ").length = 7 := by decide +kernel
  have hg : execGate e (r.set .lockDown (.str (asc "."))) false (asc "fossil " ++ 10 :: cmd) = some true := by
    unfold execGate
    rw [if_neg (by rw [Bool.not_eq_false]; simpa [isSafe, Rec.set] using hs), if_neg (by simp),
      Rec.set_ne _ _ (by decide), hp]
    simp only []
    rw [if_pos ⟨by rw [Rec.set_same]; decide +kernel, by rw [← hlen, List.take_left]⟩]
  rw [hr]
  unfold exec
  rw [hg]
  simp only [List.any_append, hfos, List.any_cons, hb]
  rw [if_neg (by decide)]

/-- **C70 refuted**, loading libraries: an interpreter that was locked down by its (unsafe) creator is safe, and has
the `load` command. -/
theorem C70_load_refuted : ∃ i, newInterp demo 0
      { root modeNone with opt := fun o => if o = .isSafe then .bool false else (root modeNone).opt o }
      [(asc "lockDown", .str (asc "/w"))] = some i ∧ isSafe i.opt = true ∧ mayLoad i = true :=
  ⟨_, rfl, by decide +kernel, by decide +kernel⟩

/-- **C69 refuted** for the other locked options: `noAutoLoad` is locked in a safe interpreter, but an interpreter it
creates does not have it. -/
theorem C69_others_refuted : (∃ sp, SpecOf .noAutoLoad sp ∧ sp.lockSafe = true) ∧
    ∃ i, (run demo [root modeNone] [.create 0 []])[1]? = some i ∧
      Within (run demo [root modeNone] [.create 0 []]) 0 1 ∧
      flag (root modeNone).opt .noAutoLoad = true ∧ flag i.opt .noAutoLoad = false := by
  refine ⟨⟨⟨.noAutoLoad, asc "noAutoLoad", .bool, false, false, true⟩, ⟨by decide +kernel, rfl⟩, rfl⟩, _, rfl,
    below_root _ _ _ rfl rfl, ?_⟩
  decide +kernel

/-- **C74 refuted**, one command only: the pattern lets "ls" through, and with it a second line. -/
theorem C74_newline_refuted : exec demo ((root modeNone).opt.set .safeExecPattern (.str (asc "ls"))) false false
    (asc "ls\nrm x") = some (asc "ls\nrm x") := by decide +kernel

/-! ### the hypotheses are met -/

/-- A history with three generations: network stays off, nothing outside /w is reached. -/
def opsDemo : List Op :=
  [.create 0 [(asc "noNetwork", .bool false), (asc "maxDepth", .num 1000), (asc "safeR", .list [asc "/"])],
   .conf 0 1 [(asc "noNetwork", .bool false)],
   .source 0 1 passwd,
   .create 1 [(asc "isSafe", .bool false)],
   .conf 2 2 [(asc "name", .str (asc "x")), (asc "isSafe", .bool false)]]

example : (run demo [root modeNone] opsDemo).length = 3 := by decide +kernel

theorem opsDemo_quiet : ∀ op ∈ opsDemo, Quiet (root modeNone) op := by
  have nn : ∀ l : List (Str × Val), (∀ kv ∈ l, (find kv.1).map Spec.opt ≠ some .lockDown) → NotNamed .lockDown l := by
    intro l h kv hm sp hf he
    apply h kv hm
    rw [hf, ← he]
    rfl
  intro op hm
  simp only [opsDemo, List.mem_cons, List.not_mem_nil, or_false] at hm
  rcases hm with rfl | rfl | rfl | rfl | rfl
  · exact nn _ (by decide +kernel)
  · exact nn _ (by decide +kernel)
  · exact ⟨by decide +kernel, rfl⟩
  · exact nn _ (by decide +kernel)
  · exact nn _ (by decide +kernel)

/-- `C69_limits`, `C70_confined_partial` and `C73_depth` apply to the third generation. -/
example : ∃ i, (run demo [root modeNone] opsDemo)[2]? = some i ∧ Bound (root modeNone) i ∧
    Confined demo (root modeNone) i ∧ i.depth = 2 ∧ flag i.opt .noNetwork = true ∧ i.opt .name_ = .str (asc "x") := by
  have hl : Level (run demo [root modeNone] opsDemo) 0 2 2 := .sub (.sub .self rfl rfl) rfl rfl
  refine ⟨_, rfl, ?_, ?_, rfl, by decide +kernel, by decide +kernel⟩
  · exact C69_limits demo demo_etc _ (root_wf _).1 0 _ rfl (by decide +kernel) (root_noSubs _) opsDemo 2 _ rfl
      (level_within hl)
  · exact C70_confined_partial demo demo_etc _ (root_wf _).1 0 _ rfl (by decide +kernel) (root_noSubs _) opsDemo
      opsDemo_quiet 2 _ rfl (level_within hl)

example : (root modeNone).depth + (2 : Nat) ≤ limit (root modeNone).opt .maxInterpDepth :=
  C73_depth demo demo_etc _ (root_wf _) 0 _ rfl (by decide +kernel) (root_noSubs _) opsDemo 2 2
    (.sub (.sub .self rfl rfl) rfl rfl) (by decide)

/-- A configuration file of the machine that leaves the guarded options alone. -/
def demoEtc : Env := { demo with etc := some (some [(asc "asserts", .bool true)]) }

example : EtcOk demoEtc := by
  intro l h b r
  cases h
  have hf : find (asc "asserts") = some ⟨.asserts, asc "asserts", .bool, false, false, false⟩ := by decide +kernel
  have hp : process demoEtc.cust false b false r [(asc "asserts", .bool true)] =
      (r.set .asserts (.bool true), true) := by
    simp [process, hf, setOption]
  rw [hp]
  refine ⟨rfl, fun o ho => Rec.set_ne _ _ ?_⟩
  rintro rfl
  revert ho
  decide

/-- Abbreviations: "isS" is `isSafe`, "safe" fits several options, "log" is an option although "logOpts" begins so. -/
example : (find (asc "isS")).map Spec.opt = some .isSafe ∧ find (asc "safe") = none ∧
    (find (asc "log")).map Spec.opt = some .log_ ∧ find [] = none := by decide +kernel

/-- `C71_process`: the second entry is refused, the first one stays, the third has no effect. -/
example : (process demo.cust true true false (root modeNone).opt
      [(asc "name", .str (asc "a")), (asc "isSafe", .bool false), (asc "name", .str (asc "b"))]).1 .name_ =
    .str (asc "a") := by decide +kernel

/-- `C74_exec`: a command that passes. -/
example : exec demo ((root modeNone).opt.set .safeExecPattern (.str (asc "ls"))) false false (asc "ls -l") =
    some (asc "ls -l") ∧
    exec demo ((root modeNone).opt.set .safeExecPattern (.str (asc "ls"))) false false (asc "ls; id") = none ∧
    exec demo (root modeNone).opt false false (asc "ls") = none := by decide +kernel

end Verif.Interp
