import Verif.Path.Access
import Mathlib.Data.List.TakeWhile

/-!
C34: the commands that act on the text as given (`File.mkdir`, `File.remove`), counterexamples, and a concrete
file system that meets the hypotheses.
-/

namespace Verif.Path

/-- No component is "." or "..". -/
def NoDots (p : Str) : Prop := ∀ c ∈ split p, c ≠ [46] ∧ c ≠ [46, 46]

theorem foldl_unix_plain : ∀ (as : List Str) (l : Loc), (∀ c ∈ as, c ≠ [46] ∧ c ≠ [46, 46]) →
    as.foldl unixStep l = l ++ as.filter (· ≠ []) := by
  intro as
  induction as with
  | nil => intro l _; simp
  | cons a as ih =>
    intro l h
    have ha := h a (by simp)
    rw [List.foldl_cons, ih _ (fun c hc => h c (by simp [hc]))]
    unfold unixStep
    by_cases h0 : a = []
    · rw [if_pos (Or.inl h0), h0]; simp
    · rw [if_neg (by rintro (e | e); exact h0 e; exact ha.1 e), if_neg ha.2]
      simp [h0]

theorem comps_flatMap (l : Loc) (h : ∀ n ∈ l, n ≠ [] ∧ (47 : UInt8) ∉ n) :
    comps (l.flatMap (fun x : Str => (47 : UInt8) :: x)) = l := by
  unfold comps
  rw [split_flatMap _ (fun n hn => (h n hn).2)]
  simp only [ne_eq, not_true_eq_false, decide_false, Bool.false_eq_true, not_false_eq_true,
    List.filter_cons_of_neg]
  rw [List.filter_eq_self]
  intro n hn
  simpa using (h n hn).1

theorem comps_real {e : Env} (he : e.Ok) (hk : e.fs.NoLinks) {p s : Str} (hp : p.head? = some 47)
    (hd : NoDots p) (h : e.real p = some s) : comps s = comps p := by
  cases hr : resolve e.fs e.cwd p with
  | some l =>
    rw [real_of_resolve (by rw [hp]; decide) hr, Option.some.injEq] at h
    have hex := resolve_exists he.fs (by rw [he.cwd]; simp) hr
    rw [← h, comps_render l (he.fs.names l hex)]
    unfold resolve at hr
    split at hr
    · simp at hr
    have hst : start e.cwd p = [] := by unfold start; rw [if_pos hp]
    rw [hst] at hr
    have := walk_plain hk false 40 _ _ _ hd hr
    rw [List.nil_append] at this
    exact this
  | none =>
    unfold Env.real fileRealpath at h
    cases p with
    | nil => simp at hp
    | cons c t =>
      simp only [List.head?_cons, Option.some.injEq] at hp
      subst hp
      simp only [] at h
      rw [if_neg (by decide)] at h
      simp only [sysRealpath, hr, Option.map_none] at h
      rw [if_neg (by simp)] at h
      simp only [Option.some.injEq] at h
      subst h
      cases hs : strstr [46, 47] (47 :: t) with
      | false => unfold normalizeUnix; rw [hs]; rfl
      | true =>
        obtain ⟨e1, _⟩ := normalizeUnix_abs (cwd := render e.cwd) (p := 47 :: t) rfl hs
        rw [e1, foldl_unix_plain _ _ hd, List.nil_append]
        exact comps_flatMap _ (comps_good_names _)

theorem lastName_comps {p : Str} {ds : List Str} {n : Str} (h : lastName p = some (ds, n)) :
    comps p = ds.filter (· ≠ []) ++ [n] ∧ ∀ c ∈ ds, c ∈ split p := by
  unfold lastName at h
  simp only at h
  split at h
  · simp at h
  rename_i m rs hm
  split at h
  · simp at h
  simp only [Option.some.injEq, Prod.mk.injEq] at h
  obtain ⟨rfl, rfl⟩ := h
  have hsp : ∃ z, (∀ c ∈ z, c = []) ∧ (split p).reverse = z ++ m :: rs := by
    refine ⟨(split p).reverse.takeWhile (· = []), ?_, ?_⟩
    · intro c hc; simpa using List.mem_takeWhile_imp hc
    · rw [← hm, List.takeWhile_append_dropWhile]
  obtain ⟨z, hz, hsp⟩ := hsp
  have hmne : m ≠ [] := by
    intro e
    have := List.head_dropWhile_not (fun c : Str => decide (c = [])) (l := (split p).reverse) (by rw [hm]; simp)
    simp only [hm, List.head_cons, e] at this
    simp at this
  have hs : split p = rs.reverse ++ [m] ++ z.reverse := by
    have := congrArg List.reverse hsp
    simpa using this
  constructor
  · unfold comps
    rw [hs]
    simp only [List.filter_append]
    have : (z.reverse).filter (fun c : Str => decide (c ≠ [])) = [] := by
      rw [List.filter_eq_nil_iff]
      intro c hc
      simp [hz c (by simpa using hc)]
    rw [this]
    simp [hmne]
  · intro c hc
    rw [hs]
    simp only [List.mem_append]
    exact Or.inl (Or.inl hc)

theorem at_comps {fs : Fs} (hk : fs.NoLinks) {cwd : Loc} {p : Str} (hp : p.head? = some 47) (hd : NoDots p)
    {ds : List Str} {n : Str} {d : Loc} (h : lastName p = some (ds, n))
    (hw : walk fs false 40 (start cwd p) ds = some d) : d ++ [n] = comps p := by
  obtain ⟨h1, h2⟩ := lastName_comps h
  have hst : start cwd p = [] := by unfold start; rw [if_pos hp]
  rw [hst] at hw
  have := walk_plain hk false 40 _ _ _ (fun c hc => hd c (h2 c hc)) hw
  rw [this, h1]; simp

/-- **C34**, `File.mkdir`, the part that holds: an absolute path without "." and "..", no symbolic links.  Missing:
".." (`C34_mkdir_refuted`). -/
theorem C34_mkdir_partial (e : Env) (he : e.Ok) (hk : e.fs.NoLinks) (p : Str) (l : Loc)
    (hp : p.head? = some 47) (hd : NoDots p) (h : e.mkdir p = some l) :
    ∃ ds, e.writeDirs = some ds ∧ Within ds l := by
  unfold Env.mkdir at h
  split at h
  · simp at h
  split at h
  · simp at h
  rename_i ha
  simp only [Bool.not_eq_eq_eq_not, Bool.not_true, Bool.not_eq_false] at ha
  obtain ⟨ds, d, s, hds, hm, hs, habs, hpre, _⟩ := access_elim he ha
  rw [comps_real he hk hp hd hs] at hpre
  refine ⟨ds, hds, d, hm, habs, ?_⟩
  unfold mkdirAt at h
  split at h
  · simp at h
  rename_i ps n hl
  split at h
  · simp at h
  rename_i d' hw
  split at h
  · simp only [Option.some.injEq] at h
    rw [← h, at_comps hk hp hd hl hw]; exact hpre
  · simp at h

/-- **C34**, `File.remove`, the part that holds (same restrictions).  Missing: symbolic links
(`C34_remove_refuted`), "~" (`C34_home_refuted`). -/
theorem C34_remove_partial (e : Env) (he : e.Ok) (hk : e.fs.NoLinks) (p : Str) (l : Loc)
    (hp : p.head? = some 47) (hd : NoDots p) (h : e.remove p = some l) :
    ∃ ds, e.writeDirs = some ds ∧ Within ds l := by
  unfold Env.remove at h
  split at h
  · simp at h
  split at h
  · simp at h
  rename_i ha
  simp only [Bool.not_eq_eq_eq_not, Bool.not_true, Bool.not_eq_false] at ha
  obtain ⟨ds, d, s, hds, hm, hs, habs, hpre, _⟩ := access_elim he ha
  rw [comps_real he hk hp hd hs] at hpre
  refine ⟨ds, hds, d, hm, habs, ?_⟩
  split at h
  · simp at h
  split at h
  · simp at h
  rw [tilde_of_ne (by rw [hp]; decide)] at h
  unfold removeAt at h
  split at h
  · simp at h
  rename_i ps n hl
  split at h
  · simp at h
  rename_i d' hw
  split at h
  · simp only [Option.some.injEq] at h
    rw [← h, at_comps hk hp hd hl hw]; exact hpre
  · simp at h

/-! ### A concrete file system -/

/-- A file system given by a list. -/
def fsOf (t : List (Loc × Node)) : Fs := fun l => t.lookup l

/-- The list is a sound file system. -/
def checkFs (t : List (Loc × Node)) : Bool :=
  fsOf t [] == some .dir &&
  t.all (fun x => (x.1 == [] || fsOf t x.1.dropLast == some .dir) && x.1.all (fun n => decide (GoodName n)))

theorem lookup_mem {t : List (Loc × Node)} {l : Loc} (h : t.lookup l ≠ none) : ∃ n, (l, n) ∈ t := by
  induction t with
  | nil => simp at h
  | cons x t ih =>
    obtain ⟨a, b⟩ := x
    simp only [List.lookup] at h
    split at h
    · rename_i h1
      have : l = a := by simpa using h1
      exact ⟨b, by simp [this]⟩
    · obtain ⟨n, hn⟩ := ih h
      exact ⟨n, by simp [hn]⟩

theorem fsOf_wf {t : List (Loc × Node)} (h : checkFs t = true) : (fsOf t).Wf := by
  simp only [checkFs, Bool.and_eq_true, beq_iff_eq, List.all_eq_true, Bool.or_eq_true, decide_eq_true_eq] at h
  refine ⟨h.1, ?_, ?_⟩
  · intro l n hl
    obtain ⟨x, hx⟩ := lookup_mem hl
    have := (h.2 _ hx).1
    simp only [List.append_eq_nil_iff, List.cons_ne_nil, and_false, false_or, List.dropLast_concat] at this
    exact this
  · intro l hl n hn
    obtain ⟨x, hx⟩ := lookup_mem hl
    exact (h.2 _ hx).2 n hn

/-- /safe is the only directory open to the script; /etc is outside. -/
def demoTree : List (Loc × Node) :=
  [([], .dir), ([asc "safe"], .dir), ([asc "etc"], .dir), ([asc "etc", asc "passwd"], .file),
   ([asc "safe", asc "x"], .file), ([asc "safe", asc "sub"], .dir)]

/-- The same with two symbolic links: /safe/lnk to a file that does not exist, /etc/in to /safe/x. -/
def linkTree : List (Loc × Node) :=
  demoTree ++ [([asc "safe", asc "lnk"], .link (asc "/etc/new")), ([asc "etc", asc "in"], .link (asc "/safe/x"))]

def demoEnv (t : List (Loc × Node)) (home : Str) : Env where
  fs := fsOf t
  cwd := [asc "safe"]
  home := home
  pwHome := asc "/safe"
  readDirs := some [asc "/safe"]
  writeDirs := some [asc "/safe"]
  lockdown := false
  argv0 := none
  execName := asc "/bin/jsish"

theorem demo_ok (t : List (Loc × Node)) (home : Str) (h : checkFs t = true)
    (hc : fsOf t [asc "safe"] = some .dir) : (demoEnv t home).Ok where
  fs := fsOf_wf h
  cwd := hc
  home := by show (asc "/safe").head? = some 47; decide +kernel
  rdirs := by
    intro ds hd d hm
    have : ds = [asc "/safe"] := by simpa [demoEnv] using hd.symm
    subst this
    have : d = asc "/safe" := by simpa using hm
    subst this; right; decide +kernel
  wdirs := by
    intro ds hd d hm
    have : ds = [asc "/safe"] := by simpa [demoEnv] using hd.symm
    subst this
    have : d = asc "/safe" := by simpa using hm
    subst this; right; decide +kernel

theorem demoTree_nolinks : (fsOf demoTree).NoLinks := by
  intro l t h
  obtain ⟨n, hn⟩ := lookup_mem (show demoTree.lookup l ≠ none by unfold fsOf at h; rw [h]; simp)
  simp only [demoTree, List.mem_cons, Prod.mk.injEq, List.not_mem_nil, or_false] at hn
  have hl : l = [] ∨ l = [asc "safe"] ∨ l = [asc "etc"] ∨ l = [asc "etc", asc "passwd"] ∨
      l = [asc "safe", asc "x"] ∨ l = [asc "safe", asc "sub"] := by
    rcases hn with h | h | h | h | h | h <;> simp [h.1]
  have hall : ∀ l', l' = [] ∨ l' = [asc "safe"] ∨ l' = [asc "etc"] ∨ l' = [asc "etc", asc "passwd"] ∨
      l' = [asc "safe", asc "x"] ∨ l' = [asc "safe", asc "sub"] →
      fsOf demoTree l' = some .dir ∨ fsOf demoTree l' = some .file := by
    rintro l' (rfl | rfl | rfl | rfl | rfl | rfl) <;> decide +kernel
  rcases hall l hl with h1 | h1 <;> rw [h1] at h <;> simp at h

/-- The hypotheses of the theorems above are met: a file inside is opened, through dots; one outside is not. -/
theorem demo_use :
    (demoEnv demoTree (asc "/safe")).openFile false false (asc "sub/../x") = some [asc "safe", asc "x"] ∧
    (demoEnv demoTree (asc "/safe")).openFile false false (asc "/etc/passwd") = none ∧
    (demoEnv demoTree (asc "/safe")).openFile false false (asc "../etc/passwd") = none ∧
    (demoEnv demoTree (asc "/safe")).openFile true true (asc "sub/new") = some [asc "safe", asc "sub", asc "new"] ∧
    (demoEnv demoTree (asc "/safe")).mkdir (asc "/safe/sub/d") = some [asc "safe", asc "sub", asc "d"] ∧
    (demoEnv demoTree (asc "/safe")).remove (asc "/safe/x") = some [asc "safe", asc "x"] := by
  decide +kernel

example : (demoEnv demoTree (asc "/safe")).Ok ∧ (demoEnv linkTree (asc "/etc")).Ok :=
  ⟨demo_ok _ _ (by decide +kernel) (by decide +kernel), demo_ok _ _ (by decide +kernel) (by decide +kernel)⟩

example : NoDots (asc "/safe/sub/d") := by unfold NoDots; decide +kernel

theorem not_within {l : Loc} (h : ¬ [asc "safe"] <+: l) : ¬ Within [asc "/safe"] l := by
  rintro ⟨d, hm, _, hp⟩
  have : d = asc "/safe" := by simpa using hm
  subst this
  have : comps (asc "/safe") = [asc "safe"] := by decide +kernel
  rw [this] at hp
  exact h hp

/-- **C34 refuted**, `File.mkdir`: with only /safe writable, `File.mkdir("/safe/../etc/new")` makes /etc/new. -/
theorem C34_mkdir_refuted : (demoEnv demoTree (asc "/safe")).Ok ∧
    (demoEnv demoTree (asc "/safe")).mkdir (asc "/safe/../etc/new") = some [asc "etc", asc "new"] ∧
    ¬ Within [asc "/safe"] [asc "etc", asc "new"] :=
  ⟨demo_ok _ _ (by decide +kernel) (by decide +kernel), by decide +kernel, not_within (by decide +kernel)⟩

/-- **C34 refuted**, writing through a symbolic link to a file that does not exist yet. -/
theorem C34_create_refuted : (demoEnv linkTree (asc "/safe")).Ok ∧
    (demoEnv linkTree (asc "/safe")).openFile true true (asc "/safe/lnk") = some [asc "etc", asc "new"] ∧
    ¬ Within [asc "/safe"] [asc "etc", asc "new"] :=
  ⟨demo_ok _ _ (by decide +kernel) (by decide +kernel), by decide +kernel, not_within (by decide +kernel)⟩

/-- **C34 refuted**, `File.remove` of a symbolic link outside that points inside. -/
theorem C34_remove_refuted : (demoEnv linkTree (asc "/safe")).Ok ∧
    (demoEnv linkTree (asc "/safe")).remove (asc "/etc/in") = some [asc "etc", asc "in"] ∧
    ¬ Within [asc "/safe"] [asc "etc", asc "in"] :=
  ⟨demo_ok _ _ (by decide +kernel) (by decide +kernel), by decide +kernel, not_within (by decide +kernel)⟩

/-- **C34 refuted**, "~": the check uses the password file, the removal uses `$HOME`. -/
theorem C34_home_refuted : (demoEnv demoTree (asc "/etc")).Ok ∧
    (demoEnv demoTree (asc "/etc")).remove (asc "~/passwd") = some [asc "etc", asc "passwd"] ∧
    ¬ Within [asc "/safe"] [asc "etc", asc "passwd"] :=
  ⟨demo_ok _ _ (by decide +kernel) (by decide +kernel), by decide +kernel, not_within (by decide +kernel)⟩

end Verif.Path
