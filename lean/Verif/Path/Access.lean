import Verif.Path.Norm

/-!
C34: what a safe interpreter can reach.
-/

namespace Verif.Path

/-- The assumptions on the surroundings: a sound file system, an existing working directory, and absolute names in the
password file and in the lists of directories. -/
structure Env.Ok (e : Env) : Prop where
  fs : e.fs.Wf
  cwd : e.fs e.cwd = some .dir
  home : e.pwHome.head? = some 47
  rdirs : ∀ ds, e.readDirs = some ds → ∀ d ∈ ds, d = [] ∨ d.head? = some 47
  wdirs : ∀ ds, e.writeDirs = some ds → ∀ d ∈ ds, d = [] ∨ d.head? = some 47

/-- The list that counts. -/
def Env.dirs (e : Env) (writ : Bool) : Option (List Str) := if writ then e.writeDirs else e.readDirs

theorem access_elim {e : Env} (he : e.Ok) {writ : Bool} {p : Str} (h : e.access writ p = true) :
    ∃ ds d s, e.dirs writ = some ds ∧ d ∈ ds ∧ e.real p = some s ∧ d.head? = some 47 ∧
      comps d <+: comps s ∧ s.head? = some 47 := by
  unfold Env.access interpAccess at h
  split at h
  · simp at h
  rename_i ds hd
  split at h
  · simp at h
  rename_i s hs
  simp only [List.any_eq_true] at h
  obtain ⟨d, hm, ha⟩ := h
  have hpre := entryAllows_prefix ha
  have habs : d.head? = some 47 := by
    have : d = [] ∨ d.head? = some 47 := by
      cases writ with
      | true => exact he.wdirs ds (by simpa using hd) d hm
      | false => exact he.rdirs ds (by simpa using hd) d hm
    rcases this with h0 | h0
    · subst h0; simp [entryAllows] at ha
    · exact h0
  have hsabs : s.head? = some 47 := by
    unfold entryAllows at ha
    split at ha
    · simp at ha
    split at ha
    · rename_i h1; simp only [beq_iff_eq] at h1; rw [← h1]; exact habs
    split at ha
    · simp at ha
    · rename_i h0 h1 h2
      simp only [strncmpEq, List.take_length, Bool.not_eq_eq_eq_not, Bool.not_true, beq_eq_false_iff_ne,
        ne_eq, Decidable.not_not] at h2
      cases d with
      | nil => simp at habs
      | cons c t =>
        cases s with
        | nil => simp at h2
        | cons x xs =>
          simp only [List.length_cons, List.take_succ_cons, List.cons.injEq] at h2
          rw [List.head?_cons, ← h2.1]; exact habs
  exact ⟨ds, d, s, hd, hm, hs, habs, hpre, hsabs⟩

theorem render_head (l : Loc) : (render l).head? = some 47 := by
  unfold render
  split
  · rfl
  · rename_i h
    cases l with
    | nil => exact absurd rfl h
    | cons a t => rfl

theorem render_ne_nil (l : Loc) : render l ≠ [] := by
  intro h; have := render_head l; rw [h] at this; simp at this

theorem tilde_of_ne {home p : Str} (h : p.head? ≠ some 126) : tilde home p = p := by
  unfold tilde
  cases p with
  | nil => rfl
  | cons c t => simp only [List.head?_cons, ne_eq, Option.some.injEq] at h; simp [h]

/-- For an existing object, the name the check looks at is the one of its location. -/
theorem real_of_resolve {e : Env} {p : Str} {l : Loc} (h0 : p.head? ≠ some 126)
    (h : resolve e.fs e.cwd p = some l) : e.real p = some (render l) := by
  unfold Env.real fileRealpath
  cases p with
  | nil => simp [resolve] at h
  | cons c t =>
    simp only [List.head?_cons, ne_eq, Option.some.injEq] at h0
    simp only [if_neg h0, sysRealpath, h, Option.map_some]

/-- If the check passes for the text `fn` of an existing object, the object is in a listed directory. -/
theorem within_of_access {e : Env} (he : e.Ok) {writ : Bool} {fn : Str} {l : Loc} (h0 : fn.head? ≠ some 126)
    (hr : resolve e.fs e.cwd fn = some l) (ha : e.access writ fn = true) :
    ∃ ds, e.dirs writ = some ds ∧ Within ds l := by
  obtain ⟨ds, d, s, hd, hm, hs, habs, hpre, _⟩ := access_elim he ha
  rw [real_of_resolve h0 hr, Option.some.injEq] at hs
  have hex : e.fs l ≠ none := resolve_exists he.fs (by rw [he.cwd]; simp) hr
  rw [← hs, comps_render l (he.fs.names l hex)] at hpre
  exact ⟨ds, hd, d, hm, habs, hpre⟩

/-- **C34** as the check itself: for an existing file, access is given exactly when its location (links
resolved) is in a listed directory; completeness for entries written as plain absolute names other than "/". -/
theorem C34_check_existing (e : Env) (he : e.Ok) (writ : Bool) (p : Str) (l : Loc) (h0 : p.head? ≠ some 126)
    (hr : resolve e.fs e.cwd p = some l) :
    (e.access writ p = true → ∃ ds, e.dirs writ = some ds ∧ Within ds l) ∧
    (∀ ds d, e.dirs writ = some ds → d ≠ [] → render d ∈ ds → d <+: l → e.access writ p = true) := by
  refine ⟨within_of_access he h0 hr, ?_⟩
  intro ds d hd hne hm hpre
  have hex : e.fs l ≠ none := resolve_exists he.fs (by rw [he.cwd]; simp) hr
  unfold Env.access interpAccess
  have hreal := real_of_resolve h0 hr
  unfold Env.real at hreal
  unfold Env.dirs at hd
  simp only [hd, hreal, List.any_eq_true]
  exact ⟨render d, hm, entryAllows_of_prefix hne (he.fs.names l hex) hpre⟩

/-! The text `Jsi_Open` opens does not start with a tilde. -/

theorem unixLoop_head : ∀ (as : List Str) (first : Bool) (d : Str) (x : UInt8), d.head? = some x →
    (unixLoop first as d).head? = some x := by
  intro as
  induction as with
  | nil => intro f d x h; exact h
  | cons a as ih =>
    intro f d x h
    simp only [unixLoop]
    split
    · exact ih _ _ _ h
    split
    · exact ih _ _ _ h
    split
    · refine ih _ _ _ ?_
      unfold popLast
      split
      · exact h
      · exact h
      · rename_i p h1 h2
        -- p is a prefix of d with at least two bytes
        have hp : (d.reverse.dropWhile (fun x => decide (x ≠ 47))).reverse <+: d := by
          have : d.reverse.dropWhile (fun x => decide (x ≠ 47)) <:+ d.reverse := List.dropWhile_suffix _
          have := List.reverse_prefix.2 this
          simpa using this
        generalize (d.reverse.dropWhile (fun x => decide (x ≠ 47))).reverse = q at hp h1 h2
        obtain ⟨r, hr⟩ := hp
        cases q with
        | nil => exact absurd rfl h1
        | cons u us =>
          cases us with
          | nil => exact absurd rfl (h2 u)
          | cons v vs =>
            rw [← hr] at h
            simpa using h
    · refine ih _ _ _ ?_
      cases d with
      | nil => simp at h
      | cons y ys => simpa using h

/-- An absolute path stays absolute or becomes empty; a path that becomes absolute was one or started with "..". -/
theorem normalizeUnix_head {cwd q : Str} (h : q.head? ≠ some 126) :
    (normalizeUnix cwd q).head? ≠ some 126 := by
  unfold normalizeUnix
  split
  · exact h
  split
  · exact h
  cases hs : split q with
  | nil => exact absurd hs (split_ne_nil q)
  | cons a as =>
    have hpieces := split_pieces q
    rw [hs] at hpieces
    have has : ∀ b ∈ as, (47 : UInt8) ∉ b := fun b hb => hpieces b (by simp [hb])
    have hflat : ∀ l : Loc, (l.flatMap (fun x : Str => (47 : UInt8) :: x)).head? ≠ some 126 := by
      intro l; cases l <;> simp
    have hfalse := unixLoop_false as [] (by simp) has
    simp only [List.flatMap_nil] at hfalse
    simp only [unixLoop]
    split
    · rw [hfalse]; exact hflat _
    rename_i ha
    simp only [Bool.not_true, Bool.false_and, Bool.false_eq_true, if_false]
    split
    · have : popLast [] = [] := by decide
      rw [this, hfalse]; exact hflat _
    · simp only [if_true, List.append_nil, List.nil_append]
      cases a with
      | nil => exact absurd rfl ha
      | cons x xs =>
        have hq : q.head? = some x := by
          have := joinBare_split q
          rw [hs] at this
          rw [← this]
          cases as <;> rfl
        rw [unixLoop_head as false (x :: xs) x rfl, ← hq]
        exact h

theorem real_cases {e : Env} (he : e.Ok) {p fn : Str} (h : e.real p = some fn) :
    (∃ l q, resolve e.fs e.cwd q = some l ∧ fn = render l) ∨ ∃ q, q.head? ≠ some 126 ∧ fn = normalizeUnix (render e.cwd) q := by
  have hd : ∀ q, q.head? ≠ some 126 → ∀ s, (sysRealpath e.fs e.cwd q).getD (normalizeUnix (render e.cwd) q) = s →
      (∃ l q, resolve e.fs e.cwd q = some l ∧ s = render l) ∨ ∃ q, q.head? ≠ some 126 ∧ s = normalizeUnix (render e.cwd) q := by
    intro q hq s hs
    unfold sysRealpath at hs
    cases hr : resolve e.fs e.cwd q with
    | none => rw [hr] at hs; simp only [Option.map_none, Option.getD_none] at hs; exact Or.inr ⟨q, hq, hs.symm⟩
    | some l => rw [hr] at hs; simp only [Option.map_some, Option.getD_some] at hs; exact Or.inl ⟨l, q, hr, hs.symm⟩
  have happ : ∀ a b : Str, a.head? = some 47 → (a ++ b).head? ≠ some 126 := by
    intro a b ha
    cases a with
    | nil => simp at ha
    | cons x xs => simp only [List.head?_cons, Option.some.injEq] at ha; subst ha; simp
  unfold Env.real fileRealpath at h
  cases p with
  | nil => simp at h
  | cons c t =>
    simp only at h
    split at h
    · simp only [Option.some.injEq] at h
      exact hd _ (by rw [List.append_assoc]; exact happ _ _ he.home) _ h
    rename_i hc
    split at h
    · rename_i r hr
      simp only [Option.some.injEq] at h
      unfold sysRealpath at hr
      simp only [Option.map_eq_some_iff] at hr
      obtain ⟨l, hr, hl⟩ := hr
      exact Or.inl ⟨l, _, hr, by rw [← h, hl]⟩
    · split at h
      · simp only [Option.some.injEq] at h
        exact hd _ (by rw [List.append_assoc]; exact happ _ _ (render_head _)) _ h
      · simp only [Option.some.injEq] at h
        exact Or.inr ⟨c :: t, by simpa using hc, h.symm⟩

theorem real_head {e : Env} (he : e.Ok) {p fn : Str} (h : e.real p = some fn) : fn.head? ≠ some 126 := by
  rcases real_cases he h with ⟨l, _, _, rfl⟩ | ⟨q, hq, rfl⟩
  · rw [render_head]; decide
  · exact normalizeUnix_head hq

theorem openFile_elim {e : Env} {writ create : Bool} {p : Str} {l : Loc}
    (h : e.openFile writ create p = some l) :
    ∃ fileName file found, e.fixup p = some (fileName, file, found) ∧
      e.denied writ fileName file found = false ∧
      (if create then resolveCreate e.fs e.cwd fileName else resolve e.fs e.cwd fileName) = some l := by
  unfold Env.openFile at h
  split at h
  · simp at h
  rename_i fileName file found hf
  split at h
  · simp at h
  split at h
  · simp at h
  rename_i hd
  refine ⟨fileName, file, found, hf, by simpa using hd, ?_⟩
  split at h
  · rename_i hc; rw [if_pos hc]; exact h
  · rename_i hc; rw [if_neg hc]; exact h

theorem fixup_elim {e : Env} (he : e.Ok) {p fileName file : Str} {found : Option Loc}
    (h : e.fixup p = some (fileName, file, found)) :
    fileName.head? ≠ some 126 ∧
    ((file = fileName ∧ found = resolve e.fs e.cwd fileName ∧ found ≠ none) ∨
     (found = none ∧ resolve e.fs e.cwd fileName = none ∧ file = p ∧ e.real p = some fileName)) := by
  unfold Env.fixup at h
  split at h
  · split at h
    · simp at h
    rename_i fn hfn
    have hh := real_head he hfn
    have ht := tilde_of_ne (home := e.home) hh
    split at h
    · rename_i hs
      simp only [Option.some.injEq, Prod.mk.injEq] at h
      obtain ⟨rfl, rfl, rfl⟩ := h
      refine ⟨hh, Or.inl ⟨rfl, ?_, ?_⟩⟩
      · unfold Env.stat; rw [ht]
      · intro e0; rw [e0] at hs; simp at hs
    · rename_i hs
      simp only [Option.some.injEq, Prod.mk.injEq] at h
      obtain ⟨rfl, rfl, rfl⟩ := h
      refine ⟨hh, Or.inr ⟨rfl, ?_, rfl, hfn⟩⟩
      unfold Env.stat at hs
      rw [ht] at hs
      simpa using hs
  · rename_i hc
    simp only [not_or] at hc
    simp only [Option.some.injEq, Prod.mk.injEq] at h
    obtain ⟨rfl, rfl, rfl⟩ := h
    refine ⟨hc.2, Or.inl ⟨rfl, ?_, hc.1⟩⟩
    unfold Env.stat; rw [tilde_of_ne hc.2]

/-- **C34**, files that exist: whatever text is given, an existing file that a safe interpreter opens lies in a
listed directory, or it is opened for reading and is the script (`argv[0]`) or the executable. -/
theorem C34_open_existing (e : Env) (he : e.Ok) (writ create : Bool) (p : Str) (l : Loc)
    (h : e.openFile writ create p = some l) (hl : e.fs l ≠ none) :
    (∃ ds, e.dirs writ = some ds ∧ Within ds l) ∨
    (writ = false ∧ ((∃ a, e.argv0 = some a ∧ ∃ r, e.real a = some r ∧ resolve e.fs e.cwd r = some l) ∨
      resolve e.fs e.cwd e.execName = some l)) := by
  obtain ⟨fileName, file, found, hf, hd, ho⟩ := openFile_elim h
  have hres : resolve e.fs e.cwd fileName = some l := by
    split at ho
    · exact resolve_of_create hl ho
    · exact ho
  obtain ⟨hh, hc | hc⟩ := fixup_elim he hf
  · obtain ⟨rfl, hfo, hne⟩ := hc
    unfold Env.denied at hd
    simp only [Bool.and_eq_false_iff, Bool.or_eq_false_iff, Bool.not_eq_eq_eq_not, Bool.not_false] at hd
    rcases hd with ⟨_, hd⟩ | hd
    · rcases hd with hd | hd
      · exact Or.inl (within_of_access he hh hres hd)
      · right
        refine ⟨hd.1, Or.inl ?_⟩
        have h2 := hd.2
        split at h2
        · simp at h2
        · rename_i a ha
          simp only [bne_eq_false_iff_eq] at h2
          exact ⟨a, ha, _, h2, hres⟩
    · right
      refine ⟨hd.1, Or.inr ?_⟩
      have := hd.2
      simp only [bne_eq_false_iff_eq] at this
      rw [← this]; exact hres
  · rw [hc.2.1] at hres; simp at hres

/-! ### Files that do not exist yet -/

theorem strstr_append (p a b : Str) : strstr p (a ++ p ++ b) = true := by
  induction a with
  | nil =>
    cases hb : p ++ b with
    | nil =>
      have : p = [] := List.append_eq_nil_iff.1 hb |>.1
      subst this; simp at hb; subst hb; rfl
    | cons c t =>
      have : p.isPrefixOf (c :: t) = true := by rw [← hb]; simp
      simp [strstr, hb, this]
  | cons c a ih => simp only [List.cons_append, strstr, ih, Bool.or_true]

/-- Without "./" only the last piece can be "." or "..". -/
theorem pieces_no_dots {s : Str} (h : strstr [46, 47] s = false) :
    ∀ pre c q qs, split s = pre ++ c :: q :: qs → c ≠ [46] ∧ c ≠ [46, 46] := by
  have key : ∀ pre c' q qs, split s = pre ++ (c' ++ [46]) :: q :: qs → False := by
    intro pre c' q qs hs
    have hj := joinBare_split s
    rw [hs] at hj
    have hjj : ∀ pre : List Str, ∃ u, joinBare (pre ++ (c' ++ [46]) :: q :: qs)
        = u ++ (c' ++ [46]) ++ 47 :: joinBare (q :: qs) := by
      intro pre
      induction pre with
      | nil => exact ⟨[], by simp [joinBare]⟩
      | cons x xs ih =>
        obtain ⟨u, hu⟩ := ih
        refine ⟨x ++ 47 :: u, ?_⟩
        cases xs with
        | nil => simp only [List.nil_append] at hu; simp only [List.cons_append, List.nil_append, joinBare] at hu ⊢; rw [hu]; simp
        | cons y ys => simp only [List.cons_append, joinBare] at hu ⊢; rw [hu]; simp
    obtain ⟨u, hu⟩ := hjj pre
    rw [hu] at hj
    have : s = (u ++ c') ++ [46, 47] ++ joinBare (q :: qs) := by rw [← hj]; simp
    rw [this, strstr_append] at h
    simp at h
  intro pre c q qs hs
  constructor
  · intro e; exact key pre [] q qs (by rw [hs, e]; rfl)
  · intro e; exact key pre [46] q qs (by rw [hs, e]; rfl)

/-- Creation of something new along a path where only the last piece can be a dot. -/
theorem walkWith_new {fs : Fs} (hw : fs.Wf) (hk : fs.NoLinks) (more : Loc → List Str → Option Loc) :
    ∀ (cs : List Str) (cur l : Loc), fs cur ≠ none →
      (∀ pre c q qs, cs = pre ++ c :: q :: qs → c ≠ [46] ∧ c ≠ [46, 46]) →
      walkWith fs true more cur cs = some l → fs l = none → l = cur ++ cs.filter (· ≠ []) := by
  intro cs
  induction cs with
  | nil =>
    intro cur l hc _ h hl
    simp only [walkWith, Option.some.injEq] at h
    subst h; exact absurd hl hc
  | cons c cs ih =>
    intro cur l hcur hc h hl
    have hc2 : ∀ pre d q qs, cs = pre ++ d :: q :: qs → d ≠ [46] ∧ d ≠ [46, 46] :=
      fun pre d q qs e => hc (c :: pre) d q qs (by rw [e]; rfl)
    simp only [walkWith] at h
    split at h
    · exact absurd h (by simp)
    split at h
    · rename_i h2
      rcases h2 with h2 | h2
      · rw [ih cur l hcur hc2 h hl, h2]; simp
      · cases cs with
        | nil => simp only [walkWith, Option.some.injEq] at h; subst h; exact absurd hl hcur
        | cons q qs => exact absurd h2 (hc [] c q qs rfl).1
    rename_i h2
    have hne : c ≠ [] := fun e => h2 (Or.inl e)
    split at h
    · rename_i h3
      cases cs with
      | nil =>
        simp only [walkWith, Option.some.injEq] at h; subst h
        exact absurd hl (dropLast_exists hw hcur)
      | cons q qs => exact absurd h3 (hc [] c q qs rfl).2
    split at h
    · split at h
      · rename_i h5
        simp only [Option.some.injEq] at h
        rw [← h, h5.2]; simp [hne]
      · simp at h
    · rename_i h5; exact absurd h5 (hk _ _)
    · rename_i h5 _
      rw [ih (cur ++ [c]) l (by simp_all) hc2 h hl]; simp [hne]

/-- The name looked at by the check, when it is absolute and not from `realpath`. -/
theorem norm_pieces {cwd q : Str} (h : (normalizeUnix cwd q).head? = some 47) :
    ∀ pre c x xs, split (normalizeUnix cwd q) = pre ++ c :: x :: xs → c ≠ [46] ∧ c ≠ [46, 46] := by
  have hflat : ∀ l : Loc, (∀ n ∈ l, GoodName n) → ∀ pre c x xs,
      split (l.flatMap (fun x : Str => (47 : UInt8) :: x)) = pre ++ c :: x :: xs → c ≠ [46] ∧ c ≠ [46, 46] := by
    intro l hn pre c x xs e
    rw [split_flatMap l (fun n hm => (hn n hm).2.2.2)] at e
    have hm : c ∈ ([] : Str) :: l := by rw [e]; simp
    simp only [List.mem_cons] at hm
    rcases hm with rfl | hm
    · simp
    · exact ⟨(hn c hm).2.1, (hn c hm).2.2.1⟩
  cases hs : strstr [46, 47] q with
  | false =>
    have : normalizeUnix cwd q = q := by unfold normalizeUnix; rw [hs]; rfl
    rw [this]; exact pieces_no_dots hs
  | true =>
    by_cases hq : q.head? = some 47
    · obtain ⟨e, hn⟩ := normalizeUnix_abs (cwd := cwd) hq hs
      rw [e]; exact hflat _ hn
    · -- a relative path that became absolute: it started with ".."
      unfold normalizeUnix at h ⊢
      rw [if_neg (by simp [hs])] at h ⊢
      split at h
      · exact absurd h hq
      rename_i hc
      rw [if_neg hc]
      cases hsp : split q with
      | nil => exact absurd hsp (split_ne_nil q)
      | cons a as =>
        rw [hsp] at h
        have hpieces := split_pieces q
        rw [hsp] at hpieces
        have has : ∀ b ∈ as, (47 : UInt8) ∉ b := fun b hb => hpieces b (by simp [hb])
        have hfalse := unixLoop_false as [] (by simp) has
        have hnames := foldl_unixStep_names as [] (by simp) has
        simp only [List.flatMap_nil] at hfalse
        simp only [unixLoop] at h ⊢
        split at h
        · rename_i ha; rw [if_pos ha, hfalse]; exact hflat _ hnames
        rename_i ha
        rw [if_neg ha]
        simp only [Bool.not_true, Bool.false_and, Bool.false_eq_true, if_false] at h ⊢
        split at h
        · rename_i ha2
          rw [if_pos ha2]
          have : popLast [] = [] := by decide
          rw [this, hfalse]; exact hflat _ hnames
        · exfalso
          simp only [if_true, List.append_nil, List.nil_append] at h
          cases a with
          | nil => exact absurd rfl ha
          | cons x xs =>
            have hqh : q.head? = some x := by
              have := joinBare_split q
              rw [hsp] at this
              rw [← this]
              cases as <;> rfl
            rw [unixLoop_head as false (x :: xs) x rfl, ← hqh] at h
            exact hq h

/-- **C34**, new files, the part that holds: in a file system without symbolic links, a file that a safe interpreter
creates with `Jsi_Open` (`File.write`, `new Channel`, `File.copy`) lies in a listed directory.  Missing: dangling
symbolic links (`C34_create_refuted`). -/
theorem C34_create_partial (e : Env) (he : e.Ok) (hk : e.fs.NoLinks) (p : Str) (l : Loc)
    (h : e.openFile true true p = some l) (hl : e.fs l = none) :
    ∃ ds, e.writeDirs = some ds ∧ Within ds l := by
  obtain ⟨fileName, file, found, hf, hd, ho⟩ := openFile_elim h
  rw [if_pos rfl] at ho
  obtain ⟨hh, hc | hc⟩ := fixup_elim he hf
  · -- the file exists: it would be the one opened
    exfalso
    obtain ⟨hff, hfo, hne⟩ := hc
    cases hr : resolve e.fs e.cwd fileName with
    | none => rw [hr] at hfo; exact hne hfo
    | some l' =>
      have hl' : e.fs l' ≠ none := resolve_exists he.fs (by rw [he.cwd]; simp) hr
      have hmono : ∀ (n : Nat) (cs : List Str) (cur : Loc) (a : Loc), walk e.fs false n cur cs = some a →
          walk e.fs true n cur cs = some a := by
        intro n
        induction n with
        | zero =>
          intro cs
          induction cs with
          | nil => intro cur a h; exact h
          | cons c cs ih =>
            intro cur a h
            simp only [walk, walkWith] at h ih ⊢
            split at h
            · simp at h
            rename_i g1; rw [if_neg g1]
            split at h
            · rename_i g2; rw [if_pos g2]; exact ih _ _ h
            rename_i g2; rw [if_neg g2]
            split at h
            · rename_i g3; rw [if_pos g3]; exact ih _ _ h
            rename_i g3; rw [if_neg g3]
            split at h
            · simp at h
            · rename_i g4; exact absurd g4 (hk _ _)
            · exact ih _ _ h
        | succ n ihn =>
          intro cs
          induction cs with
          | nil => intro cur a h; exact h
          | cons c cs ih =>
            intro cur a h
            simp only [walk, walkWith] at h ih ⊢
            split at h
            · simp at h
            rename_i g1; rw [if_neg g1]
            split at h
            · rename_i g2; rw [if_pos g2]; exact ih _ _ h
            rename_i g2; rw [if_neg g2]
            split at h
            · rename_i g3; rw [if_pos g3]; exact ih _ _ h
            rename_i g3; rw [if_neg g3]
            split at h
            · simp at h
            · rename_i g4; exact absurd g4 (hk _ _)
            · exact ih _ _ h
      unfold resolve at hr
      unfold resolveCreate at ho
      split at hr
      · simp at hr
      rename_i h0
      rw [if_neg h0] at ho
      rw [hmono _ _ _ _ hr, Option.some.injEq] at ho
      rw [ho] at hl'
      exact hl' hl
  · obtain ⟨rfl, hrn, rfl, hreal⟩ := hc
    unfold Env.denied at hd
    simp only [Bool.true_or, Bool.and_true, Bool.or_eq_false_iff, Bool.not_eq_eq_eq_not, Bool.not_false] at hd
    obtain ⟨ds, d, s, hds, hm, hs, habs, hpre, hsabs⟩ := access_elim he hd.2
    rw [hreal, Option.some.injEq] at hs
    subst hs
    have hp : ∀ pre c x xs, split fileName = pre ++ c :: x :: xs → c ≠ [46] ∧ c ≠ [46, 46] := by
      rcases real_cases he hreal with ⟨l', q, hq, hl'⟩ | ⟨q, hq, hfn⟩
      · have hn := he.fs.names l' (resolve_exists he.fs (by rw [he.cwd]; simp) hq)
        intro pre c x xs e0
        by_cases hc : c = []
        · subst hc; simp
        · have hm : c ∈ comps (render l') := by
            unfold comps
            rw [← hl', e0]
            simp [hc]
          rw [comps_render l' hn] at hm
          exact ⟨(hn c hm).2.1, (hn c hm).2.2.1⟩
      · rw [hfn] at hsabs ⊢
        exact norm_pieces hsabs
    unfold resolveCreate at ho
    have hst : start e.cwd fileName = [] := by unfold start; rw [if_pos hsabs]
    split at ho
    · simp at ho
    rw [hst] at ho
    have := walkWith_new he.fs hk (walk e.fs true 39) (split fileName) [] l
      (by rw [he.fs.root]; simp) hp ho hl
    simp only [List.nil_append] at this
    refine ⟨ds, hds, d, hm, habs, ?_⟩
    rw [this]; exact hpre

end Verif.Path
