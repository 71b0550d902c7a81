import Verif.File.RemoveLemmas
import Verif.File.Names

/-!
`File.mkdir(path, force)`, src/jsiFileCmds.c:211-262, 285-315: with `force` the missing parents are made too.
Setting and simplifications as in `Verif.File.Remove`.
-/

namespace Verif.File
open Verif.Path

/-- The resolution of a path fails because a name is missing (`ENOENT`), not because of a name that is not a
directory (`ENOTDIR`) or of too many links (`ELOOP`). -/
def missingWith (fs : Fs) (more : Loc → List Str → Bool) : Loc → List Str → Bool
  | _, [] => false
  | cur, c :: cs =>
    if fs cur ≠ some .dir then false
    else if c = [] ∨ c = [46] then missingWith fs more cur cs
    else if c = [46, 46] then missingWith fs more cur.dropLast cs
    else
      match fs (cur ++ [c]) with
      | none => true
      | some (.link t) => if t.head? = some 47 then more [] (Path.split t ++ cs) else more cur (Path.split t ++ cs)
      | some _ => missingWith fs more (cur ++ [c]) cs

/-- The same with at most `n` symbolic links. -/
def missing (fs : Fs) : Nat → Loc → List Str → Bool
  | 0 => missingWith fs (fun _ _ => false)
  | n + 1 => missingWith fs (missing fs n)

/-- What the C function `mkdir` does. -/
inductive MkRes where
  | made (t : Tab)
  | noent
  | exist
  | other

/-- What is in the way, or missing, when there is no directory to make the new one in. -/
def mkFail (fs : Fs) (cur : Loc) (cs : List Str) : MkRes := if missing fs 40 cur cs then .noent else .other

/-- `mkdir(path, 0755)`; `c.may d` is here the permission to make something in directory `d`. -/
def mkdirSys (c : Ctx) (t : Tab) (p : Str) : MkRes :=
  if p = [] then .noent
  else if pathMax ≤ p.length then .other
  else
    match lastName p with
    | none => if (resolve (fsOf t) c.cwd p).isSome then .exist else mkFail (fsOf t) (start c.cwd p) (Path.split p)
    | some (ds, n) =>
      match walk (fsOf t) false 40 (start c.cwd p) ds with
      | none => mkFail (fsOf t) (start c.cwd p) ds
      | some d =>
        if fsOf t d ≠ some .dir then .other
        else if fsOf t (d ++ [n]) ≠ none then .exist
        else if c.may d then .made ((d ++ [n], .dir) :: t) else .other

/-- src/jsiFileCmds.c:248-251: `Jsi_Stat(interp, file, &sb) == 0 && S_ISDIR(sb.st_mode)`; it expands "~". -/
def isDir (c : Ctx) (t : Tab) (p : Str) : Bool :=
  if pathMax ≤ (tilde c.home p).length then false
  else
    match resolve (fsOf t) c.cwd (tilde c.home p) with
    | none => false
    | some l => fsOf t l == some .dir

/-- src/jsiFileCmds.c:230-260: the second attempt, after the parent was made. -/
def mkSecond (c : Ctx) (t : Tab) (p : Str) : Tab × Bool :=
  match mkdirSys c t p with
  | .made t' => (t', true)
  | .exist => (t, isDir c t p)
  | .noent => (t, false)
  | .other => (t, false)

/-- src/jsiFileCmds.c:232-240: the path up to its last slash, unless that is the first byte. -/
def parentText (p : Str) : Option Str :=
  match strrchr 47 p with
  | none => none
  | some i => if i = 0 then none else some (p.take i)

/-- `mkdir_all`, src/jsiFileCmds.c:217-263: the tree afterwards, and whether it returned 0.  The number only
bounds the recursion, `p.length + 1` is enough, since the parent text is shorter. -/
def mkdirAll (c : Ctx) : Nat → Tab → Str → Tab × Bool
  | 0, t, _ => (t, false)
  | k + 1, t, p =>
    match mkdirSys c t p with
    | .made t' => (t', true)
    | .exist => (t, isDir c t p)
    | .other => (t, false)
    | .noent =>
      match parentText p with
      | none => mkSecond c t p
      | some q =>
        if (mkdirAll c k t q).2 then mkSecond c (mkdirAll c k t q).1 p else ((mkdirAll c k t q).1, false)

/-- `FileMkdirCmd`, src/jsiFileCmds.c:285-315 (the check of safe interpreters is C34). -/
def mkdir (c : Ctx) (t : Tab) (p : Str) (force : Bool) : Tab × Bool :=
  if force then mkdirAll c (p.length + 1) t p
  else
    match mkdirSys c t p with
    | .made t' => (t', true)
    | _ => (t, false)

/-! ### Lemmas -/

theorem fsOf_cons (t : Tab) (l l' : Loc) (n : Node) : fsOf ((l, n) :: t) l' = if l' = l then some n else fsOf t l' := by
  unfold fsOf
  by_cases h : l' = l
  · simp [List.lookup, h]
  · have hb : (l' == l) = false := by simpa using h
    simp only [List.lookup, hb, if_neg h]

theorem less_cons {t : Tab} {l : Loc} {n : Node} (h : fsOf t l = none) : Less (fsOf t) (fsOf ((l, n) :: t)) := by
  intro l'
  rw [fsOf_cons]
  by_cases e : l' = l
  · subst e; exact .inl h
  · rw [if_neg e]; exact .inr rfl

theorem lastName_split {p : Str} {ds : List Str} {n : Str} (h : lastName p = some (ds, n)) :
    n ≠ [] ∧ n ≠ [46] ∧ n ≠ [46, 46] ∧ ∃ z, (∀ c ∈ z, c = []) ∧ Path.split p = ds ++ n :: z := by
  unfold lastName at h
  simp only at h
  split at h
  · simp at h
  rename_i m rs hm
  split at h
  · simp at h
  rename_i hdots
  simp only [Option.some.injEq, Prod.mk.injEq] at h
  obtain ⟨rfl, rfl⟩ := h
  have hmne : m ≠ [] := by
    intro e
    have := List.head_dropWhile_not (fun c : Str => decide (c = [])) (l := (Path.split p).reverse) (by rw [hm]; simp)
    simp only [hm, List.head_cons, e] at this
    simp at this
  refine ⟨hmne, fun e => hdots (.inl e), fun e => hdots (.inr e), ?_⟩
  refine ⟨((Path.split p).reverse.takeWhile (· = [])).reverse, ?_, ?_⟩
  · intro c hc
    have := List.mem_takeWhile_imp (List.mem_reverse.1 hc)
    simpa using this
  · have e : (Path.split p).reverse = (Path.split p).reverse.takeWhile (· = []) ++ m :: rs := by
      rw [← hm, List.takeWhile_append_dropWhile]
    have := congrArg List.reverse e
    simpa using this

theorem walkWith_empties {fs : Fs} (m : Loc → List Str → Option Loc) (L : Loc) (hL : fs L = some .dir) :
    ∀ (z : List Str), (∀ c ∈ z, c = []) → walkWith fs false m L z = some L
  | [], _ => rfl
  | c :: z, h => by
    have hc := h c (List.mem_cons_self ..)
    simp only [walkWith, hL, hc, ne_eq, not_true_eq_false, if_false, true_or, if_true]
    exact walkWith_empties m L hL z (fun c hc => h c (List.mem_cons_of_mem _ hc))

/-- The directory a path names by its last name is what the path leads to. -/
theorem resolve_of_last {fs : Fs} {cwd d : Loc} {p n : Str} {ds : List Str} (h : lastName p = some (ds, n))
    (hw : walk fs false 40 (start cwd p) ds = some d) (hd : fs d = some .dir) (hL : fs (d ++ [n]) = some .dir) :
    resolve fs cwd p = some (d ++ [n]) := by
  obtain ⟨h1, h2, h3, z, hz, hs⟩ := lastName_split h
  unfold resolve
  have hp : p ≠ [] := by
    rintro rfl
    simp [lastName, Path.split] at h
  rw [if_neg hp, hs]
  obtain ⟨m, e⟩ := walk_append (n :: z) d 40 _ _ hw
  rw [e]
  unfold onward
  simp only [walkWith, hd, h1, h2, h3, hL, ne_eq, not_true_eq_false, if_false, false_or]
  exact walkWith_empties m _ hL z hz

theorem mkdirSys_made {c : Ctx} {t t' : Tab} {p : Str} (h : mkdirSys c t p = .made t') :
    ∃ L, fsOf t L = none ∧ t' = (L, .dir) :: t ∧ resolve (fsOf t') c.cwd p = some L := by
  unfold mkdirSys at h
  split at h
  · cases h
  split at h
  · cases h
  cases hl : lastName p with
  | none =>
    rw [hl] at h
    simp only [mkFail] at h
    split at h
    · cases h
    · split at h <;> cases h
  | some x =>
    obtain ⟨ds, n⟩ := x
    rw [hl] at h
    simp only [] at h
    cases hw : walk (fsOf t) false 40 (start c.cwd p) ds with
    | none =>
      rw [hw] at h
      simp only [mkFail] at h
      split at h <;> cases h
    | some d =>
      rw [hw] at h
      simp only [] at h
      split at h
      · cases h
      rename_i hd
      split at h
      · cases h
      rename_i hn
      split at h
      · injection h with h
        have hn' : fsOf t (d ++ [n]) = none := Decidable.not_not.1 hn
        have hd' : fsOf t d = some .dir := Decidable.not_not.1 hd
        refine ⟨d ++ [n], hn', h.symm, ?_⟩
        subst h
        have hle := less_cons (n := .dir) hn'
        refine resolve_of_last hl (walk_less hle _ _ _ _ hw) (hle.some hd') ?_
        rw [fsOf_cons, if_pos rfl]
      · cases h

theorem isDir_elim {c : Ctx} {t : Tab} {p : Str} (hh : p.head? ≠ some 126) (h : isDir c t p = true) :
    ∃ L, resolve (fsOf t) c.cwd p = some L ∧ fsOf t L = some .dir := by
  unfold isDir at h
  rw [tilde_of_ne hh] at h
  split at h
  · cases h
  cases hr : resolve (fsOf t) c.cwd p with
  | none => rw [hr] at h; cases h
  | some l => rw [hr] at h; exact ⟨l, rfl, by simpa using h⟩

/-- `t'` is `t` with some directories more, each of which some beginning of the path `p` leads to. -/
def Adds (c : Ctx) (p : Str) (t t' : Tab) : Prop :=
  Less (fsOf t) (fsOf t') ∧
  ∀ l, fsOf t' l = fsOf t l ∨
    (fsOf t l = none ∧ fsOf t' l = some .dir ∧ ∃ i, resolve (fsOf t') c.cwd (p.take i) = some l)

theorem Adds.refl (c : Ctx) (p : Str) (t : Tab) : Adds c p t t := ⟨.refl _, fun _ => .inl rfl⟩

theorem Adds.trans {c : Ctx} {p : Str} {t t' t'' : Tab} (h : Adds c p t t') (g : Adds c p t' t'') :
    Adds c p t t'' := by
  refine ⟨h.1.trans g.1, ?_⟩
  intro l
  rcases h.2 l with h1 | ⟨h1, h2, i, h3⟩
  · rcases g.2 l with g1 | ⟨g1, g2, j, g3⟩
    · exact .inl (g1.trans h1)
    · exact .inr ⟨by rw [← h1]; exact g1, g2, j, g3⟩
  · exact .inr ⟨h1, g.1.some h2, i, resolve_less g.1 h3⟩

theorem Adds.made {c : Ctx} {p : Str} {t t' : Tab} (h : mkdirSys c t p = .made t') :
    Adds c p t t' ∧ ∃ L, resolve (fsOf t') c.cwd p = some L ∧ fsOf t' L = some .dir := by
  obtain ⟨L, h1, rfl, h3⟩ := mkdirSys_made h
  refine ⟨⟨less_cons h1, ?_⟩, L, h3, by rw [fsOf_cons, if_pos rfl]⟩
  intro l
  by_cases e : l = L
  · subst e
    exact .inr ⟨h1, by rw [fsOf_cons, if_pos rfl], p.length, by rw [List.take_length]; exact h3⟩
  · left; rw [fsOf_cons, if_neg e]

theorem Adds.prefix {c : Ctx} {p : Str} {n : Nat} {t t' : Tab} (h : Adds c (p.take n) t t') : Adds c p t t' := by
  refine ⟨h.1, ?_⟩
  intro l
  rcases h.2 l with h1 | ⟨h1, h2, i, h3⟩
  · exact .inl h1
  · exact .inr ⟨h1, h2, min i n, by rw [← List.take_take]; exact h3⟩

theorem mkSecond_ok (c : Ctx) (t : Tab) (p : Str) (hh : p.head? ≠ some 126) :
    Adds c p t (mkSecond c t p).1 ∧ ((mkSecond c t p).2 = true →
      ∃ L, resolve (fsOf (mkSecond c t p).1) c.cwd p = some L ∧ fsOf (mkSecond c t p).1 L = some .dir) := by
  unfold mkSecond
  cases hs : mkdirSys c t p with
  | made t' => exact ⟨(Adds.made hs).1, fun _ => (Adds.made hs).2⟩
  | exist => exact ⟨.refl .., fun h => isDir_elim hh h⟩
  | noent => exact ⟨.refl .., fun h => by cases h⟩
  | other => exact ⟨.refl .., fun h => by cases h⟩

theorem parentText_take {p q : Str} (h : parentText p = some q) : ∃ i, 0 < i ∧ i < p.length ∧ q = p.take i := by
  unfold parentText at h
  cases hr : strrchr 47 p with
  | none => rw [hr] at h; cases h
  | some i =>
    rw [hr] at h
    simp only [] at h
    split at h
    · cases h
    obtain ⟨a, b, e, hl, -⟩ := strrchr_some hr
    exact ⟨i, by omega, by rw [e]; simp; omega, (Option.some.inj h).symm⟩

theorem mkdirAll_ok (c : Ctx) : ∀ (k : Nat) (t : Tab) (p : Str), p.head? ≠ some 126 →
    Adds c p t (mkdirAll c k t p).1 ∧ ((mkdirAll c k t p).2 = true →
      ∃ L, resolve (fsOf (mkdirAll c k t p).1) c.cwd p = some L ∧ fsOf (mkdirAll c k t p).1 L = some .dir) := by
  intro k
  induction k with
  | zero => intro t p _; exact ⟨.refl .., fun h => by cases h⟩
  | succ k ih =>
    intro t p hh
    unfold mkdirAll
    cases hs : mkdirSys c t p with
    | made t' => exact ⟨(Adds.made hs).1, fun _ => (Adds.made hs).2⟩
    | exist => exact ⟨.refl .., fun h => isDir_elim hh h⟩
    | other => exact ⟨.refl .., fun h => by cases h⟩
    | noent =>
      simp only []
      cases hp : parentText p with
      | none => exact mkSecond_ok c t p hh
      | some q =>
        simp only []
        obtain ⟨i, hi0, hi1, rfl⟩ := parentText_take hp
        have hh' : (p.take i).head? ≠ some 126 := by
          cases p with
          | nil => simp
          | cons x p =>
            obtain ⟨j, rfl⟩ : ∃ j, i = j + 1 := ⟨i - 1, by omega⟩
            exact hh
        obtain ⟨i1, i2⟩ := ih t (p.take i) hh'
        split
        · obtain ⟨s1, s2⟩ := mkSecond_ok c (mkdirAll c k t (p.take i)).1 p hh
          exact ⟨i1.prefix.trans s1, s2⟩
        · exact ⟨i1.prefix, fun h => by cases h⟩

/-! ### C108 -/

/-- When `File.mkdir` succeeds the path leads to a directory; made or not, no object is changed or removed, and
the new objects are directories on the way of the path (some beginning of the path leads to each).  This for
every tree, with links, "..", and whatever is permitted; assumed: the path does not begin with "~"
(`C108_tilde_refuted`). -/
theorem C108_makes_only_the_way_partial (c : Ctx) (t : Tab) (p : Str) (force : Bool) (hh : p.head? ≠ some 126) :
    ((mkdir c t p force).2 = true →
      ∃ L, resolve (fsOf (mkdir c t p force).1) c.cwd p = some L ∧ fsOf (mkdir c t p force).1 L = some .dir) ∧
    ∀ l, fsOf (mkdir c t p force).1 l = fsOf t l ∨
      (fsOf t l = none ∧ fsOf (mkdir c t p force).1 l = some .dir ∧
        ∃ i, resolve (fsOf (mkdir c t p force).1) c.cwd (p.take i) = some l) := by
  unfold mkdir
  cases force with
  | true =>
    obtain ⟨h1, h2⟩ := mkdirAll_ok c (p.length + 1) t p hh
    exact ⟨h2, h1.2⟩
  | false =>
    simp only [Bool.false_eq_true, if_false]
    cases hs : mkdirSys c t p with
    | made t' => exact ⟨fun _ => (Adds.made hs).2, (Adds.made hs).1.2⟩
    | exist => exact ⟨fun h => (by cases h), fun l => .inl rfl⟩
    | noent => exact ⟨fun h => (by cases h), fun l => .inl rfl⟩
    | other => exact ⟨fun h => (by cases h), fun l => .inl rfl⟩

end Verif.File
