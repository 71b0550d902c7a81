import Verif.File.Mkdir
import Verif.File.RemoveDemo

/-! `File.mkdir` with `force` makes the whole way when nothing stands in it. -/

namespace Verif.File
open Verif.Path

/-- Every place on the way `cs` from `base` is a directory or free. -/
def Free (fs : Fs) (base : Loc) (cs : List Str) : Prop :=
  ∀ j, fs (base ++ cs.take j) = none ∨ fs (base ++ cs.take j) = some .dir

/-- Every place on the way is a directory now, nothing else was touched. -/
def Paved (t t' : Tab) (base : Loc) (cs : List Str) : Prop :=
  (∀ j, fsOf t' (base ++ cs.take j) = some .dir) ∧
  ∀ l, (∀ j, l ≠ base ++ cs.take j) → fsOf t' l = fsOf t l

/-- The names of a list of pieces. -/
abbrev real (cs : List Str) : List Str := cs.filter (· ≠ [])

theorem real_nil (cs : List Str) : real ([] :: cs) = real cs := by simp [real]
theorem real_cons {c : Str} (h : c ≠ []) (cs : List Str) : real (c :: cs) = c :: real cs := by simp [real, h]

/-- On a free way resolution succeeds along directories, or fails for a missing name. -/
theorem way_with {fs : Fs} (more : Loc → List Str → Option Loc) (more' : Loc → List Str → Bool) :
    ∀ (cs : List Str) (cur : Loc), (∀ c ∈ cs, c ≠ [46] ∧ c ≠ [46, 46]) → fs cur = some .dir →
      Free fs cur (real cs) →
      (walkWith fs false more cur cs = some (cur ++ real cs) ∧ ∀ j, fs (cur ++ (real cs).take j) = some .dir) ∨
      (walkWith fs false more cur cs = none ∧ missingWith fs more' cur cs = true) := by
  intro cs
  induction cs with
  | nil => intro cur _ hd _; left; simp [walkWith, real, hd]
  | cons c cs ih =>
    intro cur hc hd hf
    have hc1 := hc c (by simp)
    have hc2 : ∀ c ∈ cs, c ≠ [46] ∧ c ≠ [46, 46] := fun x hx => hc x (by simp [hx])
    by_cases h0 : c = []
    · subst h0
      simp only [walkWith, missingWith, hd, ne_eq, not_true_eq_false, if_false, true_or, if_true]
      rw [real_nil] at hf ⊢
      exact ih cur hc2 hd hf
    · simp only [walkWith, missingWith, hd, ne_eq, not_true_eq_false, if_false, h0, hc1.1, hc1.2, or_self]
      have h1 : fs (cur ++ [c]) = none ∨ fs (cur ++ [c]) = some .dir := by
        have := hf 1
        rw [real_cons h0] at this
        simpa using this
      rw [real_cons h0] at hf ⊢
      rcases h1 with h1 | h1
      · right
        rw [h1]
        simp
      · rw [h1]
        have hf' : Free fs (cur ++ [c]) (real cs) := by
          intro j
          have := hf (j + 1)
          simpa using this
        rcases ih (cur ++ [c]) hc2 h1 hf' with ⟨i1, i2⟩ | ⟨i1, i2⟩
        · left
          refine ⟨by simpa using i1, ?_⟩
          intro j
          cases j with
          | zero => simpa using hd
          | succ j => simpa using i2 j
        · right; exact ⟨i1, i2⟩

theorem way {fs : Fs} (n : Nat) (cs : List Str) (cur : Loc) (hc : ∀ c ∈ cs, c ≠ [46] ∧ c ≠ [46, 46])
    (hd : fs cur = some .dir) (hf : Free fs cur (real cs)) :
    (walk fs false n cur cs = some (cur ++ real cs) ∧ ∀ j, fs (cur ++ (real cs).take j) = some .dir) ∨
    (walk fs false n cur cs = none ∧ missing fs n cur cs = true) := by
  cases n with
  | zero => exact way_with _ _ cs cur hc hd hf
  | succ n => exact way_with _ _ cs cur hc hd hf

theorem Free.prefix {fs : Fs} {base : Loc} {a b : List Str} (h : Free fs base b) (hp : a <+: b) : Free fs base a := by
  obtain ⟨r, rfl⟩ := hp
  intro j
  have := h (min j a.length)
  rw [List.take_append_of_le_length (by omega)] at this
  have e : a.take (min j a.length) = a.take j := by
    rw [← List.take_take, List.take_length]
  rw [e] at this
  exact this

theorem take_snoc (xs : List Str) (n : Str) (j : Nat) :
    (∃ i, (xs ++ [n]).take j = xs.take i) ∨ (xs ++ [n]).take j = xs ++ [n] := by
  by_cases h : j ≤ xs.length
  · exact .inl ⟨j, List.take_append_of_le_length h⟩
  · exact .inr (List.take_of_length_le (by simp; omega))

/-- The directory that is to hold the new one is there. -/
theorem attempt {c : Ctx} {t : Tab} {p : Str} {ds : List Str} {n : Str} {base : Loc} (hl : lastName p = some (ds, n))
    (hb : start c.cwd p = base) (hh : p.head? ≠ some 126) (hlen : p.length < pathMax) (hmay : ∀ l, c.may l = true)
    (hw : walk (fsOf t) false 40 base ds = some (base ++ real ds))
    (hds : ∀ j, fsOf t (base ++ (real ds).take j) = some .dir)
    (hn : fsOf t (base ++ real ds ++ [n]) = none ∨ fsOf t (base ++ real ds ++ [n]) = some .dir) :
    (∃ t', mkdirSys c t p = .made t' ∧ Paved t t' base (real ds ++ [n])) ∨
    (mkdirSys c t p = .exist ∧ isDir c t p = true ∧ Paved t t base (real ds ++ [n])) := by
  have hp : p ≠ [] := by
    rintro rfl
    simp [lastName, Path.split] at hl
  have hd : fsOf t (base ++ real ds) = some .dir := by
    have := hds (real ds).length
    rwa [List.take_length] at this
  have hsys : mkdirSys c t p = if fsOf t (base ++ real ds ++ [n]) ≠ none then .exist
      else .made ((base ++ real ds ++ [n], .dir) :: t) := by
    unfold mkdirSys
    rw [if_neg hp, if_neg (by omega), hl]
    simp only []
    rw [hb, hw]
    simp only []
    rw [if_neg (by rw [hd]; simp), hmay]
    simp
  rcases hn with hn | hn
  · left
    refine ⟨(base ++ real ds ++ [n], .dir) :: t, by rw [hsys, hn]; simp, ?_, ?_⟩
    · intro j
      rw [fsOf_cons]
      split
      · rfl
      rename_i h1
      rcases take_snoc (real ds) n j with ⟨i, e⟩ | e
      · rw [e]; exact hds i
      · exact absurd (by rw [e]; simp) h1
    · intro l hlj
      rw [fsOf_cons, if_neg]
      intro e
      exact hlj (real ds ++ [n]).length (by rw [List.take_length, e]; simp)
  · right
    refine ⟨by rw [hsys, hn]; simp, ?_, ?_, fun l _ => rfl⟩
    · unfold isDir
      rw [tilde_of_ne hh, if_neg (by omega),
        resolve_of_last hl (by rw [hb]; exact hw) hd hn]
      show (fsOf t (base ++ real ds ++ [n]) == some .dir) = true
      rw [hn]; rfl
    · intro j
      rcases take_snoc (real ds) n j with ⟨i, e⟩ | e
      · rw [e]; exact hds i
      · rw [e, ← List.append_assoc]; exact hn

theorem Paved.trans {t t' t'' : Tab} {base : Loc} {a b : List Str} (h : Paved t t' base a) (g : Paved t' t'' base b)
    (hp : a <+: b) : Paved t t'' base b := by
  refine ⟨g.1, ?_⟩
  intro l hl
  rw [g.2 l hl]
  refine h.2 l ?_
  intro j e
  obtain ⟨r, rfl⟩ := hp
  refine hl (min j a.length) ?_
  rw [List.take_append_of_le_length (by omega), ← List.take_take, List.take_length]
  exact e

theorem comps_snoc_text (a b : Str) (hb : (47 : UInt8) ∉ b) :
    comps (a ++ 47 :: b) = comps a ++ if b = [] then [] else [b] := by
  rw [comps_append]
  congr 1
  unfold comps
  rw [split_noslash b hb]
  by_cases h : b = []
  · simp [h]
  · simp [h]

theorem lastName_none_comps {p : Str} (hd : NoDots p) (h : lastName p = none) : ∀ c ∈ Path.split p, c = [] := by
  unfold lastName at h
  simp only [] at h
  split at h
  · rename_i he
    rw [List.dropWhile_eq_nil_iff] at he
    intro c hc
    simpa using he c (List.mem_reverse.2 hc)
  · rename_i n ds he
    split at h
    · rename_i hn
      have : n ∈ Path.split p := by
        have hm : n ∈ (Path.split p).reverse.dropWhile (· = []) := by rw [he]; exact List.mem_cons_self ..
        exact List.mem_reverse.1 ((List.dropWhile_sublist _).mem hm)
      have := hd n this
      rcases hn with hn | hn
      · exact absurd hn this.1
      · exact absurd hn this.2
    · cases h

theorem mkdirAll_paves (c : Ctx) (hmay : ∀ l, c.may l = true) : ∀ (k : Nat) (t : Tab) (p : Str) (base : Loc),
    p.length < k → p ≠ [] → p.head? ≠ some 126 → p.length < pathMax → NoDots p → start c.cwd p = base →
    fsOf t base = some .dir → Free (fsOf t) base (comps p) →
    (mkdirAll c k t p).2 = true ∧ Paved t (mkdirAll c k t p).1 base (comps p) := by
  intro k
  induction k with
  | zero => intro t p base h; omega
  | succ k ih =>
    intro t p base hk hp hh hlen hdots hb hbase hfree
    unfold mkdirAll
    cases hl : lastName p with
    | none =>
      have hall := lastName_none_comps hdots hl
      have hc0 : comps p = [] := by
        unfold comps
        rw [List.filter_eq_nil_iff]
        intro x hx
        simp [hall x hx]
      have hres : resolve (fsOf t) c.cwd p = some base := by
        unfold resolve
        rw [if_neg hp, hb]
        exact walkWith_empties _ _ hbase _ hall
      have hsys : mkdirSys c t p = .exist := by
        unfold mkdirSys
        rw [if_neg hp, if_neg (by omega), hl, hres]
        rfl
      rw [hsys]
      simp only []
      refine ⟨?_, ?_, fun l _ => rfl⟩
      · unfold isDir
        rw [tilde_of_ne hh, if_neg (by omega), hres]
        simp [hbase]
      · intro j; rw [hc0]; simpa using hbase
    | some x =>
      obtain ⟨ds, n⟩ := x
      obtain ⟨hcs, hmem⟩ := lastName_comps hl
      have hcs' : comps p = real ds ++ [n] := hcs
      have hdsdots : ∀ x ∈ ds, x ≠ [46] ∧ x ≠ [46, 46] := fun x hx => hdots x (hmem x hx)
      rw [hcs'] at hfree ⊢
      have hfd : Free (fsOf t) base (real ds) := hfree.prefix (List.prefix_append _ _)
      have hlast : ∀ t1, Free (fsOf t1) base (real ds ++ [n]) →
          fsOf t1 (base ++ real ds ++ [n]) = none ∨ fsOf t1 (base ++ real ds ++ [n]) = some .dir := by
        intro t1 h
        have := h (real ds ++ [n]).length
        rw [List.take_length, ← List.append_assoc] at this
        exact this
      rcases way 40 ds base hdsdots hbase hfd with ⟨w1, w2⟩ | ⟨w1, w2⟩
      · rcases attempt hl hb hh hlen hmay w1 w2 (hlast t hfree) with ⟨t', a1, a2⟩ | ⟨a1, a2, a3⟩
        · rw [a1]; exact ⟨rfl, a2⟩
        · rw [a1]; exact ⟨a2, a3⟩
      · have hsys : mkdirSys c t p = .noent := by
          unfold mkdirSys
          rw [if_neg hp, if_neg (by omega), hl]
          simp only []
          rw [hb, w1]
          simp only [mkFail]
          rw [w2]
          rfl
        rw [hsys]
        simp only []
        -- the pieces before the last name are not all empty
        have hnz : real ds ≠ [] := by
          intro e
          have hall : ∀ x ∈ ds, x = [] := by
            intro x hx
            by_cases h : x = []
            · exact h
            · have : x ∈ real ds := List.mem_filter.2 ⟨hx, by simpa using h⟩
              rw [e] at this; cases this
          have := walkWith_empties (walk (fsOf t) false 39) base hbase ds hall
          have w1' : walkWith (fsOf t) false (walk (fsOf t) false 39) base ds = none := w1
          rw [this] at w1'
          cases w1'
        have hslash : (47 : UInt8) ∈ p := by
          by_cases h : (47 : UInt8) ∈ p
          · exact h
          · exfalso
            have hc := hcs'
            unfold comps at hc
            rw [split_noslash p h] at hc
            have : (real ds ++ [n]).length ≤ 1 := by
              rw [← hc]
              exact List.length_filter_le _ _
            have h2 : 0 < (real ds).length := List.length_pos_iff.2 hnz
            simp only [List.length_append, List.length_singleton] at this
            omega
        obtain ⟨a, b, hab, hnb⟩ := split_at_last hslash
        have ha : a ≠ [] := by
          rintro rfl
          have hc := hcs'
          rw [hab, comps_snoc_text _ _ hnb] at hc
          have h0 : comps [] = [] := by decide +kernel
          rw [h0] at hc
          have h2 : 0 < (real ds).length := List.length_pos_iff.2 hnz
          have h3 := congrArg List.length hc
          simp only [List.nil_append, List.length_append, List.length_singleton] at h3
          split at h3
          · simp only [List.length_nil] at h3; omega
          · simp only [List.length_singleton] at h3; omega
        have hpt : parentText p = some a := by
          unfold parentText
          rw [hab, strrchr_append hnb]
          simp only []
          rw [if_neg (by intro e; exact ha (List.length_eq_zero_iff.1 e))]
          simp
        rw [hpt]
        simp only []
        have hpre : comps a <+: real ds ++ [n] := by
          rw [← hcs', hab, comps_snoc_text _ _ hnb]
          exact List.prefix_append _ _
        have hpre2 : real ds <+: comps a := by
          have hc := hcs'
          rw [hab, comps_snoc_text _ _ hnb] at hc
          by_cases hb0 : b = []
          · rw [if_pos hb0, List.append_nil] at hc
            rw [hc]; exact List.prefix_append _ _
          · rw [if_neg hb0] at hc
            have := List.append_inj' hc rfl
            rw [this.1]; exact List.prefix_refl _
        have hba : start c.cwd a = base := by
          rw [← hb, hab]
          exact (start_snoc ha).symm
        have hha : a.head? ≠ some 126 := by
          cases a with
          | nil => exact absurd rfl ha
          | cons x a => rw [hab] at hh; exact hh
        have hla : a.length < p.length := by rw [hab]; simp
        have hda : NoDots a := by
          intro x hx
          refine hdots x ?_
          rw [hab, split_append]
          exact List.mem_append_left _ hx
        obtain ⟨i1, i2⟩ := ih t a base (by omega) ha hha (by omega) hda hba hbase (hfree.prefix hpre)
        rw [i1]
        simp only [if_true]
        generalize (mkdirAll c k t a).1 = t1 at i2 ⊢
        -- the second attempt
        have hds1 : ∀ j, fsOf t1 (base ++ (real ds).take j) = some .dir := by
          intro j
          obtain ⟨r, hr⟩ := hpre2
          have := i2.1 (min j (real ds).length)
          rw [← hr, List.take_append_of_le_length (by omega), ← List.take_take, List.take_length] at this
          exact this
        have hbase1 : fsOf t1 base = some .dir := by simpa using hds1 0
        have hw1 : walk (fsOf t1) false 40 base ds = some (base ++ real ds) := by
          rcases way 40 ds base hdsdots hbase1 (fun j => .inr (hds1 j)) with ⟨w, -⟩ | ⟨w, -⟩
          · exact w
          · exfalso
            have := way_with (fs := fsOf t1) (walk (fsOf t1) false 39) (fun _ _ => false) ds base hdsdots hbase1
              (fun j => .inr (hds1 j))
            rcases this with ⟨w', -⟩ | ⟨w', w''⟩
            · have w2' : walkWith (fsOf t1) false (walk (fsOf t1) false 39) base ds = none := w
              rw [w'] at w2'; cases w2'
            · exact absurd w'' (by
                have key : ∀ (cs : List Str) (cur : Loc), (∀ j, fsOf t1 (cur ++ (real cs).take j) = some .dir) →
                    (∀ x ∈ cs, x ≠ [46] ∧ x ≠ [46, 46]) →
                    missingWith (fsOf t1) (fun _ _ => false) cur cs = false := by
                  intro cs
                  induction cs with
                  | nil => intro cur _ _; rfl
                  | cons x cs ihc =>
                    intro cur hj hx
                    have hd0 : fsOf t1 cur = some .dir := by simpa using hj 0
                    have hx1 := hx x (List.mem_cons_self ..)
                    have hx2 : ∀ y ∈ cs, y ≠ [46] ∧ y ≠ [46, 46] := fun y hy => hx y (List.mem_cons_of_mem _ hy)
                    by_cases h0 : x = []
                    · subst h0
                      simp only [missingWith, hd0, ne_eq, not_true_eq_false, if_false, true_or, if_true]
                      exact ihc cur (by rw [real_nil] at hj; exact hj) hx2
                    · simp only [missingWith, hd0, ne_eq, not_true_eq_false, if_false, h0, hx1.1, hx1.2, or_self]
                      rw [real_cons h0] at hj
                      have h1 : fsOf t1 (cur ++ [x]) = some .dir := by simpa using hj 1
                      rw [h1]
                      refine ihc (cur ++ [x]) ?_ hx2
                      intro j
                      have := hj (j + 1)
                      simpa using this
                rw [key ds base hds1 hdsdots]; simp)
        have hn1 : fsOf t1 (base ++ real ds ++ [n]) = none ∨ fsOf t1 (base ++ real ds ++ [n]) = some .dir := by
          by_cases h : ∃ j, base ++ real ds ++ [n] = base ++ (comps a).take j
          · obtain ⟨j, e⟩ := h
            rw [e]; exact .inr (i2.1 j)
          · rw [i2.2 _ (fun j e => h ⟨j, e⟩)]
            exact hlast t hfree
        unfold mkSecond
        rcases attempt hl hb hh hlen hmay hw1 hds1 hn1 with ⟨t', a1, a2⟩ | ⟨a1, a2, a3⟩
        · rw [a1]; exact ⟨rfl, i2.trans a2 hpre⟩
        · rw [a1]; exact ⟨a2, i2.trans a3 hpre⟩

/-! ### C108, the converse -/

/-- When every place on the way is a directory or free and making is permitted, `File.mkdir` with `force`
succeeds: afterwards every place on the way is a directory, and nothing else is touched.  The way of a path
without "." and ".." is the sequence of its names, from the root or from the working directory. -/
theorem C108_makes_the_way (c : Ctx) (t : Tab) (p : Str) (hmay : ∀ l, c.may l = true) (hp : p ≠ [])
    (hh : p.head? ≠ some 126) (hlen : p.length < pathMax) (hdots : NoDots p)
    (hbase : fsOf t (start c.cwd p) = some .dir)
    (hfree : ∀ j, fsOf t (start c.cwd p ++ (comps p).take j) = none ∨
      fsOf t (start c.cwd p ++ (comps p).take j) = some .dir) :
    (mkdir c t p true).2 = true ∧
    (∀ j, fsOf (mkdir c t p true).1 (start c.cwd p ++ (comps p).take j) = some .dir) ∧
    ∀ l, (∀ j, l ≠ start c.cwd p ++ (comps p).take j) → fsOf (mkdir c t p true).1 l = fsOf t l :=
  mkdirAll_paves c hmay (p.length + 1) t p _ (by omega) hp hh hlen hdots rfl hbase hfree

/-- The hypotheses are met: three directories to make. -/
example : (mkdir demoCtx treeD (asc "d//n1/n2/n3/") true).2 = true ∧
    fsOf (mkdir demoCtx treeD (asc "d//n1/n2/n3/") true).1 [asc "w", asc "d", asc "n1", asc "n2"] = some .dir := by
  have h := C108_makes_the_way demoCtx treeD (asc "d//n1/n2/n3/") (fun _ => rfl) (by decide +kernel) (by decide +kernel)
    (by decide +kernel) (by unfold NoDots; decide +kernel) (by decide +kernel) (by
      intro j
      have hc : comps (asc "d//n1/n2/n3/") = [asc "d", asc "n1", asc "n2", asc "n3"] := by decide +kernel
      rw [hc]
      match j with
      | 0 | 1 | 2 | 3 => decide +kernel
      | j + 4 =>
        have : List.take (j + 4) [asc "d", asc "n1", asc "n2", asc "n3"] = [asc "d", asc "n1", asc "n2", asc "n3"] :=
          List.take_of_length_le (by simp)
        rw [this]; decide +kernel)
  refine ⟨h.1, ?_⟩
  have := h.2.1 3
  have hc : start demoCtx.cwd (asc "d//n1/n2/n3/") ++ (comps (asc "d//n1/n2/n3/")).take 3 =
      [asc "w", asc "d", asc "n1", asc "n2"] := by decide +kernel
  rw [hc] at this
  exact this

/-- The path "~/d" is checked in the home directory but made in the working directory: `File.mkdir` says yes
although what is there is a file. -/
theorem C108_tilde_refuted : ∃ t : Tab, (fsOf t).Wf ∧ (mkdir demoCtx t (asc "~/d") true) = (t, true) ∧
    resolve (fsOf t) demoCtx.cwd (asc "~/d") = some [asc "w", asc "~", asc "d"] ∧
    fsOf t [asc "w", asc "~", asc "d"] = some .file :=
  ⟨[([], .dir), ([asc "w"], .dir), ([asc "w", asc "~"], .dir), ([asc "w", asc "~", asc "d"], .file),
    ([asc "home"], .dir), ([asc "home", asc "d"], .dir)], fsOf_wf (by decide +kernel), by decide +kernel,
    by decide +kernel, by decide +kernel⟩

/-- A call that fails can leave new directories behind: here "n" is made before "n/../x/y" turns out to lead
through a file. -/
theorem C108_failure_leaves : (mkdir demoCtx treeD (asc "n/../x/y") true).2 = false ∧
    fsOf treeD [asc "w", asc "n"] = none ∧
    fsOf (mkdir demoCtx treeD (asc "n/../x/y") true).1 [asc "w", asc "n"] = some .dir := by decide +kernel

end Verif.File
