import Verif.File.RemoveSafe

/-! `File.remove` with `force` removes the whole tree when nothing stands in the way. -/

namespace Verif.File
open Verif.Path

/-- The file system without what lies inside the directory `L`. -/
def cut (fs : Fs) (L : Loc) : Fs := fun l => if L <+: l ∧ l ≠ L then none else fs l

/-- Nothing stands in the way of removing the directory `L` by the path `p`. -/
structure Ready (c : Ctx) (t : Tab) (p : Str) (L : Loc) : Prop where
  /-- the tree is sound, each object is in the table once -/
  wf : (fsOf t).Wf
  nodup : (t.map Prod.fst).Nodup
  /-- `L` is a directory, not the root -/
  ne : L ≠ []
  dir : fsOf t L = some .dir
  /-- the path leads to `L` without going through the inside of `L`, and its last name is that of `L` -/
  res : resolve (cut (fsOf t) L) c.cwd p = some L
  rem : removeAt (cut (fsOf t) L) c.cwd p = some L
  head : p.head? ≠ some 126
  fits : Fits (fsOf t) L p
  /-- the system permits listing and removing everything there -/
  may : ∀ r, c.may (L ++ r) = true
  list : ∀ r, c.canList (L ++ r) = true

theorem wf_below {fs : Fs} (hw : fs.Wf) (a : Loc) (n : Str) : ∀ (r : Loc), fs (a ++ n :: r) ≠ none → fs a = some .dir := by
  intro r
  induction hr : r.reverse generalizing r with
  | nil =>
    have : r = [] := by simpa using hr
    subst this
    exact hw.parent a n
  | cons m q ih =>
    have : r = q.reverse ++ [m] := by
      have := congrArg List.reverse hr
      simpa using this
    subst this
    intro h
    have e : a ++ n :: (q.reverse ++ [m]) = (a ++ n :: q.reverse) ++ [m] := by simp
    rw [e] at h
    exact ih q.reverse (by simp) (by rw [hw.parent _ _ h]; simp)

theorem cut_less (fs : Fs) (L : Loc) : Less (cut fs L) fs := by
  intro l
  unfold cut
  split
  · exact .inl rfl
  · exact .inr rfl

theorem prefix_snoc {L l : Loc} {n : Str} (h : L ++ [n] <+: l) : L <+: l ∧ l ≠ L := by
  obtain ⟨r, rfl⟩ := h
  constructor
  · exact ⟨[n] ++ r, by simp⟩
  · intro e
    have := congrArg List.length e
    simp at this

theorem cut_child (fs : Fs) (L : Loc) (n : Str) : Less (cut fs L) (cut fs (L ++ [n])) := by
  intro l
  unfold cut
  by_cases h : L <+: l ∧ l ≠ L
  · rw [if_pos h]; exact .inl rfl
  · rw [if_neg h, if_neg (fun h' => h (prefix_snoc h'.1))]; exact .inr rfl

/-- `t'` is `t` without the tree at `M`. -/
def Gone (t t' : Tab) (M : Loc) : Prop := ∀ l, fsOf t' l = if M <+: l then none else fsOf t l

theorem Gone.wf {t t' : Tab} {M : Loc} (h : Gone t t' M) (hM : M ≠ []) (hw : (fsOf t).Wf) : (fsOf t').Wf := by
  refine ⟨?_, ?_, ?_⟩
  · rw [h, if_neg (by intro h'; exact hM (List.prefix_nil.1 h'))]; exact hw.root
  · intro l n hl
    rw [h] at hl
    split at hl
    · exact absurd rfl hl
    rename_i h1
    rw [h, if_neg (fun h' => h1 (h'.trans (List.prefix_append l [n])))]
    exact hw.parent l n hl
  · intro l hl
    rw [h] at hl
    split at hl
    · exact absurd rfl hl
    exact hw.names l hl

theorem cut_gone {t t' : Tab} {L : Loc} {n : Str} (h : Gone t t' (L ++ [n])) :
    cut (fsOf t') L = cut (fsOf t) L := by
  funext l
  unfold cut
  split
  · rfl
  rename_i h1
  rw [h, if_neg (fun h' => h1 (prefix_snoc h'))]

theorem Ready.gone {c : Ctx} {t t' : Tab} {p n : Str} {L : Loc} (h : Ready c t p L) (g : Gone t t' (L ++ [n]))
    (hn : (t'.map Prod.fst).Nodup) : Ready c t' p L where
  wf := g.wf (by simp) h.wf
  nodup := hn
  ne := h.ne
  dir := by
    rw [g, if_neg (fun h' => (prefix_snoc h').2 rfl)]
    exact h.dir
  res := by rw [cut_gone g]; exact h.res
  rem := by rw [cut_gone g]; exact h.rem
  head := h.head
  fits := by
    intro r hr
    refine h.fits r ?_
    rw [g] at hr
    split at hr
    · exact absurd rfl hr
    · exact hr
  may := h.may
  list := h.list

theorem cut_self (fs : Fs) (L : Loc) : cut fs L L = fs L := by
  unfold cut
  rw [if_neg (fun h => h.2 rfl)]

theorem Ready.resolves {c : Ctx} {t : Tab} {p : Str} {L : Loc} (h : Ready c t p L) :
    resolve (fsOf t) c.cwd p = some L := resolve_less (cut_less _ _) h.res

theorem Ready.child {c : Ctx} {t : Tab} {p n : Str} {L : Loc} (h : Ready c t p L)
    (hd : fsOf t (L ++ [n]) = some .dir) : Ready c t (p ++ 47 :: n) (L ++ [n]) := by
  have hg : GoodName n := h.wf.names _ (by rw [hd]; simp) n (by simp)
  have hres : resolve (cut (fsOf t) (L ++ [n])) c.cwd p = some L := resolve_less (cut_child _ _ _) h.res
  have hL : cut (fsOf t) (L ++ [n]) L = some .dir := by
    unfold cut
    rw [if_neg (fun h' => (prefix_snoc h'.1).2 rfl)]
    exact h.dir
  have hc : cut (fsOf t) (L ++ [n]) (L ++ [n]) = some .dir := by rw [cut_self]; exact hd
  refine ⟨h.wf, h.nodup, by simp, hd, ?_, ?_, child_head (resolve_ne h.res) h.head, h.fits.child, ?_, ?_⟩
  · exact resolve_snoc hg hL hres hc
  · exact removeAt_snoc hg hL hres (by rw [hc]; simp)
  · intro r
    have := h.may (n :: r)
    simpa using this
  · intro r
    have := h.list (n :: r)
    simpa using this

theorem del_nodup {t : Tab} (l : Loc) (h : (t.map Prod.fst).Nodup) : ((del t l).map Prod.fst).Nodup := by
  unfold del
  exact h.sublist (List.filter_sublist.map _)

theorem rmOne_file {c : Ctx} {t : Tab} {p n : Str} {L : Loc} (h : Ready c t p L) (hn : fsOf t (L ++ [n]) ≠ none)
    (hf : fsOf t (L ++ [n]) ≠ some .dir) :
    ∃ t', rmOne c t (p ++ 47 :: n) = some t' ∧ Gone t t' (L ++ [n]) ∧ (t'.map Prod.fst).Nodup := by
  have hg : GoodName n := h.wf.names _ hn n (by simp)
  have hlen : (p ++ 47 :: n).length < pathMax := by simpa using h.fits [n] hn
  refine ⟨del t (L ++ [n]), ?_, ?_, del_nodup _ h.nodup⟩
  · unfold rmOne
    rw [tilde_child (resolve_ne h.res) h.head]
    simp only []
    rw [if_neg (by omega), removeAt_snoc hg h.dir h.resolves hn]
    simp only []
    have h47 : (p ++ 47 :: n).getLast? ≠ some 47 := by
      intro e
      have hne := hg.1
      rw [List.getLast?_append, List.getLast?_cons] at e
      have : n.getLast? = some (n.getLast hne) := List.getLast?_eq_some_getLast hne
      rw [this] at e
      simp at e
      exact hg.2.2.2 (e ▸ List.getLast_mem hne)
    rw [if_neg (fun h' => h47 h'.1), if_neg (fun h' => hf h'.1), if_pos (h.may [n])]
  · intro l
    rw [fsOf_del]
    by_cases h1 : L ++ [n] <+: l
    · rw [if_pos h1]
      split
      · rfl
      rename_i h2
      obtain ⟨r, rfl⟩ := h1
      cases r with
      | nil => simp at h2
      | cons m r =>
        by_cases h3 : fsOf t (L ++ [n] ++ m :: r) = none
        · exact h3
        · exact absurd (wf_below h.wf _ _ _ h3) hf
    · rw [if_neg h1, if_neg (fun e => h1 (by rw [e]; exact List.prefix_refl _))]

/-- The claim of the recursion for directories less than `k` deep. -/
def Clears (c : Ctx) (k : Nat) (rec : Tab → Str → Tab × Bool) : Prop :=
  ∀ t p L, Ready c t p L → (∀ r, fsOf t (L ++ r) = some .dir → r.length < k) →
    (rec t p).2 = true ∧ Gone t (rec t p).1 L ∧ ((rec t p).1.map Prod.fst).Nodup

theorem fold_clears (c : Ctx) (k : Nat) (rec : Tab → Str → Tab × Bool) (hrec : Clears c k rec) (p : Str) (L : Loc) :
    ∀ (es : List (Str × Bool)) (s : Tab × Bool), s.2 = true → Ready c s.1 p L →
      (∀ r, fsOf s.1 (L ++ r) = some .dir → r.length < k + 1) →
      (es.map Prod.fst).Nodup →
      (∀ e ∈ es, fsOf s.1 (L ++ [e.1]) ≠ none ∧ (e.2 = true → fsOf s.1 (L ++ [e.1]) = some .dir) ∧
        (e.2 = false → fsOf s.1 (L ++ [e.1]) ≠ some .dir)) →
      (es.foldl (rmEntry c rec p) s).2 = true ∧ Ready c (es.foldl (rmEntry c rec p) s).1 p L ∧
      ∀ l, fsOf (es.foldl (rmEntry c rec p) s).1 l =
        if ∃ e ∈ es, L ++ [e.1] <+: l then none else fsOf s.1 l := by
  intro es
  induction es with
  | nil => intro s h1 h2 _ _ _; exact ⟨h1, h2, fun l => by simp⟩
  | cons e es ih =>
    intro s h1 h2 hk hnd he
    obtain ⟨e1, e2, e3⟩ := he e (List.mem_cons_self ..)
    have hgood : GoodName e.1 := h2.wf.names _ e1 e.1 (by simp)
    have hlen : (p ++ 47 :: e.1).length < pathMax := by simpa using h2.fits [e.1] e1
    have key : ∃ t', rmEntry c rec p s e = (t', true) ∧ Gone s.1 t' (L ++ [e.1]) ∧ (t'.map Prod.fst).Nodup := by
      unfold rmEntry
      rw [child_eq hlen, h1]
      cases hb : e.2 with
      | true =>
        obtain ⟨r1, r2, r3⟩ := hrec s.1 (p ++ 47 :: e.1) (L ++ [e.1]) (h2.child (e2 hb)) (by
          intro r hr
          have := hk (e.1 :: r) (by simpa using hr)
          simpa using this)
        refine ⟨(rec s.1 (p ++ 47 :: e.1)).1, ?_, r2, r3⟩
        simp [r1]
      | false =>
        obtain ⟨t', r1, r2, r3⟩ := rmOne_file h2 e1 (e3 hb)
        exact ⟨t', by simp [r1], r2, r3⟩
    obtain ⟨t', k1, k2, k3⟩ := key
    simp only [List.foldl_cons, k1]
    have hnd' := List.nodup_cons.1 (List.map_cons ▸ hnd)
    have hne : ∀ e' ∈ es, e'.1 ≠ e.1 := by
      intro e' he' h
      exact hnd'.1 (h ▸ List.mem_map_of_mem he')
    have hkeep : ∀ e' ∈ es, fsOf t' (L ++ [e'.1]) = fsOf s.1 (L ++ [e'.1]) := by
      intro e' he'
      rw [k2, if_neg]
      intro hp
      obtain ⟨r, hr⟩ := hp
      have : e.1 :: r = [e'.1] := by simpa using hr
      exact hne e' he' (by injection this with h _; exact h.symm)
    obtain ⟨i1, i2, i3⟩ := ih (t', true) rfl (h2.gone k2 k3) (by
        intro r hr
        rw [k2] at hr
        split at hr
        · cases hr
        · exact hk r hr) hnd'.2 (by
        intro e' he'
        have := he e' (List.mem_cons_of_mem _ he')
        simp only [hkeep e' he']
        exact this)
    refine ⟨i1, i2, ?_⟩
    intro l
    rw [i3]
    by_cases h4 : ∃ e' ∈ es, L ++ [e'.1] <+: l
    · rw [if_pos h4]
      obtain ⟨e', m1, m2⟩ := h4
      rw [if_pos ⟨e', List.mem_cons_of_mem _ m1, m2⟩]
    · rw [if_neg h4, k2]
      by_cases h5 : L ++ [e.1] <+: l
      · rw [if_pos h5, if_pos ⟨e, List.mem_cons_self .., h5⟩]
      · rw [if_neg h5, if_neg]
        rintro ⟨e', m1, m2⟩
        rcases List.mem_cons.1 m1 with m | m
        · subst m; exact h5 m2
        · exact h4 ⟨e', m, m2⟩

theorem names_nodup {t : Tab} (d : Loc) (h : (t.map Prod.fst).Nodup) : (names t d).Nodup := by
  unfold names
  induction t with
  | nil => simp
  | cons x t ih =>
    have h' := List.nodup_cons.1 (List.map_cons ▸ h)
    have ih' := ih h'.2
    rw [List.filterMap_cons]
    split
    · exact ih'
    · rename_i n hn
      refine List.nodup_cons.2 ⟨?_, ih'⟩
      intro hm
      split at hn
      · rename_i h1
        have hx : x.1 = d ++ [n] := by
          have h2 : x.1.getLast h1.1 = n := by
            rw [List.getLast?_eq_some_getLast h1.1] at hn
            exact Option.some.inj hn
          have h3 := List.dropLast_concat_getLast h1.1
          rw [h2, h1.2] at h3
          exact h3.symm
        have hm' : n ∈ names t d := hm
        have := (mem_names t d n).1 hm'
        obtain ⟨y, hy⟩ := lookup_mem this
        exact h'.1 (List.mem_map.2 ⟨_, hy, hx.symm⟩)
      · cases hn

theorem rmdirAll_clears (c : Ctx) : ∀ k, Clears c k (rmdirAll c k) := by
  intro k
  induction k with
  | zero =>
    intro t p L h hk
    have := hk [] (by simpa using h.dir)
    simp at this
  | succ k ih =>
    intro t p L h hk
    have hlen : p.length < pathMax := by simpa using h.fits [] (by simp [h.dir])
    have ho : opendir c t p = some L := by
      unfold opendir
      rw [if_neg (by omega), h.resolves]
      simp only []
      rw [if_pos ⟨h.dir, by simpa using h.list []⟩]
    unfold rmdirAll
    rw [ho]
    simp only []
    have hnn : ((entries t L).map Prod.fst).Nodup := by
      unfold entries
      rw [List.map_map]
      have : (Prod.fst ∘ fun n => (n, fsOf t (L ++ [n]) == some .dir)) = (id : Str → Str) := by
        funext n; rfl
      rw [this, List.map_id]
      exact names_nodup L h.nodup
    obtain ⟨f1, f2, f3⟩ := fold_clears c k (rmdirAll c k) ih p L (entries t L) (t, true) rfl h hk hnn
      (fun e he => mem_entries he)
    generalize (entries t L).foldl (rmEntry c (rmdirAll c k) p) (t, true) = s at f1 f2 f3 ⊢
    have hin : ∀ l, fsOf s.1 l = if L <+: l ∧ l ≠ L then none else fsOf t l := by
      intro l
      rw [f3]
      by_cases h1 : L <+: l ∧ l ≠ L
      · rw [if_pos h1]
        split
        · rfl
        rename_i h2
        obtain ⟨⟨r, rfl⟩, h1⟩ := h1
        cases r with
        | nil => simp at h1
        | cons n r =>
          by_cases h3 : fsOf t (L ++ n :: r) = none
          · exact h3
          · exfalso
            have hn : fsOf t (L ++ [n]) ≠ none := by
              cases r with
              | nil => exact h3
              | cons m r =>
                have e : L ++ n :: m :: r = (L ++ [n]) ++ m :: r := by simp
                rw [e] at h3
                rw [wf_below h.wf _ _ _ h3]; simp
            refine h2 ⟨(n, fsOf t (L ++ [n]) == some .dir), ?_, ⟨r, by simp⟩⟩
            unfold entries
            exact List.mem_map.2 ⟨n, (mem_names t L n).2 hn, rfl⟩
      · rw [if_neg h1, if_neg]
        rintro ⟨e, -, he⟩
        exact h1 (prefix_snoc he)
    have hr : rmOne c s.1 p = some (del s.1 L) := by
      unfold rmOne
      rw [tilde_of_ne h.head]
      simp only []
      rw [if_neg (by omega), removeAt_less (cut_less _ _) f2.rem]
      simp only []
      rw [if_neg (fun h' => h'.2 f2.dir), if_neg, if_pos (by simpa using h.may [])]
      rintro ⟨-, h'⟩
      refine h' ((names_nil _ _).2 ?_)
      intro n
      rw [hin, if_pos]
      exact prefix_snoc (List.prefix_refl _)
    unfold rmLast
    rw [hr]
    refine ⟨f1, ?_, del_nodup _ f2.nodup⟩
    intro l
    simp only []
    rw [fsOf_del, hin]
    by_cases h1 : l = L
    · rw [if_pos h1, if_pos (by rw [h1]; exact List.prefix_refl _)]
    · rw [if_neg h1]
      by_cases h2 : L <+: l
      · rw [if_pos ⟨h2, h1⟩, if_pos h2]
      · rw [if_neg (fun h' => h2 h'.1), if_neg h2]

/-! ### C107 -/

/-- When nothing stands in the way (`Ready`) and there are descriptors for the depth of the tree, `File.remove`
with `force` removes the directory with all it contains, nothing else, and reports success — whatever the shape
of the tree and the order in which its directories are listed. -/
theorem C107_whole_tree_partial (c : Ctx) (k : Nat) (t : Tab) (p : Str) (L : Loc) (h : Ready c t p L)
    (hk : ∀ r, fsOf t (L ++ r) = some .dir → r.length < k) :
    (remove c k t p true).2 = true ∧
    ∀ l, fsOf (remove c k t p true).1 l = if L <+: l then none else fsOf t l := by
  have hlen : p.length < pathMax := by simpa using h.fits [] (by simp [h.dir])
  have hslash : p ≠ [47] := by
    rintro rfl
    have h1 := h.rem
    unfold removeAt at h1
    have : lastName [47] = none := by decide +kernel
    rw [this] at h1
    cases h1
  unfold remove
  rw [if_neg hslash, tilde_of_ne h.head, if_neg (by omega), h.resolves]
  simp only []
  cases hr : rmOne c t p with
  | some t' =>
    obtain ⟨l0, hl0, rfl⟩ := rmOne_elim hr
    rw [tilde_of_ne h.head, removeAt_less (cut_less _ _) h.rem] at hl0
    cases hl0
    refine ⟨rfl, ?_⟩
    have hempty : ∀ n, fsOf t (L ++ [n]) = none := by
      unfold rmOne at hr
      rw [tilde_of_ne h.head] at hr
      simp only [] at hr
      rw [if_neg (by omega), removeAt_less (cut_less _ _) h.rem] at hr
      simp only [] at hr
      rw [if_neg (fun h' => h'.2 h.dir)] at hr
      split at hr
      · cases hr
      rename_i h1
      exact (names_nil t L).1 (Decidable.not_not.1 fun h' => h1 ⟨h.dir, h'⟩)
    intro l
    simp only []
    rw [fsOf_del]
    by_cases h1 : L <+: l
    · rw [if_pos h1]
      split
      · rfl
      rename_i h2
      obtain ⟨r, rfl⟩ := h1
      cases r with
      | nil => simp at h2
      | cons n r =>
        by_cases h3 : fsOf t (L ++ n :: r) = none
        · exact h3
        · exfalso
          cases r with
          | nil => exact h3 (hempty n)
          | cons m r =>
            have e : L ++ n :: m :: r = (L ++ [n]) ++ m :: r := by simp
            rw [e] at h3
            have := wf_below h.wf _ _ _ h3
            rw [hempty n] at this
            cases this
    · rw [if_neg h1, if_neg (fun e => h1 (by rw [e]; exact List.prefix_refl _))]
  | none =>
    simp only []
    rw [if_neg (by rw [h.dir]; simp), if_neg (by simp)]
    obtain ⟨r1, r2, -⟩ := rmdirAll_clears c k t p L h hk
    exact ⟨r1, r2⟩

end Verif.File
