import Verif.File.RemoveLemmas

/-! `File.remove` removes nothing outside the directory the path designates. -/

namespace Verif.File
open Verif.Path

/-- Every object of the tree at `L` is reached from `p` by a path the system accepts. -/
def Fits (fs : Fs) (L : Loc) (p : Str) : Prop :=
  ∀ r, fs (L ++ r) ≠ none → (p ++ r.flatMap (47 :: ·)).length < pathMax

/-- The names in the tree are names. -/
def Named (fs : Fs) : Prop := ∀ l, fs l ≠ none → ∀ n ∈ l, GoodName n

theorem Fits.child {fs : Fs} {L : Loc} {p n : Str} (h : Fits fs L p) : Fits fs (L ++ [n]) (p ++ 47 :: n) := by
  intro r hr
  have := h (n :: r) (by simpa using hr)
  simpa using this

theorem foldl_inv {α β : Type _} {f : α → β → α} (P : α → Prop) :
    ∀ (es : List β) (s : α), P s → (∀ e ∈ es, ∀ s, P s → P (f s e)) → P (es.foldl f s)
  | [], s, h, _ => h
  | e :: es, s, h, hf =>
    foldl_inv P es (f s e) (hf e (List.mem_cons_self ..) s h) (fun e' he' => hf e' (List.mem_cons_of_mem _ he'))

theorem child_long {p n : Str} (h : p.length = pathMax - 1) : child p n = p := by
  unfold child
  rw [← h]
  exact List.take_left' rfl

/-- A path of the greatest length: all its children are the path itself, so that only the object it names can
go. -/
theorem rmdirAll_long (c : Ctx) (t0 : Tab) (p : Str) (hp : p.length = pathMax - 1) (hh : p.head? ≠ some 126) :
    ∀ (k : Nat) (t : Tab), Less (fsOf t) (fsOf t0) →
    Less (fsOf (rmdirAll c k t p).1) (fsOf t) ∧
    ∀ l, fsOf (rmdirAll c k t p).1 l ≠ fsOf t l → removeAt (fsOf t0) c.cwd p = some l := by
  have one : ∀ t t', Less (fsOf t) (fsOf t0) → rmOne c t p = some t' → Less (fsOf t') (fsOf t) ∧
      ∀ l, fsOf t' l ≠ fsOf t l → removeAt (fsOf t0) c.cwd p = some l := by
    intro t t' hle hr
    obtain ⟨l0, hl0, rfl⟩ := rmOne_elim hr
    rw [tilde_of_ne hh] at hl0
    refine ⟨del_less _ _, ?_⟩
    intro l hl
    rw [fsOf_del] at hl
    by_cases h1 : l = l0
    · rw [h1]; exact removeAt_less hle hl0
    · rw [if_neg h1] at hl; exact absurd rfl hl
  intro k
  induction k with
  | zero => intro t _; exact ⟨.refl _, fun l h => absurd rfl h⟩
  | succ k ih =>
    intro t hle
    unfold rmdirAll
    cases ho : opendir c t p with
    | none => exact ⟨.refl _, fun l h => absurd rfl h⟩
    | some d =>
      let P : Tab × Bool → Prop := fun s =>
        Less (fsOf s.1) (fsOf t) ∧ ∀ l, fsOf s.1 l ≠ fsOf t l → removeAt (fsOf t0) c.cwd p = some l
      have step : ∀ s : Tab × Bool, P s → ∀ t', (Less (fsOf t') (fsOf s.1) ∧
          ∀ l, fsOf t' l ≠ fsOf s.1 l → removeAt (fsOf t0) c.cwd p = some l) → ∀ b, P (t', b) := by
        intro s hs t' ht' b
        refine ⟨ht'.1.trans hs.1, ?_⟩
        intro l hl
        simp only [] at hl
        by_cases h1 : fsOf t' l = fsOf s.1 l
        · rw [h1] at hl; exact hs.2 l hl
        · exact ht'.2 l h1
      have hfold : P ((entries t d).foldl (rmEntry c (rmdirAll c k) p) (t, true)) := by
        refine foldl_inv P _ _ ⟨.refl _, fun l h => absurd rfl h⟩ ?_
        intro e he s hs
        unfold rmEntry
        rw [child_long hp]
        split
        · exact step s hs _ (ih s.1 (hs.1.trans hle)) _
        · cases hr : rmOne c s.1 p with
          | none => exact hs
          | some t' => exact step s hs t' (one s.1 t' (hs.1.trans hle) hr) _
      show P (rmLast c p ((entries t d).foldl (rmEntry c (rmdirAll c k) p) (t, true)))
      generalize (entries t d).foldl (rmEntry c (rmdirAll c k) p) (t, true) = s at hfold ⊢
      unfold rmLast
      cases hr : rmOne c s.1 p with
      | none => exact hfold
      | some t' => exact step s hfold t' (one s.1 t' (hfold.1.trans hle) hr) _

theorem lastName_slash (p : Str) : lastName (p ++ [47]) = lastName p := by
  unfold lastName
  have : Path.split (p ++ [47]) = Path.split p ++ [[]] := split_append p []
  rw [this]
  simp

theorem removeAt_slash {fs : Fs} {cwd : Loc} {p : Str} (h : p ≠ []) :
    removeAt fs cwd (p ++ [47]) = removeAt fs cwd p := by
  unfold removeAt
  rw [lastName_slash, start_snoc h]

/-- What a cut path can name: something in the directory, or the directory itself. -/
theorem removeAt_cut {fs : Fs} {cwd d l : Loc} {p n : Str} (hn : GoodName n) (hres : resolve fs cwd p = some d)
    (hp : p.length < pathMax) (h : removeAt fs cwd (child p n) = some l) :
    d <+: l ∨ removeAt fs cwd p = some l := by
  have hp0 := resolve_ne hres
  by_cases hl : p.length = pathMax - 1
  · rw [child_long hl] at h; exact .inr h
  have e : child p n = p ++ 47 :: n.take (pathMax - 1 - p.length - 1) := by
    unfold child
    rw [List.take_append, List.take_of_length_le (by omega)]
    obtain ⟨m, hm⟩ : ∃ m, pathMax - 1 - p.length = m + 1 := ⟨pathMax - 1 - p.length - 1, by omega⟩
    rw [hm, List.take_succ_cons]
    rfl
  rw [e] at h
  generalize hn' : n.take (pathMax - 1 - p.length - 1) = n' at h
  have h47 : (47 : UInt8) ∉ n' := fun hm => hn.2.2.2 (List.mem_of_mem_take (hn' ▸ hm))
  by_cases h0 : n' = []
  · subst h0
    rw [removeAt_slash hp0] at h
    exact .inr h
  have key : ∀ m, n' = m → m = [46] ∨ m = [46, 46] → False := by
    intro m hm hd
    unfold removeAt at h
    have hl : lastName (p ++ 47 :: n') = none := by
      unfold lastName
      rw [split_append, split_noslash n' h47, hm]
      rcases hd with rfl | rfl <;> simp
    rw [hl] at h
    cases h
  have hg : GoodName n' := ⟨h0, fun e => key _ e (.inl rfl), fun e => key _ e (.inr rfl), h47⟩
  rw [removeAt_snoc_only hg hres h]
  exact .inl (List.prefix_append d [n'])

theorem child_cases (p n : Str) (h : p.length < pathMax) :
    child p n = p ++ 47 :: n ∨ (child p n).length = pathMax - 1 := by
  by_cases h1 : (p ++ 47 :: n).length < pathMax
  · exact .inl (child_eq h1)
  · right
    unfold child
    rw [List.length_take]
    omega

theorem child_head' {p n : Str} (h0 : p ≠ []) (h : p.head? ≠ some 126) : (child p n).head? ≠ some 126 := by
  cases p with
  | nil => exact absurd rfl h0
  | cons x p =>
    have : (child (x :: p) n).head? = some x := rfl
    rw [this]; exact h

theorem rmdirAll_inside (c : Ctx) : ∀ (k : Nat) (t0 t : Tab) (p : Str) (L : Loc),
    Less (fsOf t) (fsOf t0) → Named (fsOf t0) → resolve (fsOf t0) c.cwd p = some L → p.head? ≠ some 126 →
    Less (fsOf (rmdirAll c k t p).1) (fsOf t) ∧
    ∀ l, fsOf (rmdirAll c k t p).1 l ≠ fsOf t l → L <+: l ∨ removeAt (fsOf t0) c.cwd p = some l := by
  intro k
  induction k with
  | zero => intro t0 t p L _ _ _ _; exact ⟨.refl _, fun l h => absurd rfl h⟩
  | succ k ih =>
    intro t0 t p L hle hnm hres hh
    have hp0 := resolve_ne hres
    unfold rmdirAll
    cases ho : opendir c t p with
    | none => exact ⟨.refl _, fun l h => absurd rfl h⟩
    | some d =>
      have hplen : p.length < pathMax := by
        unfold opendir at ho
        split at ho
        · cases ho
        · omega
      obtain ⟨hd1, hd2⟩ := opendir_elim ho
      have hdL : d = L := by
        have := resolve_less hle hd1
        rw [hres] at this
        exact (Option.some.inj this).symm
      subst hdL
      let Q : Loc → Prop := fun l => d <+: l ∨ removeAt (fsOf t0) c.cwd p = some l
      let P : Tab × Bool → Prop := fun s => Less (fsOf s.1) (fsOf t) ∧ ∀ l, fsOf s.1 l ≠ fsOf t l → Q l
      have step : ∀ s : Tab × Bool, P s → ∀ t', (Less (fsOf t') (fsOf s.1) ∧
          ∀ l, fsOf t' l ≠ fsOf s.1 l → Q l) → ∀ b, P (t', b) := by
        intro s hs t' ht' b
        refine ⟨ht'.1.trans hs.1, ?_⟩
        intro l hl
        simp only [] at hl
        by_cases h1 : fsOf t' l = fsOf s.1 l
        · rw [h1] at hl; exact hs.2 l hl
        · exact ht'.2 l h1
      have one : ∀ (s t' : Tab) (q : Str), Less (fsOf s) (fsOf t0) → q.head? ≠ some 126 → rmOne c s q = some t' →
          (∀ l, removeAt (fsOf t0) c.cwd q = some l → Q l) →
          Less (fsOf t') (fsOf s) ∧ ∀ l, fsOf t' l ≠ fsOf s l → Q l := by
        intro s t' q hls hq hr hQ
        obtain ⟨l0, hl0, rfl⟩ := rmOne_elim hr
        rw [tilde_of_ne hq] at hl0
        refine ⟨del_less _ _, ?_⟩
        intro l hl
        rw [fsOf_del] at hl
        by_cases h1 : l = l0
        · rw [h1]; exact hQ l0 (removeAt_less hls hl0)
        · rw [if_neg h1] at hl; exact absurd rfl hl
      have hfold : P ((entries t d).foldl (rmEntry c (rmdirAll c k) p) (t, true)) := by
        refine foldl_inv P _ _ ⟨.refl _, fun l h => absurd rfl h⟩ ?_
        intro e he s hs
        obtain ⟨he1, he2, -⟩ := mem_entries he
        have het0 : fsOf t0 (d ++ [e.1]) ≠ none := by
          cases hx : fsOf t (d ++ [e.1]) with
          | none => exact absurd hx he1
          | some x => rw [hle.some hx]; simp
        have hgood : GoodName e.1 := hnm _ het0 e.1 (by simp)
        have hle' : Less (fsOf s.1) (fsOf t0) := hs.1.trans hle
        have hQ : ∀ l, removeAt (fsOf t0) c.cwd (child p e.1) = some l → Q l :=
          fun l hl => removeAt_cut hgood hres hplen hl
        unfold rmEntry
        split
        · rename_i h2
          refine step s hs _ ?_ _
          rcases child_cases p e.1 hplen with hch | hch
          · rw [hch]
            have hdir0 : fsOf t0 (d ++ [e.1]) = some .dir := hle.some (he2 h2)
            have hres' := resolve_snoc hgood (hle.some hd2) hres hdir0
            obtain ⟨i1, i2⟩ := ih t0 s.1 (p ++ 47 :: e.1) (d ++ [e.1]) hle' hnm hres' (child_head hp0 hh)
            refine ⟨i1, ?_⟩
            intro l hl
            rcases i2 l hl with h | h
            · exact .inl ((List.prefix_append d [e.1]).trans h)
            · rw [hch] at hQ; exact hQ l h
          · obtain ⟨i1, i2⟩ := rmdirAll_long c t0 (child p e.1) hch (child_head' hp0 hh) k s.1 hle'
            exact ⟨i1, fun l hl => hQ l (i2 l hl)⟩
        · cases hr : rmOne c s.1 (child p e.1) with
          | none => exact hs
          | some t' => exact step s hs t' (one s.1 t' _ hle' (child_head' hp0 hh) hr hQ) _
      show P (rmLast c p ((entries t d).foldl (rmEntry c (rmdirAll c k) p) (t, true)))
      generalize (entries t d).foldl (rmEntry c (rmdirAll c k) p) (t, true) = s at hfold ⊢
      unfold rmLast
      cases hr : rmOne c s.1 p with
      | none => exact hfold
      | some t' => exact step s hfold t' (one s.1 t' p (hfold.1.trans hle) hh hr (fun l h => .inr h)) _

/-! ### C106 -/

/-- Whatever the permissions, the links in the tree and the descriptors left: `File.remove` changes nothing but
by removing, and removes only the object the path names (a symbolic link itself, if it is one) and what lies in
the directory the path leads to.  Links found inside are not followed, and paths cut at `PATH_MAX` do no harm.
Assumed: the path does not begin with "~" (see `C106_tilde_refuted`). -/
theorem C106_only_inside_partial (c : Ctx) (k : Nat) (t : Tab) (p : Str) (force : Bool)
    (hw : (fsOf t).Wf) (hh : p.head? ≠ some 126) :
    ∀ l, fsOf (remove c k t p force).1 l = fsOf t l ∨
      (fsOf (remove c k t p force).1 l = none ∧
        (removeAt (fsOf t) c.cwd p = some l ∨
         ∃ L, resolve (fsOf t) c.cwd p = some L ∧ fsOf t L = some .dir ∧ L <+: l)) := by
  intro l
  unfold remove
  split
  · exact .inl rfl
  rw [tilde_of_ne hh]
  by_cases hlen : pathMax ≤ p.length
  · rw [if_pos hlen]; exact .inl rfl
  rw [if_neg hlen]
  cases hres : resolve (fsOf t) c.cwd p with
  | none => exact .inl rfl
  | some L =>
    simp only []
    cases hr : rmOne c t p with
    | some t' =>
      obtain ⟨l0, hl0, rfl⟩ := rmOne_elim hr
      rw [tilde_of_ne hh] at hl0
      simp only []
      rw [fsOf_del]
      by_cases h1 : l = l0
      · right; rw [if_pos h1, h1]; exact ⟨rfl, .inl hl0⟩
      · left; rw [if_neg h1]
    | none =>
      simp only []
      split
      · exact .inl rfl
      rename_i hdir
      split
      · exact .inl rfl
      obtain ⟨h1, h2⟩ := rmdirAll_inside c k t t p L (.refl _) hw.names hres hh
      by_cases hc : fsOf (rmdirAll c k t p).1 l = fsOf t l
      · exact .inl hc
      · right
        refine ⟨(h1 l).resolve_right hc, ?_⟩
        rcases h2 l hc with h | h
        · exact .inr ⟨L, rfl, Decidable.not_not.1 hdir, h⟩
        · exact .inl h

/-- Without `force` at most one object goes: a directory that is not empty stays as it is, and the call says so. -/
theorem C106_not_forced (c : Ctx) (k : Nat) (t : Tab) (p : Str) (hh : p.head? ≠ some 126) :
    ((remove c k t p false).2 = false → ∀ l, fsOf (remove c k t p false).1 l = fsOf t l) ∧
    ((remove c k t p false).2 = true → ∃ l0, removeAt (fsOf t) c.cwd p = some l0 ∧
      (∀ n, fsOf t l0 = some .dir → fsOf t (l0 ++ [n]) = none) ∧
      ∀ l, fsOf (remove c k t p false).1 l = if l = l0 then none else fsOf t l) := by
  unfold remove
  split
  · exact ⟨fun _ _ => rfl, fun h => by cases h⟩
  rw [tilde_of_ne hh]
  by_cases hlen : pathMax ≤ p.length
  · rw [if_pos hlen]; exact ⟨fun _ _ => rfl, fun h => by cases h⟩
  rw [if_neg hlen]
  cases hres : resolve (fsOf t) c.cwd p with
  | none => exact ⟨fun _ _ => rfl, fun h => by cases h⟩
  | some L =>
    simp only []
    cases hr : rmOne c t p with
    | some t' =>
      refine ⟨fun h => (by cases h), fun _ => ?_⟩
      obtain ⟨l0, hl0, rfl⟩ := rmOne_elim hr
      rw [tilde_of_ne hh] at hl0
      refine ⟨l0, hl0, ?_, fun l => fsOf_del t l0 l⟩
      intro n hd
      unfold rmOne at hr
      rw [tilde_of_ne hh] at hr
      simp only [if_neg hlen, hl0] at hr
      split at hr
      · cases hr
      split at hr
      · cases hr
      rename_i h1
      have : names t l0 = [] := Decidable.not_not.1 fun h => h1 ⟨hd, h⟩
      exact (names_nil t l0).1 this n
    | none =>
      simp only []
      split
      · exact ⟨fun _ _ => rfl, fun h => by cases h⟩
      · rw [if_pos trivial]; exact ⟨fun _ _ => rfl, fun h => by cases h⟩

end Verif.File
