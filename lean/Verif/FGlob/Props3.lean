import Verif.FGlob.Props2

/-! # `File.glob`: patterns with a directory, regular expressions, other options (C193, C194, C195) -/

namespace Verif.FGlob

open Verif

/-! ### Patterns with a directory -/

/-- What is found of one entry of the first directory. -/
def midOf (fs : FS) (gm : Str → Str → Bool) (o : Opts) (d x b : Str) (e : Str × FT) : List Str :=
  match ftOf fs o d e.1 e.2 with
  | some .dir => if gm x e.1 then walk fs o (gm b) 0 (d ++ 47 :: e.1) else []
  | _ => []

theorem two_dirs {fs : FS} {gm : Str → Str → Bool} {v : Env} {a : Args} (hr : a.recurse = false) (hdis : a.maxDiscard = 0)
    (hlim : a.limit < 0) (hinc : 0 < v.maxInc)
    {x b d : Str} (h47 : (47 : UInt8) ∉ x) (hs : (42 : UInt8) ∈ x) (hb : (47 : UInt8) ∉ b) (hd : a.dir = some d) (hne : d ≠ [])
    (hstar : (42 : UInt8) ∉ d) (hlast : d.getLastD 0 ≠ 47) {l : List (Str × FT)} (hl : fs.ls d = some l)
    (hn : a.noTypes = none)
    (hsub : ∀ e ∈ l, Seen fs d e.1 e.2 .dir → gm x e.1 = true → (42 : UInt8) ∉ e.1 ∧ (fs.ls (d ++ 47 :: e.1)).isSome) :
    ∃ n, glob fs gm v (.glob (x ++ 47 :: b)) a = result a (true, (({} : St).plus (l.flatMap (midOf fs gm (optsOf v a) d x b)) n)) := by
  have hlead : lead a = d ++ [47] := by
    rw [lead, hd]
    exact if_neg (fun h => h.elim hne hlast)
  have h0 : (optsOf v a).limit = 0 := by
    show (if a.limit = 0 then v.maxArr else a.limit.toNat) = 0
    rw [if_neg (by omega)]; omega
  obtain ⟨m, hm⟩ : ∃ m, v.maxInc = m + 1 := ⟨v.maxInc - 1, by omega⟩
  rw [glob, orStar, if_neg (by simp), withPat, if_neg (by simp [hr]), hlead, show d ++ [47] ++ (x ++ 47 :: b) = d ++ 47 :: (x ++ 47 :: b) by simp,
    hm, sub, cut_eq (split_mid hstar h47 hs) (by simp)]
  dsimp only
  rw [if_neg hne, hl]
  dsimp only
  obtain ⟨n, hn'⟩ := finds_loop (o := optsOf v a) (step fs (optsOf v a) (sub fs gm (optsOf v a) (m + 1)) (gm x) d (some (47 :: b)) 0)
    (midOf fs gm (optsOf v a) d x b) l {} (Or.inl h0) (by
      intro e he s hroom
      rw [step, midOf]
      cases hft : ftOf fs (optsOf v a) d e.1 e.2 with
      | none => exact finds_go hroom s.disc
      | some ft =>
        cases ft with
        | dir =>
          dsimp only
          rw [dirStep]
          by_cases hg : gm x e.1 = true
          · rw [if_neg (by simp [hg]), if_pos hg]
            obtain ⟨h1, h2⟩ := hsub e he ((seen_iff hn hne).1 hft) hg
            obtain ⟨n, h3⟩ := finds_one (fs := fs) (gm := gm) (o := optsOf v a) hdis hr
              (split_dir (d := d ++ 47 :: e.1) (p := b) (by simp [hstar, h1]) hb) (by simp) m 0 s hroom (by rw [if_neg (by simp)]; exact h2)
            rw [show d ++ 47 :: (e.1 ++ 47 :: b) = (d ++ 47 :: e.1) ++ 47 :: b by simp, h3]
            refine ⟨n, ?_⟩
            rw [if_neg (by simp [h0]), cutoff, if_pos h0]
          · rw [if_pos (by simpa using hg), if_neg hg]
            exact finds_go hroom s.disc
        | _ => exact finds_go hroom s.disc)
  rw [hn', cutoff, if_pos h0]
  exact ⟨n, rfl⟩

/-- **C193 (part).** A pattern `x/b` with a star in `x` gives, for every subdirectory whose name matches `x`, the names in it
that match `b`, if all of these directories can be read and there is no limit. -/
theorem C193_members_partial (fs : FS) (gm : Str → Str → Bool) (v : Env) (a : Args) (x b d : Str)
    (hr : a.recurse = false) (hdis : a.maxDiscard = 0) (ht : a.tails = false) (hn : a.noTypes = none) (hlim : a.limit < 0)
    (hc : a.retCount = false) (hinc : 0 < v.maxInc) (h47 : (47 : UInt8) ∉ x) (hs : (42 : UInt8) ∈ x) (hb : (47 : UInt8) ∉ b)
    (hd : a.dir = some d) (hne : d ≠ []) (hstar : (42 : UInt8) ∉ d) (hlast : d.getLastD 0 ≠ 47)
    (l : List (Str × FT)) (hl : fs.ls d = some l)
    (hsub : ∀ e ∈ l, Seen fs d e.1 e.2 .dir → gm x e.1 = true → (42 : UInt8) ∉ e.1 ∧ (fs.ls (d ++ 47 :: e.1)).isSome) :
    ∃ items, glob fs gm v (.glob (x ++ 47 :: b)) a = .list items ∧
      ∀ r, r ∈ items ↔ ∃ n ft l2 m ft2 t, (n, ft) ∈ l ∧ Seen fs d n ft .dir ∧ gm x n = true ∧
        fs.ls (d ++ 47 :: n) = some l2 ∧ (m, ft2) ∈ l2 ∧ Seen fs (d ++ 47 :: n) m ft2 t ∧ Wanted a (gm b) m t ∧
        r = shown a (n ++ 47 :: m) := by
  obtain ⟨n, h⟩ := two_dirs (b := b) hr hdis hlim hinc h47 hs hb hd hne hstar hlast hl hn hsub
  refine ⟨_, by rw [h, result, if_neg (by simp), hc, if_neg (by simp)], ?_⟩
  intro r
  simp only [St.plus, List.nil_append]
  rw [List.mem_flatMap]
  have hdv : d = a.dir.getD v.cwd := by rw [hd]; rfl
  constructor
  · rintro ⟨e, he, hr⟩
    rw [midOf] at hr
    cases hft : ftOf fs (optsOf v a) d e.1 e.2 with
    | none => rw [hft] at hr; simp at hr
    | some ft =>
      rw [hft] at hr
      cases ft with
      | dir =>
        dsimp only at hr
        have hseen := (seen_iff hn hne).1 hft
        by_cases hg : gm x e.1 = true
        · rw [if_pos hg, walk_names ht hdv hne (gm b) 0 (47 :: e.1) (Or.inr rfl)] at hr
          obtain ⟨r', hr', rfl⟩ := List.mem_map.1 hr
          cases (mem_names hn _ _ _ _ (by simp)).1 hr' with
          | @here _ _ l2 _ ft2 t hl2 he2 hs2 hw2 _ =>
            exact ⟨e.1, e.2, l2, r', ft2, t, he, hseen, hg, hl2, he2, hs2, hw2, rfl⟩
        · rw [if_neg hg] at hr; simp at hr
      | _ => simp at hr
  · rintro ⟨n, ft, l2, m, ft2, t, he, hseen, hg, hl2, he2, hs2, hw2, rfl⟩
    refine ⟨(n, ft), he, ?_⟩
    rw [midOf, (seen_iff hn hne).2 hseen]
    dsimp only
    rw [if_pos hg, walk_names ht hdv hne (gm b) 0 (47 :: n) (Or.inr rfl)]
    exact List.mem_map.2 ⟨m, (mem_names hn _ _ _ _ (by simp)).2 (.here hl2 he2 hs2 hw2 (fun _ h => absurd rfl h)), rfl⟩

/-- **C193 refuted.** The limit is not looked at from one subdirectory to the next: with the limit 1 and a file in each of
any number of subdirectories all of them are given. -/
theorem C193_limit_refuted (fs : FS) (gm : Str → Str → Bool) (v : Env) (x b d : Str) (hinc : 0 < v.maxInc)
    (h47 : (47 : UInt8) ∉ x) (hs : (42 : UInt8) ∈ x) (hb : (47 : UInt8) ∉ b) (hne : d ≠ [])
    (hstar : (42 : UInt8) ∉ d) (hlast : d.getLastD 0 ≠ 47) (ns : List Str) (f : Str → Str)
    (hl : fs.ls d = some (ns.map fun n => (n, .dir))) (hf : ∀ n ∈ ns, fs.ls (d ++ 47 :: n) = some [(f n, .reg)])
    (hv : ∀ n ∈ ns, n.head? ≠ some 46 ∧ (f n).head? ≠ some 46 ∧ (42 : UInt8) ∉ n ∧ gm x n = true ∧ gm b (f n) = true) :
    glob fs gm v (.glob (x ++ 47 :: b)) { limit := 1, dir := some d } = .list (ns.map fun n => n ++ 47 :: f n) := by
  have hlead : lead { limit := 1, dir := some d } = d ++ [47] := by
    rw [lead]
    exact if_neg (fun h => h.elim hne hlast)
  obtain ⟨m, hm⟩ : ∃ m, v.maxInc = m + 1 := ⟨v.maxInc - 1, by omega⟩
  rw [glob, orStar, if_neg (by simp), withPat, if_neg (by simp), hlead, show d ++ [47] ++ (x ++ 47 :: b) = d ++ 47 :: (x ++ 47 :: b) by simp,
    hm, sub, cut_eq (split_mid hstar h47 hs) (by simp)]
  dsimp only
  rw [if_neg hne, hl]
  dsimp only
  have key : ∀ (ns : List Str) (s : St), (∀ n ∈ ns, fs.ls (d ++ 47 :: n) = some [(f n, .reg)]) →
      (∀ n ∈ ns, n.head? ≠ some 46 ∧ (f n).head? ≠ some 46 ∧ (42 : UInt8) ∉ n ∧ gm x n = true ∧ gm b (f n) = true) →
      loop (step fs (optsOf v { limit := 1, dir := some d }) (sub fs gm (optsOf v { limit := 1, dir := some d }) (m + 1)) (gm x) d
        (some (47 :: b)) 0) (ns.map fun n => (n, FT.dir)) s =
        (true, ⟨s.cnt + ns.length, s.disc, s.items ++ ns.map fun n => n ++ 47 :: f n⟩) := by
    intro ns
    induction ns with
    | nil => intro s _ _; simp [loop]
    | cons n ns ih =>
      intro s hf hv
      obtain ⟨h1, h2, h3, h4, h5⟩ := hv n (by simp)
      have hstep : step fs (optsOf v { limit := 1, dir := some d }) (sub fs gm (optsOf v { limit := 1, dir := some d }) (m + 1)) (gm x) d
          (some (47 :: b)) 0 (n, .dir) s = .go ⟨s.cnt + 1, s.disc, s.items ++ [n ++ 47 :: f n]⟩ := by
        rw [step]
        simp only [ftOf, if_neg h1]
        rw [dirStep]
        rw [if_neg (by simp [h4]), sub, show d ++ 47 :: (n ++ 47 :: b) = (d ++ 47 :: n) ++ 47 :: b by simp,
          cut_eq (split_dir (d := d ++ 47 :: n) (p := b) (by simp [hstar, h3]) hb) (by simp)]
        dsimp only
        rw [if_neg (by simp), hf n (by simp)]
        dsimp only
        rw [loop, step]
        simp only [ftOf, if_neg h2]
        rw [if_neg (by simp), select]
        simp only [typesOk, noTypesOk, show (optsOf v { limit := 1, dir := some d }).types = none from rfl,
          show (optsOf v { limit := 1, dir := some d }).noTypes = none from rfl,
          show (optsOf v { limit := 1, dir := some d }).filter = none from rfl, h5]
        rw [if_neg (by simp), dump, checked, if_pos ⟨(Nat.one_ne_zero : (1 : Nat) ≠ 0), by show 1 ≤ s.cnt + 1; omega⟩]
        dsimp only
        rw [item_rel (v := v) (a := { limit := 1, dir := some d }) rfl (d := d) rfl hne (47 :: n) (f n) (Or.inr rfl)]
        simp [shown]
      rw [List.map_cons, loop, hstep]
      dsimp only
      rw [ih _ (fun x hx => hf x (by simp [hx])) (fun x hx => hv x (by simp [hx]))]
      simp [Nat.add_assoc, Nat.add_comm 1]
  rw [key ns {} hf hv, result, if_neg (by simp), if_neg (by simp)]
  rfl

theorem loop_false (f : Str × FT → St → Step) : ∀ (l : List (Str × FT)) (s : St),
    (∀ e ∈ l, ∀ s, (∃ s', f e s = .go s') ∨ ∃ s', f e s = .halt false s') → (∃ e ∈ l, ∀ s, ∃ s', f e s = .halt false s') →
    (loop f l s).1 = false
  | [], s, _, ⟨e, he, _⟩ => by simp at he
  | e :: t, s, h, ⟨x, hx, hxs⟩ => by
    rw [loop]
    rcases h e (by simp) s with ⟨s', h1⟩ | ⟨s', h1⟩
    · rw [h1]
      dsimp only
      rcases List.mem_cons.1 hx with rfl | hx
      · obtain ⟨s2, h2⟩ := hxs s; rw [h2] at h1; cases h1
      · exact loop_false f t s' (fun y hy => h y (by simp [hy])) ⟨x, hx, hxs⟩
    · rw [h1]

/-- **C193 refuted.** Without a directory the subdirectories are looked for below the root directory: if there is one of the
current directory that matches and the root has none of the same name, the call fails. -/
theorem C193_nodir_refuted (fs : FS) (gm : Str → Str → Bool) (v : Env) (a : Args) (x b : Str) (hinc : 0 < v.maxInc)
    (hr : a.recurse = false) (hd : a.dir = none) (hn : a.noTypes = none)
    (h47 : (47 : UInt8) ∉ x) (hs : (42 : UInt8) ∈ x) (hb : (47 : UInt8) ∉ b) (l : List (Str × FT)) (hl : fs.ls [46] = some l)
    (n : Str) (hmem : (n, .dir) ∈ l) (hdot : n.head? ≠ some 46) (hstar : (42 : UInt8) ∉ n) (hg : gm x n = true)
    (hroot : fs.ls (47 :: n) = none) :
    glob fs gm v (.glob (x ++ 47 :: b)) a = .err := by
  obtain ⟨m, hm⟩ : ∃ m, v.maxInc = m + 1 := ⟨v.maxInc - 1, by omega⟩
  rw [glob, orStar, if_neg (by simp), withPat, if_neg (by simp [hr]), show lead a = [] by rw [lead, hd], List.nil_append,
    hm, sub, cut_eq (split_here_mid h47 hs) (by simp)]
  dsimp only
  rw [if_pos rfl, hl]
  dsimp only
  rw [result, if_pos]
  refine loop_false _ l _ ?_ ⟨_, hmem, ?_⟩
  · intro e _ s
    rw [step]
    cases ftOf fs (optsOf v a) [] e.1 e.2 with
    | none => exact Or.inl ⟨s, rfl⟩
    | some ft =>
      cases ft with
      | dir =>
        dsimp only
        rw [dirStep]
        by_cases h : gm x e.1 = false
        · rw [if_pos h]; exact Or.inl ⟨s, rfl⟩
        · rw [if_neg h]
          generalize sub fs gm (optsOf v a) (m + 1) none ([] ++ 47 :: (e.1 ++ 47 :: b)) 0 s = r
          obtain ⟨rc, s'⟩ := r
          cases rc
          · exact Or.inr ⟨s', rfl⟩
          · exact Or.inl ⟨s', rfl⟩
      | _ => exact Or.inl ⟨s, rfl⟩
  · intro s
    rw [step]
    simp only [ftOf, if_neg hdot]
    rw [dirStep]
    rw [if_neg (by simp [hg]), sub, show [] ++ 47 :: (n ++ 47 :: b) = (47 :: n) ++ 47 :: b by simp,
      cut_eq (split_dir (d := 47 :: n) (p := b) (by simp [hstar]) hb) (by simp)]
    dsimp only
    rw [if_neg (by simp), hroot]
    dsimp only
    rw [show (optsOf v a).recurse = false from hr]
    exact ⟨s, rfl⟩

/-- `File.glob('*/x.c')` in a directory with a subdirectory `src`. -/
example : glob ⟨fun p => if p = [46] then some [(asc "README", .reg), (asc "src", .dir)]
      else if p = asc "src" then some (regs [asc "x.c"]) else none, fun _ => none⟩
    (fun p n => p = [42] || p = n) ⟨asc "/home/u", 50, 100⟩ (.glob (asc "*/x.c")) {} = .err :=
  C193_nodir_refuted _ _ _ _ [42] (asc "x.c") (by decide) rfl rfl rfl (by decide) (by decide) (by decide) _ rfl (asc "src")
    (by decide) (by decide) (by decide) (by decide) (by decide)

/-! ### Regular expressions -/

/-- **C194 (part).** A regular expression gives the names in the directory that match it, if the directory is given by a
single name without a star and nothing in it has this name (matches it as a pattern). -/
theorem C194_members_partial (fs : FS) (gm : Str → Str → Bool) (v : Env) (a : Args) (f : Str → Bool) (d : Str)
    (hr : a.recurse = false) (hdis : a.maxDiscard = 0) (ht : a.tails = false) (hn : a.noTypes = none) (hlim : a.limit < 0)
    (hc : a.retCount = false) (hd : a.dir = some d) (hne : d ≠ []) (h47 : (47 : UInt8) ∉ d) (hstar : (42 : UInt8) ∉ d)
    (l : List (Str × FT)) (hl : fs.ls d = some l) (hself : ∀ e ∈ l, gm d e.1 = false) :
    ∃ items, glob fs gm v (.re f) a = .list items ∧
      ∀ r, r ∈ items ↔ ∃ n ft t, (n, ft) ∈ l ∧ Seen fs d n ft t ∧ Wanted a f n t ∧ r = shown a n := by
  have h0 : (optsOf v a).limit = 0 := by
    show (if a.limit = 0 then v.maxArr else a.limit.toNat) = 0
    rw [if_neg (by omega)]; omega
  have hlast : d.getLastD 0 ≠ 47 := by
    intro h
    have := List.getLastD_eq_getLast? (l := d) (a := 0)
    rw [h] at this
    cases hg : d.getLast? with
    | none => rw [hg] at this; simp at this
    | some c =>
      rw [hg] at this
      simp only [Option.getD_some] at this
      exact h47 (this ▸ List.mem_of_getLast? hg)
  have hlead : lead a = d ++ [47] := by
    rw [lead, hd]
    exact if_neg (fun h => h.elim hne hlast)
  obtain ⟨n1, h1⟩ := finds_sub (fs := fs) (gm := gm) (o := optsOf v a) hdis (Or.inr hr) f (v.maxInc + 1) 0 0 d {} (Or.inl h0) (by omega)
    (by rw [show (optsOf v a).recurse = false from hr]; rfl) (Or.inr (by rw [if_neg hne, hl]; rfl))
  have hw2 : walk fs (optsOf v a) (gm d) 0 d = [] := by
    rw [walk, if_neg hne, hl]
    simp only [Option.getD_some, List.flatMap_eq_nil_iff]
    intro e he
    have hg := hself e he
    cases ftOf fs (optsOf v a) d e.1 e.2 with
    | none => rfl
    | some ft => cases ft <;> simp [own, wantedT, wantedDir, wanted, hg]
  obtain ⟨n2, h2⟩ := finds_one (fs := fs) (gm := gm) (o := optsOf v a) hdis hr (split_dir hstar h47) (by simp) v.maxInc 0
    (({} : St).plus (cutoff (optsOf v a).limit 0 (walk fs (optsOf v a) f 0 d)) n1) (Or.inl h0) (by rw [if_neg hne, hl]; rfl)
  have hgl : glob fs gm v (.re f) a = .list (walk fs (optsOf v a) f 0 d) := by
    rw [glob, hd]
    dsimp only
    rw [h1, orStar, if_neg hne, withPat, if_neg (by simp [hr]), hlead, show d ++ [47] ++ d = d ++ 47 :: d by simp, h2, hw2,
      result, if_neg (by simp), hc, if_neg (by simp)]
    simp [St.plus, cutoff, h0]
  have hwalk := walk_names (fs := fs) (v := v) ht (show d = a.dir.getD v.cwd by rw [hd]; rfl) hne f 0 [] (Or.inl rfl)
  simp only [List.append_nil, List.nil_append, List.tail_cons] at hwalk
  refine ⟨_, hgl, ?_⟩
  intro r
  rw [hwalk, List.mem_map]
  constructor
  · rintro ⟨x, hx, rfl⟩
    cases (mem_names hn _ _ _ _ hne).1 hx with
    | @here _ _ l' n ft t hl' he hs hw _ =>
      rw [hl] at hl'; cases hl'
      exact ⟨x, ft, t, he, hs, hw, rfl⟩
  · rintro ⟨n, ft, t, he, hs, hw, rfl⟩
    exact ⟨n, (mem_names hn _ _ _ _ hne).2 (.here hl he hs hw (fun _ h => absurd rfl h)), rfl⟩

/-- **C194 refuted.** After the search with the regular expression there is another, with the directory as the pattern: if
the directory is `x/y` the call fails, unless there is a directory `x/y/x`. -/
theorem C194_path_refuted (fs : FS) (gm : Str → Str → Bool) (v : Env) (a : Args) (f : Str → Bool) (x y : Str)
    (hr : a.recurse = false) (hy : y ≠ []) (h47 : (47 : UInt8) ∉ y) (hsx : (42 : UInt8) ∉ x) (hsy : (42 : UInt8) ∉ y)
    (hd : a.dir = some (x ++ 47 :: y)) (hno : fs.ls (x ++ 47 :: (y ++ 47 :: x)) = none) :
    glob fs gm v (.re f) a = .err := by
  have hlast : (x ++ 47 :: y).getLastD 0 ≠ 47 := by
    obtain ⟨u, w, rfl⟩ : ∃ u w, y = u ++ [w] := ⟨y.dropLast, y.getLast hy, (List.dropLast_concat_getLast hy).symm⟩
    rw [show x ++ 47 :: (u ++ [w]) = (x ++ 47 :: u) ++ [w] by simp]
    simp only [List.getLastD_concat]
    rintro rfl
    exact h47 (by simp)
  have hlead : lead a = x ++ 47 :: y ++ [47] := by
    rw [lead, hd]
    exact if_neg (fun h => h.elim (by simp) hlast)
  rw [glob, hd]
  dsimp only
  generalize (sub fs gm (optsOf v a) (v.maxInc + 1) (some f) (x ++ 47 :: y) 0 {}).2 = s0
  rw [orStar, if_neg (by simp), withPat, if_neg (by simp [hr]), hlead,
    show x ++ 47 :: y ++ [47] ++ (x ++ 47 :: y) = (x ++ 47 :: (y ++ 47 :: x)) ++ 47 :: y by simp, sub,
    cut_eq (split_dir (d := x ++ 47 :: (y ++ 47 :: x)) (p := y) (by simp [hsx, hsy]) h47) (by simp)]
  dsimp only
  rw [if_neg (by simp), hno, show (optsOf v a).recurse = false from hr]
  rfl

example : glob ⟨fun p => if p = asc "/home/u" then some (regs [asc "a.c"]) else none, fun _ => none⟩ (fun _ _ => false)
    ⟨asc "/", 50, 100⟩ (.re fun _ => true) { dir := some (asc "/home/u") } = .err :=
  C194_path_refuted _ _ _ _ _ (asc "/home") (asc "u") rfl (by decide) (by decide) (by decide) (by decide) rfl (by decide)

/-- **C194 refuted.** With `recurse` and a directory with a slash the call always fails; without a directory memory is used
that is no longer the program's. -/
theorem C194_recurse_refuted (fs : FS) (gm : Str → Str → Bool) (v : Env) (a : Args) (f : Str → Bool) :
    (∀ d, a.dir = some d → a.recurse = true → (47 : UInt8) ∈ d → glob fs gm v (.re f) a = .err) ∧
    (a.dir = none → glob fs gm v (.re f) a = .freed) := by
  constructor
  · intro d hd hr h47
    have hne : d ≠ [] := by rintro rfl; simp at h47
    rw [glob, hd]
    dsimp only
    rw [orStar, if_neg hne, withPat, if_pos hr, if_pos h47]
  · intro hd
    rw [glob, hd]

/-! ### Types and discarding -/

/-- **C195 refuted.** With `recurse` and `types:'d'` the pattern is not looked at, and the directories are not searched:
every subdirectory is given, and nothing below. -/
theorem C195_dirs_refuted (fs : FS) (gm : Str → Str → Bool) (v : Env) (p d : Str) (hinc : 0 < v.maxInc) (hp : p ≠ [])
    (h47 : (47 : UInt8) ∉ p) (hne : d ≠ []) (ns : List Str) (hl : fs.ls d = some (ns.map fun n => (n, .dir)))
    (hv : ∀ n ∈ ns, n.head? ≠ some 46) :
    glob fs gm v (.glob p) { limit := -1, dir := some d, recurse := true, types := some (asc "d") } = .list ns := by
  rw [glob, orStar, if_neg hp, withPat, if_pos rfl, if_neg h47]
  rw [show (({ limit := -1, dir := some d, recurse := true, types := some (asc "d") } : Args).dir.getD v.cwd) = d from rfl]
  generalize ha : ({ limit := -1, dir := some d, recurse := true, types := some (asc "d") } : Args) = a
  have h0 : (optsOf v a).limit = 0 := by rw [← ha]; rfl
  have h1 : (optsOf v a).maxDiscard = 0 := by rw [← ha]; rfl
  have h2 : (optsOf v a).recurse = true := by rw [← ha]; rfl
  have h3 : 1 ≤ (optsOf v a).maxDepth := by rw [← ha]; exact hinc
  have h4 : ∀ q, dirOk (optsOf v a) q = true := by rw [← ha]; intro q; rfl
  have h5 : wantsDirs (optsOf v a) = true := by rw [← ha]; rfl
  have h6 : ∀ n, item (optsOf v a) d n = n := by
    intro n
    have := item_rel (v := v) (a := a) (by rw [← ha]) (d := d) (by rw [← ha]; rfl) hne [] n (Or.inl rfl)
    rw [List.append_nil] at this
    rw [this, shown, ← ha]; rfl
  have h7 : a.retCount = false := by rw [← ha]
  have key : ∀ (ns : List Str) (s : St), (∀ n ∈ ns, n.head? ≠ some 46) →
      loop (step fs (optsOf v a) (sub fs gm (optsOf v a) v.maxInc) (gm p) d none 0) (ns.map fun n => (n, FT.dir)) s =
        (true, ⟨s.cnt + ns.length, s.disc, s.items ++ ns⟩) := by
    intro ns
    induction ns with
    | nil => intro s _; simp [loop]
    | cons n ns ih =>
      intro s hv
      have hstep : step fs (optsOf v a) (sub fs gm (optsOf v a) v.maxInc) (gm p) d none 0 (n, .dir) s =
          .go ⟨s.cnt + 1, s.disc, s.items ++ [n]⟩ := by
        rw [step]
        simp only [ftOf, if_neg (hv n (by simp))]
        rw [dirStep]
        rw [if_pos ⟨h2, h3⟩, if_neg (by simp [h4]), if_pos h5, dump, checked, if_neg (by simp [h0]), if_neg (by simp [h1]), h6]
      rw [List.map_cons, loop, hstep]
      dsimp only
      rw [ih _ (fun x hx => hv x (by simp [hx]))]
      simp [Nat.add_assoc, Nat.add_comm 1]
  rw [sub, if_neg hne, hl]
  dsimp only
  rw [key ns {} hv, result, if_neg (by simp), h7, if_neg (by simp)]
  simp

example : glob ⟨fun p => if p = asc "x" then some [(asc "lib", .dir), (asc "src", .dir)] else none, fun _ => none⟩ (fun _ _ => false)
    ⟨asc "/", 50, 100⟩ (.glob (asc "nothing")) { limit := -1, dir := some (asc "x"), recurse := true, types := some (asc "d") } =
      .list [asc "lib", asc "src"] :=
  C195_dirs_refuted _ _ _ _ _ (by decide) (by decide) (by decide) (by decide) [asc "lib", asc "src"] rfl (by decide)

/-- **C195 refuted.** `maxDiscard` is not looked at when something is discarded: any number of files can be before one that is
kept, and it is still found. -/
theorem C195_discard_refuted (fs : FS) (gm : Str → Str → Bool) (v : Env) (p d : Str) (k : Nat) (f : Str → Bool)
    (hp : p ≠ []) (h47 : (47 : UInt8) ∉ p) (hne : d ≠ []) (hstar : (42 : UInt8) ∉ d) (hlast : d.getLastD 0 ≠ 47)
    (ns : List Str) (y : Str) (hl : fs.ls d = some (regs (ns ++ [y])))
    (hv : ∀ n ∈ ns, n.head? ≠ some 46 ∧ f n = false) (hy : y.head? ≠ some 46 ∧ f y = true ∧ gm p y = true) :
    glob fs gm v (.glob p) { limit := -1, dir := some d, maxDiscard := k, filter := some f } = .list [y] := by
  have hlead : lead { limit := -1, dir := some d, maxDiscard := k, filter := some f } = d ++ [47] := by
    rw [lead]
    exact if_neg (fun h => h.elim hne hlast)
  rw [glob, orStar, if_neg hp, withPat, if_neg (by simp), hlead, show d ++ [47] ++ p = d ++ 47 :: p by simp, sub,
    cut_eq (split_dir hstar h47) (by simp)]
  dsimp only
  rw [if_neg hne, hl]
  dsimp only
  generalize ha : ({ limit := -1, dir := some d, maxDiscard := k, filter := some f } : Args) = a
  have h0 : (optsOf v a).limit = 0 := by rw [← ha]; rfl
  have h1 : ∀ ft, typesOk (optsOf v a) ft = true := by rw [← ha]; intro ft; rfl
  have h2 : ∀ ft, noTypesOk (optsOf v a) ft = true := by rw [← ha]; intro ft; rfl
  have h3 : (optsOf v a).filter = some f := by rw [← ha]; rfl
  have h6 : item (optsOf v a) d y = y := by
    have := item_rel (v := v) (a := a) (by rw [← ha]) (d := d) (by rw [← ha]; rfl) hne [] y (Or.inl rfl)
    rw [List.append_nil] at this
    rw [this, shown, ← ha]; rfl
  have h7 : a.retCount = false := by rw [← ha]
  have key : ∀ (ns : List Str) (s : St), s.items = [] → (∀ n ∈ ns, n.head? ≠ some 46 ∧ f n = false) →
      ∃ c e, loop (step fs (optsOf v a) (sub fs gm (optsOf v a) v.maxInc) (gm p) d none 0) (regs (ns ++ [y])) s = (true, ⟨c, e, [y]⟩) := by
    intro ns
    induction ns with
    | nil =>
      intro s hs _
      rw [List.nil_append, regs, List.map_cons, loop, step]
      simp only [ftOf, if_neg hy.1]
      rw [if_neg (by simp), select, h1, h2, hy.2.2, if_neg (by simp), h3]
      dsimp only
      rw [if_pos hy.2.1, dump, checked, if_neg (by simp [h0]), h6, hs]
      by_cases hk : (optsOf v a).maxDiscard ≠ 0 ∧ (optsOf v a).maxDiscard ≤ s.disc
      · rw [if_pos hk]; exact ⟨_, _, rfl⟩
      · rw [if_neg hk]; exact ⟨_, _, rfl⟩
    | cons n ns ih =>
      intro s hs hv
      obtain ⟨hv1, hv2⟩ := hv n (by simp)
      have hstep : ∃ e, step fs (optsOf v a) (sub fs gm (optsOf v a) v.maxInc) (gm p) d none 0 (n, .reg) s = .go { s with disc := e } := by
        rw [step]
        simp only [ftOf, if_neg hv1]
        rw [if_neg (by simp), select, h1, h2]
        split
        · exact ⟨_, rfl⟩
        · rw [h3]
          dsimp only
          rw [hv2]
          exact ⟨_, rfl⟩
      obtain ⟨e, he⟩ := hstep
      rw [List.cons_append, regs, List.map_cons, loop, he]
      dsimp only
      exact ih _ hs (fun x hx => hv x (by simp [hx]))
  obtain ⟨c, e, h⟩ := key ns {} rfl hv
  rw [h, result, if_neg (by simp), h7, if_neg (by simp)]

/-- **C195 (part).** Without `recurse`, `types:'d'` gives the directories (and links to directories) in the directory whose
names match, and `types:'f'` the plain files. -/
theorem C195_types_partial (fs : FS) (hfs : Proper fs) (gm : Str → Str → Bool) (v : Env) (p d : Str) (hp : p ≠ [])
    (h47 : (47 : UInt8) ∉ p) (hne : d ≠ []) (hstar : (42 : UInt8) ∉ d) (hlast : d.getLastD 0 ≠ 47) (l : List (Str × FT))
    (hl : fs.ls d = some l) :
    (∃ items, glob fs gm v (.glob p) { limit := -1, dir := some d, types := some (asc "d") } = .list items ∧ items.Nodup ∧
      ∀ r, r ∈ items ↔ r.head? ≠ some 46 ∧ gm p r = true ∧
        ((r, .dir) ∈ l ∨ (r, .lnk) ∈ l ∧ fs.stat (d ++ 47 :: r) = some true)) ∧
    (∃ items, glob fs gm v (.glob p) { limit := -1, dir := some d, types := some (asc "f") } = .list items ∧ items.Nodup ∧
      ∀ r, r ∈ items ↔ r.head? ≠ some 46 ∧ gm p r = true ∧ (r, .reg) ∈ l) := by
  constructor
  · obtain ⟨items, h1, h2, h3⟩ := C192_members_partial fs hfs gm v { limit := -1, dir := some d, types := some (asc "d") } p d rfl rfl
      rfl rfl (by simp) rfl hp h47 rfl hne hstar hlast l hl
    refine ⟨items, h1, h2, fun r => (h3 r).trans ?_⟩
    constructor
    · rintro ⟨n, ft, t, hm, ⟨hv, hs⟩, ⟨hw, hg, _⟩, rfl⟩
      have hc := hw _ rfl
      have ht : t = .dir := by cases t <;> first | rfl | (exact absurd hc (by decide))
      subst ht
      refine ⟨hv, hg, ?_⟩
      rcases hs with ⟨_, rfl⟩ | ⟨rfl, ⟨h, _⟩ | ⟨_, h⟩⟩
      · exact Or.inl hm
      · exact Or.inr ⟨hm, h⟩
      · cases h
    · rintro ⟨hv, hg, hm | ⟨hm, hst⟩⟩
      · exact ⟨r, .dir, .dir, hm, ⟨hv, Or.inl ⟨by simp, rfl⟩⟩, ⟨by rintro ts h; cases h; decide, hg, by simp⟩, rfl⟩
      · exact ⟨r, .lnk, .dir, hm, ⟨hv, Or.inr ⟨rfl, Or.inl ⟨hst, rfl⟩⟩⟩, ⟨by rintro ts h; cases h; decide, hg, by simp⟩, rfl⟩
  · obtain ⟨items, h1, h2, h3⟩ := C192_members_partial fs hfs gm v { limit := -1, dir := some d, types := some (asc "f") } p d rfl rfl
      rfl rfl (by simp) rfl hp h47 rfl hne hstar hlast l hl
    refine ⟨items, h1, h2, fun r => (h3 r).trans ?_⟩
    constructor
    · rintro ⟨n, ft, t, hm, ⟨hv, hs⟩, ⟨hw, hg, _⟩, rfl⟩
      have hc := hw _ rfl
      have ht : t = .reg := by cases t <;> first | rfl | (exact absurd hc (by decide))
      subst ht
      refine ⟨hv, hg, ?_⟩
      rcases hs with ⟨_, rfl⟩ | ⟨_, ⟨_, h⟩ | ⟨_, h⟩⟩
      · exact hm
      · cases h
      · cases h
    · rintro ⟨hv, hg, hm⟩
      exact ⟨r, .reg, .reg, hm, ⟨hv, Or.inl ⟨by simp, rfl⟩⟩, ⟨by rintro ts h; cases h; decide, hg, by simp⟩, rfl⟩

end Verif.FGlob
