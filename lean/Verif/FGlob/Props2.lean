import Verif.FGlob.Props

/-! # `File.glob` for the names in one directory, and in those below it (C192, C193) -/

namespace Verif.FGlob

open Verif

/-! ### How patterns are cut -/

theorem takeWhile_none {c : UInt8} : ∀ {s : Str}, c ∉ s → s.takeWhile (· ≠ c) = s ∧ s.dropWhile (· ≠ c) = []
  | [], _ => ⟨rfl, rfl⟩
  | x :: t, h => by
    simp only [List.mem_cons, not_or] at h
    obtain ⟨h1, h2⟩ := takeWhile_none h.2
    have hx : decide (x ≠ c) = true := by simpa using fun e => h.1 e.symm
    simp only [List.takeWhile, List.dropWhile, hx, h1, h2, and_self]

theorem takeWhile_hit {c : UInt8} (t : Str) : ∀ {s : Str}, c ∉ s →
    (s ++ c :: t).takeWhile (· ≠ c) = s ∧ (s ++ c :: t).dropWhile (· ≠ c) = c :: t
  | [], _ => ⟨by simp, by simp⟩
  | x :: s, h => by
    simp only [List.mem_cons, not_or] at h
    obtain ⟨h1, h2⟩ := takeWhile_hit t h.2
    have hx : decide (x ≠ c) = true := by simpa using fun e => h.1 e.symm
    simp only [List.cons_append, List.takeWhile, List.dropWhile, hx, h1, h2, and_self]

theorem rsplit_app (d : Str) {x : Str} (h : (47 : UInt8) ∉ x) : rsplit (d ++ 47 :: x) = some (d, x) := by
  have h' : (47 : UInt8) ∉ x.reverse := by simpa using h
  have e : (d ++ 47 :: x).reverse = x.reverse ++ 47 :: d.reverse := by simp
  rw [rsplit, if_pos (by simp), e, (takeWhile_hit _ h').1, (takeWhile_hit _ h').2]
  simp

theorem rsplit_none {x : Str} (h : (47 : UInt8) ∉ x) : rsplit x = none := by rw [rsplit, if_neg h]

/-- The first star. -/
theorem at_star {p : Str} (h : (42 : UInt8) ∈ p) : ∃ u w, p = u ++ 42 :: w ∧ (42 : UInt8) ∉ u := by
  induction p with
  | nil => simp at h
  | cons c t ih =>
    by_cases hc : c = 42
    · exact ⟨[], t, by rw [hc]; rfl, by simp⟩
    · obtain ⟨u, w, e, hu⟩ := ih (by simpa [Ne.symm hc] using h)
      exact ⟨c :: u, w, by rw [e]; rfl, by simp [hu, Ne.symm hc]⟩

theorem split_dir {d p : Str} (hd : (42 : UInt8) ∉ d) (hp : (47 : UInt8) ∉ p) : split (d ++ 47 :: p) = (d, p, none) := by
  rw [split]
  by_cases hs : (42 : UInt8) ∈ p
  · rw [if_pos (by simp [hs])]
    obtain ⟨u, w, rfl, hu⟩ := at_star hs
    have hdu : (42 : UInt8) ∉ d ++ 47 :: u := by simp [hd, hu]
    have e : d ++ 47 :: (u ++ 42 :: w) = (d ++ 47 :: u) ++ 42 :: w := by simp
    rw [e, (takeWhile_hit w hdu).1, (takeWhile_hit w hdu).2, rsplit_app d (by intro x; exact hp (by simp [x]))]
    have hw : (47 : UInt8) ∉ 42 :: w := by intro x; exact hp (by simp at x; simp [x])
    rw [(takeWhile_none hw).1, (takeWhile_none hw).2]
    rfl
  · rw [if_neg (by simp [hs, hd]), rsplit_app d hp]

theorem split_mid {d a b : Str} (hd : (42 : UInt8) ∉ d) (ha : (47 : UInt8) ∉ a) (hs : (42 : UInt8) ∈ a) :
    split (d ++ 47 :: (a ++ 47 :: b)) = (d, a, some (47 :: b)) := by
  rw [split, if_pos (by simp [hs])]
  obtain ⟨u, w, rfl, hu⟩ := at_star hs
  have hdu : (42 : UInt8) ∉ d ++ 47 :: u := by simp [hd, hu]
  have e : d ++ 47 :: (u ++ 42 :: w ++ 47 :: b) = (d ++ 47 :: u) ++ 42 :: (w ++ 47 :: b) := by simp
  rw [e, (takeWhile_hit _ hdu).1, (takeWhile_hit _ hdu).2, rsplit_app d (by intro x; exact ha (by simp [x]))]
  have hw : (47 : UInt8) ∉ 42 :: w := by intro x; exact ha (by simp at x; simp [x])
  rw [show 42 :: (w ++ 47 :: b) = (42 :: w) ++ 47 :: b from rfl, (takeWhile_hit b hw).1, (takeWhile_hit b hw).2]
  rfl

theorem split_here {p : Str} (hp : (47 : UInt8) ∉ p) (hs : (42 : UInt8) ∈ p) : split p = ([], p, none) := by
  rw [split, if_pos hs]
  obtain ⟨u, w, rfl, hu⟩ := at_star hs
  rw [(takeWhile_hit w hu).1, (takeWhile_hit w hu).2, rsplit_none (by intro x; exact hp (by simp [x]))]
  have hw : (47 : UInt8) ∉ 42 :: w := by intro x; exact hp (by simp at x; simp [x])
  rw [(takeWhile_none hw).1, (takeWhile_none hw).2]
  rfl

theorem split_here_mid {a b : Str} (ha : (47 : UInt8) ∉ a) (hs : (42 : UInt8) ∈ a) : split (a ++ 47 :: b) = ([], a, some (47 :: b)) := by
  rw [split, if_pos (by simp [hs])]
  obtain ⟨u, w, rfl, hu⟩ := at_star hs
  have e : u ++ 42 :: w ++ 47 :: b = u ++ 42 :: (w ++ 47 :: b) := by simp
  rw [e, (takeWhile_hit _ hu).1, (takeWhile_hit _ hu).2, rsplit_none (by intro x; exact ha (by simp [x]))]
  have hw : (47 : UInt8) ∉ 42 :: w := by intro x; exact ha (by simp at x; simp [x])
  rw [show 42 :: (w ++ 47 :: b) = (42 :: w) ++ 47 :: b from rfl, (takeWhile_hit b hw).1, (takeWhile_hit b hw).2]
  rfl

theorem cut_eq {path sp pat : Str} {mid : Option Str} (h : split path = (sp, pat, mid)) (hne : path ≠ []) :
    cut path = (if sp = [] then [46] else sp, sp, pat, mid) := by
  rw [cut]
  by_cases h1 : path = [42]
  · rw [if_pos (Or.inr h1)]
    subst h1
    rw [split_here (by decide) (by decide)] at h
    cases h
    rfl
  · rw [if_neg (by simp [hne, h1]), h]

/-! ### One directory -/

theorem finds_one {fs : FS} {gm : Str → Str → Bool} {o : Opts} (hd : o.maxDiscard = 0) (hr : o.recurse = false)
    {path sp pat : Str} (h : split path = (sp, pat, none)) (hne : path ≠ []) (n deep : Nat) (s : St) (hroom : Room o s)
    (hls : (fs.ls (if sp = [] then [46] else sp)).isSome) :
    FindsC o (sub fs gm o (n + 1) none path deep s) s (walk fs o (gm pat) 0 sp) := by
  have h2 := finds_sub (fs := fs) (gm := gm) hd (Or.inr hr) (gm pat) (n + 1) 0 deep sp s hroom (by omega) (by rw [hr]; rfl) (Or.inr hls)
  have : sub fs gm o (n + 1) none path deep s = sub fs gm o (n + 1) (some (gm pat)) sp deep s := by
    rw [sub, sub, cut_eq h hne]
  rw [this]
  exact h2

theorem one_dir {fs : FS} {gm : Str → Str → Bool} {v : Env} {a : Args} (hr : a.recurse = false) (hdis : a.maxDiscard = 0)
    {p d : Str} (hp : p ≠ []) (h47 : (47 : UInt8) ∉ p) (hd : a.dir = some d) (hne : d ≠ []) (hstar : (42 : UInt8) ∉ d)
    (hlast : d.getLastD 0 ≠ 47) {l : List (Str × FT)} (hl : fs.ls d = some l) :
    ∃ n, glob fs gm v (.glob p) a = result a (true, (({} : St).plus (cutoff (optsOf v a).limit 0 (walk fs (optsOf v a) (gm p) 0 d)) n)) := by
  have hlead : lead a = d ++ [47] := by
    rw [lead, hd]
    exact if_neg (fun h => h.elim hne hlast)
  rw [glob, orStar, if_neg hp, withPat, if_neg (by simp [hr]), hlead, show d ++ [47] ++ p = d ++ 47 :: p by simp]
  obtain ⟨n, hn⟩ := finds_one (fs := fs) (gm := gm) (o := optsOf v a) hdis hr (split_dir hstar h47) (by simp) v.maxInc 0 {} room0
    (by rw [if_neg hne, hl]; rfl)
  exact ⟨n, by rw [hn]⟩

/-- **C192 (part).** `File.glob` with a pattern and a directory gives the names in it that are wanted, and nothing else,
each once; for every file system, pattern, filter, types and prefix, if there is no limit. -/
theorem C192_members_partial (fs : FS) (hfs : Proper fs) (gm : Str → Str → Bool) (v : Env) (a : Args) (p d : Str)
    (hr : a.recurse = false) (hdis : a.maxDiscard = 0) (ht : a.tails = false) (hn : a.noTypes = none) (hlim : a.limit < 0)
    (hc : a.retCount = false) (hp : p ≠ []) (h47 : (47 : UInt8) ∉ p) (hd : a.dir = some d) (hne : d ≠ [])
    (hstar : (42 : UInt8) ∉ d) (hlast : d.getLastD 0 ≠ 47) (l : List (Str × FT)) (hl : fs.ls d = some l) :
    ∃ items, glob fs gm v (.glob p) a = .list items ∧ items.Nodup ∧
      ∀ r, r ∈ items ↔ ∃ n ft t, (n, ft) ∈ l ∧ Seen fs d n ft t ∧ Wanted a (gm p) n t ∧ r = shown a n := by
  obtain ⟨n, h⟩ := one_dir (gm := gm) (v := v) hr hdis hp h47 hd hne hstar hlast hl
  have h0 : (optsOf v a).limit = 0 := by
    show (if a.limit = 0 then v.maxArr else a.limit.toNat) = 0
    rw [if_neg (by omega)]; omega
  have hwalk := walk_names (fs := fs) (v := v) ht (show d = a.dir.getD v.cwd by rw [hd]; rfl) hne (gm p) 0 [] (Or.inl rfl)
  simp only [List.append_nil, List.nil_append, List.tail_cons] at hwalk
  refine ⟨_, by rw [h, result, if_neg (by simp), hc, if_neg (by simp)], ?_, ?_⟩
  · simp only [St.plus, List.nil_append, cutoff, h0, if_true]
    rw [hwalk, List.nodup_map_iff (fun x y h => shown_inj h)]
    exact names_nodup hfs _ _ _
  · intro r
    simp only [St.plus, List.nil_append, cutoff, h0, if_true]
    rw [hwalk, List.mem_map]
    constructor
    · rintro ⟨x, hx, rfl⟩
      cases (mem_names hn _ _ _ _ hne).1 hx with
      | @here _ _ l' n ft t hl' he hs hw _ =>
        rw [hl] at hl'; cases hl'
        exact ⟨x, ft, t, he, hs, hw, rfl⟩
    · rintro ⟨n, ft, t, he, hs, hw, rfl⟩
      exact ⟨n, (mem_names hn _ _ _ _ hne).2 (.here hl he hs hw (fun _ h => absurd rfl h)), rfl⟩

/-- **C192 (part).** A limit above 0 gives the first results, `retCount` their number. -/
theorem C192_limit_partial (fs : FS) (gm : Str → Str → Bool) (v : Env) (a : Args) (p d : Str)
    (hr : a.recurse = false) (hdis : a.maxDiscard = 0) (hp : p ≠ []) (h47 : (47 : UInt8) ∉ p) (hd : a.dir = some d) (hne : d ≠ [])
    (hstar : (42 : UInt8) ∉ d) (hlast : d.getLastD 0 ≠ 47) (l : List (Str × FT)) (hl : fs.ls d = some l) (n : Nat) (hn : 0 < n) :
    ∃ all, glob fs gm v (.glob p) { a with limit := -1, retCount := false } = .list all ∧
      glob fs gm v (.glob p) { a with limit := n, retCount := false } = .list (all.take n) ∧
      glob fs gm v (.glob p) { a with limit := n, retCount := true } = .count (min n all.length) := by
  obtain ⟨n1, h1⟩ := one_dir (fs := fs) (gm := gm) (v := v) (a := { a with limit := -1, retCount := false }) hr hdis hp h47 hd hne hstar hlast hl
  obtain ⟨n2, h2⟩ := one_dir (fs := fs) (gm := gm) (v := v) (a := { a with limit := n, retCount := false }) hr hdis hp h47 hd hne hstar hlast hl
  obtain ⟨n3, h3⟩ := one_dir (fs := fs) (gm := gm) (v := v) (a := { a with limit := n, retCount := true }) hr hdis hp h47 hd hne hstar hlast hl
  have e1 : (optsOf v { a with limit := -1, retCount := false }).limit = 0 := rfl
  have e2 : (optsOf v { a with limit := n, retCount := false }).limit = n := by
    show (if (n : Int) = 0 then v.maxArr else (n : Int).toNat) = n
    rw [if_neg (by omega)]; rfl
  have e3 : (optsOf v { a with limit := n, retCount := true }).limit = n := e2
  refine ⟨_, by rw [h1, result, if_neg (by simp), if_neg (by simp)], ?_, ?_⟩
  · rw [h2, result, if_neg (by simp), if_neg (by simp)]
    simp only [St.plus, List.nil_append, cutoff, e1, e2, if_true]
    rw [if_neg (by omega)]
    rw [show optsOf v { a with limit := n, retCount := false } = { optsOf v { a with limit := -1, retCount := false } with limit := n } by
      simp only [optsOf, Opts.mk.injEq, true_and, and_true]; exact e2, walk_limit]
    rfl
  · rw [h3, result, if_neg (by simp), if_pos rfl]
    simp only [St.plus, List.nil_append, cutoff, e1, e3, if_true]
    rw [if_neg (by omega)]
    rw [show optsOf v { a with limit := n, retCount := true } = { optsOf v { a with limit := -1, retCount := false } with limit := n } by
      simp only [optsOf, Opts.mk.injEq, true_and, and_true]; exact e3, walk_limit]
    rw [List.length_take]
    simp

/-- Only regular files, for the counterexamples. -/
def regs (ns : List Str) : List (Str × FT) := ns.map fun n => (n, .reg)

theorem walk_regs {fs : FS} {o : Opts} {pat : Str → Bool} {p : Str} (ht : o.types = none) (hn : o.noTypes = none) (hf : o.filter = none)
    (ns : List Str) (hl : fs.ls (if p = [] then [46] else p) = some (regs ns)) (hv : ∀ n ∈ ns, n.head? ≠ some 46) (hp : ∀ n ∈ ns, pat n = true) :
    walk fs o pat 0 p = ns.map (item o p) := by
  rw [walk, hl]
  simp only [Option.getD_some, regs]
  clear hl
  induction ns with
  | nil => rfl
  | cons n t ih =>
    rw [List.map_cons, List.flatMap_cons, List.map_cons, ih (fun x hx => hv x (by simp [hx])) (fun x hx => hp x (by simp [hx]))]
    simp only [ftOf, if_neg (hv n (by simp)), own, wantedT, wanted, typesOk, noTypesOk, ht, hn, hf, hp n (by simp)]
    rfl

/-- **C192 refuted.** Without a directory the names are cut by the length of the current directory: of a name that is as
long or longer only what is behind is given. -/
theorem C192_cut_refuted (fs : FS) (gm : Str → Str → Bool) (v : Env) (p : Str) (hs : (42 : UInt8) ∈ p) (h47 : (47 : UInt8) ∉ p)
    (hcwd : v.cwd ≠ []) (ns : List Str) (hl : fs.ls [46] = some (regs ns))
    (hv : ∀ n ∈ ns, n.head? ≠ some 46 ∧ (47 : UInt8) ∉ n) (hm : ∀ n ∈ ns, gm p n = true) :
    glob fs gm v (.glob p) { limit := -1 } = .list (ns.map fun n => if v.cwd.length ≤ n.length then n.drop v.cwd.length else n) := by
  have hp : p ≠ [] := by rintro rfl; simp at hs
  rw [glob, orStar, if_neg hp, withPat, if_neg (by simp), show lead { limit := -1 } = [] from rfl, List.nil_append]
  obtain ⟨n, h⟩ := finds_one (fs := fs) (gm := gm) (o := optsOf v { limit := -1 }) rfl rfl (split_here h47 hs) hp v.maxInc 0 {} room0
    (by rw [if_pos rfl, hl]; rfl)
  rw [h, walk_regs rfl rfl rfl ns (by rw [if_pos rfl, hl]) (fun n hn => (hv n hn).1) hm, result, if_neg (by simp), if_neg (by simp)]
  simp only [St.plus, cutoff, show (optsOf v { limit := -1 }).limit = 0 from rfl, if_true, List.nil_append]
  congr 1
  refine List.map_congr_left ?_
  intro n hn
  rw [item, strip]
  simp only [show (optsOf v { limit := -1 }).pre = none from rfl, show (optsOf v { limit := -1 }).tails = false from rfl,
    show (optsOf v { limit := -1 }).dirLen = v.cwd.length from rfl, Option.getD_none, List.nil_append, pj, if_true]
  by_cases hle : v.cwd.length ≤ n.length
  · rw [if_pos hle, if_neg (by simp : ¬ (false = true)), if_pos ⟨trivial, by simpa using hcwd, hle⟩]
    rw [if_neg]
    rintro ⟨h1, _⟩
    have : (47 : UInt8) ∈ n.drop v.cwd.length := by
      cases hd : n.drop v.cwd.length with
      | nil => rw [hd] at h1; simp at h1
      | cons c t => rw [hd] at h1; simp at h1; simp [h1]
    exact (hv n hn).2 (List.mem_of_mem_drop this)
  · rw [if_neg hle, if_neg (by simp : ¬ (false = true)), if_neg (fun x => hle x.2.2)]

/-- In `/tmp`, `File.glob('*.c')` of `hello.c` and `a.c` gives `o.c` and `a.c`. -/
example : glob ⟨fun p => if p = [46] then some (regs [asc "a.c", asc "hello.c"]) else none, fun _ => none⟩ (fun _ _ => true)
    ⟨asc "/tmp", 50, 100⟩ (.glob (asc "*.c")) { limit := -1 } = .list [asc "a.c", asc "o.c"] := by
  rw [C192_cut_refuted _ _ _ _ (by decide) (by decide) (by decide) [asc "a.c", asc "hello.c"] rfl (by decide) (by simp)]
  decide +kernel

/-- **C192 refuted.** With the directory `/` the current directory is listed instead, and the first letter of each name is
missing. -/
theorem C192_root_refuted (fs : FS) (gm : Str → Str → Bool) (v : Env) (p : Str) (hs : (42 : UInt8) ∈ p) (h47 : (47 : UInt8) ∉ p)
    (ns : List Str) (hl : fs.ls [46] = some (regs ns))
    (hv : ∀ n ∈ ns, n ≠ [] ∧ n.head? ≠ some 46 ∧ (47 : UInt8) ∉ n) (hm : ∀ n ∈ ns, gm p n = true) :
    glob fs gm v (.glob p) { limit := -1, dir := some [47] } = .list (ns.map List.tail) := by
  have hp : p ≠ [] := by rintro rfl; simp at hs
  rw [glob, orStar, if_neg hp, withPat, if_neg (by simp), show lead { limit := -1, dir := some [47] } = [47] from rfl]
  obtain ⟨n, h⟩ := finds_one (fs := fs) (gm := gm) (o := optsOf v { limit := -1, dir := some [47] }) rfl rfl
    (show split ([47] ++ p) = ([], p, none) from split_dir (d := []) (by simp) h47) (by simp) v.maxInc 0 {} room0 (by rw [if_pos rfl, hl]; rfl)
  rw [h, walk_regs rfl rfl rfl ns (by rw [if_pos rfl, hl]) (fun n hn => (hv n hn).2.1) hm, result, if_neg (by simp), if_neg (by simp)]
  simp only [St.plus, cutoff, show (optsOf v { limit := -1, dir := some [47] }).limit = 0 from rfl, if_true, List.nil_append]
  congr 1
  refine List.map_congr_left ?_
  intro n hn
  obtain ⟨h1, h2, h3⟩ := hv n hn
  rw [item, strip]
  simp only [show (optsOf v { limit := -1, dir := some [47] }).pre = none from rfl,
    show (optsOf v { limit := -1, dir := some [47] }).tails = false from rfl,
    show (optsOf v { limit := -1, dir := some [47] }).dirLen = 1 from rfl, Option.getD_none, List.nil_append, pj, if_true]
  cases n with
  | nil => exact absurd rfl h1
  | cons c t =>
    rw [if_neg (by simp : ¬ (false = true)), if_pos ⟨trivial, (by decide : (1 : Nat) ≠ 0), (by simp : 1 ≤ (c :: t).length)⟩]
    rw [if_neg]
    · rfl
    · rintro ⟨h4, _⟩
      cases t with
      | nil => simp at h4
      | cons d t => simp at h4; exact h3 (by simp [h4])

example : glob ⟨fun p => if p = [46] then some (regs [asc "main.c"]) else if p = [47] then some (regs [asc "etc"]) else none, fun _ => none⟩
    (fun _ _ => true) ⟨asc "/home/u", 50, 100⟩ (.glob (asc "*")) { limit := -1, dir := some [47] } = .list [asc "ain.c"] :=
  C192_root_refuted _ _ _ _ (by decide) (by decide) [asc "main.c"] rfl (by decide) (by simp)

end Verif.FGlob
