import Verif.Path.Norm

/-!
Which file the web server hands out for a URL: `jsi_wsHttp`, src/jsiWebSocket.c:1460-1610, with
`jsi_wsPathAlias` (1297-1327) and `jsi_wsFileRead` (1024-1044), on top of `Jsi_NormalPath`
(`Verif.Path.normalPath`).

Simplifications: redirects, authorisation and the callbacks `onGet`, which may end the request or replace the
URL, are left out; the name is not cut at JSI_BUFSIZ.
-/

namespace Verif.Web.Files

open Verif.Path (Str Loc normalPath absForm cleanPath kept comps split lexLoc lexStep unclean)

/-- The options: `rootdir`, `urlPrefix` (empty: none), `pathAliases`, the file of the package Jsish; home
directory and working directory. -/
structure Opts where
  home : Str
  cwd : Str
  root : Str
  urlPrefix : Str
  aliases : Option (Str → Option Str)
  jsish : Option Str

/-- 1485-1487: `Jsi_NormalPath`, except for `~`. -/
def reduce (W : Opts) (url : Str) : Option Str := if url.head? = some 126 then some url else normalPath W.home W.cwd url

/-- 1491-1494: `urlPrefix`. -/
def strip (W : Opts) (u : Str) : Str := if W.urlPrefix.isPrefixOf u then u.drop W.urlPrefix.length else u

/-- `*cp == '/'`, 1304: one leading slash. -/
def noSlash : Str → Str
  | c :: s => if c = 47 then s else c :: s
  | [] => []

/-- `Jsi_Strchr(cp, '/')`, 1305: the part before the first slash, if there is one. -/
def firstName (s : Str) : Option Str := if (47 : UInt8) ∈ s then some (s.takeWhile (· ≠ 47)) else none

/-- 1302-1315: the alias. -/
def aliasOf (W : Opts) (u : Str) : Option (Str × Str) :=
  match W.aliases with
  | none => none
  | some al =>
    match firstName (noSlash u) with
    | none => none
    | some name => (al name).map (fun r => (r, u.drop (name.length + 2)))

/-- 1317-1325: the directory of the file of the package. -/
def jsishDir (f : Str) : Option Str :=
  if (47 : UInt8) ∈ f then some ((f.reverse.dropWhile (· ≠ 47)).tail.reverse) else none

/-- `jsi_wsPathAlias`: the root directory and the rest of the URL. -/
def place (W : Opts) (u : Str) : Str × Str :=
  match aliasOf W u with
  | some p => p
  | none =>
    if [47, 106, 115, 105, 47].isPrefixOf u then
      match W.jsish.bind jsishDir with
      | some d => (d ++ [47, 119, 119, 119], u.drop 5)
      | none => (W.root, u)
    else (W.root, u)

/-- The file for a URL. -/
def fileFor (W : Opts) (url : Str) : Option Str :=
  (reduce W url).bind (fun u =>
    let p := place W (strip W u)
    normalPath W.home W.cwd (p.1 ++ 47 :: p.2))

/-- 1029-1036: the check before a file is read: the real path begins with the characters of the root. -/
def readOk (root real : Str) : Bool := root.isPrefixOf real

/-! ### Claims -/

/-- The directory a name stands for (`~`: in the home directory; relative: in the working directory). -/
def dirLoc (W : Opts) (d : Str) : Loc := lexLoc ((absForm W.home W.cwd d).getD [])

/-- `..` -/
def up : Str := [46, 46]

theorem foldl_down : ∀ (cs : List Str) (l : Loc), up ∉ cs → (∀ c ∈ cs, c ≠ []) → cs.foldl lexStep l = l ++ cs.filter (· ≠ [46]) := by
  intro cs
  induction cs with
  | nil => intro l _ _; simp
  | cons c cs ih =>
    intro l h hne
    have hc : c ≠ up := by
      rintro rfl
      exact h (by simp)
    rw [List.foldl_cons, ih _ (fun hm => h (by simp [hm])) (fun c hm => hne c (by simp [hm]))]
    have h0 := hne c (by simp)
    by_cases h1 : c = [46]
    · have : lexStep l c = l := by
        unfold lexStep
        rw [if_pos (Or.inr h1)]
      rw [this, List.filter_cons_of_neg (by simp [h1])]
    · have : lexStep l c = l ++ [c] := by
        unfold lexStep
        rw [if_neg (by rintro (h | h); exact h0 h; exact h1 h), if_neg (show ¬ c = [46, 46] from hc)]
      rw [this, List.filter_cons_of_pos (by simp [h1])]
      simp

theorem lexLoc_append (a b : Str) : lexLoc (a ++ 47 :: b) = (comps b).foldl lexStep (lexLoc a) := by
  rw [Verif.Path.lexLoc_comps, Verif.Path.lexLoc_comps, Verif.Path.comps_append, List.foldl_append]

theorem comps_ne (s : Str) : ∀ c ∈ comps s, c ≠ [] := fun c hc => (Verif.Path.comps_good_names s c hc).1

theorem lexLoc_down {a b : Str} (h : up ∉ comps b) : lexLoc (a ++ 47 :: b) = lexLoc a ++ (comps b).filter (· ≠ [46]) := by
  rw [lexLoc_append, foldl_down _ _ h (comps_ne b)]

/-- The file in the directory `d`. -/
theorem loc_in (W : Opts) {d rest file : Str} (hd : d ≠ []) (h : up ∉ comps rest) (hf : normalPath W.home W.cwd (d ++ 47 :: rest) = some file) :
    lexLoc file = dirLoc W d ++ (comps rest).filter (· ≠ [46]) := by
  obtain ⟨c, t, rfl⟩ := List.exists_cons_of_ne_nil hd
  have key : ∃ q, absForm W.home W.cwd ((c :: t) ++ 47 :: rest) = some q ∧ lexLoc q = dirLoc W (c :: t) ++ (comps rest).filter (· ≠ [46]) := by
    unfold dirLoc
    simp only [absForm, List.cons_append]
    by_cases h1 : c = 47
    · rw [if_pos h1, if_pos h1]
      refine ⟨_, rfl, ?_⟩
      exact lexLoc_down (a := c :: t) h
    · rw [if_neg h1, if_neg h1]
      by_cases h2 : c = 126
      · rw [if_pos h2, if_pos h2]
        refine ⟨_, rfl, ?_⟩
        cases t with
        | nil =>
          simp only [List.nil_append, List.head?_cons, if_true, List.append_nil, List.head?_nil, reduceCtorEq, if_false, Option.getD_some]
          rw [lexLoc_down h]
          have : lexLoc (W.home ++ [47]) = lexLoc W.home := by
            have := lexLoc_append W.home []
            rw [this]
            simp [Verif.Path.comps, Verif.Path.split]
          rw [this]
        | cons x t =>
          simp only [List.cons_append, List.head?_cons, Option.some.injEq, Option.getD_some]
          have := lexLoc_down (a := W.home ++ (if x = 47 then [] else [47]) ++ x :: t) h
          rw [← this]
          simp
      · rw [if_neg h2, if_neg h2]
        have hne : ¬ (c = 46 ∧ t ++ 47 :: rest = []) := by simp
        rw [if_neg hne]
        refine ⟨_, rfl, ?_⟩
        by_cases h3 : c = 46 ∧ t = []
        · rw [if_pos h3, h3.1, h3.2, Option.getD_some]
          have e : W.cwd ++ [47] ++ (46 :: ([] ++ 47 :: rest)) = (W.cwd ++ 47 :: [46]) ++ 47 :: rest := by simp
          rw [e, lexLoc_down h, lexLoc_append]
          congr 1
        · rw [if_neg h3, Option.getD_some]
          have e : W.cwd ++ [47] ++ (c :: (t ++ 47 :: rest)) = (W.cwd ++ [47] ++ (c :: t)) ++ 47 :: rest := by simp
          rw [e, lexLoc_down h]
  obtain ⟨q, hq, hl⟩ := key
  rw [Verif.Path.C35_normalize_location_rel W.home W.cwd _ file q hq hf, hl]

theorem comps_clean (s : Str) : comps (cleanPath s) = comps s ∨ comps (cleanPath s) = kept s := by
  rw [Verif.Path.cleanPath_eq]
  split
  · exact Or.inr (Verif.Path.comps_kept s)
  · exact Or.inl rfl

theorem kept_sub (s : Str) : ∀ c ∈ kept s, c ∈ comps s := by
  intro c hc
  unfold kept at hc
  rcases List.mem_append.mp hc with h | h
  · exact List.mem_of_mem_take h
  · exact List.mem_of_mem_tail (List.mem_filter.mp h).1

/-- Normalising a URL gives no new names. -/
theorem reduce_comps {W : Opts} {url u : Str} (hh : url.head? = some 47 ∨ url.head? = some 126) (h : reduce W url = some u) :
    (∀ c ∈ comps u, c ∈ comps url) ∧ (comps u).filter (· ≠ [46]) = (comps url).filter (· ≠ [46]) := by
  unfold reduce at h
  split at h
  · cases h
    exact ⟨fun _ h => h, rfl⟩
  · rename_i h1
    have h47 : url.head? = some 47 := by
      rcases hh with h | h
      · exact h
      · exact absurd h h1
    rw [Verif.Path.normalPath_abs h47] at h
    have := Option.some.inj h
    subst this
    rcases comps_clean url with e | e <;> rw [e]
    · exact ⟨fun _ h => h, rfl⟩
    · refine ⟨kept_sub url, ?_⟩
      unfold kept
      cases comps url with
      | nil => rfl
      | cons a l =>
        simp only [List.take_succ_cons, List.take_zero, List.tail_cons, List.singleton_append]
        by_cases ha : a = [46]
        · rw [List.filter_cons_of_neg (by simp [ha]), List.filter_cons_of_neg (by simp [ha]), List.filter_filter]
          simp
        · rw [List.filter_cons_of_pos (by simp [ha]), List.filter_cons_of_pos (by simp [ha]), List.filter_filter]
          simp

/-- **C92.** Without `urlPrefix`, aliases and package files: for a URL without `..` the server takes exactly the
file below the root directory that has the names of the URL. -/
theorem C92_file_in_root_partial (W : Opts) (url file : Str) (hroot : W.root ≠ []) (hp : W.urlPrefix = []) (ha : W.aliases = none)
    (hj : W.jsish = none) (hh : url.head? = some 47 ∨ url.head? = some 126) (hup : up ∉ comps url)
    (hf : fileFor W url = some file) : lexLoc file = dirLoc W W.root ++ (comps url).filter (· ≠ [46]) := by
  unfold fileFor at hf
  cases hr : reduce W url with
  | none => rw [hr] at hf; cases hf
  | some u =>
    rw [hr] at hf
    simp only [Option.bind_some] at hf
    have hs : strip W u = u := by
      unfold strip
      rw [hp]
      simp
    have hpl : place W u = (W.root, u) := by
      unfold place aliasOf
      rw [ha, hj]
      simp
    rw [hs, hpl] at hf
    obtain ⟨h1, h2⟩ := reduce_comps hh hr
    rw [loc_in W hroot (fun hm => hup (h1 _ hm)) hf, h2]

/-- It always takes one. -/
theorem C92_file_exists (W : Opts) (url : Str) (hroot : W.root ≠ []) (hp : W.urlPrefix = []) (ha : W.aliases = none)
    (hj : W.jsish = none) (hh : url.head? = some 47 ∨ url.head? = some 126) : ∃ file, fileFor W url = some file := by
  have hab : ∀ p : Str, p ≠ [] → ∃ q, normalPath W.home W.cwd p = some q := by
    intro p hp
    obtain ⟨c, t, rfl⟩ := List.exists_cons_of_ne_nil hp
    unfold normalPath absForm
    simp only []
    split
    · exact ⟨_, rfl⟩
    split
    · exact ⟨_, rfl⟩
    split <;> exact ⟨_, rfl⟩
  have hu : url ≠ [] := by
    rintro rfl
    rcases hh with h | h <;> cases h
  have hr : ∃ u, reduce W url = some u := by
    unfold reduce
    split
    · exact ⟨_, rfl⟩
    · exact hab url hu
  obtain ⟨u, hr⟩ := hr
  unfold fileFor
  rw [hr]
  simp only [Option.bind_some]
  exact hab _ (by simp)

theorem takeWhile_slash (s : Str) (h : (47 : UInt8) ∈ s) : s = s.takeWhile (· ≠ 47) ++ 47 :: s.drop ((s.takeWhile (· ≠ 47)).length + 1) := by
  induction s with
  | nil => cases h
  | cons c s ih =>
    by_cases hc : c = 47
    · subst hc
      simp
    · have hm : (47 : UInt8) ∈ s := by
        rcases List.mem_cons.mp h with h | h
        · exact absurd h.symm hc
        · exact h
      rw [List.takeWhile_cons_of_pos (by simpa using hc)]
      have := ih hm
      conv => lhs; rw [this]
      simp

/-- **C92.** With aliases, package files and a `urlPrefix` that ends where a name ends: for a URL without `..` the
file is below the root directory, below the directory of one of the aliases or below the directory of the
package. -/
theorem C92_file_below_partial (W : Opts) (url file : Str) (hroot : W.root ≠ [])
    (hp : W.urlPrefix = [] ∨ (W.urlPrefix.getLast? = some 47 ∧ W.aliases = none) ∨ ∀ x, reduce W url = some (W.urlPrefix ++ x) → x.head? = some 47)
    (hal : ∀ al name r, W.aliases = some al → al name = some r → r ≠ [])
    (hh : url.head? = some 47 ∨ (url.head? = some 126 ∧ W.aliases = none)) (hup : up ∉ comps url) (hf : fileFor W url = some file) :
    ∃ base, dirLoc W base <+: lexLoc file ∧
      (base = W.root ∨ (∃ al name, W.aliases = some al ∧ al name = some base) ∨
       ∃ f d, W.jsish = some f ∧ jsishDir f = some d ∧ base = d ++ [47, 119, 119, 119]) := by
  unfold fileFor at hf
  cases hr : reduce W url with
  | none => rw [hr] at hf; cases hf
  | some u =>
    rw [hr] at hf
    simp only [Option.bind_some] at hf
    obtain ⟨h1, h2⟩ := reduce_comps (hh.imp id And.left) hr
    have hupu : up ∉ comps u := fun hm => hup (h1 _ hm)
    -- the names of a part that begins at a name
    have hsuf : ∀ a b : Str, u = a ++ 47 :: b → up ∉ comps b := by
      intro a b e hm
      apply hupu
      rw [e, Verif.Path.comps_append]
      exact List.mem_append_right _ hm
    have hhead : W.aliases = none ∨ strip W u = [] ∨ (strip W u).head? = some 47 := by
      have hu : W.aliases = none ∨ u = [] ∨ u.head? = some 47 := by
        rcases hh with hh | hh
        · right
          unfold reduce at hr
          rw [if_neg (by rw [hh]; decide), Verif.Path.normalPath_abs hh] at hr
          have := Option.some.inj hr
          subst this
          rw [Verif.Path.cleanPath_eq]
          split
          · cases kept url with
            | nil => exact Or.inl rfl
            | cons a l => exact Or.inr rfl
          · exact Or.inr hh
        · exact Or.inl hh.2
      unfold strip
      split
      · rename_i hpre
        obtain ⟨x, hx⟩ := List.isPrefixOf_iff_prefix.mp hpre
        have hdrop : u.drop W.urlPrefix.length = x := by
          rw [← hx]
          exact List.drop_left
        rw [hdrop]
        rcases hp with hp | hp | hp
        · rw [hp] at hx
          have : x = u := by simpa using hx
          rw [this]
          exact hu
        · exact Or.inl hp.2
        · exact Or.inr (Or.inr (hp x (by rw [hr, ← hx])))
      · exact hu
    have hstrip : up ∉ comps (strip W u) := by
      unfold strip
      split
      · rename_i hpre
        obtain ⟨x, hx⟩ := List.isPrefixOf_iff_prefix.mp hpre
        have hdrop : u.drop W.urlPrefix.length = x := by
          rw [← hx]
          exact List.drop_left
        rw [hdrop]
        rcases hp with hp | hp | hp
        · rw [hp] at hx
          have : x = u := by simpa using hx
          rw [this]
          exact hupu
        · obtain ⟨ys, hy⟩ := List.getLast?_eq_some_iff.mp hp.1
          refine hsuf ys x ?_
          rw [← hx, hy]
          simp
        · have := hp x (by rw [hr, ← hx])
          cases x with
          | nil => simp [comps, split]
          | cons c x =>
            have hc : c = 47 := by simpa using this
            subst hc
            have := hsuf W.urlPrefix x hx.symm
            have e : comps (47 :: x) = comps x := by
              have := Verif.Path.comps_append [] x
              simpa [comps, split] using this
            rw [e]
            exact this
      · exact hupu
    generalize strip W u = v at hf hstrip hhead
    have hsuf2 : ∀ a b : Str, v = a ++ 47 :: b → up ∉ comps b := by
      intro a b e hm
      apply hstrip
      rw [e, Verif.Path.comps_append]
      exact List.mem_append_right _ hm
    have fin : ∀ base rest, base ≠ [] → up ∉ comps rest → normalPath W.home W.cwd (base ++ 47 :: rest) = some file → dirLoc W base <+: lexLoc file := by
      intro base rest hb hre hn
      rw [loc_in W hb hre hn]
      exact List.prefix_append _ _
    unfold place at hf
    cases hA : aliasOf W v with
    | some p =>
      rw [hA] at hf
      simp only [] at hf
      unfold aliasOf at hA
      cases hAl : W.aliases with
      | none => rw [hAl] at hA; cases hA
      | some al =>
        rw [hAl] at hA
        simp only [] at hA
        cases hN : firstName (noSlash v) with
        | none => rw [hN] at hA; cases hA
        | some name =>
          rw [hN] at hA
          simp only [] at hA
          cases hB : al name with
          | none => rw [hB] at hA; cases hA
          | some r =>
            rw [hB] at hA
            have := Option.some.inj hA
            subst this
            refine ⟨r, fin r _ (hal al name r hAl hB) ?_ hf, Or.inr (Or.inl ⟨al, name, rfl, hB⟩)⟩
            unfold firstName at hN
            split at hN
            · rename_i hm
              have := Option.some.inj hN
              have hs := takeWhile_slash _ hm
              rw [this] at hs
              cases v with
              | nil => simp [comps, split]
              | cons c v =>
                by_cases hc : c = 47
                · subst hc
                  simp only [noSlash, if_true] at hs
                  refine hsuf2 (47 :: name) _ ?_
                  rw [List.cons_append, hs]
                  simp
                · exfalso
                  rcases hhead with h | h | h
                  · rw [hAl] at h; cases h
                  · cases h
                  · exact hc (by simpa using h)
            · cases hN
    | none =>
      rw [hA] at hf
      simp only [] at hf
      split at hf
      · rename_i hjs
        cases hJ : W.jsish.bind jsishDir with
        | none =>
          rw [hJ] at hf
          exact ⟨W.root, fin _ _ hroot hstrip hf, Or.inl rfl⟩
        | some d =>
          rw [hJ] at hf
          obtain ⟨f, hf1, hf2⟩ := Option.bind_eq_some_iff.mp hJ
          refine ⟨_, fin _ _ (by simp) ?_ hf, Or.inr (Or.inr ⟨f, d, hf1, hf2, rfl⟩)⟩
          obtain ⟨x, hx⟩ := List.isPrefixOf_iff_prefix.mp hjs
          refine hsuf2 [47, 106, 115, 105] _ ?_
          rw [← hx]
          simp
      · exact ⟨W.root, fin _ _ hroot hstrip hf, Or.inl rfl⟩

/-! ### What the claim leaves out -/

def opts (root pre : String) (al : Option (Str → Option Str)) : Opts := ⟨asc "/home/u", asc "/home/u", asc root, asc pre, al, none⟩

/-- The hypotheses are met: a `urlPrefix`, an alias, a URL with `.` and double slashes. -/
example : fileFor (opts "/srv/www" "/a" (some fun n => if n = asc "lib" then some (asc "/usr/lib/js") else none)) (asc "/a/lib//x/./y.js") = some (asc "/usr/lib/js/x/y.js") ∧
    lexLoc (asc "/usr/lib/js/x/y.js") = [asc "usr", asc "lib", asc "js", asc "x", asc "y.js"] := by
  refine ⟨?_, ?_⟩ <;> decide +kernel

/-- **C92, refuted part.** `..` in a URL is not removed: the server relies on the library to refuse such URLs. -/
theorem C92_dotdot_refuted : (fileFor (opts "/srv/www" "" none) (asc "/../key")).map lexLoc = some [asc "srv", asc "key"] := by decide +kernel

/-- **C92, refuted part.** With the `urlPrefix` "/a" a URL without a name `..` leads out of the root directory. -/
theorem C92_prefix_refuted : up ∉ comps (asc "/a../key") ∧
    (fileFor (opts "/srv/www" "/a" none) (asc "/a../key")).map lexLoc = some [asc "srv", asc "key"] := by
  refine ⟨?_, ?_⟩ <;> decide +kernel

/-- **C92, refuted part.** With the `urlPrefix` "/a/" and an alias "lib" a URL without a name `..` leads out of
the directory of the alias. -/
theorem C92_alias_refuted : up ∉ comps (asc "/a/lib/x../key") ∧
    (fileFor (opts "/srv/www" "/a/" (some fun n => if n = asc "lib" then some (asc "/usr/lib/js") else none)) (asc "/a/lib/x../key")).map lexLoc
      = some [asc "usr", asc "lib", asc "key"] := by
  refine ⟨?_, ?_⟩ <;> decide +kernel

/-- **C92.** The check before reading a file of a page keeps to the root directory when the option ends with a
slash. -/
theorem C92_read_check_partial (root real : Str) (h : readOk (root ++ [47]) real = true) : comps root <+: comps real := by
  obtain ⟨x, hx⟩ := List.isPrefixOf_iff_prefix.mp h
  have e : real = root ++ 47 :: x := by rw [← hx]; simp
  rw [e, Verif.Path.comps_append]
  exact List.prefix_append _ _

example : readOk (asc "/srv/www" ++ [47]) (asc "/srv/www/a/b.html") = true := by decide +kernel

/-- **C92, refuted part.** Without it, it also lets pass a directory whose name begins like the root directory. -/
theorem C92_read_check_refuted : readOk (asc "/srv/www") (asc "/srv/www2/key") = true ∧ ¬ comps (asc "/srv/www") <+: comps (asc "/srv/www2/key") := by
  refine ⟨?_, ?_⟩ <;> decide +kernel

end Verif.Web.Files
