import Verif.File.RemoveAll

/-! Concrete trees: the theorems of `RemoveSafe` and `RemoveAll` apply, and what their conditions are for. -/

namespace Verif.File
open Verif.Path

/-- Working directory /w, home /home; everything is permitted. -/
def demoCtx : Ctx := ⟨[asc "w"], asc "/home", fun _ => true, fun _ => true⟩

/-- /w/d holds a file, a directory with a file, and a link to /etc; /etc holds a file. -/
def treeD : Tab :=
  [([], .dir), ([asc "w"], .dir), ([asc "home"], .dir), ([asc "etc"], .dir), ([asc "etc", asc "f"], .file),
   ([asc "w", asc "d"], .dir), ([asc "w", asc "d", asc "a"], .file), ([asc "w", asc "d", asc "s"], .dir),
   ([asc "w", asc "d", asc "s", asc "b"], .file), ([asc "w", asc "d", asc "l"], .link (asc "/etc")),
   ([asc "w", asc "x"], .file)]

theorem treeD_wf : (fsOf treeD).Wf := fsOf_wf (by decide +kernel)

/-- The objects of a concrete tree at or below a place. -/
theorem fits_of {t : Tab} {L : Loc} {p : Str}
    (h : ∀ e ∈ t, L.isPrefixOf e.1 = true → (p ++ (e.1.drop L.length).flatMap (47 :: ·)).length < pathMax) :
    Fits (fsOf t) L p := by
  intro r hr
  obtain ⟨x, hx⟩ := lookup_mem hr
  have := h _ hx (List.isPrefixOf_iff_prefix.2 ⟨r, rfl⟩)
  simpa using this

theorem depth_of {t : Tab} {L : Loc} {k : Nat}
    (h : ∀ e ∈ t, L.isPrefixOf e.1 = true → (e.1.drop L.length).length < k) :
    ∀ r, fsOf t (L ++ r) = some .dir → r.length < k := by
  intro r hr
  obtain ⟨x, hx⟩ := lookup_mem (show t.lookup (L ++ r) ≠ none by unfold fsOf at hr; rw [hr]; simp)
  have := h _ hx (List.isPrefixOf_iff_prefix.2 ⟨r, rfl⟩)
  simpa using this

theorem ready_d : Ready demoCtx treeD (asc "../w/d") [asc "w", asc "d"] where
  wf := treeD_wf
  nodup := by decide +kernel
  ne := by simp
  dir := by decide +kernel
  res := by decide +kernel
  rem := by decide +kernel
  head := by decide +kernel
  fits := fits_of (by decide +kernel)
  may := fun _ => rfl
  list := fun _ => rfl

/-- The tree goes, the link in it is not followed, and the rest stays. -/
example : (remove demoCtx 3 treeD (asc "../w/d") true).2 = true ∧
    (fsOf (remove demoCtx 3 treeD (asc "../w/d") true).1 [asc "etc", asc "f"] = some .file) ∧
    (fsOf (remove demoCtx 3 treeD (asc "../w/d") true).1 [asc "w", asc "d"] = none) := by
  obtain ⟨h1, h2⟩ := C107_whole_tree_partial demoCtx 3 treeD _ _ ready_d (depth_of (by decide +kernel))
  refine ⟨h1, ?_, ?_⟩
  · rw [h2]; decide +kernel
  · rw [h2]; decide +kernel

/-- `C106_only_inside_partial` on a tree where much is forbidden: something goes, something stays. -/
example : ∃ c : Ctx, (remove c 3 treeD (asc "d") true).1 ≠ treeD ∧
    fsOf (remove c 3 treeD (asc "d") true).1 [asc "w", asc "d", asc "s"] = some .dir ∧
    (asc "d").head? ≠ some 126 ∧ (fsOf treeD).Wf :=
  ⟨{ demoCtx with may := fun l => l != [asc "w", asc "d", asc "s"] }, by decide +kernel, by decide +kernel,
    by decide +kernel, treeD_wf⟩

/-- A tree with a directory that is called "~". -/
def treeT : Tab :=
  [([], .dir), ([asc "w"], .dir), ([asc "w", asc "~"], .dir), ([asc "w", asc "~", asc "d"], .dir),
   ([asc "w", asc "~", asc "d", asc "l"], .dir), ([asc "w", asc "~", asc "d", asc "l", asc "f"], .file),
   ([asc "home"], .dir), ([asc "home", asc "d"], .dir), ([asc "home", asc "d", asc "l"], .link (asc "/etc")),
   ([asc "etc"], .dir), ([asc "etc", asc "f"], .file)]

/-- `RmdirAll` lists "~/d" literally but removes in the home directory: if there is a directory called "~",
`File.remove("~/d", true)` can follow a link out of the tree and remove a file elsewhere. -/
theorem C106_tilde_refuted : (fsOf treeT).Wf ∧
    resolve (fsOf treeT) demoCtx.cwd (tilde demoCtx.home (asc "~/d")) = some [asc "home", asc "d"] ∧
    fsOf treeT [asc "etc", asc "f"] = some .file ∧
    fsOf (remove demoCtx 9 treeT (asc "~/d") true).1 [asc "etc", asc "f"] = none := by
  refine ⟨fsOf_wf (by decide +kernel), ?_⟩
  decide +kernel

/-- A tree with a full directory in the home directory. -/
def treeH : Tab :=
  [([], .dir), ([asc "w"], .dir), ([asc "home"], .dir), ([asc "home", asc "d"], .dir),
   ([asc "home", asc "d", asc "f"], .file)]

/-- `File.remove("~/d", true)` reports success and removes nothing. -/
theorem C107_tilde_refuted : (fsOf treeH).Wf ∧
    resolve (fsOf treeH) demoCtx.cwd (tilde demoCtx.home (asc "~/d")) = some [asc "home", asc "d"] ∧
    remove demoCtx 9 treeH (asc "~/d") true = (treeH, true) := by
  refine ⟨fsOf_wf (by decide +kernel), ?_⟩
  decide +kernel

/-- A directory that cannot be removed, or not be listed, is reported as removed. -/
theorem C107_success_refuted :
    (remove { demoCtx with may := fun l => l != [asc "w", asc "d"] } 3 treeD (asc "d") true).2 = true ∧
    fsOf (remove { demoCtx with may := fun l => l != [asc "w", asc "d"] } 3 treeD (asc "d") true).1
      [asc "w", asc "d"] = some .dir ∧
    remove { demoCtx with canList := fun _ => false } 3 treeD (asc "d") true = (treeD, true) ∧
    remove demoCtx 0 treeD (asc "d") true = (treeD, true) := by decide +kernel

/-- The path "d/." empties the directory and leaves it, "reported" as success; the path "d/s/.." destroys
itself: once "d/s" is gone nothing more can be removed. -/
theorem C107_dots_refuted :
    (remove demoCtx 3 treeD (asc "d/.") true).2 = true ∧
    fsOf (remove demoCtx 3 treeD (asc "d/.") true).1 [asc "w", asc "d"] = some .dir ∧
    fsOf (remove demoCtx 3 treeD (asc "d/.") true).1 [asc "w", asc "d", asc "a"] = none ∧
    (remove demoCtx 3 treeD (asc "d/s/..") true).2 = false ∧
    fsOf (remove demoCtx 3 treeD (asc "d/s/..") true).1 [asc "w", asc "d", asc "l"] ≠ none := by decide +kernel

/-- The root is protected against removal only under the name "/": as "//" or "/." everything goes. -/
theorem C107_root_refuted : remove demoCtx 5 treeD (asc "/") true = (treeD, false) ∧
    (remove demoCtx 5 treeD (asc "//") true).1 = [([], .dir)] ∧
    (remove demoCtx 5 treeD (asc "/.") true).1 = [([], .dir)] := by decide +kernel

/-- A link named with a slash at the end: the directory it leads to is emptied, the link stays. -/
theorem C107_link_refuted :
    fsOf (remove demoCtx 5 treeD (asc "d/l/") true).1 [asc "etc", asc "f"] = none ∧
    fsOf (remove demoCtx 5 treeD (asc "d/l/") true).1 [asc "w", asc "d", asc "l"] = some (.link (asc "/etc")) ∧
    fsOf (remove demoCtx 5 treeD (asc "d/l") true).1 [asc "etc", asc "f"] = some .file := by decide +kernel

end Verif.File
