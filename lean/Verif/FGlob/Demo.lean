import Verif.FGlob.Props3

/-! # Cases that meet the hypotheses of C191 to C195 -/

namespace Verif.FGlob

open Verif

/-- A small project: `pr/a.c`, `pr/.git`, `pr/src/b.c`, `pr/src/b.h`, `pr/src/sub/c.c`, and a link `pr/src/l` to nowhere. -/
def demo : FS where
  ls p :=
    if p = asc "pr" then some [(asc ".git", .dir), (asc "a.c", .reg), (asc "src", .dir)]
    else if p = asc "pr/src" then some [(asc "b.c", .reg), (asc "b.h", .reg), (asc "l", .lnk), (asc "sub", .dir)]
    else if p = asc "pr/src/sub" then some [(asc "c.c", .reg)]
    else none
  stat _ := none

/-- Names that end in `.c`, for every pattern. -/
def endsC (_ n : Str) : Bool := (asc ".c").isSuffixOf n

theorem demo_proper : Proper demo := by
  intro p l h
  simp only [demo] at h
  split at h
  · cases h; decide
  · split at h
    · cases h; decide
    · split at h
      · cases h; decide
      · cases h

def env : Env := ⟨asc "/home/u", 50, 100⟩

/-- C191. -/
example : ∃ items, glob demo endsC env (.glob (asc "*.c")) { limit := -1, dir := some (asc "pr"), recurse := true } = .list items ∧
    items.Nodup ∧ asc "src/sub/c.c" ∈ items := by
  obtain ⟨items, h1, h2, h3⟩ := C191_members_partial demo demo_proper endsC env
    { limit := -1, dir := some (asc "pr"), recurse := true } (asc "*.c") (asc "pr") rfl rfl (by simp) (by decide) rfl rfl (by decide) rfl
    (by decide) (by decide) rfl (by decide) _ rfl
  refine ⟨items, h1, h2, (h3 _).2 ⟨asc "src/sub/c.c", ?_, rfl⟩⟩
  refine .deeper (k := 49) (n := asc "src") (ft := .dir) (l := _) rfl (by decide) ⟨by decide, Or.inl ⟨by decide, rfl⟩⟩ (by simp) ?_
  refine .deeper (k := 48) (n := asc "sub") (ft := .dir) (l := _) rfl (by decide) ⟨by decide, Or.inl ⟨by decide, rfl⟩⟩ (by simp) ?_
  exact .here (ft := .reg) (t := .reg) (l := _) rfl (by decide) ⟨by decide, Or.inl ⟨by decide, rfl⟩⟩
    ⟨by simp, by decide, by simp⟩ (fun h => by cases h)

example : glob demo endsC env (.glob (asc "*.c")) { limit := -1, dir := some (asc "pr"), recurse := true } =
    .list [asc "a.c", asc "src/b.c", asc "src/sub/c.c"] := by decide +kernel

/-- C192. -/
example : ∃ items, glob demo endsC env (.glob (asc "*.c")) { limit := -1, dir := some (asc "pr/src"), pre := some (asc "x") } = .list items ∧
    items.Nodup ∧ asc "x/b.c" ∈ items := by
  obtain ⟨items, h1, h2, h3⟩ := C192_members_partial demo demo_proper endsC env
    { limit := -1, dir := some (asc "pr/src"), pre := some (asc "x") } (asc "*.c") (asc "pr/src") rfl rfl rfl rfl (by decide) rfl
    (by decide) (by decide) rfl (by decide) (by decide) (by decide) _ rfl
  exact ⟨items, h1, h2, (h3 _).2 ⟨asc "b.c", .reg, .reg, by decide, ⟨by decide, Or.inl ⟨by decide, rfl⟩⟩, ⟨by simp, by decide, by simp⟩, rfl⟩⟩

/-- C193: the pattern of the subdirectories matches all, the other the names that end in `.c`. -/
example : ∃ items, glob demo (fun p n => p = [42] || endsC p n) env (.glob (asc "*/*.c")) { limit := -1, dir := some (asc "pr") } = .list items ∧
    asc "src/b.c" ∈ items := by
  obtain ⟨items, h1, h2⟩ := C193_members_partial demo (fun p n => p = [42] || endsC p n) env
    { limit := -1, dir := some (asc "pr") } [42] (asc "*.c") (asc "pr") rfl rfl rfl rfl (by decide) rfl
    (by decide) (by decide) (by decide) (by decide) rfl (by decide) (by decide) (by decide) _ rfl (by
      intro e he hs _
      simp only [List.mem_cons, List.not_mem_nil, or_false] at he
      rcases he with rfl | rfl | rfl
      · exact absurd rfl hs.1
      · rcases hs.2 with ⟨_, h⟩ | ⟨h, _⟩ <;> cases h
      · exact ⟨by decide, rfl⟩)
  exact ⟨items, h1, (h2 _).2 ⟨asc "src", .dir, _, asc "b.c", .reg, .reg, by decide, ⟨by decide, Or.inl ⟨by decide, rfl⟩⟩, by decide, rfl, by decide,
    ⟨by decide, Or.inl ⟨by decide, rfl⟩⟩, ⟨by simp, by decide, by simp⟩, rfl⟩⟩

/-- C193, the limit: three subdirectories, the limit 1. -/
example : glob ⟨fun p => if p = asc "d" then some [(asc "x", .dir), (asc "y", .dir), (asc "z", .dir)] else some [(asc "f", .reg)], fun _ => none⟩
    (fun _ _ => true) env (.glob (asc "*/f")) { limit := 1, dir := some (asc "d") } = .list [asc "x/f", asc "y/f", asc "z/f"] :=
  C193_limit_refuted _ _ _ [42] (asc "f") (asc "d") (by decide) (by decide) (by decide) (by decide) (by decide) (by decide) (by decide)
    [asc "x", asc "y", asc "z"] (fun _ => asc "f") rfl (by intro n hn; simp only [List.mem_cons, List.not_mem_nil, or_false] at hn; rcases hn with rfl | rfl | rfl <;> rfl)
    (by decide)

/-- C194: no name matches the pattern `pr`, so that the second search finds nothing. -/
example : ∃ items, glob demo (fun p n => p == n) env (.re fun n => n.length == 3) { limit := -1, dir := some (asc "pr") } = .list items ∧
    asc "src" ∈ items := by
  obtain ⟨items, h1, h2⟩ := C194_members_partial demo (fun p n => p == n) env { limit := -1, dir := some (asc "pr") } (fun n => n.length == 3) (asc "pr")
    rfl rfl rfl rfl (by decide) rfl rfl (by decide) (by decide) (by decide) _ rfl (by decide)
  exact ⟨items, h1, (h2 _).2 ⟨asc "src", .dir, .dir, by decide, ⟨by decide, Or.inl ⟨by decide, rfl⟩⟩, ⟨by simp, by decide, by simp⟩, rfl⟩⟩

/-- C195: three files are thrown away before the fourth, though `maxDiscard` is 1. -/
example : glob ⟨fun p => if p = asc "x" then some (regs [asc "a", asc "b", asc "c", asc "d"]) else none, fun _ => none⟩ (fun _ _ => true)
    env (.glob (asc "*")) { limit := -1, dir := some (asc "x"), maxDiscard := 1, filter := some fun n => n = asc "d" } = .list [asc "d"] :=
  C195_discard_refuted _ _ _ _ _ 1 _ (by decide) (by decide) (by decide) (by decide) (by decide) [asc "a", asc "b", asc "c"] (asc "d") rfl
    (by decide) (by decide)

/-- C195: of the plain files in `pr/src`, `b.c` matches. -/
example : ∃ items, glob demo endsC env (.glob (asc "*")) { limit := -1, dir := some (asc "pr/src"), types := some (asc "f") } = .list items ∧
    asc "b.c" ∈ items ∧ asc "sub" ∉ items := by
  obtain ⟨_, items, h1, _, h3⟩ := C195_types_partial demo demo_proper endsC env (asc "*") (asc "pr/src") (by decide) (by decide) (by decide)
    (by decide) (by decide) _ rfl
  exact ⟨items, h1, (h3 _).2 (by decide), fun h => absurd ((h3 _).1 h) (by decide)⟩

end Verif.FGlob
