import Verif.Path.Norm
import Verif.Utf8.Model

/-!
The path name functions `File.dirname`, `File.tail`, `File.rootname`, `File.extension` of
src/jsiFileCmds.c:724-807 (Unix).  A path is the C string the value holds: the list of its bytes, no NUL.
The functions answer the text alone; the error "expected string" for other values is not modelled.
-/

namespace Verif.File
open Verif.Path

/-- `strrchr(s, c)` as an offset, src/jsiChar.c:108-111. -/
def strrchr (c : UInt8) : Str → Option Nat
  | [] => none
  | x :: t =>
    match strrchr c t with
    | some i => some (i + 1)
    | none => if x = c then some 0 else none

/-- The text `jsi_SubstrDup(path, -1, 0, n)` (src/jsiChar.c:79-103) answers: `start` is 0, so the endless
loop of its line 88 cannot happen. -/
def prefixText (p : Str) (n : Nat) : Str := (Verif.Utf8.substrDup p 0 n).getD []

/-- `FileDirnameCmd`, src/jsiFileCmds.c:724-754. -/
def dirname (p : Str) : Str :=
  match strrchr 47 p with
  | none => if p = [46, 46] then [46, 46] else [46]
  | some i => if i = 0 then [47] else prefixText p i

/-- src/jsiFileCmds.c:764, 783: there is no '.' after the last slash. -/
def noDot (p : Str) : Bool :=
  match strrchr 46 p, strrchr 47 p with
  | none, _ => true
  | some i, some j => i < j
  | some _, none => false

/-- `FileRootnameCmd`, src/jsiFileCmds.c:756-774. -/
def rootname (p : Str) : Str := if noDot p then p else prefixText p ((strrchr 46 p).getD 0)

/-- src/jsiFileCmds.c:785: as `noDot`, but with `>=`. -/
def noExt (p : Str) : Bool :=
  match strrchr 46 p, strrchr 47 p with
  | none, _ => true
  | some i, some j => i ≤ j
  | some _, none => false

/-- `FileExtensionCmd`, src/jsiFileCmds.c:775-791. -/
def extension (p : Str) : Str := if noExt p then [] else p.drop ((strrchr 46 p).getD 0)

/-- `FileTailCmd`, src/jsiFileCmds.c:792-807. -/
def tail (p : Str) : Str :=
  match strrchr 47 p with
  | none => p
  | some i => p.drop (i + 1)

/-! ### Lemmas -/

theorem strrchr_none {c : UInt8} : ∀ {s : Str}, strrchr c s = none ↔ c ∉ s
  | [] => by simp [strrchr]
  | x :: t => by
    have ih := @strrchr_none c t
    simp only [strrchr]
    cases h : strrchr c t with
    | some i =>
      have : c ∈ t := by
        by_cases hc : c ∈ t
        · exact hc
        · rw [ih.2 hc] at h; cases h
      simp [this]
    | none =>
      have hc := ih.1 h
      by_cases hx : x = c
      · simp [hx]
      · have : c ≠ x := fun e => hx e.symm
        simp [hx, hc, this]

theorem strrchr_some {c : UInt8} : ∀ {s : Str} {i : Nat}, strrchr c s = some i →
    ∃ a b, s = a ++ c :: b ∧ a.length = i ∧ c ∉ b
  | [], i, h => by cases h
  | x :: t, i, h => by
    simp only [strrchr] at h
    cases hr : strrchr c t with
    | some j =>
      rw [hr] at h
      obtain ⟨a, b, e, hl, hb⟩ := strrchr_some hr
      cases h
      exact ⟨x :: a, b, by rw [e]; rfl, by simp [hl], hb⟩
    | none =>
      rw [hr] at h
      by_cases hx : x = c
      · simp only [hx, if_true] at h
        cases h
        exact ⟨[], t, by rw [hx]; rfl, rfl, strrchr_none.1 hr⟩
      · simp [hx] at h

theorem strrchr_append {c : UInt8} {b : Str} (hb : c ∉ b) : ∀ (a : Str),
    strrchr c (a ++ c :: b) = some a.length
  | [] => by simp [strrchr, strrchr_none.2 hb]
  | x :: a => by simp [strrchr, strrchr_append hb a]

theorem prefixText_eq (p : Str) (n : Nat) (h : n ≤ p.length) : prefixText p n = p.take n := by
  unfold prefixText Verif.Utf8.substrDup
  by_cases h0 : n = 0
  · simp [h0]
  have hn : (n : Int) ≠ 0 := by omega
  have hp : p.length ≠ 0 := by omega
  have : Verif.Utf8.fixNeg p.length 0 = 0 := by simp [Verif.Utf8.fixNeg]
  rw [if_neg hn, if_neg (by omega), this]
  have h1 : ¬ (0 : Nat) ≥ p.length := by omega
  simp only [if_neg h1]
  have h2 : (0 : Int) < n := by omega
  simp only [if_pos h2, Option.getD_some, List.drop_zero, Int.toNat_natCast]
  congr 1
  omega

theorem split_at_last {c : UInt8} {s : Str} (h : c ∈ s) : ∃ a b, s = a ++ c :: b ∧ c ∉ b := by
  cases hr : strrchr c s with
  | none => exact absurd h (strrchr_none.1 hr)
  | some i => obtain ⟨a, b, e, -, hb⟩ := strrchr_some hr; exact ⟨a, b, e, hb⟩

theorem dirname_slash (d t : Str) (h : (47 : UInt8) ∉ t) :
    dirname (d ++ 47 :: t) = if d = [] then [47] else d := by
  unfold dirname
  rw [strrchr_append h]
  cases d with
  | nil => simp
  | cons x d => simp [prefixText_eq]

theorem tail_slash (d t : Str) (h : (47 : UInt8) ∉ t) : tail (d ++ 47 :: t) = t := by
  unfold tail
  rw [strrchr_append h]
  simp

/-- Cutting at the last dot: the name part has a dot. -/
theorem dot_cut (d a e : Str) (h : d = [] ∨ ∃ d', d = d' ++ [47]) (ha : (47 : UInt8) ∉ a)
    (he : (46 : UInt8) ∉ e) (hs : (47 : UInt8) ∉ e) :
    rootname (d ++ (a ++ 46 :: e)) = d ++ a ∧ extension (d ++ (a ++ 46 :: e)) = 46 :: e := by
  have e1 : d ++ (a ++ 46 :: e) = (d ++ a) ++ 46 :: e := by simp
  have h46 : strrchr 46 (d ++ (a ++ 46 :: e)) = some (d ++ a).length := by
    rw [e1]; exact strrchr_append he _
  have h47 : (strrchr 47 (d ++ (a ++ 46 :: e)) = none) ∨
      ∃ j, strrchr 47 (d ++ (a ++ 46 :: e)) = some j ∧ j < (d ++ a).length := by
    rcases h with h | ⟨d', h⟩
    · left; subst h; rw [strrchr_none]; simp [ha, hs]
    · right
      refine ⟨d'.length, ?_, by subst h; simp⟩
      have e2 : d ++ (a ++ 46 :: e) = d' ++ 47 :: (a ++ 46 :: e) := by subst h; simp
      rw [e2]; exact strrchr_append (by simp [ha, hs]) _
  have hd : noDot (d ++ (a ++ 46 :: e)) = false := by
    unfold noDot; rw [h46]
    rcases h47 with h | ⟨j, h, hj⟩
    · rw [h]
    · rw [h]; simp only [decide_eq_false_iff_not]; omega
  have hx : noExt (d ++ (a ++ 46 :: e)) = false := by
    unfold noExt; rw [h46]
    rcases h47 with h | ⟨j, h, hj⟩
    · rw [h]
    · rw [h]; simp only [decide_eq_false_iff_not]; omega
  constructor
  · simp only [rootname, hd, h46, Option.getD_some, Bool.false_eq_true, if_false]
    rw [prefixText_eq _ _ (by simp), e1]; exact List.take_left' rfl
  · simp only [extension, hx, h46, Option.getD_some, Bool.false_eq_true, if_false]
    rw [e1]; simp

theorem no_dot_cut (d t : Str) (h : d = [] ∨ ∃ d', d = d' ++ [47]) (ht : (47 : UInt8) ∉ t)
    (he : (46 : UInt8) ∉ t) : rootname (d ++ t) = d ++ t ∧ extension (d ++ t) = [] := by
  have key : noDot (d ++ t) = true ∧ noExt (d ++ t) = true := by
    unfold noDot noExt
    cases h46 : strrchr 46 (d ++ t) with
    | none => simp
    | some i =>
      rcases h with h | ⟨d', h⟩
      · subst h
        have : (46 : UInt8) ∉ ([] : Str) ++ t := by simpa using he
        rw [strrchr_none.2 this] at h46; cases h46
      · have e2 : d ++ t = d' ++ 47 :: t := by subst h; simp
        have h47 : strrchr 47 (d ++ t) = some d'.length := by rw [e2]; exact strrchr_append ht _
        obtain ⟨a, b, e, hl, hb⟩ := strrchr_some h46
        rw [h47]
        have : i < d'.length := by
          by_cases hlt : i < d'.length
          · exact hlt
          exfalso
          have hg : (d ++ t)[i]? = some 46 := by rw [e, ← hl]; simp
          rw [e2] at hg
          by_cases hi : i = d'.length
          · subst hi; simp at hg
          · rw [List.getElem?_append_right (by omega)] at hg
            obtain ⟨k, hk⟩ : ∃ k, i - d'.length = k + 1 := ⟨i - d'.length - 1, by omega⟩
            rw [hk] at hg
            simp only [List.getElem?_cons_succ] at hg
            exact he (List.mem_of_getElem? hg)
        simp; omega
  simp [rootname, extension, key.1, key.2]

/-- Every path is a directory part (empty, or ending in a slash) and a name without slash. -/
theorem name_part (p : Str) : ∃ d t, p = d ++ t ∧ (d = [] ∨ ∃ d', d = d' ++ [47]) ∧ (47 : UInt8) ∉ t := by
  by_cases h : (47 : UInt8) ∈ p
  · obtain ⟨a, b, e, hb⟩ := split_at_last h
    exact ⟨a ++ [47], b, by rw [e]; simp, .inr ⟨a, rfl⟩, hb⟩
  · exact ⟨[], p, rfl, .inl rfl, h⟩

/-! ### C105 -/

/-- What is after the last slash is the tail, what is before it the directory name ("/" at the root). -/
theorem C105_parts (d t : Str) (h : (47 : UInt8) ∉ t) :
    tail (d ++ [47] ++ t) = t ∧ dirname (d ++ [47] ++ t) = if d = [] then [47] else d := by
  have : d ++ [47] ++ t = d ++ 47 :: t := by simp
  rw [this]
  exact ⟨tail_slash d t h, dirname_slash d t h⟩

/-- A name without a slash is its own tail, in directory "." (but see `C105_dotdot_refuted`). -/
theorem C105_bare (p : Str) (h : (47 : UInt8) ∉ p) (hp : p ≠ asc "..") :
    tail p = p ∧ dirname p = asc "." := by
  have h0 : strrchr 47 p = none := strrchr_none.2 h
  have h1 : p ≠ [46, 46] := hp
  constructor
  · unfold tail; rw [h0]
  · unfold dirname; rw [h0]
    show (if p = [46, 46] then _ else _) = _
    rw [if_neg h1]; rfl

/-- Root name and extension, one after the other, are the path: nothing is lost. -/
theorem C105_root_extension (p : Str) : rootname p ++ extension p = p := by
  obtain ⟨d, t, e, hd, ht⟩ := name_part p
  subst e
  by_cases h : (46 : UInt8) ∈ t
  · obtain ⟨a, b, e, hb⟩ := split_at_last h
    subst e
    have h' := dot_cut d a b hd (by simp_all) hb (by simp_all)
    rw [h'.1, h'.2]; simp
  · have h' := no_dot_cut d t hd ht h
    rw [h'.1, h'.2]; simp

/-- The extension is the part of the tail from its last dot on: it belongs to the tail alone, a dot in a
directory name does not count. -/
theorem C105_extension (p : Str) :
    (46 ∉ tail p → extension p = []) ∧
    (∀ a e, tail p = a ++ [46] ++ e → 46 ∉ e → extension p = [46] ++ e) := by
  obtain ⟨d, t, e, hd, ht⟩ := name_part p
  have htail : tail p = t := by
    rcases hd with h | ⟨d', h⟩
    · subst h; subst e; unfold tail; rw [strrchr_none.2 (by simpa using ht)]
    · subst h; subst e
      have : d' ++ [47] ++ t = d' ++ 47 :: t := by simp
      rw [this]; exact tail_slash d' t ht
  rw [htail]
  subst e
  refine ⟨fun h => (no_dot_cut d t hd ht h).2, ?_⟩
  intro a e he hb
  have e1 : t = a ++ 46 :: e := by rw [he]; simp
  subst e1
  exact (dot_cut d a e hd (fun h => ht (by simp [h])) hb (fun h => ht (by simp [h]))).2

theorem lexLoc_append_slash (a b : Str) : lexLoc (a ++ 47 :: b) = (split b).foldl lexStep (lexLoc a) := by
  unfold lexLoc
  rw [split_append, List.foldl_append]

theorem lexStep_nil (l : Loc) : lexStep l [] = l := by simp [lexStep]
theorem lexStep_dot (l : Loc) : lexStep l [46] = l := by simp [lexStep]

/-- Directory name and tail put together again name the same place as an absolute path. -/
theorem C105_location (p : Str) (h : p.head? = some 47) : lexLoc (dirname p ++ [47] ++ tail p) = lexLoc p := by
  have hm : (47 : UInt8) ∈ p := by
    cases p with
    | nil => cases h
    | cons x t => simp at h; simp [h]
  obtain ⟨d, t, e, ht⟩ := split_at_last hm
  subst e
  rw [dirname_slash d t ht, tail_slash d t ht]
  have e1 : ∀ a : Str, a ++ [47] ++ t = a ++ 47 :: t := by simp
  rw [e1, lexLoc_append_slash, lexLoc_append_slash]
  by_cases hd : d = []
  · subst hd; rfl
  · rw [if_neg hd]

/-- The same for a relative path, from any directory `b`; the one exception is the path "..". -/
theorem C105_location_relative (b p : Str) (h : p.head? ≠ some 47) (hp : p ≠ asc "..") :
    lexLoc (b ++ [47] ++ (dirname p ++ [47] ++ tail p)) = lexLoc (b ++ [47] ++ p) := by
  have e1 : ∀ a : Str, b ++ [47] ++ a = b ++ 47 :: a := by simp
  by_cases hm : (47 : UInt8) ∈ p
  · obtain ⟨d, t, e, ht⟩ := split_at_last hm
    subst e
    rw [dirname_slash d t ht, tail_slash d t ht]
    have hd : d ≠ [] := by rintro rfl; exact h rfl
    rw [if_neg hd]
    simp
  · obtain ⟨h1, h2⟩ := C105_bare p hm hp
    rw [h1, h2, e1, e1, lexLoc_append_slash, lexLoc_append_slash]
    have : asc "." ++ [47] ++ p = [46] ++ 47 :: p := rfl
    rw [this, split_append, List.foldl_append]
    show (split p).foldl lexStep (lexStep (lexLoc b) [46]) = _
    rw [lexStep_dot]

/-- `File.dirname("..")` is "..", so that directory and tail give "../..", one level too high. -/
theorem C105_dotdot_refuted : dirname (asc "..") = asc ".." ∧ tail (asc "..") = asc ".." ∧
    lexLoc (asc "/a/b/" ++ (dirname (asc "..") ++ [47] ++ tail (asc ".."))) = [] ∧
    lexLoc (asc "/a/b/" ++ asc "..") = [asc "a"] := by decide +kernel

/-- A path that ends in a slash has an empty tail and itself as directory, unlike the `basename` and
`dirname` of POSIX; a name that begins with its only dot is all extension. -/
theorem C105_shapes : tail (asc "/a/b/") = [] ∧ dirname (asc "/a/b/") = asc "/a/b" ∧
    rootname (asc "/home/.bashrc") = asc "/home/" ∧ extension (asc "/home/.bashrc") = asc ".bashrc" ∧
    rootname (asc "/a.d/file.tar.gz") = asc "/a.d/file.tar" ∧ extension (asc "/a.d/file") = [] := by
  decide +kernel

end Verif.File
