import Verif.Vfs.Dirs
/-!
# Vfs: listing a directory (C217)

`Jav_FSScandirProc` (src/jsiVfs.c 218-268) over the names in `fileHash`.  The filter and the sorting are the caller's and are not modelled, nor is the type of
an entry.
-/
namespace Verif.Vfs

/-- What the loop does with one entry of the table: the name it lists, if any.  src/jsiVfs.c:238-247.  A path has no zero byte, so `!z[len+1]` says that
nothing comes after the `/`.  `d_name` has 256 bytes, the last is for the zero (src/jsiChar.c:123-128). -/
def scanName (zp full : List UInt8) : Option (List UInt8) :=
  if full.length < zp.length ∨ full.take zp.length ≠ zp then none
  else match full.drop zp.length with
    | [] => none
    | c :: n => if c ≠ 47 ∨ n = [] then none else if (47 : UInt8) ∈ n then none else some (n.take 255)

/-- The loop; the table is a list without repetition.  src/jsiVfs.c:233-258. -/
def scan (zp : List UInt8) (t : List (List UInt8)) : List (List UInt8) := t.filterMap (scanName zp)

theorem scanName_some (zp full r : List UInt8) : scanName zp full = some r ↔ ∃ n, full = zp ++ 47 :: n ∧ n ≠ [] ∧ (47 : UInt8) ∉ n ∧ r = n.take 255 := by
  constructor
  · intro h
    unfold scanName at h
    by_cases h1 : full.length < zp.length ∨ full.take zp.length ≠ zp
    · rw [if_pos h1] at h; cases h
    · rw [if_neg h1] at h
      have ht : full.take zp.length = zp := Classical.not_not.1 (fun h => h1 (Or.inr h))
      have hsplit : full = zp ++ full.drop zp.length := by
        conv => lhs; rw [← List.take_append_drop zp.length full, ht]
      cases hd : full.drop zp.length with
      | nil => rw [hd] at h; cases h
      | cons c m =>
        rw [hd] at h
        dsimp only at h
        by_cases h2 : c ≠ 47 ∨ m = []
        · rw [if_pos h2] at h; cases h
        · rw [if_neg h2] at h
          by_cases h3 : (47 : UInt8) ∈ m
          · rw [if_pos h3] at h; cases h
          · rw [if_neg h3] at h
            have hc : c = 47 := Classical.not_not.1 (fun h => h2 (Or.inl h))
            rw [hd, hc] at hsplit
            exact ⟨m, hsplit, (fun h => h2 (Or.inr h)), h3, (Option.some.inj h).symm⟩
  · rintro ⟨n, rfl, hn, hs, rfl⟩
    unfold scanName
    rw [if_neg (by simp), List.drop_left]
    dsimp only
    rw [if_neg (by rintro (h | h)
                   · exact h rfl
                   · exact hn h), if_neg hs]

/-- **C217 (part).** Of any table of files, a directory lists exactly the names under it that have no further `/`, cut to 255 bytes. -/
theorem C217_cut_partial (zp : List UInt8) (t : List (List UInt8)) (r : List UInt8) :
    r ∈ scan zp t ↔ ∃ n, zp ++ 47 :: n ∈ t ∧ n ≠ [] ∧ (47 : UInt8) ∉ n ∧ r = n.take 255 := by
  unfold scan
  rw [List.mem_filterMap]
  constructor
  · rintro ⟨x, hx, h⟩
    obtain ⟨n, h1, h2⟩ := (scanName_some zp x r).1 h
    exact ⟨n, h1 ▸ hx, h2⟩
  · rintro ⟨n, h1, h2⟩
    exact ⟨_, h1, (scanName_some zp _ r).2 ⟨n, rfl, h2⟩⟩

/-- **C217 (part).** Of any table of files, a name of less than 255 bytes is listed for a directory exactly if it is under it and has no further `/`. -/
theorem C217_list_partial (zp : List UInt8) (t : List (List UInt8)) (n : List UInt8) (hl : n.length < 255) :
    n ∈ scan zp t ↔ zp ++ 47 :: n ∈ t ∧ n ≠ [] ∧ (47 : UInt8) ∉ n := by
  rw [C217_cut_partial]
  constructor
  · rintro ⟨m, h1, h2, h3, rfl⟩
    rw [List.length_take] at hl
    have : m.take 255 = m := List.take_of_length_le (by omega)
    rw [this]
    exact ⟨h1, h2, h3⟩
  · rintro ⟨h1, h2, h3⟩
    exact ⟨n, h1, h2, h3, (List.take_of_length_le (by omega)).symm⟩

/-- **C217 (part).** No name of less than 255 bytes is listed twice. -/
theorem C217_once_partial (zp : List UInt8) (t : List (List UInt8)) (h : t.Nodup) (n : List UInt8) (hl : n.length < 255) : (scan zp t).count n ≤ 1 := by
  induction t with
  | nil => exact Nat.zero_le _
  | cons x t ih =>
    obtain ⟨hx, ht⟩ := List.nodup_cons.1 h
    have e : scan zp (x :: t) = match scanName zp x with | none => scan zp t | some m => m :: scan zp t := by
      unfold scan
      rw [List.filterMap_cons]
      cases scanName zp x <;> rfl
    rw [e]
    cases hs : scanName zp x with
    | none => exact ih ht
    | some m =>
      show (m :: scan zp t).count n ≤ 1
      by_cases hmn : m = n
      · have h0 : (scan zp t).count n = 0 := by
          refine List.count_eq_zero.2 (fun hm => hx ?_)
          obtain ⟨k, h1, _, _, h4⟩ := (scanName_some zp x m).1 hs
          have h5 := congrArg List.length (h4.symm.trans hmn)
          rw [List.length_take] at h5
          have h6 : k = n := by
            have : k.take 255 = k := List.take_of_length_le (by omega)
            rw [← this, ← h4, hmn]
          have := ((C217_list_partial zp t n hl).1 hm).1
          rw [h1, h6]
          exact this
        rw [hmn, List.count_cons_self, h0]
        omega
      · rw [List.count_cons_of_ne hmn]
        exact ih ht

/-- **C217 refuted.** Files whose names are the same in the first 255 bytes are listed under one name, which is not the name of either if both are longer. -/
theorem C217_long_refuted (zp a b c : List UInt8) (ha : a.length = 255) (hs : (47 : UInt8) ∉ a ++ b ++ c) :
    scan zp [zp ++ 47 :: (a ++ b), zp ++ 47 :: (a ++ c)] = [a, a] := by
  have key : ∀ d, (47 : UInt8) ∉ a ++ d → scanName zp (zp ++ 47 :: (a ++ d)) = some a := by
    intro d hd
    refine (scanName_some zp _ a).2 ⟨a ++ d, rfl, ?_, hd, ?_⟩
    · intro h
      have := congrArg List.length h
      rw [List.length_append, ha] at this
      simp at this
    · rw [← ha, List.take_left]
  simp only [List.mem_append, not_or] at hs
  unfold scan
  rw [List.filterMap_cons, key b (by simp [hs.1.1, hs.1.2])]
  dsimp only
  rw [List.filterMap_cons, key c (by simp [hs.1.1, hs.2])]
  rfl

theorem addDirs_nodup (mount : List UInt8) : ∀ (fuel : Nat) (t : List (List UInt8)) (q : List UInt8), t.Nodup → (addDirs mount fuel t q).Nodup
  | 0, _, _, h => h
  | fuel + 1, t, q, h => by
    unfold addDirs
    split
    · split
      · exact h
      · rename_i hn
        have h2 : (parent q :: t).Nodup := List.nodup_cons.2 ⟨hn, h⟩
        split
        · exact addDirs_nodup mount fuel _ _ h2
        · exact h2
    · exact h

theorem addFiles_nodup (mount : List UInt8) : ∀ (fs t r : List (List UInt8)), t.Nodup → addFiles mount t fs = some r → r.Nodup
  | [], t, r, h, e => by
    have : t = r := Option.some.inj e
    exact this ▸ h
  | f :: fs, t, r, h, e => by
    unfold addFiles addFile at e
    by_cases hd : mount ++ 47 :: f ∈ t
    · rw [if_pos hd] at e; cases e
    · rw [if_neg hd] at e
      exact addFiles_nodup mount fs _ r (addDirs_nodup mount _ _ _ (List.nodup_cons.2 ⟨hd, h⟩)) e

open Classical in
/-- **C217 (part).** After a mount, a directory `zp` in it lists a name of less than 255 bytes once if, and only if, a listed file is `zp/name` or lies under `zp/name`. -/
theorem C217_mounted_partial (mount : List UInt8) (hm : mount ≠ []) (fs r : List (List UInt8)) (h : addFiles mount [] fs = some r) (zp : List UInt8)
    (hz : zp = mount ∨ ∃ s, zp = mount ++ 47 :: s) (n : List UInt8) (hn : n ≠ [])
    (hs : (47 : UInt8) ∉ n) (hl : n.length < 255) :
    (scan zp r).count n = if (∃ f ∈ fs, mount ++ 47 :: f = zp ++ 47 :: n ∨ ∃ s, mount ++ 47 :: f = zp ++ 47 :: n ++ 47 :: s) then 1 else 0 := by
  have hnd := C217_once_partial zp r (addFiles_nodup mount fs [] r List.nodup_nil h) n hl
  have key : n ∈ scan zp r ↔ ∃ f ∈ fs, mount ++ 47 :: f = zp ++ 47 :: n ∨ ∃ s, mount ++ 47 :: f = zp ++ 47 :: n ++ 47 :: s := by
    rw [C217_list_partial zp r n hl, C216_dirs_partial mount hm fs r h]
    have hin : zp ++ 47 :: n = mount ∨ ∃ s, zp ++ 47 :: n = mount ++ 47 :: s := by
      right
      rcases hz with rfl | ⟨s, rfl⟩
      · exact ⟨n, rfl⟩
      · exact ⟨s ++ 47 :: n, by simp⟩
    constructor
    · rintro ⟨⟨f, hf, h1 | h1⟩, _⟩
      · exact ⟨f, hf, Or.inl h1⟩
      · exact ⟨f, hf, Or.inr h1.1⟩
    · rintro ⟨f, hf, h1 | h1⟩
      · exact ⟨⟨f, hf, Or.inl h1⟩, hn, hs⟩
      · exact ⟨⟨f, hf, Or.inr ⟨h1, hin⟩⟩, hn, hs⟩
  split
  · rename_i hx
    have := List.count_pos_iff.2 (key.2 hx)
    omega
  · rename_i hx
    exact List.count_eq_zero.2 (fun hm => hx (key.1 hm))

example : (addFiles (asc "/m") [] [asc "d/e/x", asc "y", asc "de", asc "d/z"]).map (fun r => (scan (asc "/m") r, scan (asc "/m/d") r, scan (asc "/m/y") r)) =
    some ([asc "de", asc "y", asc "d"], [asc "z", asc "e"], []) := by decide +kernel

end Verif.Vfs
