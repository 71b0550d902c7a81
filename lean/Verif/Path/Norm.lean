import Verif.Path.Lemmas
import Mathlib.Data.List.Induction

/-!
Lexical normalisation: `Jsi_NormalPath` (`File.normalize`) and `NormalizeUnixPath` (used by `File.realpath` and by the
check of safe interpreters when the file does not exist).
-/

namespace Verif.Path

/-! ### `Jsi_NormalPath` -/

/-- A "." component is dropped by setting its length to 0. -/
def zdot (c : Str) : Str := if c = [46] then [] else c

theorem strncmp_dot {c : Str} (h : c ≠ []) : strncmpEq c [46] c.length = true ↔ c = [46] := by
  unfold strncmpEq
  rw [List.take_length, beq_iff_eq]
  cases c with
  | nil => exact absurd rfl h
  | cons x xs => simp

theorem strncmp_end {c : Str} (h : c ≠ []) : strncmpEq [] [46, 46] c.length = false := by
  cases c with
  | nil => exact absurd rfl h
  | cons x xs => simp [strncmpEq]

theorem normLoop_end (a : Str) : ∀ (mid post : List Str),
    normLoop [] mid.length (a :: (mid ++ post)) = some (a :: (mid.map zdot ++ post)) := by
  intro mid
  induction mid using List.reverseRecOn with
  | nil => intro post; simp [normLoop]
  | append_singleton mid c ih =>
    intro post
    rw [List.length_append, List.length_singleton]
    have hg : (a :: (mid ++ [c] ++ post)).getD (mid.length + 1) [] = c := by
      simp
    have hs : ∀ d, (a :: (mid ++ [c] ++ post)).set (mid.length + 1) d = a :: (mid ++ (d :: post)) := by
      intro d
      simp
    have ha : a :: (mid ++ [c] ++ post) = a :: (mid ++ (c :: post)) := by simp
    simp only [normLoop, hg]
    split
    · rename_i h0
      rw [ha, ih (c :: post)]
      simp [zdot, h0]
    · rename_i h0
      split
      · rename_i h1
        have h1' := (strncmp_dot h0).1 h1
        rw [hs, ih]
        simp [zdot, h1']
      · rename_i h1
        have h1' : c ≠ [46] := fun e => h1 ((strncmp_dot h0).2 e)
        rw [strncmp_end h0]
        simp only [Bool.false_eq_true, if_false]
        rw [ha, ih (c :: post)]
        simp [zdot, h1']

/-- The components of a path, "." components after the first left out. -/
def kept (s : Str) : List Str := (comps s).take 1 ++ (comps s).tail.filter (· ≠ [46])

theorem kept_names (s : Str) : ∀ n ∈ kept s, n ≠ [] ∧ (47 : UInt8) ∉ n := by
  intro n hn
  unfold kept at hn
  simp only [List.mem_append, List.mem_filter] at hn
  rcases hn with hn | hn
  · exact comps_good_names s n (List.mem_of_mem_take hn)
  · exact comps_good_names s n (List.mem_of_mem_tail hn.1)

theorem filter_map_zdot : ∀ (l : List Str), (∀ n ∈ l, n ≠ []) →
    (l.map zdot).filter (fun n : Str => decide (n ≠ [])) = l.filter (fun n : Str => decide (n ≠ [46])) := by
  intro l
  induction l with
  | nil => intro _; rfl
  | cons c l ih =>
    intro h
    have hc := h c (by simp)
    have hl := ih (fun n hn => h n (by simp [hn]))
    by_cases h1 : c = [46]
    · simp only [List.map_cons, zdot, h1, if_true]
      simpa using hl
    · have hz : zdot c = c := by simp [zdot, h1]
      rw [List.map_cons, hz]
      rw [List.filter_cons_of_pos (by simpa using hc), List.filter_cons_of_pos (by simpa using h1), hl]

/-- What `Jsi_NormalPath` makes of an absolute path. -/
theorem cleanPath_eq (s : Str) :
    cleanPath s = if unclean true s then (kept s).flatMap (47 :: ·) else s := by
  unfold cleanPath
  split
  · cases hc : comps s with
    | nil => simp only [List.length_nil, Nat.zero_sub, normLoop, joinSlash, kept, hc]; rfl
    | cons a rest =>
      have hne : ∀ n ∈ comps s, n ≠ [] := fun n hn => (comps_good_names s n hn).1
      rw [hc] at hne
      have h := normLoop_end a rest []
      simp only [List.append_nil] at h
      simp only [List.length_cons, Nat.add_sub_cancel, h, joinSlash, kept, hc, List.take_succ_cons,
        List.take_zero, List.tail_cons, List.singleton_append]
      rw [List.filter_cons_of_pos (by simpa using hne a (by simp)),
        filter_map_zdot rest (fun n hn => hne n (by simp [hn]))]
  · rfl

theorem comps_kept (s : Str) : comps ((kept s).flatMap (47 :: ·)) = kept s := by
  unfold comps
  rw [split_flatMap _ (fun n hn => (kept_names s n hn).2)]
  simp only [ne_eq, not_true_eq_false, decide_false, Bool.false_eq_true, not_false_eq_true,
    List.filter_cons_of_neg]
  rw [List.filter_eq_self]
  intro n hn
  simpa using (kept_names s n hn).1

theorem foldl_lex_filter (q : Str → Bool) (hq : ∀ c, q c = false → c = [] ∨ c = [46]) :
    ∀ (cs : List Str) (l : Loc), (cs.filter q).foldl lexStep l = cs.foldl lexStep l := by
  intro cs
  induction cs with
  | nil => intro l; rfl
  | cons c cs ih =>
    intro l
    cases hc : q c with
    | false =>
      rw [List.filter_cons_of_neg (by simp [hc]), List.foldl_cons, ih]
      have : lexStep l c = l := by unfold lexStep; rw [if_pos (hq c hc)]
      rw [this]
    | true => rw [List.filter_cons_of_pos hc, List.foldl_cons, List.foldl_cons, ih]

theorem lexLoc_comps (s : Str) : lexLoc s = (comps s).foldl lexStep [] := by
  unfold lexLoc comps
  rw [foldl_lex_filter]
  intro c hc; left; simpa using hc

theorem foldl_kept (s : Str) : (kept s).foldl lexStep [] = (comps s).foldl lexStep [] := by
  unfold kept
  cases hc : comps s with
  | nil => rfl
  | cons a rest =>
    simp only [List.take_succ_cons, List.take_zero, List.tail_cons, List.singleton_append, List.foldl_cons]
    rw [foldl_lex_filter]
    intro c hc; right; simpa using hc

theorem normalPath_abs {home cwd s : Str} (h : s.head? = some 47) :
    normalPath home cwd s = some (cleanPath s) := by
  unfold normalPath absForm
  cases s with
  | nil => simp at h
  | cons c t => simp only [List.head?_cons, Option.some.injEq] at h; subst h; rfl

/-- **C35**, first half: `File.normalize` of an absolute path names the same location as the path. -/
theorem C35_normalize_location (home cwd s r : Str) (h : s.head? = some 47)
    (hr : normalPath home cwd s = some r) : lexLoc r = lexLoc s := by
  rw [normalPath_abs h, Option.some.injEq] at hr
  subst hr
  rw [cleanPath_eq]
  split
  · rw [lexLoc_comps, comps_kept, foldl_kept, lexLoc_comps]
  · rfl

/-- The same for a relative path, in the working directory; and for `~`, in the home directory. -/
theorem C35_normalize_location_rel (home cwd s r q : Str) (hq : absForm home cwd s = some q)
    (hr : normalPath home cwd s = some r) : lexLoc r = lexLoc q := by
  unfold normalPath at hr
  rw [hq, Option.map_some, Option.some.injEq] at hr
  subst hr
  rw [cleanPath_eq]
  split
  · rw [lexLoc_comps, comps_kept, foldl_kept, lexLoc_comps]
  · rfl

example : absForm (asc "/root") (asc "/tmp") (asc "a/../b") = some (asc "/tmp/a/../b") := by decide +kernel

/-- **C35**, second half: it is idempotent (where the result is a path at all, see `C35_slashes_refuted`). -/
theorem C35_normalize_idempotent (home cwd s r : Str) (h : s.head? = some 47)
    (hr : normalPath home cwd s = some r) (h0 : r ≠ []) : normalPath home cwd r = some r := by
  rw [normalPath_abs h, Option.some.injEq] at hr
  rw [cleanPath_eq] at hr
  split at hr
  · have hh : r.head? = some 47 := by
      rw [← hr] at h0 ⊢
      cases hk : kept s with
      | nil => rw [hk] at h0; exact absurd rfl h0
      | cons a l => rfl
    rw [normalPath_abs hh, cleanPath_eq]
    split
    · have hk : kept r = kept s := by
        have hc : comps r = kept s := by rw [← hr, comps_kept]
        unfold kept
        rw [hc]
        unfold kept
        cases comps s with
        | nil => rfl
        | cons a l =>
          simp only [List.take_succ_cons, List.take_zero, List.tail_cons, List.singleton_append,
            List.filter_filter, Bool.and_self]
      rw [hk, hr]
    · rfl
  · rename_i hu
    subst hr
    rw [normalPath_abs h, cleanPath_eq, if_neg hu]

/-- **C35**, third part, what holds: after a rewrite there are no empty components and no "." components, apart
from a "." that is the first component.  Missing: ".." (never removed), a "." at the start or the end. -/
theorem C35_normalize_dots_partial (home cwd s r : Str) (h : s.head? = some 47)
    (hr : normalPath home cwd s = some r) (hc : r ≠ s) :
    r = [] ∨ ∃ a rest, split r = [] :: a :: rest ∧ a ≠ [] ∧ ∀ n ∈ rest, n ≠ [] ∧ n ≠ [46] := by
  rw [normalPath_abs h, Option.some.injEq, cleanPath_eq] at hr
  split at hr
  · cases hk : kept s with
    | nil => left; rw [← hr, hk]; rfl
    | cons a rest =>
      right
      refine ⟨a, rest, ?_, (kept_names s a (by rw [hk]; simp)).1, ?_⟩
      · rw [← hr, split_flatMap _ (fun n hn => (kept_names s n hn).2), hk]
      · intro n hn
        refine ⟨(kept_names s n (by rw [hk]; simp [hn])).1, ?_⟩
        unfold kept at hk
        cases hcs : comps s with
        | nil => rw [hcs] at hk; simp at hk
        | cons b bs =>
          rw [hcs] at hk
          simp only [List.take_succ_cons, List.take_zero, List.tail_cons, List.singleton_append,
            List.cons.injEq] at hk
          rw [← hk.2] at hn
          simpa using (List.mem_filter.1 hn).2
  · exact absurd hr.symm hc

/-- **C35 refuted**: no ".." is ever removed: the result has as many as the path. -/
theorem C35_dotdot_refuted (home cwd s r : Str) (h : s.head? = some 47)
    (hr : normalPath home cwd s = some r) : (split r).count [46, 46] = (split s).count [46, 46] := by
  rw [normalPath_abs h, Option.some.injEq, cleanPath_eq] at hr
  split at hr
  · have h1 : ∀ l : List Str, l.count [46, 46] = (l.filter (fun n => decide (n ≠ []))).count [46, 46] := by
      intro l
      rw [List.count_filter]
      decide
    rw [h1 (split r), h1 (split s)]
    have h2 : ((split r).filter (fun n => decide (n ≠ []))) = kept s := by
      have := comps_kept s
      rw [hr] at this; exact this
    have h3 : ((split s).filter (fun n => decide (n ≠ []))) = comps s := rfl
    rw [h2, h3]
    unfold kept
    cases comps s with
    | nil => rfl
    | cons a l =>
      simp only [List.take_succ_cons, List.take_zero, List.tail_cons, List.singleton_append, List.count_cons]
      rw [List.count_filter (by decide)]
  · rw [hr]

example : normalPath (asc "/root") (asc "/") (asc "/tmp//a/../b") = some (asc "/tmp/a/../b") := by
  decide +kernel

/-- **C35 refuted**: "//" becomes the empty string, which is no path. -/
theorem C35_slashes_refuted (home cwd : Str) : normalPath home cwd [47, 47] = some [] := by
  rw [normalPath_abs rfl]; decide

/-- **C35 refuted**: a "." at the start or at the end stays. -/
theorem C35_dot_refuted (home cwd : Str) :
    normalPath home cwd (asc "/./a") = some (asc "/./a") ∧ normalPath home cwd (asc "/a/.") = some (asc "/a/.") := by
  constructor <;> (rw [normalPath_abs (by decide +kernel)]; decide +kernel)

/-! ### `NormalizeUnixPath` -/

/-- One component, as `NormalizeUnixPath` does it. -/
def unixStep (l : Loc) (c : Str) : Loc :=
  if c = [] ∨ c = [46] then l
  else if c = [46, 46] then (if l.length ≤ 1 then l else l.dropLast)
  else l ++ [c]

theorem dropWhile_append_slash (n r : Str) (h : (47 : UInt8) ∉ n) :
    (n ++ 47 :: r).dropWhile (fun c => decide (c ≠ 47)) = 47 :: r := by
  induction n with
  | nil => simp [List.dropWhile]
  | cons c n ih =>
    simp only [List.mem_cons, not_or] at h
    rw [List.cons_append, List.dropWhile_cons_of_pos (by simpa using fun e : c = 47 => h.1 e.symm)]
    exact ih h.2

theorem popLast_flatMap (l : Loc) (h : ∀ n ∈ l, (47 : UInt8) ∉ n) :
    popLast (l.flatMap (47 :: ·)) = (if l.length ≤ 1 then l else l.dropLast).flatMap (47 :: ·) := by
  induction l using List.reverseRecOn with
  | nil => rfl
  | append_singleton l n _ =>
    have hn := h n (by simp)
    unfold popLast
    have e1 : (List.flatMap (fun x : Str => (47 : UInt8) :: x) (l ++ [n])).reverse
        = n.reverse ++ 47 :: (l.flatMap (47 :: ·)).reverse := by
      simp [List.flatMap_append]
    rw [e1]
    have e2 := dropWhile_append_slash n.reverse (l.flatMap (47 :: ·)).reverse (by simpa using hn)
    have e3 : (fun x : UInt8 => decide (x ≠ 47)) = (fun c : UInt8 => decide (c ≠ 47)) := rfl
    rw [e2]
    simp only [List.reverse_cons, List.reverse_reverse]
    cases hl : l with
    | nil => simp
    | cons a as =>
      simp only [List.length_append, List.length_cons, List.length_nil]
      rw [if_neg (by omega), List.dropLast_concat]
      cases hf : List.flatMap (fun x : Str => (47 : UInt8) :: x) (a :: as) with
      | nil => simp at hf
      | cons x xs =>
        cases hx : xs ++ [47] with
        | nil => simp at hx
        | cons y ys =>
          simp only [List.cons_append, hx]
          have : x :: y :: ys = (x :: xs) ++ [47] := by rw [List.cons_append, hx]
          rw [this, List.dropLast_concat]

theorem unixStep_names {l : Loc} {c : Str} (h : ∀ n ∈ l, GoodName n) (hc : (47 : UInt8) ∉ c) :
    ∀ n ∈ unixStep l c, GoodName n := by
  unfold unixStep
  split
  · exact h
  split
  · split
    · exact h
    · intro n hn; exact h n (List.dropLast_subset _ hn)
  · rename_i h1 h2
    intro n hn
    simp only [List.mem_append, List.mem_singleton] at hn
    rcases hn with hn | rfl
    · exact h n hn
    · exact ⟨fun e => h1 (Or.inl e), fun e => h1 (Or.inr e), h2, hc⟩

theorem foldl_unixStep_names : ∀ (as : List Str) (l : Loc), (∀ n ∈ l, GoodName n) →
    (∀ a ∈ as, (47 : UInt8) ∉ a) → ∀ n ∈ as.foldl unixStep l, GoodName n := by
  intro as
  induction as with
  | nil => intro l h _; exact h
  | cons a as ih =>
    intro l h ha
    exact ih _ (unixStep_names h (ha a (by simp))) (fun b hb => ha b (by simp [hb]))

theorem unixLoop_false : ∀ (as : List Str) (l : Loc), (∀ n ∈ l, GoodName n) →
    (∀ a ∈ as, (47 : UInt8) ∉ a) →
    unixLoop false as (l.flatMap (47 :: ·)) = (as.foldl unixStep l).flatMap (47 :: ·) := by
  intro as
  induction as with
  | nil => intro l _ _; rfl
  | cons a as ih =>
    intro l h ha
    have has : ∀ b ∈ as, (47 : UInt8) ∉ b := fun b hb => ha b (by simp [hb])
    have hu := unixStep_names h (ha a (by simp))
    simp only [unixLoop, List.foldl_cons]
    split
    · rename_i h1
      have : unixStep l a = l := by unfold unixStep; rw [if_pos (Or.inl h1)]
      rw [this]; exact ih l h has
    rename_i h1
    split
    · rename_i h2
      simp only [Bool.not_false, Bool.true_and, beq_iff_eq] at h2
      have : unixStep l a = l := by unfold unixStep; rw [if_pos (Or.inr h2)]
      rw [this]; exact ih l h has
    rename_i h2
    simp only [Bool.not_false, Bool.true_and, beq_iff_eq] at h2
    have h12 : ¬(a = [] ∨ a = [46]) := by rintro (e | e); exact h1 e; exact h2 e
    split
    · rename_i h3
      rw [popLast_flatMap l (fun n hn => (h n hn).2.2.2)]
      have : unixStep l a = if l.length ≤ 1 then l else l.dropLast := by
        unfold unixStep; rw [if_neg h12, if_pos h3]
      rw [this] at hu ⊢
      exact ih _ hu has
    · rename_i h3
      have : unixStep l a = l ++ [a] := by unfold unixStep; rw [if_neg h12, if_neg h3]
      rw [this] at hu ⊢
      rw [← ih _ hu has]
      simp [List.flatMap_append]

/-- What `NormalizeUnixPath` makes of an absolute path containing "./". -/
theorem normalizeUnix_abs {cwd p : Str} (h : p.head? = some 47) (h1 : strstr [46, 47] p = true) :
    normalizeUnix cwd p = ((split p).foldl unixStep []).flatMap (47 :: ·) ∧
    ∀ n ∈ (split p).foldl unixStep [], GoodName n := by
  have hp := split_pieces p
  cases p with
  | nil => simp at h
  | cons c t =>
    simp only [List.head?_cons, Option.some.injEq] at h
    subst h
    unfold normalizeUnix
    rw [if_neg (by simp [h1]), if_neg (by simp)]
    have e : split (47 :: t) = [] :: split t := by simp [split]
    rw [e] at hp ⊢
    refine ⟨?_, foldl_unixStep_names _ _ (by simp) hp⟩
    simp only [unixLoop, if_pos]
    have := unixLoop_false (split t) [] (by simp) (fun a ha => hp a (by simp [ha]))
    simp only [List.flatMap_nil] at this
    rw [this]
    rfl

/-- Every ".." of the path is preceded by at least two open components. -/
def Deep (p : Str) : Prop :=
  ∀ pre post, split p = pre ++ [46, 46] :: post → 2 ≤ (pre.foldl lexStep []).length

theorem foldl_unix_eq_lex : ∀ (as : List Str) (l : Loc),
    (∀ pre post, as = pre ++ [46, 46] :: post → 2 ≤ (pre.foldl lexStep l).length) →
    as.foldl unixStep l = as.foldl lexStep l := by
  intro as
  induction as with
  | nil => intro l _; rfl
  | cons a as ih =>
    intro l h
    have hs : unixStep l a = lexStep l a := by
      unfold unixStep lexStep
      split
      · rfl
      split
      · rename_i h3
        have := h [] as (by rw [h3]; rfl)
        simp only [List.foldl_nil] at this
        rw [if_neg (by omega)]
      · rfl
    rw [List.foldl_cons, List.foldl_cons, hs]
    refine ih _ ?_
    intro pre post e
    exact h (a :: pre) post (by rw [e]; rfl)

/-- **C35** for `NormalizeUnixPath` (`File.realpath` of a file that does not exist), the part that holds: an
absolute path in which every ".." closes a component below the first keeps its location.  Missing: ".." just below
the root (`C35_realpath_refuted`). -/
theorem C35_realpath_location_partial (cwd p : Str) (h : p.head? = some 47) (hd : Deep p) :
    lexLoc (normalizeUnix cwd p) = lexLoc p := by
  cases hs : strstr [46, 47] p with
  | false => unfold normalizeUnix; rw [hs]; rfl
  | true =>
    obtain ⟨e, hn⟩ := normalizeUnix_abs (cwd := cwd) h hs
    rw [e]
    have e2 : lexLoc p = (split p).foldl unixStep [] := (foldl_unix_eq_lex _ _ hd).symm
    rw [e2]
    unfold lexLoc
    rw [split_flatMap _ (fun n hm => (hn n hm).2.2.2)]
    generalize (split p).foldl unixStep [] = l at hn
    have hl : ∀ (l m : Loc), (∀ n ∈ l, GoodName n) → l.foldl lexStep m = m ++ l := by
      intro l
      induction l with
      | nil => intro m _; simp
      | cons n l ih =>
        intro m hn
        have hg := hn n (by simp)
        have : lexStep m n = m ++ [n] := by
          unfold lexStep
          rw [if_neg (by rintro (e | e); exact hg.1 e; exact hg.2.1 e), if_neg hg.2.2.1]
        rw [List.foldl_cons, this, ih _ (fun x hx => hn x (by simp [hx]))]
        simp
    have := hl l [] hn
    simpa [lexStep] using this

/-- Four components and a "..": the hypothesis is met. -/
example : Deep (asc "/a/b/../c") := by
  intro pre post h
  have e : split (asc "/a/b/../c") = [[], [97], [98], [46, 46], [99]] := by decide +kernel
  rw [e] at h
  have hl : pre.length = 3 := by
    rcases pre with _ | ⟨a, _ | ⟨b, _ | ⟨c, _ | ⟨d, _ | ⟨x, _ | ⟨y, t⟩⟩⟩⟩⟩⟩ <;> simp_all
  rcases pre with _ | ⟨a, _ | ⟨b, _ | ⟨c, _ | ⟨d, t⟩⟩⟩⟩ <;> simp_all
  obtain ⟨rfl, rfl, rfl, _⟩ := h
  decide

/-- After the rewriting of an absolute path no "." and no ".." is left. -/
theorem C35_realpath_clean (cwd p : Str) (h : p.head? = some 47) (hs : strstr [46, 47] p = true) :
    ∀ n ∈ comps (normalizeUnix cwd p), n ≠ [46] ∧ n ≠ [46, 46] := by
  obtain ⟨e, hn⟩ := normalizeUnix_abs (cwd := cwd) h hs
  rw [e]
  intro n hm
  unfold comps at hm
  rw [split_flatMap _ (fun n hm => (hn n hm).2.2.2)] at hm
  have := (List.mem_filter.1 hm)
  simp only [List.mem_cons] at this
  rcases this.1 with h0 | h0
  · subst h0; simp at this
  · exact ⟨(hn n h0).2.1, (hn n h0).2.2.1⟩

/-- **C35 refuted**: "/a/../b" is not the same location after the rewriting. -/
theorem C35_realpath_refuted (cwd : Str) : normalizeUnix cwd (asc "/a/../b") = asc "/a/b" ∧
    lexLoc (asc "/a/../b") = [asc "b"] ∧ lexLoc (asc "/a/b") = [asc "a", asc "b"] := by
  refine ⟨?_, by decide +kernel, by decide +kernel⟩
  have e : asc "/a/../b" = [47, 97, 47, 46, 46, 47, 98] := by decide +kernel
  rw [e]
  unfold normalizeUnix
  rw [if_neg (by decide), if_neg (by simp)]
  decide +kernel

/-! The rewriting is done in place: it must not be longer than the path. -/

theorem popLast_length (d : Str) : (popLast d).length ≤ d.length := by
  unfold popLast
  split
  · exact Nat.le_refl _
  · exact Nat.le_refl _
  · rename_i p _ _ 
    have : (List.reverse (List.dropWhile (fun x => decide (x ≠ 47)) d.reverse)).length ≤ d.length := by
      rw [List.length_reverse]
      refine Nat.le_trans (List.Sublist.length_le (List.dropWhile_sublist _)) ?_
      rw [List.length_reverse]; exact Nat.le_refl _
    rw [List.length_dropLast]
    omega

theorem unixLoop_length : ∀ (as : List Str) (first : Bool) (d : Str), 
    (unixLoop first as d).length + (if first ∧ as ≠ [] then 1 else 0) ≤
      d.length + (as.map (fun a => a.length + 1)).sum := by
  intro as
  induction as with
  | nil => intro f d; simp [unixLoop]
  | cons a as ih =>
    intro f d
    simp only [unixLoop, List.map_cons, List.sum_cons]
    have h1 := ih false d
    have h2 := ih false (popLast d)
    have h3 := ih false (d ++ (if f then [] else [47]) ++ a)
    have h4 := popLast_length d
    simp only [Bool.false_eq_true, false_and, if_false, Nat.add_zero, List.length_append] at h1 h2 h3
    have hf : (if f = true ∧ a :: as ≠ [] then 1 else 0) ≤ 1 := by split <;> omega
    split
    · omega
    split
    · omega
    split
    · omega
    · cases f with
      | true => simp only [reduceIte, List.length_nil, List.append_nil, true_and] at h3 hf ⊢; omega
      | false => simp only [Bool.false_eq_true, if_false, List.length_singleton, false_and] at h3 ⊢; omega

/-- `NormalizeUnixPath` never writes more than it was given (no buffer overflow). -/
theorem C35_realpath_in_place (cwd p : Str) : (normalizeUnix cwd p).length ≤ p.length := by
  unfold normalizeUnix
  split
  · exact Nat.le_refl _
  split
  · exact Nat.le_refl _
  have h := unixLoop_length (split p) true []
  have hl : ∀ s : Str, ((split s).map (fun a => a.length + 1)).sum = s.length + 1 := by
    intro s
    induction s with
    | nil => rfl
    | cons c t ih =>
      simp only [split]
      split
      · simp [ih]; omega
      · cases hq : split t with
        | nil => exact absurd hq (split_ne_nil t)
        | cons q qs =>
          rw [hq] at ih
          simp only [List.map_cons, List.sum_cons, List.length_cons] at ih ⊢
          omega
  rw [hl p] at h
  have : split p ≠ [] := split_ne_nil p
  simp only [true_and, this, ne_eq, not_false_eq_true, if_true, List.length_nil] at h
  omega

end Verif.Path
