import Verif.FGlob.Walk
import Mathlib.Data.List.TakeWhile
import Mathlib.Data.List.Nodup

/-! # `File.glob` with `recurse`, and for the names in one directory (C191, C192) -/

namespace Verif.FGlob

open Verif

/-! ### What is to be found -/

/-- An entry `n` of the directory `p`, listed with type `ft`, is seen as one of type `t`: names with a dot in front are
never seen; links are seen as directories if they lead to one, and not at all if they lead nowhere. -/
def Seen (fs : FS) (p n : Str) (ft t : FT) : Prop :=
  n.head? ≠ some 46 ∧ (ft ≠ .lnk ∧ t = ft ∨ ft = .lnk ∧ (fs.stat (p ++ 47 :: n) = some true ∧ t = .dir ∨ fs.stat (p ++ 47 :: n) = some false ∧ t = .lnk))

/-- The caller wants it. -/
def Wanted (a : Args) (pat : Str → Bool) (n : Str) (t : FT) : Prop :=
  (∀ ts, a.types = some ts → code t ∈ ts) ∧ pat n = true ∧ (∀ f, a.filter = some f → f n = true)

/-- `r` is a path from the directory `p` to something that is wanted, through at most `k` directories. -/
inductive Found (fs : FS) (a : Args) (pat : Str → Bool) : Nat → Str → Str → Prop
  | here {k p l n ft t} : fs.ls p = some l → (n, ft) ∈ l → Seen fs p n ft t → Wanted a pat n t →
      (t = .dir → k ≠ 0 → ∀ f, a.dirFilter = some f → f (p ++ 47 :: n) = true) → Found fs a pat k p n
  | deeper {k p l n ft r} : fs.ls p = some l → (n, ft) ∈ l → Seen fs p n ft .dir →
      (∀ f, a.dirFilter = some f → f (p ++ 47 :: n) = true) → Found fs a pat k (p ++ 47 :: n) r →
      Found fs a pat (k + 1) p (n ++ 47 :: r)

/-- How a path is shown: as it is, or behind the prefix with a slash between. -/
def shown (a : Args) (r : Str) : Str := match a.pre with
  | none => r
  | some x => x ++ 47 :: r

/-! ### Proofs -/

/-- Paths below the directory `p`. -/
def names (fs : FS) (o : Opts) (pat : Str → Bool) : Nat → Str → List Str
  | k, p => ((fs.ls p).getD []).flatMap fun e =>
    match ftOf fs o p e.1 e.2 with
    | none => []
    | some .dir =>
      match k with
      | 0 => if wantedDir o pat e.1 then [e.1] else []
      | k + 1 => if dirOk o (p ++ 47 :: e.1) then
          (names fs o pat k (p ++ 47 :: e.1)).map (e.1 ++ 47 :: ·) ++ (if wantedDir o pat e.1 then [e.1] else []) else []
    | some ft => if wanted o pat e.1 ft then [e.1] else []

theorem item_rel {v : Env} {a : Args} (ht : a.tails = false) {d : Str} (hd : d = a.dir.getD v.cwd) (hne : d ≠ []) (q n : Str)
    (hq : q = [] ∨ q.headD 0 = 47) :
    item (optsOf v a) (d ++ q) n = shown a ((q ++ 47 :: n).tail) := by
  have hp : pj (d ++ q) n = d ++ (q ++ 47 :: n) := by
    rw [pj, if_neg (by simp [hne])]; simp
  have h47 : (q ++ 47 :: n).headD 0 = 47 := by
    rcases hq with rfl | hq
    · rfl
    · cases q with
      | nil => rfl
      | cons c t => simpa using hq
  have hcons : ∃ t, q ++ 47 :: n = 47 :: t := by
    cases hx : q ++ 47 :: n with
    | nil => simp at hx
    | cons c t => rw [hx] at h47; simp at h47; exact ⟨t, by rw [h47]⟩
  obtain ⟨t, hcons⟩ := hcons
  rw [item, show (optsOf v a).tails = false from ht, if_neg (by simp), hp, strip,
    if_pos ⟨ht, by simp only [optsOf]; rw [← hd]; simpa using hne, by simp only [optsOf]; rw [← hd]; simp⟩]
  have hdrop : (d ++ (q ++ 47 :: n)).drop (optsOf v a).dirLen = q ++ 47 :: n := by
    simp only [optsOf]; rw [← hd]; simp
  rw [hdrop, hcons]
  show (optsOf v a).pre.getD [] ++ _ = _
  rw [show (optsOf v a).pre = a.pre from rfl, shown]
  cases a.pre with
  | none => simp
  | some x => simp

theorem own_shown {v : Env} {a : Args} (ht : a.tails = false) {d : Str} (hd : d = a.dir.getD v.cwd) (hne : d ≠ [])
    (pat : Str → Bool) (q z : Str) (ft : FT) (hq : q = [] ∨ q.headD 0 = 47) :
    own (optsOf v a) pat (d ++ q) z ft =
      (if wantedT (optsOf v a) pat z ft = true then [z] else []).map fun r => shown a ((q ++ 47 :: r).tail) := by
  rw [own]
  by_cases h : wantedT (optsOf v a) pat z ft = true
  · rw [if_pos h, if_pos h, item_rel ht hd hne q z hq]; rfl
  · rw [if_neg h, if_neg h]; rfl

theorem walk_names {fs : FS} {v : Env} {a : Args} (ht : a.tails = false) {d : Str} (hd : d = a.dir.getD v.cwd) (hne : d ≠ [])
    (pat : Str → Bool) : ∀ (k : Nat) (q : Str), (q = [] ∨ q.headD 0 = 47) →
    walk fs (optsOf v a) pat k (d ++ q) =
      (names fs (optsOf v a) pat k (d ++ q)).map fun r => shown a ((q ++ 47 :: r).tail) := by
  intro k
  induction k with
  | zero =>
    intro q hq
    rw [walk, names, List.map_flatMap, if_neg (by simp [hne])]
    congr 1
    funext e
    cases ftOf fs (optsOf v a) (d ++ q) e.1 e.2 with
    | none => rfl
    | some ft =>
      cases ft <;> exact own_shown ht hd hne pat q e.1 _ hq
  | succ k ih =>
    intro q hq
    rw [walk, names, List.map_flatMap, if_neg (by simp [hne])]
    congr 1
    funext e
    cases ftOf fs (optsOf v a) (d ++ q) e.1 e.2 with
    | none => rfl
    | some ft =>
      have hp : pj (d ++ q) e.1 = d ++ (q ++ 47 :: e.1) := by rw [pj, if_neg (by simp [hne])]; simp
      have hp2 : d ++ q ++ 47 :: e.1 = d ++ (q ++ 47 :: e.1) := by simp
      cases ft with
      | dir =>
        dsimp only
        rw [hp, hp2]
        by_cases hdo : dirOk (optsOf v a) (d ++ (q ++ 47 :: e.1)) = true
        · rw [if_pos hdo, if_pos hdo, List.map_append, ih (q ++ 47 :: e.1) (by
            rcases hq with rfl | hq
            · exact Or.inr rfl
            · right; cases q with
              | nil => rfl
              | cons c t => simpa using hq)]
          congr 1
          · rw [List.map_map]
            congr 1
            funext r
            simp
          · exact own_shown ht hd hne pat q e.1 _ hq
        · rw [if_neg hdo, if_neg hdo]; rfl
      | _ => exact own_shown ht hd hne pat q e.1 _ hq

theorem seen_iff {fs : FS} {v : Env} {a : Args} (hn : a.noTypes = none) {p n : Str} (hp : p ≠ []) {ft t : FT} :
    ftOf fs (optsOf v a) p n ft = some t ↔ Seen fs p n ft t := by
  rw [Seen]
  by_cases h : n.head? = some 46
  · simp [h, ftOf]
  · cases ft with
    | lnk =>
      simp only [ftOf]
      rw [if_neg h, show (optsOf v a).noTypes = none from hn, pj, if_neg hp]
      simp only [Option.isSome_none, Bool.false_eq_true, if_false]
      cases fs.stat (p ++ 47 :: n) with
      | none => simp
      | some b => cases b <;> simp [h, eq_comm]
    | _ => simp [h, ftOf, eq_comm]

theorem wanted_iff {v : Env} {a : Args} (hn : a.noTypes = none) {pat : Str → Bool} {n : Str} {t : FT} :
    wanted (optsOf v a) pat n t = true ↔ Wanted a pat n t := by
  rw [wanted, Wanted, typesOk, noTypesOk, show (optsOf v a).noTypes = none from hn, show (optsOf v a).types = a.types from rfl,
    show (optsOf v a).filter = a.filter from rfl]
  cases a.types <;> cases a.filter <;> simp [and_assoc]

theorem wantedDir_iff {v : Env} {a : Args} (hn : a.noTypes = none) {pat : Str → Bool} {n : Str} :
    wantedDir (optsOf v a) pat n = true ↔ Wanted a pat n .dir := by
  rw [wantedDir, ← wanted_iff hn (v := v), show (optsOf v a).noTypes = none from hn]
  simp

theorem dirOk_iff {v : Env} {a : Args} {p : Str} : dirOk (optsOf v a) p = true ↔ ∀ f, a.dirFilter = some f → f p = true := by
  rw [dirOk, show (optsOf v a).dirFilter = a.dirFilter from rfl]
  cases a.dirFilter <;> simp

theorem mem_if {c : Bool} {x y : Str} : x ∈ (if c = true then [y] else []) ↔ c = true ∧ x = y := by
  split <;> simp_all

theorem mem_names {fs : FS} {v : Env} {a : Args} (hn : a.noTypes = none) (pat : Str → Bool) : ∀ (k : Nat) (p r : Str), p ≠ [] →
    (r ∈ names fs (optsOf v a) pat k p ↔ Found fs a pat k p r)
  | k, p, r, hp => by
    constructor
    · intro h
      rw [names] at h
      obtain ⟨e, he, h⟩ := List.mem_flatMap.1 h
      cases hl : fs.ls p with
      | none => rw [hl] at he; simp at he
      | some l =>
        rw [hl] at he
        simp only [Option.getD_some] at he
        cases hft : ftOf fs (optsOf v a) p e.1 e.2 with
        | none => rw [hft] at h; simp at h
        | some ft =>
          have hs := (seen_iff hn hp).1 hft
          rw [hft] at h
          cases ft with
          | dir =>
            cases k with
            | zero =>
              obtain ⟨h1, rfl⟩ := mem_if.1 h
              exact .here hl he hs ((wantedDir_iff hn).1 h1) (fun _ h0 => absurd rfl h0)
            | succ k =>
              dsimp only at h
              by_cases hdo : dirOk (optsOf v a) (p ++ 47 :: e.1) = true
              · rw [if_pos hdo] at h
                rcases List.mem_append.1 h with h | h
                · obtain ⟨x, hx, rfl⟩ := List.mem_map.1 h
                  exact .deeper hl he hs (dirOk_iff.1 hdo) ((mem_names hn pat k _ _ (by simp)).1 hx)
                · obtain ⟨h1, rfl⟩ := mem_if.1 h
                  exact .here hl he hs ((wantedDir_iff hn).1 h1) (fun _ _ => dirOk_iff.1 hdo)
              · rw [if_neg hdo] at h; simp at h
          | _ =>
            obtain ⟨h1, rfl⟩ := mem_if.1 h
            exact .here hl he hs ((wanted_iff hn).1 h1) (fun h => by cases h)
    · intro h
      rw [names]
      cases h with
      | @here _ _ l n ft t hl he hs hw hdf =>
        refine List.mem_flatMap.2 ⟨(r, ft), by rw [hl]; exact he, ?_⟩
        rw [(seen_iff hn hp).2 hs]
        cases t with
        | dir =>
          cases k with
          | zero => exact mem_if.2 ⟨(wantedDir_iff hn).2 hw, rfl⟩
          | succ k =>
            dsimp only
            rw [if_pos (dirOk_iff.2 (hdf rfl (by simp)))]
            exact List.mem_append.2 (Or.inr (mem_if.2 ⟨(wantedDir_iff hn).2 hw, rfl⟩))
        | _ => exact mem_if.2 ⟨(wanted_iff hn).2 hw, rfl⟩
      | @deeper k _ l n ft x hl he hs hdf hx =>
        refine List.mem_flatMap.2 ⟨(n, ft), by rw [hl]; exact he, ?_⟩
        rw [(seen_iff hn hp).2 hs]
        dsimp only
        rw [if_pos (dirOk_iff.2 hdf)]
        exact List.mem_append.2 (Or.inl (List.mem_map.2 ⟨x, (mem_names hn pat k _ _ (by simp)).2 hx, rfl⟩))

/-- Names differ within each directory, and have no slashes in them. -/
def Proper (fs : FS) : Prop := ∀ p l, fs.ls p = some l → (l.map Prod.fst).Nodup ∧ ∀ e ∈ l, (47 : UInt8) ∉ e.1

theorem comp_inj {n m : Str} (hn : (47 : UInt8) ∉ n) (hm : (47 : UInt8) ∉ m) {x y : Str} (h : n ++ 47 :: x = m ++ 47 :: y) : n = m := by
  have := congrArg (List.takeWhile (· ≠ 47)) h
  rwa [List.takeWhile_append_of_pos (by intro c hc; simp; rintro rfl; exact hn hc),
    List.takeWhile_append_of_pos (by intro c hc; simp; rintro rfl; exact hm hc),
    List.takeWhile_cons_of_neg (by simp), List.takeWhile_cons_of_neg (by simp), List.append_nil, List.append_nil] at this

theorem entry_mem {fs : FS} {o : Opts} {pat : Str → Bool} (k : Nat) (p : Str) (e : Str × FT) {r : Str}
    (h : r ∈ (match ftOf fs o p e.1 e.2 with
      | none => []
      | some .dir =>
        match k with
        | 0 => if wantedDir o pat e.1 then [e.1] else []
        | k + 1 => if dirOk o (p ++ 47 :: e.1) then
            (names fs o pat k (p ++ 47 :: e.1)).map (e.1 ++ 47 :: ·) ++ (if wantedDir o pat e.1 then [e.1] else []) else []
      | some ft => if wanted o pat e.1 ft then [e.1] else [])) : r = e.1 ∨ ∃ x, r = e.1 ++ 47 :: x := by
  split at h
  · simp at h
  · cases k with
    | zero => exact Or.inl (mem_if.1 h).2
    | succ k =>
      dsimp only at h
      split at h
      · rcases List.mem_append.1 h with h | h
        · obtain ⟨x, _, rfl⟩ := List.mem_map.1 h; exact Or.inr ⟨x, rfl⟩
        · exact Or.inl (mem_if.1 h).2
      · simp at h
  · exact Or.inl (mem_if.1 h).2

theorem nodup_if {c : Bool} {y : Str} : (if c = true then [y] else []).Nodup := by split <;> simp

theorem names_nodup {fs : FS} {o : Opts} (hp : Proper fs) (pat : Str → Bool) : ∀ (k : Nat) (p : Str), (names fs o pat k p).Nodup
  | k, p => by
    rw [names]
    cases hl : fs.ls p with
    | none => simp
    | some l =>
      obtain ⟨h1, h2⟩ := hp p l hl
      simp only [Option.getD_some]
      rw [List.nodup_flatMap]
      constructor
      · intro e _
        cases ftOf fs o p e.1 e.2 with
        | none => simp
        | some ft =>
          cases ft with
          | dir =>
            cases k with
            | zero => exact nodup_if
            | succ k =>
              dsimp only
              split
              · rw [List.nodup_append]
                refine ⟨?_, nodup_if, ?_⟩
                · rw [List.nodup_map_iff (fun x y h => by simpa using h)]
                  exact names_nodup hp pat k _
                · intro x hx y hy e1
                  obtain ⟨z, _, rfl⟩ := List.mem_map.1 hx
                  have := (mem_if.1 hy).2
                  rw [this] at e1
                  have := congrArg List.length e1
                  simp at this
              · simp
          | _ => exact nodup_if
      · have h1' : l.Pairwise (fun a b => a.1 ≠ b.1) := by rw [List.Nodup, List.pairwise_map] at h1; exact h1
        refine List.Pairwise.imp_of_mem ?_ h1'
        intro a b ha hb hab
        simp only [Function.onFun]
        intro r hr hr'
        have hna := h2 a ha
        have hnb := h2 b hb
        rcases entry_mem k p a hr with e1 | ⟨x, e1⟩ <;> rcases entry_mem k p b hr' with e2 | ⟨y, e2⟩
        · exact hab (e1.symm.trans e2)
        · rw [e1] at e2; rw [e2] at hna; simp at hna
        · rw [e2] at e1; rw [e1] at hnb; simp at hnb
        · exact hab (comp_inj hna hnb (e1.symm.trans e2))

theorem shown_inj {a : Args} {x y : Str} (h : shown a x = shown a y) : x = y := by
  rw [shown, shown] at h
  cases hp : a.pre with
  | none => rw [hp] at h; exact h
  | some z => rw [hp] at h; simpa using h

/-- The levels the search goes down. -/
def levels (v : Env) (a : Args) : Nat := if a.recurse then (if a.maxDepth = 0 then v.maxInc else a.maxDepth) else 0

theorem room0 {o : Opts} : Room o ({} : St) := by
  by_cases h0 : o.limit = 0
  · exact Or.inl h0
  · exact Or.inr (Nat.pos_of_ne_zero h0)

/-- The search, whatever the limit is. -/
theorem glob_recurse {fs : FS} {gm : Str → Str → Bool} {v : Env} {a : Args} (hr : a.recurse = true) (hdis : a.maxDiscard = 0)
    (hw : ∀ ts, a.types = some ts → (100 : UInt8) ∉ ts) (hdep : a.maxDepth ≤ v.maxInc) {p : Str} (hp : p ≠ []) (h47 : (47 : UInt8) ∉ p)
    {d : Str} (hd : d = a.dir.getD v.cwd) (hne : d ≠ []) {l : List (Str × FT)} (hl : fs.ls d = some l) :
    ∃ n, glob fs gm v (.glob p) a = result a (true, (({} : St).plus (cutoff (optsOf v a).limit 0 (walk fs (optsOf v a) (gm p) (levels v a) d)) n)) := by
  rw [glob, orStar, if_neg hp, withPat, if_pos hr, if_neg h47, ← hd]
  have hlev : levels v a ≤ v.maxInc := by rw [levels, if_pos hr]; split <;> omega
  obtain ⟨n, hn⟩ := finds_sub (fs := fs) (gm := gm) (o := optsOf v a) hdis (Or.inl (by
    rw [wantsDirs, show (optsOf v a).types = a.types from rfl]
    cases ht : a.types with
    | none => rfl
    | some ts => simpa using hw ts ht)) (gm p) (v.maxInc + 1) (levels v a) 0 d {} room0 (by omega) (by
      rw [show (optsOf v a).recurse = true from hr, if_pos rfl, levels, if_pos hr]; rfl) (Or.inr (by rw [if_neg hne, hl]; rfl))
  exact ⟨n, by rw [hn]⟩

/-- **C191 (part).** `File.glob` with `recurse` finds everything that is wanted below the directory, and nothing else, each
once: for every file system, pattern, filters, types (but `d`), prefix and depth, when there is no limit.  Directories
that cannot be read count as empty, but for the first. -/
theorem C191_members_partial (fs : FS) (hfs : Proper fs) (gm : Str → Str → Bool) (v : Env) (a : Args) (p d : Str)
    (hr : a.recurse = true) (hdis : a.maxDiscard = 0) (hw : ∀ ts, a.types = some ts → (100 : UInt8) ∉ ts)
    (hdep : a.maxDepth ≤ v.maxInc) (ht : a.tails = false) (hn : a.noTypes = none) (hlim : a.limit < 0) (hc : a.retCount = false)
    (hp : p ≠ []) (h47 : (47 : UInt8) ∉ p) (hd : d = a.dir.getD v.cwd) (hne : d ≠ []) (l : List (Str × FT)) (hl : fs.ls d = some l) :
    ∃ items, glob fs gm v (.glob p) a = .list items ∧ items.Nodup ∧
      ∀ r, r ∈ items ↔ ∃ r', Found fs a (gm p) (if a.maxDepth = 0 then v.maxInc else a.maxDepth) d r' ∧ r = shown a r' := by
  obtain ⟨n, h⟩ := glob_recurse (gm := gm) hr hdis hw hdep hp h47 hd hne hl
  have h0 : (optsOf v a).limit = 0 := by
    show (if a.limit = 0 then v.maxArr else a.limit.toNat) = 0
    rw [if_neg (by omega)]; omega
  have hwalk := walk_names (fs := fs) ht hd hne (gm p) (levels v a) [] (Or.inl rfl)
  simp only [List.append_nil, List.nil_append, List.tail_cons] at hwalk
  refine ⟨_, by rw [h, result, if_neg (by simp), hc, if_neg (by simp)], ?_, ?_⟩
  · simp only [St.plus, List.nil_append, cutoff, h0, if_true]
    rw [hwalk, List.nodup_map_iff (fun x y h => shown_inj h)]
    exact names_nodup hfs _ _ _
  · intro r
    simp only [St.plus, List.nil_append, cutoff, h0, if_true]
    rw [hwalk, List.mem_map]
    have : levels v a = if a.maxDepth = 0 then v.maxInc else a.maxDepth := by rw [levels, if_pos hr]
    rw [← this]
    constructor
    · rintro ⟨x, hx, rfl⟩; exact ⟨x, (mem_names hn _ _ _ _ hne).1 hx, rfl⟩
    · rintro ⟨x, hx, rfl⟩; exact ⟨x, (mem_names hn _ _ _ _ hne).2 hx, rfl⟩

theorem walk_limit (fs : FS) (o : Opts) (n : Nat) (pat : Str → Bool) : ∀ (k : Nat) (p : Str),
    walk fs { o with limit := n } pat k p = walk fs o pat k p
  | 0, p => by rw [walk, walk]; rfl
  | k + 1, p => by rw [walk, walk]; simp only [walk_limit fs o n pat k]; rfl

/-- **C191 (part).** A limit above 0 gives the first results of the search without it, and `retCount` their number. -/
theorem C191_limit_partial (fs : FS) (gm : Str → Str → Bool) (v : Env) (a : Args) (p d : Str)
    (hr : a.recurse = true) (hdis : a.maxDiscard = 0) (hw : ∀ ts, a.types = some ts → (100 : UInt8) ∉ ts)
    (hdep : a.maxDepth ≤ v.maxInc) (hp : p ≠ []) (h47 : (47 : UInt8) ∉ p) (hd : d = a.dir.getD v.cwd) (hne : d ≠ [])
    (l : List (Str × FT)) (hl : fs.ls d = some l) (n : Nat) (hn : 0 < n) :
    ∃ all, glob fs gm v (.glob p) { a with limit := -1, retCount := false } = .list all ∧
      glob fs gm v (.glob p) { a with limit := n, retCount := false } = .list (all.take n) ∧
      glob fs gm v (.glob p) { a with limit := n, retCount := true } = .count (min n all.length) := by
  obtain ⟨n1, h1⟩ := glob_recurse (fs := fs) (gm := gm) (v := v) (a := { a with limit := -1, retCount := false }) hr hdis hw hdep hp h47 hd hne hl
  obtain ⟨n2, h2⟩ := glob_recurse (fs := fs) (gm := gm) (v := v) (a := { a with limit := n, retCount := false }) hr hdis hw hdep hp h47 hd hne hl
  obtain ⟨n3, h3⟩ := glob_recurse (fs := fs) (gm := gm) (v := v) (a := { a with limit := n, retCount := true }) hr hdis hw hdep hp h47 hd hne hl
  have e1 : (optsOf v { a with limit := -1, retCount := false }).limit = 0 := rfl
  have e2 : (optsOf v { a with limit := n, retCount := false }).limit = n := by
    show (if (n : Int) = 0 then v.maxArr else (n : Int).toNat) = n
    rw [if_neg (by omega)]; rfl
  have e3 : (optsOf v { a with limit := n, retCount := true }).limit = n := e2
  refine ⟨_, by rw [h1, result, if_neg (by simp), if_neg (by simp)], ?_, ?_⟩
  · rw [h2, result, if_neg (by simp), if_neg (by simp)]
    simp only [St.plus, List.nil_append, cutoff, e1, e2, if_true]
    rw [if_neg (by omega)]
    rw [show optsOf v { a with limit := n, retCount := false } = { optsOf v { a with limit := -1, retCount := false } with limit := n } by simp only [optsOf, Opts.mk.injEq, true_and, and_true]; exact e2, walk_limit]
    rfl
  · rw [h3, result, if_neg (by simp), if_pos rfl]
    simp only [St.plus, List.nil_append, cutoff, e1, e3, if_true]
    rw [if_neg (by omega)]
    rw [show optsOf v { a with limit := n, retCount := true } = { optsOf v { a with limit := -1, retCount := false } with limit := n } by simp only [optsOf, Opts.mk.injEq, true_and, and_true]; exact e3, walk_limit]
    rw [List.length_take]
    simp [levels]

end Verif.FGlob
