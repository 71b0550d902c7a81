import Verif.FGlob.Model

/-! # The search of `File.glob` is a walk through the directories, cut off at the limit -/

namespace Verif.FGlob

open Verif

/-- What the caller wants of an entry, by its name and type: the types asked for, the pattern, the filter. -/
def wanted (o : Opts) (pat : Str → Bool) (z : Str) (ft : FT) : Bool :=
  typesOk o ft && noTypesOk o ft && pat z && (match o.filter with | none => true | some f => f z)

/-- The same for a directory: excluded by `noTypes` without `types`. -/
def wantedDir (o : Opts) (pat : Str → Bool) (z : Str) : Bool :=
  !(o.types.isNone && o.noTypes.isSome) && wanted o pat z .dir

def wantedT (o : Opts) (pat : Str → Bool) (z : Str) : FT → Bool
  | .dir => wantedDir o pat z
  | ft => wanted o pat z ft

/-- The entry itself. -/
def own (o : Opts) (pat : Str → Bool) (spath z : Str) (ft : FT) : List Str :=
  if wantedT o pat z ft then [item o spath z] else []

/-- The results of the directory `p`, with `k` levels below it: for each entry, first what is in it if it is a directory,
then itself. -/
def walk (fs : FS) (o : Opts) (pat : Str → Bool) : Nat → Str → List Str
  | k, p => ((fs.ls (if p = [] then [46] else p)).getD []).flatMap fun e =>
    match ftOf fs o p e.1 e.2 with
    | none => []
    | some .dir =>
      match k with
      | 0 => own o pat p e.1 .dir
      | k + 1 => if dirOk o (pj p e.1) then walk fs o pat k (pj p e.1) ++ own o pat p e.1 .dir else []
    | some ft => own o pat p e.1 ft

/-- The part of `xs` up to the limit. -/
def cutoff (lim c : Nat) (xs : List Str) : List Str := if lim = 0 then xs else xs.take (lim - c)

/-- The state after `xs` are found. -/
def St.plus (s : St) (xs : List Str) (d : Nat) : St := ⟨s.cnt + xs.length, d, s.items ++ xs⟩

/-- `f` finds `w`: it goes on if the limit is not reached, and stops otherwise. -/
def Finds (o : Opts) (r : Step) (s : St) (w : List Str) : Prop :=
  ∃ d, r = if o.limit ≠ 0 ∧ o.limit ≤ s.cnt + w.length then .halt true (s.plus (cutoff o.limit s.cnt w) d) else .go (s.plus w d)

def Room (o : Opts) (s : St) : Prop := o.limit = 0 ∨ s.cnt < o.limit

theorem plus_nil (s : St) : s.plus [] s.disc = s := by simp [St.plus]

theorem finds_go {o : Opts} {s : St} (h : Room o s) (d : Nat) : Finds o (.go { s with disc := d }) s [] := by
  refine ⟨d, ?_⟩
  rw [if_neg (by rcases h with h | h <;> simp [h])]
  simp [St.plus]

theorem finds_dump {o : Opts} (hd : o.maxDiscard = 0) {s : St} (h : Room o s) (p z : Str) :
    Finds o (dump o p z s) s [item o p z] := by
  refine ⟨s.disc, ?_⟩
  rw [dump, checked]
  by_cases hl : o.limit ≠ 0 ∧ o.limit ≤ s.cnt + 1
  · rw [if_pos hl, if_pos (by simpa using hl), cutoff, if_neg hl.1]
    rcases h with h | h
    · exact absurd h hl.1
    · rw [show o.limit - s.cnt = 1 by omega]; rfl
  · rw [if_neg hl, if_neg (by simp [hd]), if_neg (by simpa using hl)]; rfl

theorem finds_select {o : Opts} (hd : o.maxDiscard = 0) {s : St} (h : Room o s) (pat : Str → Bool) (p z : Str) (ft : FT) :
    Finds o (select o pat p z ft s) s (if wanted o pat z ft then [item o p z] else []) := by
  rw [select]
  by_cases h1 : (typesOk o ft && noTypesOk o ft && pat z) = false
  · rw [if_pos h1, wanted, h1]
    exact finds_go h s.disc
  · rw [if_neg h1, wanted, (Bool.not_eq_false _).mp h1, Bool.true_and]
    cases hf : o.filter with
    | none => exact finds_dump hd h p z
    | some f =>
      dsimp only
      by_cases hz : f z = true
      · rw [if_pos hz, if_pos hz]; exact finds_dump hd h p z
      · rw [if_neg hz, if_neg hz]; exact finds_go h _

theorem finds_afterDir {o : Opts} (hd : o.maxDiscard = 0) {s : St} (h : Room o s) (pat : Str → Bool) (p z : Str) :
    Finds o (afterDir o pat p z s) s (own o pat p z .dir) := by
  rw [afterDir, own, wantedT, wantedDir]
  by_cases h1 : o.types = none ∧ o.noTypes ≠ none
  · rw [if_pos h1, if_neg (by
      obtain ⟨h2, h3⟩ := h1
      cases hn : o.noTypes with
      | none => exact absurd hn h3
      | some x => simp [h2])]
    exact finds_go h s.disc
  · rw [if_neg h1]
    have : (!(o.types.isNone && o.noTypes.isSome)) = true := by
      cases ht : o.types with
      | none => cases hn : o.noTypes with
        | none => rfl
        | some x => exact absurd ⟨ht, by simp [hn]⟩ h1
      | some x => rfl
    rw [this, Bool.true_and]
    exact finds_select hd h pat p z .dir

/-- A call finds `w`. -/
def FindsC (o : Opts) (r : Bool × St) (s : St) (w : List Str) : Prop :=
  ∃ d, r = (true, s.plus (cutoff o.limit s.cnt w) d)

theorem cutoff_all {lim c : Nat} {w : List Str} (h : ¬(lim ≠ 0 ∧ lim ≤ c + w.length)) : cutoff lim c w = w := by
  rw [cutoff]
  by_cases h0 : lim = 0
  · rw [if_pos h0]
  · rw [if_neg h0, List.take_of_length_le]
    have : ¬ lim ≤ c + w.length := fun x => h ⟨h0, x⟩
    omega

theorem cutoff_app {lim c : Nat} {w x : List Str} (h : lim ≠ 0 ∧ lim ≤ c + w.length) : cutoff lim c (w ++ x) = cutoff lim c w := by
  rw [cutoff, cutoff, if_neg h.1, if_neg h.1, List.take_append_of_le_length (by omega)]

theorem cutoff_len {lim c : Nat} {w : List Str} (h : lim ≠ 0 ∧ lim ≤ c + w.length) : (cutoff lim c w).length = lim - c := by
  rw [cutoff, if_neg h.1, List.length_take]; omega

theorem cutoff_app' {lim c : Nat} {w x : List Str} (h : ¬(lim ≠ 0 ∧ lim ≤ c + w.length)) :
    cutoff lim c (w ++ x) = w ++ cutoff lim (c + w.length) x := by
  by_cases h0 : lim = 0
  · simp [cutoff, h0]
  · have h1 : ¬ lim ≤ c + w.length := fun x => h ⟨h0, x⟩
    rw [cutoff, cutoff, if_neg h0, if_neg h0, List.take_append, List.take_of_length_le (by omega), Nat.sub_sub]

theorem finds_loop {o : Opts} (f : Str × FT → St → Step) (W : Str × FT → List Str) : ∀ (l : List (Str × FT)) (s : St), Room o s →
    (∀ e ∈ l, ∀ s, Room o s → Finds o (f e s) s (W e)) → FindsC o (loop f l s) s (l.flatMap W)
  | [], s, h, _ => ⟨s.disc, by
      rw [loop, List.flatMap_nil, cutoff_all (by rcases h with h | h <;> simp [h]), plus_nil]⟩
  | e :: t, s, h, hf => by
    obtain ⟨d, hd⟩ := hf e (by simp) s h
    rw [loop, hd, List.flatMap_cons]
    by_cases hl : o.limit ≠ 0 ∧ o.limit ≤ s.cnt + (W e).length
    · rw [if_pos hl]
      exact ⟨d, by rw [cutoff_app hl]⟩
    · rw [if_neg hl]
      have hr : Room o (s.plus (W e) d) := by
        by_cases h0 : o.limit = 0
        · exact Or.inl h0
        · exact Or.inr (by simp only [St.plus]; have : ¬ o.limit ≤ s.cnt + (W e).length := fun x => hl ⟨h0, x⟩; omega)
      obtain ⟨d', hd'⟩ := finds_loop f W t (s.plus (W e) d) hr (fun x hx => hf x (by simp [hx]))
      refine ⟨d', ?_⟩
      dsimp only
      rw [hd', cutoff_app' hl]
      simp [St.plus, Nat.add_assoc]

theorem finds_back {o : Opts} (hd : o.maxDiscard = 0) {s : St} (h : Room o s) (pat : Str → Bool) (p z : Str) {r : Bool × St}
    {w : List Str} (hr : FindsC o r s w) : Finds o (back o pat p z r) s (w ++ own o pat p z .dir) := by
  obtain ⟨d, rfl⟩ := hr
  rw [back]
  by_cases hl : o.limit ≠ 0 ∧ o.limit ≤ s.cnt + w.length
  · have hc := cutoff_len hl
    rw [if_pos ⟨hl.1, by simp only [St.plus]; omega⟩]
    refine ⟨d, ?_⟩
    rw [if_pos ⟨hl.1, by simp; omega⟩, cutoff_app hl]
  · rw [cutoff_all hl, if_neg (by simpa [St.plus] using hl), if_neg (by simp [hd]), if_neg (by simp)]
    have hr : Room o (s.plus w d) := by
      by_cases h0 : o.limit = 0
      · exact Or.inl h0
      · exact Or.inr (by simp only [St.plus]; have : ¬ o.limit ≤ s.cnt + w.length := fun x => hl ⟨h0, x⟩; omega)
    obtain ⟨d', h'⟩ := finds_afterDir hd hr pat p z
    refine ⟨d', ?_⟩
    dsimp only
    rw [h']
    have e : (s.plus w d).cnt + (own o pat p z .dir).length = s.cnt + (w ++ own o pat p z .dir).length := by
      simp [St.plus, Nat.add_assoc]
    rw [e, cutoff_app' hl]
    split <;> simp [St.plus, Nat.add_assoc]

/-- The search with a pattern for the names. -/
theorem finds_sub {fs : FS} {gm : Str → Str → Bool} {o : Opts} (hd : o.maxDiscard = 0) (hw : wantsDirs o = false ∨ o.recurse = false)
    (pat : Str → Bool) : ∀ (n k deep : Nat) (p : Str) (s : St), Room o s → k < n →
    k = (if o.recurse then o.maxDepth - deep else 0) →
    (deep ≠ 0 ∧ o.recurse = true ∨ (fs.ls (if p = [] then [46] else p)).isSome) →
    FindsC o (sub fs gm o n (some pat) p deep s) s (walk fs o pat k p)
  | 0, k, deep, p, s, h, hk, _, _ => by omega
  | n + 1, k, deep, p, s, h, hk, hkd, hls => by
    rw [sub, walk]
    cases hl : fs.ls (if p = [] then [46] else p) with
    | none =>
      have : deep ≠ 0 ∧ o.recurse = true := by
        rcases hls with h | h
        · exact h
        · rw [hl] at h; simp at h
      refine ⟨s.disc, ?_⟩
      simp only [Option.getD_none, List.flatMap_nil]
      rw [cutoff_all (by rcases h with h | h <;> simp [h]), plus_nil, this.2]
      simp [this.1]
    | some l =>
      refine finds_loop _ _ l s h ?_
      intro e _ s h
      rw [step]
      cases hft : ftOf fs o p e.1 e.2 with
      | none => exact finds_go h s.disc
      | some ft =>
        cases ft with
        | dir =>
          dsimp only
          rw [dirStep]
          by_cases hr : o.recurse = true ∧ deep + 1 ≤ o.maxDepth
          · rw [if_pos hr]
            rw [if_pos hr.1] at hkd
            obtain ⟨k', rfl⟩ : ∃ k', k = k' + 1 := ⟨k - 1, by omega⟩
            dsimp only
            cases hdo : dirOk o (pj p e.1)
            · rw [if_pos rfl]; exact finds_go h s.disc
            · rw [if_neg (by simp), if_pos rfl]
              have hw' : wantsDirs o = false := by
                rcases hw with hw | hw
                · exact hw
                · rw [hr.1] at hw; simp at hw
              rw [hw', if_neg (by simp)]
              refine finds_back hd h pat p e.1 ?_
              refine finds_sub hd hw pat n k' (deep + 1) _ s h (by omega) ?_ (Or.inl ⟨by omega, hr.1⟩)
              rw [if_pos hr.1]; omega
          · rw [if_neg hr]
            have hk0 : k = 0 := by
              rw [hkd]
              split
              · rename_i hre
                have : ¬ deep + 1 ≤ o.maxDepth := fun x => hr ⟨hre, x⟩
                omega
              · rfl
            subst hk0
            exact finds_afterDir hd h pat p e.1
        | reg | lnk | fifo | sock | chr | blk => exact finds_select hd h pat p e.1 _

end Verif.FGlob
