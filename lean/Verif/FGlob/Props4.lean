import Verif.FGlob.Props3

/-! # More about `noTypes` and `maxDiscard` (C195) -/

namespace Verif.FGlob

open Verif

theorem item_names {v : Env} {a : Args} (ht : a.tails = false) (hp : a.pre = none) {d : Str} (hd : a.dir = some d) (hne : d ≠ []) (n : Str) :
    item (optsOf v a) d n = n := by
  have := item_rel (v := v) (a := a) ht (d := d) (by rw [hd]; rfl) hne [] n (Or.inl rfl)
  rw [List.append_nil] at this
  rw [this, shown, hp]; rfl

/-- **C195 (part).** Without `recurse` and `types`, `noTypes` leaves the names that match of what is none of the types given
and neither a directory nor a link. -/
theorem C195_notypes_partial (fs : FS) (gm : Str → Str → Bool) (v : Env) (p d t : Str) (hp : p ≠ [])
    (h47 : (47 : UInt8) ∉ p) (hne : d ≠ []) (hstar : (42 : UInt8) ∉ d) (hlast : d.getLastD 0 ≠ 47) (l : List (Str × FT))
    (hl : fs.ls d = some l) :
    ∃ items, glob fs gm v (.glob p) { limit := -1, dir := some d, noTypes := some t } = .list items ∧
      ∀ r, r ∈ items ↔ r.head? ≠ some 46 ∧ gm p r = true ∧ ∃ ft, (r, ft) ∈ l ∧ ft ≠ .dir ∧ ft ≠ .lnk ∧ code ft ∉ t := by
  obtain ⟨n, h⟩ := one_dir (fs := fs) (gm := gm) (v := v) (a := { limit := -1, dir := some d, noTypes := some t }) rfl rfl hp h47 rfl hne
    hstar hlast hl
  refine ⟨_, by rw [h, result, if_neg (by simp), if_neg (by simp)], ?_⟩
  generalize ha : ({ limit := -1, dir := some d, noTypes := some t } : Args) = a
  have h0 : (optsOf v a).limit = 0 := by rw [← ha]; rfl
  have ht : (optsOf v a).types = none := by rw [← ha]; rfl
  have hn : (optsOf v a).noTypes = some t := by rw [← ha]; rfl
  have hf : (optsOf v a).filter = none := by rw [← ha]; rfl
  have hi := item_names (v := v) (a := a) (by rw [← ha]) (by rw [← ha]) (d := d) (by rw [← ha]) hne
  intro r
  simp only [St.plus, List.nil_append, cutoff, h0, if_true]
  rw [walk, if_neg hne, hl]
  simp only [Option.getD_some, List.mem_flatMap]
  constructor
  · rintro ⟨e, he, hr⟩
    obtain ⟨z, ft⟩ := e
    by_cases hz : z.head? = some 46
    · simp [ftOf, hz] at hr
    · cases ft <;> simp [ftOf, hz, hn, ht, hf, own, wantedT, wantedDir, wanted, typesOk, noTypesOk] at hr <;>
        (obtain ⟨⟨h1, h2⟩, rfl⟩ := hr; rw [hi]; exact ⟨hz, h2, _, he, by simp, by simp, h1⟩)
  · rintro ⟨hz, hg, ft, he, h1, h2, h3⟩
    refine ⟨(r, ft), he, ?_⟩
    cases ft <;> first | exact absurd rfl h1 | exact absurd rfl h2 | simp [ftOf, hz, hn, ht, hf, own, wantedT, wanted, typesOk, noTypesOk, h3, hg, hi]

/-- **C195 refuted.** With `noTypes:'f'`, which is to leave out the files, no directory is left. -/
theorem C195_notypes_refuted : ∃ (fs : FS) (gm : Str → Str → Bool), fs.ls (asc "x") = some [(asc "f", .reg), (asc "sub", .dir)] ∧
    (∀ p n, gm p n = true) ∧
    glob fs gm ⟨asc "/", 50, 100⟩ (.glob (asc "*")) { limit := -1, dir := some (asc "x"), noTypes := some (asc "f") } = .list [] :=
  ⟨⟨fun p => if p = asc "x" then some [(asc "f", .reg), (asc "sub", .dir)] else none, fun _ => none⟩, fun _ _ => true, rfl, fun _ _ => rfl,
    by decide +kernel⟩

/-- **C195 (part).** Once `maxDiscard` names that match have been refused, the next that is accepted is the last. -/
theorem C195_discard_partial (fs : FS) (gm : Str → Str → Bool) (v : Env) (p d : Str) (k : Nat) (f : Str → Bool)
    (hp : p ≠ []) (h47 : (47 : UInt8) ∉ p) (hne : d ≠ []) (hstar : (42 : UInt8) ∉ d) (hlast : d.getLastD 0 ≠ 47)
    (ns rest : List Str) (y : Str) (hk : k ≠ 0) (hkn : k ≤ ns.length) (hl : fs.ls d = some (regs (ns ++ y :: rest)))
    (hv : ∀ n ∈ ns, n.head? ≠ some 46 ∧ f n = false ∧ gm p n = true) (hy : y.head? ≠ some 46 ∧ f y = true ∧ gm p y = true) :
    glob fs gm v (.glob p) { limit := -1, dir := some d, maxDiscard := k, filter := some f } = .list [y] := by
  have hlead : lead { limit := -1, dir := some d, maxDiscard := k, filter := some f } = d ++ [47] := by
    rw [lead]
    exact if_neg (fun h => h.elim hne hlast)
  rw [glob, orStar, if_neg hp, withPat, if_neg (by simp), hlead, show d ++ [47] ++ p = d ++ 47 :: p by simp, sub,
    cut_eq (split_dir hstar h47) (by simp)]
  dsimp only
  rw [if_neg hne, hl]
  dsimp only
  generalize ha : ({ limit := -1, dir := some d, maxDiscard := k, filter := some f } : Args) = a
  have h0 : (optsOf v a).limit = 0 := by rw [← ha]; rfl
  have h1 : ∀ ft, typesOk (optsOf v a) ft = true := by rw [← ha]; intro ft; rfl
  have h2 : ∀ ft, noTypesOk (optsOf v a) ft = true := by rw [← ha]; intro ft; rfl
  have h3 : (optsOf v a).filter = some f := by rw [← ha]; rfl
  have h5 : (optsOf v a).maxDiscard = k := by rw [← ha]; rfl
  have h6 : item (optsOf v a) d y = y := item_names (by rw [← ha]) (by rw [← ha]) (by rw [← ha]) hne y
  have h7 : a.retCount = false := by rw [← ha]
  have key : ∀ (ns : List Str) (s : St), s.items = [] → k ≤ s.disc + ns.length →
      (∀ n ∈ ns, n.head? ≠ some 46 ∧ f n = false ∧ gm p n = true) →
      ∃ c e, loop (step fs (optsOf v a) (sub fs gm (optsOf v a) v.maxInc) (gm p) d none 0) (regs (ns ++ y :: rest)) s = (true, ⟨c, e, [y]⟩) := by
    intro ns
    induction ns with
    | nil =>
      intro s hs hd _
      rw [List.nil_append, regs, List.map_cons, loop, step]
      simp only [ftOf, if_neg hy.1]
      rw [if_neg (by simp), select, h1, h2, hy.2.2, if_neg (by simp), h3]
      dsimp only
      rw [if_pos hy.2.1, dump, checked, if_neg (by simp [h0]), h6, hs]
      have hk' : (optsOf v a).maxDiscard ≠ 0 ∧ (optsOf v a).maxDiscard ≤ s.disc := by rw [h5]; exact ⟨hk, by simpa using hd⟩
      rw [if_pos hk']; exact ⟨_, _, rfl⟩
    | cons n ns ih =>
      intro s hs hd hv
      obtain ⟨hv1, hv2, hv3⟩ := hv n (by simp)
      have hstep : step fs (optsOf v a) (sub fs gm (optsOf v a) v.maxInc) (gm p) d none 0 (n, .reg) s = .go { s with disc := s.disc + 1 } := by
        rw [step]
        simp only [ftOf, if_neg hv1]
        rw [if_neg (by simp), select, h1, h2, hv3, if_neg (by simp), h3]
        dsimp only
        rw [hv2]
        rfl
      rw [List.cons_append, regs, List.map_cons, loop, hstep]
      exact ih { s with disc := s.disc + 1 } hs (by simp only [List.length_cons] at hd; show k ≤ s.disc + 1 + ns.length; omega)
        (fun x hx => hv x (by simp [hx]))
  obtain ⟨c, e, h⟩ := key ns {} rfl (by simpa using hkn) hv
  rw [h, result, if_neg (by simp), h7, if_neg (by simp)]

example : glob ⟨fun p => if p = asc "x" then some (regs [asc "a", asc "b", asc "c", asc "d"]) else none, fun _ => none⟩ (fun _ _ => true)
    ⟨asc "/", 50, 100⟩ (.glob (asc "*")) { limit := -1, dir := some (asc "x"), maxDiscard := 1, filter := some fun n => n ≠ asc "a" } =
      .list [asc "b"] :=
  C195_discard_partial _ _ _ _ _ 1 _ (by decide) (by decide) (by decide) (by decide) (by decide) [asc "a"] [asc "c", asc "d"] (asc "b")
    (by decide) (by decide) rfl (by decide) (by decide)

end Verif.FGlob
