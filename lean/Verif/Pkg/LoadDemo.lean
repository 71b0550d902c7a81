import Verif.Pkg.LoadProps
/-!
# `require` and `provide`: cases, and what does not hold (C112–C116)
-/
namespace Verif.Pkg

/-- A file system of a few files. -/
def files (l : List (String × Scr)) (p : Path) : Option Scr := (l.find? fun e => decide (asc e.1 = p)).map (·.2)

/-- Packages in `/p`, the script in `/s/main.jsi`. -/
def toy (l : List (String × Scr)) (max : Nat) (noErr : Bool) : Cfg :=
  ⟨files l, [asc "/p"], none, none, none, id, max, noErr⟩

def A : Name := asc "A"
def B : Name := asc "B"
def main : Path := asc "/s/main.jsi"

/-- Two packages that require each other; each provides itself first. -/
def cyc : List (String × Scr) :=
  [("/p/A.jsi", .provide A 10000 (.mark 1 (.require B none false (.mark 2 .done)))),
   ("/p/B.jsi", .provide B 20000 (.mark 3 (.require A none false (.mark 4 .done))))]

/-- Loading them works, each is evaluated once (C112, C116). -/
theorem cyc_loads : topRequire (toy cyc 50 false) main empty A (some 10000) false =
    (⟨[(B, ⟨20000, some (asc "/p/B.jsi"), 0⟩), (A, ⟨10000, some (asc "/p/A.jsi"), 10000⟩)],
      [.start A (asc "/p/A.jsi"), .mark 1, .start B (asc "/p/B.jsi"), .mark 3, .mark 4, .stop B (asc "/p/B.jsi"), .mark 2,
       .stop A (asc "/p/A.jsi")]⟩, some 10000) := by decide +kernel

/-- The hypotheses of `C116_once_partial` are met by them. -/
theorem cyc_provideFirst : ProvideFirst (toy cyc 50 false) := by
  intro d nm i s hi hn h
  have hcs : (d ++ 47 :: ((if i % 2 = 1 then nm ++ [47] else []) ++ nm ++ (if i < 2 then asc ".so" else asc ".jsi")) = asc "/p/A.jsi"
      ∧ s = .provide A 10000 (.mark 1 (.require B none false (.mark 2 .done)))) ∨
      (d ++ 47 :: ((if i % 2 = 1 then nm ++ [47] else []) ++ nm ++ (if i < 2 then asc ".so" else asc ".jsi")) = asc "/p/B.jsi"
      ∧ s = .provide B 20000 (.mark 3 (.require A none false (.mark 4 .done)))) := by
    have h : files cyc (fileAt d nm i) = some s := h
    unfold files cyc at h
    simp only [List.find?_cons, List.find?_nil] at h
    unfold fileAt at h
    split at h
    · rename_i e
      exact Or.inl ⟨(of_decide_eq_true e).symm, (Option.some.inj h).symm⟩
    · split at h
      · rename_i e
        exact Or.inr ⟨(of_decide_eq_true e).symm, (Option.some.inj h).symm⟩
      · cases h
  have slash : ∀ c ∈ nm, c ≠ 47 := by
    intro c hc e
    subst e
    cases nm with
    | nil => cases hc
    | cons a r =>
      simp only [isAlnum, Bool.and_eq_true, List.all_eq_true] at hn
      rcases List.mem_cons.mp hc with h' | h'
      · subst h'; exact absurd hn.1 (by decide)
      · exact absurd (hn.2 47 h') (by decide)
  have last : ∀ (x y : List UInt8) (a b : List UInt8), (∀ c ∈ x, c ≠ 47) → (∀ c ∈ y, c ≠ 47) → a ++ 47 :: x = b ++ 47 :: y → x = y := by
    intro x y a b hx hy e
    rcases List.append_eq_append_iff.mp e with ⟨c, hc, hc'⟩ | ⟨c, hc, hc'⟩
    · cases c with
      | nil => exact (List.cons.inj hc').2
      | cons u t =>
        have := (List.cons.inj hc').2
        exact absurd rfl (hx 47 (by rw [this]; simp))
    · cases c with
      | nil => exact (List.cons.inj hc').2.symm
      | cons u t =>
        have := (List.cons.inj hc').2
        exact absurd rfl (hy 47 (by rw [this]; simp))
  have ext : ∀ c ∈ (nm ++ (if i < 2 then asc ".so" else asc ".jsi")), c ≠ 47 := by
    intro c hc
    rcases List.mem_append.mp hc with h' | h'
    · exact slash c h'
    · split at h'
      · clear hc; revert c; decide
      · clear hc; revert c; decide
  have file : ∀ (X : Name) (p : Path), (∀ c ∈ X ++ asc ".jsi", c ≠ 47) → p = asc "/p" ++ 47 :: (X ++ asc ".jsi") →
      d ++ 47 :: ((if i % 2 = 1 then nm ++ [47] else []) ++ nm ++ (if i < 2 then asc ".so" else asc ".jsi")) = p →
      nm ++ (if i < 2 then asc ".so" else asc ".jsi") = X ++ asc ".jsi" := by
    intro X p hX hp e
    rw [hp] at e
    by_cases h1 : i % 2 = 1
    · rw [if_pos h1] at e
      have : d ++ 47 :: (nm ++ [47] ++ nm ++ (if i < 2 then asc ".so" else asc ".jsi")) =
          (d ++ 47 :: nm) ++ 47 :: (nm ++ (if i < 2 then asc ".so" else asc ".jsi")) := by simp
      rw [this] at e
      exact last _ _ _ _ ext hX e
    · rw [if_neg h1, List.nil_append] at e
      exact last _ _ _ _ ext hX e
  have nameEq : ∀ X : Name, nm ++ (if i < 2 then asc ".so" else asc ".jsi") = X ++ asc ".jsi" → nm = X := by
    intro X e
    split at e
    · have h2 := congrArg List.reverse e
      simp only [List.reverse_append] at h2
      have := congrArg List.head? h2
      simp [asc] at this
    · exact List.append_cancel_right e
  rcases hcs with ⟨e, rfl⟩ | ⟨e, rfl⟩
  · exact ⟨10000, _, by omega, by rw [nameEq A (file A _ (by decide) (by decide) e)]⟩
  · exact ⟨20000, _, by omega, by rw [nameEq B (file B _ (by decide) (by decide) e)]⟩

/-- **C112 refuted** With a third argument the version asked for is not compared: asking for version 9 of a
package of version 1 returns 1. -/
theorem C112_options_refuted : (topRequire (toy cyc 50 false) main empty A (some 90000) true).2 = some 10000 ∧
    (topRequire (toy cyc 50 false) main empty A (some 90000) false).2 = none := by decide +kernel

/-- **C112 refuted** … and with the option `noError` never. -/
theorem C112_noError_refuted : (topRequire (toy cyc 50 true) main empty A (some 90000) false).2 = some 10000 := by decide +kernel

/-- **C113 refuted** A second `provide` by the same file is accepted and ignored, whatever its version. -/
theorem C113_second_version_refuted :
    (topRequire (toy [("/p/A.jsi", .provide A 10000 (.provide A 30000 .done))] 50 false) main empty A none false).2 = some 10000 := by
  decide +kernel

/-- **C115 refuted** A package whose file throws after its `provide`: the first `require` is an error, the second
one returns it as if it had been loaded. -/
theorem C115_half_loaded_refuted :
    let cfg := toy [("/p/A.jsi", .mark 1 (.provide A 10000 .throw))] 50 false
    (topRequire cfg main empty A none false).2 = none ∧
    (topRequire cfg main (topRequire cfg main empty A none false).1 A none false).2 = some 10000 := by decide +kernel

/-- The hypotheses of `C115_provide_last_partial` are met by a file that throws before its `provide`. -/
example : ProvidesLast A (.mark 1 .throw) ∧ ProvidesLast A (.mark 1 (.provide A 10000 .done)) := by
  refine ⟨trivial, ?_⟩
  simp [ProvidesLast]

/-- The same two packages, with `provide` at the end. -/
def late : List (String × Scr) :=
  [("/p/A.jsi", .require B none false (.provide A 10000 .done)), ("/p/B.jsi", .require A none false (.provide B 20000 .done))]

/-- **C116 refuted** If packages that require each other provide themselves last, they are evaluated again and
again, until the limit on nesting makes the whole `require` fail: here, with a limit of 5, three times each. -/
theorem C116_late_refuted :
    evaluated A (topRequire (toy late 5 false) main empty A none false).1.log = 3 ∧
    evaluated B (topRequire (toy late 5 false) main empty A none false).1.log = 3 ∧
    (topRequire (toy late 5 false) main empty A none false).2 = none := by decide +kernel

/-- An extension in a directory of its name comes before the script (C114). -/
example : (topRequire (toy [("/p/A.jsi", .provide A 10000 .done), ("/p/A/A.so", .provide A 20000 .done)] 50 false) main empty A none false).2 =
    some 20000 := by decide +kernel

/-- The directory of the script is looked in last (C114). -/
example : (topRequire (toy [("/s/B/B.jsi", .provide B 10000 .done)] 50 false) main empty B none false).1.log =
    [.start B (asc "/s/B/B.jsi"), .stop B (asc "/s/B/B.jsi")] := by decide +kernel

/-- What comes before and after the place where `A` is found, for `C114_first_place`. -/
example : places ([asc "/p"] ++ (none : Option Path).toList ++ (dirOf main).toList) A =
    [(asc "/p/A.so", true), (asc "/p/A/A.so", true)] ++ (asc "/p/A.jsi", false) ::
    [(asc "/p/A/A.jsi", false), (asc "/s/A.so", true), (asc "/s/A/A.so", true), (asc "/s/A.jsi", false), (asc "/s/A/A.jsi", false)] := by
  decide +kernel

end Verif.Pkg
