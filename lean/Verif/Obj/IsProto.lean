import Verif.Basic
/-!
# isPrototypeOf (C209)

`ObjectIsPrototypeOfCmd` (src/jsiProto.c 595-618) for two objects.  A `__proto__` is a pointer to a value, which holds an object: the pointers are
compared, not the objects.
-/
namespace Verif.Obj.IsProto

/-- A `__proto__`: which value, and the object in it (`none`: the value is no object). -/
structure Link where
  val : Nat
  obj : Option Nat
  deriving DecidableEq

/-- The `__proto__` of each object; `none`: NULL. -/
abbrev Heap := Nat → Option Link

/-- The loop, at most `n` turns.  src/jsiProto.c:607-613. -/
def walk (h : Heap) (t : Nat) : Nat → Option Link → Bool
  | 0, _ => false
  | _ + 1, none => false
  | n + 1, some l =>
    if l.val = t then true
    else match l.obj with
      | none => false
      | some o => walk h t n (h o)

/-- `a.isPrototypeOf(v)`.  src/jsiProto.c:595-618. -/
def isPrototypeOf (h : Heap) (n : Nat) (a v : Nat) : Bool :=
  match h a with
  | none => false
  | some t => walk h t.val n (h v)

/-! ## What it should be -/

/-- `a` is the prototype of `v`, or of its prototype, and so on. -/
inductive InChain (h : Heap) (a : Nat) : Nat → Prop
  | here {v : Nat} {l : Link} : h v = some l → l.obj = some a → InChain h a v
  | up {v o : Nat} {l : Link} : h v = some l → l.obj = some o → InChain h a o → InChain h a v

/-- The prototypes end before `n`. -/
def Ends (h : Heap) : Nat → Option Link → Prop
  | _, none => True
  | 0, some _ => False
  | n + 1, some l =>
    match l.obj with
    | none => True
    | some o => Ends h n (h o)

/-! ## Theorems -/

theorem walk_finds (h : Heap) {a : Nat} {t : Link} (ht : h a = some t) : ∀ (n : Nat) (v : Nat), Ends h n (h v) → InChain h a v → walk h t.val n (h v) = true
  | n, v, he, hc => by
    cases hc with
    | here h1 h2 =>
      rename_i l
      rw [h1] at he ⊢
      cases n with
      | zero => exact absurd he (by simp [Ends])
      | succ n =>
        have he' : Ends h n (h a) := by
          unfold Ends at he
          rw [h2] at he
          exact he
        rw [walk]
        by_cases hl : l.val = t.val
        · rw [if_pos hl]
        · rw [if_neg hl, h2]
          show walk h t.val n (h a) = true
          rw [ht] at he' ⊢
          cases n with
          | zero => exact absurd he' (by simp [Ends])
          | succ n => rw [walk, if_pos rfl]
    | up h1 h2 h3 =>
      rename_i o l
      rw [h1] at he ⊢
      cases n with
      | zero => exact absurd he (by simp [Ends])
      | succ n =>
        have he' : Ends h n (h o) := by
          unfold Ends at he
          rw [h2] at he
          exact he
        rw [walk]
        by_cases hl : l.val = t.val
        · rw [if_pos hl]
        · rw [if_neg hl, h2]
          exact walk_finds h ht n o he' h3

/-- **C209 (part).** An object that has a prototype itself, and is in the chain of `v`, is found there. -/
theorem C209_found_partial (h : Heap) (n : Nat) {a v : Nat} (ha : h a ≠ none) (he : Ends h n (h v)) (hc : InChain h a v) :
    isPrototypeOf h n a v = true := by
  unfold isPrototypeOf
  cases ht : h a with
  | none => exact absurd ht ha
  | some t => exact walk_finds h ht n v he hc

theorem walk_sound (h : Heap) {a t : Nat} (hu : ∀ o l, h o = some l → l.val = t → o = a) : ∀ (n : Nat) (v : Nat), walk h t n (h v) = true → v = a ∨ InChain h a v
  | 0, _, hw => absurd hw (by simp [walk])
  | n + 1, v, hw => by
    cases hv : h v with
    | none => rw [hv] at hw; exact absurd hw (by simp [walk])
    | some l =>
      rw [hv, walk] at hw
      by_cases hl : l.val = t
      · exact Or.inl (hu v l hv hl)
      · rw [if_neg hl] at hw
        cases ho : l.obj with
        | none => rw [ho] at hw; exact absurd hw (by simp)
        | some o =>
          rw [ho] at hw
          rcases walk_sound h hu n o hw with h1 | h1
          · subst h1; exact Or.inr (.here hv ho)
          · exact Or.inr (.up hv ho h1)

/-- **C209 (part).** If no other object has the same `__proto__` value, and `v` is not the object itself, `true` is right. -/
theorem C209_sound_partial (h : Heap) (n : Nat) {a v : Nat} (hv : v ≠ a) (hu : ∀ o, o ≠ a → (h o).map (·.val) ≠ (h a).map (·.val))
    (ht : isPrototypeOf h n a v = true) : InChain h a v := by
  unfold isPrototypeOf at ht
  cases ha : h a with
  | none => rw [ha] at ht; exact absurd ht (by simp)
  | some t =>
    rw [ha] at ht
    have hu' : ∀ o l, h o = some l → l.val = t.val → o = a := by
      intro o l ho hl
      refine Decidable.byContradiction fun hne => hu o hne ?_
      rw [ho, ha]
      show some l.val = some t.val
      rw [hl]
    exact (walk_sound h hu' n v ht).resolve_left hv

/-- **C209 (part).** An object that has no prototype has none. -/
theorem C209_none_partial (h : Heap) (n : Nat) {a v : Nat} (hv : h v = none) : isPrototypeOf h n a v = false ∧ ¬ InChain h a v := by
  constructor
  · unfold isPrototypeOf
    cases h a with
    | none => rfl
    | some t => rw [hv]; cases n <;> rfl
  · intro hc
    cases hc with
    | here h1 _ => rw [hv] at h1; exact absurd h1 (by simp)
    | up h1 _ _ => rw [hv] at h1; exact absurd h1 (by simp)

/-- **C209 refuted.** Any two objects with the same prototype are prototypes of each other, and each of itself: `({}).isPrototypeOf({})` is true. -/
theorem C209_same_refuted (h : Heap) (n : Nat) {a v : Nat} {l l' : Link} (ha : h a = some l) (hv : h v = some l') (hl : l'.val = l.val) :
    isPrototypeOf h (n + 1) a v = true ∧ isPrototypeOf h (n + 1) v a = true ∧ isPrototypeOf h (n + 1) a a = true := by
  unfold isPrototypeOf
  rw [ha, hv]
  dsimp only
  refine ⟨?_, ?_, ?_⟩
  · rw [walk, if_pos hl]
  · rw [walk, if_pos hl.symm]
  · rw [walk, if_pos rfl]

/-- **C209 refuted.** An object without a prototype is never found: `Object.prototype.isPrototypeOf({})` is false. -/
theorem C209_root_refuted (h : Heap) (n : Nat) {a v : Nat} {l : Link} (ha : h a = none) (hv : h v = some l) (hl : l.obj = some a) :
    isPrototypeOf h n a v = false ∧ InChain h a v := by
  refine ⟨?_, .here hv hl⟩
  unfold isPrototypeOf
  rw [ha]

/-- `Object.prototype` is 0; `p = {}` is 1, `q = {}` is 2, `c = Object.create(p)` is 3. -/
def heap : Heap := fun o => if o = 1 then some ⟨100, some 0⟩ else if o = 2 then some ⟨100, some 0⟩ else if o = 3 then some ⟨101, some 1⟩ else none

/-- The hypotheses are met: `p.isPrototypeOf(c)`; and with `c` and a `d = Object.create(c)` the other. -/
example : heap 1 ≠ none ∧ Ends heap 3 (heap 3) ∧ InChain heap 1 3 ∧ isPrototypeOf heap 3 1 3 = true :=
  ⟨by decide, trivial, .here rfl rfl, by decide⟩

example : (4 : Nat) ≠ 3 ∧ (∀ o, o ≠ 3 → ((fun o => if o = 4 then some ⟨102, some 3⟩ else heap o : Heap) o).map (·.val) ≠ some 101) ∧
    isPrototypeOf (fun o => if o = 4 then some ⟨102, some 3⟩ else heap o) 4 3 4 = true := by
  refine ⟨by decide, ?_, by decide⟩
  intro o ho
  by_cases h4 : o = 4
  · simp [h4]
  · simp only [if_neg h4, heap]
    by_cases h1 : o = 1
    · simp [h1]
    · by_cases h2 : o = 2
      · simp [h2]
      · simp [h1, h2, ho]

/-- **C209 refuted.** `p.isPrototypeOf(q)` and `p.isPrototypeOf(p)` are true; `Object.prototype.isPrototypeOf(c)` is false. -/
theorem C209_refuted : isPrototypeOf heap 3 1 2 = true ∧ isPrototypeOf heap 3 1 1 = true ∧ isPrototypeOf heap 3 0 3 = false := by decide

end Verif.Obj.IsProto
