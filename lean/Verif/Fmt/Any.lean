import Verif.Fmt.Lemmas

/-! Facts about every format, well formed or not. -/

namespace Verif.Fmt
open Verif Verif.Utf8

theorem peek_pos (r : List UInt8) : 1 ≤ (peek r).2 := by
  by_cases h : r = []
  · subst h; decide
  · obtain ⟨v, k, e, h1, _⟩ := C06_decode_safe r h
    simp [peek, e, h1]

theorem flagLoop_rem (n : Nat) : ∀ s f, flagLoop n s = some f → f.rem.length ≤ s.rem.length := by
  induction n with
  | zero => intro s f h; simp [flagLoop] at h
  | succ n ih =>
    intro s f h
    rw [flagLoop] at h
    simp only [] at h
    split at h
    · split at h
      · simp at h
      · have := ih _ _ h
        simp only [List.length_drop] at this; omega
    · cases h; exact Nat.le_refl _

theorem strtoul_rem (r : List UInt8) : (strtoul r).2.length ≤ r.length := by
  unfold strtoul
  have := List.takeWhile_append_dropWhile (p := isDig) (l := r)
  have := congrArg List.length this
  simp only [List.length_append] at this
  simp only []; omega

theorem bind_ok {α β : Type} {x : R α} {f : α → R β} {b : β} (h : x.bind f = .ok b) : ∃ a, x = .ok a ∧ f a = .ok b := by
  cases x with
  | ok a => exact ⟨a, rfl, h⟩
  | err => cases h
  | undef => cases h
  | null => cases h

theorem widthStep_rem {F} (E : Env F) (A : List (Arg F)) (s : Flags) (ai : Nat) (w : Wid) (h : widthStep E A s ai = .ok w) :
    w.rem.length ≤ s.rem.length ∧ ai ≤ w.ai := by
  unfold widthStep at h
  simp only [] at h
  split at h
  · have := R.ok.inj h; subst this; exact ⟨strtoul_rem _, Nat.le_refl _⟩
  · split at h
    · split at h
      · cases h
      · obtain ⟨z, _, h2⟩ := bind_ok h
        split at h2 <;> (have := R.ok.inj h2; subst this; simp)
    · cases h; exact ⟨Nat.le_refl _, Nat.le_refl _⟩

theorem dotStep_rem (r : List UInt8) : (dotStep r).2.length ≤ r.length := by
  unfold dotStep; split <;> simp

theorem precStep_rem {F} (E : Env F) (A : List (Arg F)) (r : List UInt8) (ai : Nat) (p : Pre) (h : precStep E A r ai = .ok p) :
    p.rem.length ≤ r.length ∧ ai ≤ p.ai := by
  unfold precStep at h
  simp only [] at h
  split at h
  · have := R.ok.inj h; subst this; exact ⟨strtoul_rem _, Nat.le_refl _⟩
  · split at h
    · split at h
      · cases h
      · obtain ⟨z, _, h2⟩ := bind_ok h
        cases h2; simp
    · cases h; exact ⟨Nat.le_refl _, Nat.le_refl _⟩

theorem lenMod_rem (r : List UInt8) : (lenMod r).length ≤ r.length := by
  unfold lenMod
  split
  · simp
  · split
    · simp only []; split <;> simp
    · exact Nat.le_refl _

theorem finish_rem {F} (E : Env F) (A : List (Arg F)) (pad : UInt8) (w : Wid) (got : Bool) (p : Pre) (buf : Int) (d : Dir1)
    (h : finish E A pad w got p buf = .ok d) : d.rem.length ≤ p.rem.length ∧ d.ai = p.ai + 1 := by
  unfold finish at h
  simp only [] at h
  split at h
  · cases h
  · obtain ⟨pc, _, h2⟩ := bind_ok h
    cases h2
    have := lenMod_rem p.rem
    simp only [List.length_drop]
    exact ⟨by omega, trivial⟩

theorem directive_rem {F} (E : Env F) (A : List (Arg F)) (r : List UInt8) (ai : Nat) (buf : Int) (d : Dir1)
    (h : directive E A r ai buf = .ok d) : d.rem.length ≤ r.length := by
  unfold directive at h
  split at h
  · cases h
  · split at h
    · cases h
    · rename_i f hf
      obtain ⟨w, hw, h2⟩ := bind_ok h
      obtain ⟨p, hp, h3⟩ := bind_ok h2
      have h1 := flagLoop_rem _ _ _ hf
      have h2 := widthStep_rem E A f ai w hw
      have h3' := dotStep_rem w.rem
      have h4 := precStep_rem E A _ _ p hp
      have h5 := finish_rem E A _ w _ p buf d h3
      simp only [] at h1
      omega

theorem round_rem {F} (E : Env F) (A : List (Arg F)) (s s' : St) (hs : s.rem ≠ []) (h : round E A s = .ok s') :
    s'.rem.length < s.rem.length := by
  have hp := peek_pos s.rem
  have hl : 0 < s.rem.length := List.length_pos_iff.mpr hs
  unfold round at h
  simp only [] at h
  split at h
  · cases h; simp only [List.length_drop]; omega
  · split at h
    · cases h; simp only [List.length_drop]; omega
    · obtain ⟨d, hd, h2⟩ := bind_ok h
      cases h2
      have := directive_rem E A _ _ _ _ hd
      simp only [List.length_drop] at this ⊢; omega

theorem out_ne {α : Type} {x : R α} {f : α → Out} {o : Out} (h1 : x = .err → o ≠ .err) (h2 : x = .undef → o ≠ .undef)
    (h3 : x = .null → o ≠ .null) (h : ∀ a, x = .ok a → f a ≠ o) : x.out f ≠ o := by
  cases x with
  | ok a => exact h a rfl
  | err => exact (h1 rfl).symm
  | undef => exact (h2 rfl).symm
  | null => exact (h3 rfl).symm

theorem loop_not_stuck {F} (E : Env F) (A : List (Arg F)) (n : Nat) : ∀ s : St, s.rem.length < n → loop E A n s ≠ .stuck := by
  induction n with
  | zero => intro s h; omega
  | succ n ih =>
    intro s h
    rw [loop]
    split
    · simp
    · rename_i hne
      refine out_ne (by simp) (by simp) (by simp) (fun s' hs' => ?_)
      have := round_rem E A s s' hne hs'
      exact ih s' (by omega)

/-- **C86 (termination).** `format` comes to an end on every format and every argument list. -/
theorem C86_terminates {F} (E : Env F) (fmt : List UInt8) (args : List (Arg F)) : formatString E fmt args ≠ .stuck :=
  loop_not_stuck E _ _ _ (by simp)

/-! ### Arguments -/

theorem getLong_ok {F} {E : Env F} {A : List (Arg F)} {i : Nat} {z : Int} (h : getLong E A i = .ok z) : i < A.length := by
  unfold getLong at h
  split at h
  · rename_i x hx
    exact (List.getElem?_eq_some_iff.1 hx).1
  · cases h

theorem widthStep_ai {F} (E : Env F) (A : List (Arg F)) (s : Flags) (ai : Nat) (w : Wid) (hai : ai < A.length)
    (h : widthStep E A s ai = .ok w) : w.ai < A.length := by
  unfold widthStep at h
  simp only [] at h
  split at h
  · have := R.ok.inj h; subst this; exact hai
  · split at h
    · split at h
      · cases h
      · rename_i hlt
        obtain ⟨z, _, h2⟩ := bind_ok h
        split at h2 <;> (have := R.ok.inj h2; subst this; simp only []; omega)
    · cases h; exact hai

theorem precStep_ai {F} (E : Env F) (A : List (Arg F)) (r : List UInt8) (ai : Nat) (p : Pre) (hai : ai < A.length)
    (h : precStep E A r ai = .ok p) : p.ai < A.length := by
  unfold precStep at h
  simp only [] at h
  split at h
  · have := R.ok.inj h; subst this; exact hai
  · split at h
    · split at h
      · cases h
      · rename_i hlt
        obtain ⟨z, _, h2⟩ := bind_ok h
        cases h2; simp only []; omega
    · cases h; exact hai

theorem bind_null {α β : Type} {x : R α} {f : α → R β} (h1 : x ≠ .null) (h2 : ∀ a, x = .ok a → f a ≠ .null) : x.bind f ≠ .null := by
  cases x with
  | ok a => exact h2 a rfl
  | err => simp [R.bind]
  | undef => simp [R.bind]
  | null => exact absurd rfl h1

theorem getLong_null {F} (E : Env F) (A : List (Arg F)) (i : Nat) : getLong E A i ≠ .null := by
  unfold getLong; split <;> simp

theorem widthStep_null {F} (E : Env F) (A : List (Arg F)) (s : Flags) (ai : Nat) : widthStep E A s ai ≠ .null := by
  unfold widthStep
  simp only []
  split
  · simp
  · split
    · split
      · simp
      · exact bind_null (getLong_null E A ai) (fun a _ => by split <;> simp)
    · simp

theorem precStep_null {F} (E : Env F) (A : List (Arg F)) (r : List UInt8) (ai : Nat) : precStep E A r ai ≠ .null := by
  unfold precStep
  simp only []
  split
  · simp
  · split
    · split
      · simp
      · exact bind_null (getLong_null E A ai) (fun a _ => by simp)
    · simp

theorem doPrec_null (g : Bool) (p : Int) (b : List UInt8) (buf : Int) : doPrec g p b buf ≠ .null := by
  unfold doPrec; simp only []; split
  · split
    · simp
    · split <;> simp
  · simp

theorem doPrecSelf_null (g : Bool) (p : Int) (b : List UInt8) (buf : Int) : doPrecSelf g p b buf ≠ .null := by
  unfold doPrecSelf; simp only []; split
  · split
    · simp
    · split <;> simp
  · simp

theorem printNum_null (t : List UInt8) (l buf : Int) : printNum t l buf ≠ .null := by
  unfold printNum; simp only []
  generalize (if buf < toInt (l + 1) then toInt (l + 1) else buf) = b
  split
  · simp
  · split <;> simp

theorem convNum_null {F} (E : Env F) (db : Bool) (ch : UInt8) (v : Arg F) (spec : List UInt8) (w : Int) (got : Bool)
    (p buf : Int) : convNum E db ch v spec w got p buf ≠ .null := by
  unfold convNum; simp only []
  split
  · simp
  · cases v with
    | num x =>
      simp only []
      generalize specNum spec w got p ++ (if db = true then [ch] else [108, 108, ch]) = sp
      split
      · simp
      · split
        · exact printNum_null _ _ _
        · split
          · exact printNum_null _ _ _
          · simp
    | str b => simp
    | other a b => simp

theorem convert_null {F} (E : Env F) (ch : Nat) (v : Arg F) (spec : List UInt8) (w : Int) (got : Bool)
    (p buf : Int) : convert E ch v spec w got p buf ≠ .null := by
  unfold convert; simp only []
  generalize (if (ch == 105) = true then 100 else ch) = ch
  split
  · simp
  · split
    · unfold convS; split
      · exact doPrecSelf_null _ _ _ _
      · exact doPrecSelf_null _ _ _ _
      · exact doPrec_null _ _ _ _
    · split
      · unfold convStr; split
        · exact doPrec_null _ _ _ _
        · simp
      · split
        · unfold convC; split
          · simp
          · split <;> simp
          · simp
        · split
          · exact convNum_null E _ _ _ _ _ _ _ _
          · split
            · exact convNum_null E _ _ _ _ _ _ _ _
            · split <;> simp

theorem directive_null {F} (E : Env F) (A : List (Arg F)) (r : List UInt8) (ai : Nat) (buf : Int) : directive E A r ai buf ≠ .null := by
  unfold directive
  split
  · simp
  · rename_i hai
    split
    · simp
    · rename_i f hf
      refine bind_null (widthStep_null E A f ai) (fun w hw => bind_null (precStep_null E A _ _) (fun p hp => ?_))
      have h1 := widthStep_ai E A f ai w (by omega) hw
      have h2 := precStep_ai E A _ _ p h1 hp
      unfold finish
      simp only []
      rw [List.getElem?_eq_getElem h2]
      exact bind_null (convert_null E _ _ _ _ _ _ _) (fun pc _ => by simp)

theorem round_null {F} (E : Env F) (A : List (Arg F)) (s : St) : round E A s ≠ .null := by
  unfold round
  simp only []
  split
  · simp
  · split
    · simp
    · exact bind_null (directive_null E A _ _ _) (fun d _ => by simp)

theorem loop_null {F} (E : Env F) (A : List (Arg F)) (n : Nat) : ∀ s : St, loop E A n s ≠ .null := by
  induction n with
  | zero => intro s; simp [loop]
  | succ n ih =>
    intro s
    rw [loop]
    split
    · simp
    · exact out_ne (by simp) (by simp) (fun h => absurd h (round_null E A s)) (fun s' _ => ih s')

/-- **C86 (no missing argument is used).** Whatever the format and however few the arguments, `format`
never uses an argument that was not given. -/
theorem C86_no_missing_argument {F} (E : Env F) (fmt : List UInt8) (args : List (Arg F)) :
    formatString E fmt args ≠ .null := loop_null E _ _ _

/-! ### More arguments than needed -/

theorem getLong_more {F} {E : Env F} {A : List (Arg F)} (B : List (Arg F)) {i : Nat} {z : Int} (h : getLong E A i = .ok z) :
    getLong E (A ++ B) i = .ok z := by
  have hi := getLong_ok h
  unfold getLong at *
  rw [List.getElem?_append_left hi]; exact h

theorem widthStep_more {F} (E : Env F) (A B : List (Arg F)) (s : Flags) (ai : Nat) (w : Wid)
    (h : widthStep E A s ai = .ok w) : widthStep E (A ++ B) s ai = .ok w := by
  unfold widthStep at *
  simp only [] at *
  split at h
  · rename_i h1; rw [if_pos h1]; exact h
  · rename_i h1
    rw [if_neg h1]
    split at h
    · rename_i h2
      rw [if_pos h2]
      split at h
      · cases h
      · rename_i hlt
        rw [if_neg (by rw [List.length_append]; omega)]
        obtain ⟨z, hz, h3⟩ := bind_ok h
        rw [getLong_more B hz]; exact h3
    · rename_i h2; rw [if_neg h2]; exact h

theorem precStep_more {F} (E : Env F) (A B : List (Arg F)) (r : List UInt8) (ai : Nat) (p : Pre)
    (h : precStep E A r ai = .ok p) : precStep E (A ++ B) r ai = .ok p := by
  unfold precStep at *
  simp only [] at *
  split at h
  · rename_i h1; rw [if_pos h1]; exact h
  · rename_i h1
    rw [if_neg h1]
    split at h
    · rename_i h2
      rw [if_pos h2]
      split at h
      · cases h
      · rename_i hlt
        rw [if_neg (by rw [List.length_append]; omega)]
        obtain ⟨z, hz, h3⟩ := bind_ok h
        rw [getLong_more B hz]; exact h3
    · rename_i h2; rw [if_neg h2]; exact h

theorem finish_more {F} (E : Env F) (A B : List (Arg F)) (pad : UInt8) (w : Wid) (got : Bool) (p : Pre) (buf : Int) (d : Dir1)
    (h : finish E A pad w got p buf = .ok d) : finish E (A ++ B) pad w got p buf = .ok d := by
  unfold finish at *
  simp only [] at *
  rcases hv : A[p.ai]? with _ | v
  · rw [hv] at h; cases h
  · have hlt := (List.getElem?_eq_some_iff.1 hv).1
    rw [List.getElem?_append_left hlt, hv]
    rw [hv] at h; exact h

theorem directive_more {F} (E : Env F) (A B : List (Arg F)) (r : List UInt8) (ai : Nat) (buf : Int) (d : Dir1)
    (h : directive E A r ai buf = .ok d) : directive E (A ++ B) r ai buf = .ok d := by
  unfold directive at *
  by_cases h1 : ai ≥ A.length
  · rw [if_pos h1] at h; cases h
  · rw [if_neg h1] at h
    rw [if_neg (by rw [List.length_append]; omega)]
    split at h
    · cases h
    · rename_i f hf
      obtain ⟨w, hw, h2⟩ := bind_ok h
      obtain ⟨p, hp, h3⟩ := bind_ok h2
      rw [widthStep_more E A B f ai w hw]
      simp only [R.bind]
      rw [precStep_more E A B _ _ p hp]
      exact finish_more E A B _ w _ p buf d h3

theorem round_more {F} (E : Env F) (A B : List (Arg F)) (s s' : St) (h : round E A s = .ok s') : round E (A ++ B) s = .ok s' := by
  unfold round at *
  simp only [] at *
  split at h
  · rename_i h1; rw [if_pos h1]; exact h
  · rename_i h1
    rw [if_neg h1]
    split at h
    · rename_i h2; rw [if_pos h2]; exact h
    · rename_i h2
      rw [if_neg h2]
      obtain ⟨d, hd, h3⟩ := bind_ok h
      rw [directive_more E A B _ _ _ d hd]
      exact h3

theorem loop_more {F} (E : Env F) (A B : List (Arg F)) (n : Nat) : ∀ (s : St) (t : List UInt8), loop E A n s = .ok t →
    loop E (A ++ B) n s = .ok t := by
  induction n with
  | zero => intro s t h; simp [loop] at h
  | succ n ih =>
    intro s t h
    rw [loop] at h ⊢
    split at h
    · rename_i h1; rw [if_pos h1]; exact h
    · rename_i h1
      rw [if_neg h1]
      cases hr : round E A s with
      | ok s' =>
        rw [hr] at h
        rw [round_more E A B s s' hr]
        exact ih s' t h
      | err => rw [hr] at h; cases h
      | undef => rw [hr] at h; cases h
      | null => rw [hr] at h; cases h

/-- **C86 (arguments left over are ignored).** When `format` succeeds, it gives the same text with any
further arguments added at the end. -/
theorem C86_extra_arguments {F} (E : Env F) (fmt : List UInt8) (args extra : List (Arg F)) (t : List UInt8)
    (h : formatString E fmt args = .ok t) : formatString E fmt (args ++ extra) = .ok t :=
  loop_more E (.str fmt :: args) extra _ _ t h

end Verif.Fmt
