import Verif.Regex.Lang

/-!
What String.replace and String.match should do: templates, successive matches in a text, and the result of replacing
them, in terms of positions in the whole text.
-/

namespace Verif.Regex

open Verif.Str (Bytes cstr)

/-- No NUL in it. -/
def NoNul (s : Bytes) : Prop := ∀ c ∈ s, c ≠ 0

/-- The part of `s` from `a` to `b`. -/
def part (s : Bytes) (a b : Nat) : Bytes := (s.drop a).take (b - a)

/-- The text of a span, nothing for a group that took no part. -/
def Span.text (s : Bytes) (m : Span) : Option Bytes := if m.so < 0 then none else some (part s m.so.toNat m.eo.toNat)

/-- The pieces of a template. -/
inductive Piece where
  /-- a byte other than `$` -/
  | byte (c : UInt8) (h : c ≠ 36)
  /-- `$$` -/
  | dollar
  /-- `$0` to `$9` -/
  | group (k : Fin 10)
  /-- `$&` -/
  | whole
  /-- `` $` `` -/
  | before
  /-- `$'` -/
  | after
  /-- `$` and a byte that has no meaning behind it -/
  | other (c : UInt8) (h : c ≠ 36 ∧ c ≠ 38 ∧ c ≠ 39 ∧ c ≠ 96 ∧ ¬ (48 ≤ c ∧ c ≤ 57))

/-- How a piece is written. -/
def Piece.src : Piece → Bytes
  | .byte c _ => [c]
  | .dollar => [36, 36]
  | .group k => [36, 48 + UInt8.ofNat k.val]
  | .whole => [36, 38]
  | .before => [36, 96]
  | .after => [36, 39]
  | .other c _ => [36, c]

/-- What a piece stands for when the match in `s` has the spans `l`. -/
def Piece.mean (s : Bytes) (l : List Span) : Piece → Bytes
  | .byte c _ => [c]
  | .dollar => [36]
  | .group k => ((l[k.val]?.bind (Span.text s))).getD []
  | .whole => ((l[0]?.bind (Span.text s))).getD []
  | .before => s.take ((l[0]?.map (·.so.toNat)).getD 0)
  | .after => s.drop ((l[0]?.map (·.eo.toNat)).getD 0)
  | .other c _ => [36, c]

/-- A template as written. -/
def srcOf (ps : List Piece) : Bytes := ps.flatMap Piece.src

/-- A template as meant. -/
def meanOf (s : Bytes) (l : List Span) (ps : List Piece) : Bytes := ps.flatMap (Piece.mean s l)

/-- The result of replacing, in `s` from position `i` on, each match of `r` by the text `f` gives for it: the next
match is the leftmost, longest one that begins where the last one ended or later, and the search goes on one byte
further behind an empty match (ECMAScript, RegExp.prototype[Symbol.replace] with flag g). -/
inductive Replaced (r : Rx) (s : Bytes) (f : Nat → Nat → Bytes) : Nat → Bytes → Prop where
  | done (i) : NoneFrom false s r i → Replaced r s f i (s.drop i)
  | step (i a b out) : FirstFrom false s r i a b → a < b → Replaced r s f b out →
      Replaced r s f i (part s i a ++ f a b ++ out)
  | empty (i a out) : FirstFrom false s r i a a → a < s.length → Replaced r s f (a + 1) out →
      Replaced r s f i (part s i a ++ f a a ++ part s a (a + 1) ++ out)
  | last (i) : FirstFrom false s r i s.length s.length → Replaced r s f i (part s i s.length ++ f s.length s.length)

/-- The texts of the successive matches of `r` in `s` from position `i` on (String.match with flag g). -/
inductive Listed (r : Rx) (s : Bytes) : Nat → List Bytes → Prop where
  | done (i) : NoneFrom false s r i → Listed r s i []
  | step (i a b l) : FirstFrom false s r i a b → a < b → Listed r s b l → Listed r s i (part s a b :: l)
  | empty (i a l) : FirstFrom false s r i a a → a < s.length → Listed r s (a + 1) l → Listed r s i ([] :: l)
  | last (i) : FirstFrom false s r i s.length s.length → Listed r s i [[]]

theorem FirstFrom.unique {nb s r i a b a' b'} (h : FirstFrom nb s r i a b) (h' : FirstFrom nb s r i a' b') :
    a = a' ∧ b = b' := by
  have h1 := h.2.2.2.1 a' b' h'.1 h'.2.1 h'.2.2.1
  have h2 := h'.2.2.2.1 a b h.1 h.2.1 h.2.2.1
  have e : a = a' := by omega
  subst e
  have h3 := h.2.2.2.2 b' h'.2.2.1
  have h4 := h'.2.2.2.2 b h.2.2.1
  exact ⟨rfl, by omega⟩

theorem FirstFrom.not_none {nb s r i a b} (h : FirstFrom nb s r i a b) : ¬ NoneFrom nb s r i :=
  fun h' => h' a b h.1 h.2.1 h.2.2.1

/-- There is only one right result. -/
theorem Replaced.unique {r s f i o1} (h : Replaced r s f i o1) : ∀ {o2}, Replaced r s f i o2 → o1 = o2 := by
  induction h with
  | done i h =>
    intro o2 h2
    cases h2 with
    | done => rfl
    | step _ _ _ _ h' => exact absurd h h'.not_none
    | empty _ _ _ h' => exact absurd h h'.not_none
    | last _ h' => exact absurd h h'.not_none
  | step i a b out h hab _ ih =>
    intro o2 h2
    cases h2 with
    | done _ h' => exact absurd h' h.not_none
    | step _ a' b' _ h' _ h'' => obtain ⟨rfl, rfl⟩ := h.unique h'; rw [ih h'']
    | empty _ a' _ h' => obtain ⟨rfl, rfl⟩ := h.unique h'; omega
    | last _ h' => obtain ⟨rfl, rfl⟩ := h.unique h'; omega
  | empty i a out h hab _ ih =>
    intro o2 h2
    cases h2 with
    | done _ h' => exact absurd h' h.not_none
    | step _ a' b' _ h' _ h'' => obtain ⟨rfl, rfl⟩ := h.unique h'; omega
    | empty _ a' _ h' _ h'' => obtain ⟨rfl, _⟩ := h.unique h'; rw [ih h'']
    | last _ h' => obtain ⟨rfl, _⟩ := h.unique h'; omega
  | last i h =>
    intro o2 h2
    cases h2 with
    | done _ h' => exact absurd h' h.not_none
    | step _ a' b' _ h' _ h'' => obtain ⟨rfl, rfl⟩ := h.unique h'; omega
    | empty _ a' _ h' h'' => obtain ⟨rfl, _⟩ := h.unique h'; omega
    | last _ h' => rfl

/-- There is only one right list. -/
theorem Listed.unique {r s i o1} (h : Listed r s i o1) : ∀ {o2}, Listed r s i o2 → o1 = o2 := by
  induction h with
  | done i h =>
    intro o2 h2
    cases h2 with
    | done => rfl
    | step _ _ _ _ h' => exact absurd h h'.not_none
    | empty _ _ _ h' => exact absurd h h'.not_none
    | last _ h' => exact absurd h h'.not_none
  | step i a b out h hab _ ih =>
    intro o2 h2
    cases h2 with
    | done _ h' => exact absurd h' h.not_none
    | step _ a' b' _ h' _ h'' => obtain ⟨rfl, rfl⟩ := h.unique h'; rw [ih h'']
    | empty _ a' _ h' => obtain ⟨rfl, rfl⟩ := h.unique h'; omega
    | last _ h' => obtain ⟨rfl, rfl⟩ := h.unique h'; omega
  | empty i a out h hab _ ih =>
    intro o2 h2
    cases h2 with
    | done _ h' => exact absurd h' h.not_none
    | step _ a' b' _ h' _ h'' => obtain ⟨rfl, rfl⟩ := h.unique h'; omega
    | empty _ a' _ h' _ h'' => obtain ⟨rfl, _⟩ := h.unique h'; rw [ih h'']
    | last _ h' => obtain ⟨rfl, _⟩ := h.unique h'; omega
  | last i h =>
    intro o2 h2
    cases h2 with
    | done _ h' => exact absurd h' h.not_none
    | step _ a' b' _ h' _ h'' => obtain ⟨rfl, rfl⟩ := h.unique h'; omega
    | empty _ a' _ h' h'' => obtain ⟨rfl, _⟩ := h.unique h'; omega
    | last _ h' => rfl

/-- How to show where a match is in a concrete text. -/
theorem firstFrom_of_seek {nb s r i a b} (hi : i ≤ s.length) (h : seek nb s r (s.length + 1 - i) i = some (a, b)) :
    FirstFrom nb s r i a b := seek_some _ _ _ _ (by omega) h

theorem noneFrom_of_seek {nb s r i} (hi : i ≤ s.length) (h : seek nb s r (s.length + 1 - i) i = none) :
    NoneFrom nb s r i := seek_none _ _ (by omega) h

/-! ### Facts used below -/

theorem cstr_noNul {s : Bytes} (h : NoNul s) : cstr s = s := by
  induction s with
  | nil => rfl
  | cons c s ih =>
    have hc : c ≠ 0 := h c (by simp)
    have := ih (fun x hx => h x (List.mem_cons_of_mem _ hx))
    rw [cstr] at this ⊢
    rw [List.takeWhile_cons_of_pos (by simpa using hc), this]

theorem NoNul.drop {s : Bytes} (h : NoNul s) (n : Nat) : NoNul (s.drop n) :=
  fun c hc => h c (List.mem_of_mem_drop hc)

theorem NoNul.take {s : Bytes} (h : NoNul s) (n : Nat) : NoNul (s.take n) :=
  fun c hc => h c (List.mem_of_mem_take hc)

theorem rd_eq {p : Bytes} (h : NoNul p) {m : Span} (hm : m.In p.length) :
    rd p m.so m.eo = some (part p m.so.toNat m.eo.toNat) := by
  obtain ⟨h1, h2, h3⟩ := hm
  rw [rd, cstr_noNul h, if_pos ⟨h1, h2, h3⟩, part]
  congr 2; omega

theorem substrDup_eq {p : Bytes} (h : NoNul p) {m : Span} (hm : m.In p.length) :
    Utf8.substrDup (cstr p) m.so (m.eo - m.so) = some (part p m.so.toNat m.eo.toNat) := by
  obtain ⟨h1, h2, h3⟩ := hm
  rw [cstr_noNul h, Utf8.substrDup, part]
  by_cases he : m.eo - m.so = 0
  · rw [if_pos he, show m.eo.toNat - m.so.toNat = 0 by omega, List.take_zero]
  · rw [if_neg he, if_neg (by omega)]
    have hf : Utf8.fixNeg p.length m.so = m.so.toNat := by rw [Utf8.fixNeg, if_neg (by omega)]
    simp only [hf]
    rw [if_neg (by omega), if_pos (by omega)]
    congr 2; omega

end Verif.Regex
