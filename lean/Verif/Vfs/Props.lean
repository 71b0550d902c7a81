import Verif.Vfs.Model
/-!
# Vfs: theorems (C214, C215)
-/
namespace Verif.Vfs

theorem under_iff (m p : Path) : under m p = true ↔ p = m ∨ ∃ r, p = m ++ 47 :: r := by
  unfold under
  rw [Bool.and_eq_true, List.isPrefixOf_iff_prefix]
  constructor
  · rintro ⟨⟨r, rfl⟩, h⟩
    rw [List.drop_left] at h
    cases r with
    | nil => exact Or.inl (List.append_nil _)
    | cons c r =>
      have hc : c = 47 := by simpa using h
      exact Or.inr ⟨r, by rw [hc]⟩
  · rintro (rfl | ⟨r, rfl⟩)
    · refine ⟨List.prefix_refl _, ?_⟩
      rw [List.drop_length]
    · refine ⟨List.prefix_append _ _, ?_⟩
      rw [List.drop_left]
      rfl

/-- What the loop keeps. -/
def Best (p : Path) (seen : List Path) : Option Path → Prop
  | none => ∀ m ∈ seen, under m p = false
  | some b => b ∈ seen ∧ under b p = true ∧ ∀ m ∈ seen, under m p = true → b.length ≤ m.length

theorem best_loop (p : Path) : ∀ (ms seen : List Path) (best : Option Path), Best p seen best → Best p (seen ++ ms) (ms.foldl (better p) best)
  | [], seen, best, h => by rw [List.append_nil]; exact h
  | m :: ms, seen, best, h => by
    have e : seen ++ m :: ms = (seen ++ [m]) ++ ms := by simp
    rw [e, List.foldl_cons]
    refine best_loop p ms (seen ++ [m]) _ ?_
    unfold better
    by_cases hu : under m p = true
    · rw [if_pos hu]
      cases best with
      | none =>
        refine ⟨by simp, hu, ?_⟩
        intro x hx hxu
        rcases List.mem_append.1 hx with h1 | h1
        · rw [h x h1] at hxu; cases hxu
        · rw [List.mem_singleton.1 h1]; exact Nat.le_refl _
      | some b =>
        dsimp only
        by_cases hl : m.length < b.length
        · rw [if_pos hl]
          refine ⟨by simp, hu, ?_⟩
          intro x hx hxu
          rcases List.mem_append.1 hx with h1 | h1
          · have := h.2.2 x h1 hxu; omega
          · rw [List.mem_singleton.1 h1]; exact Nat.le_refl _
        · rw [if_neg hl]
          refine ⟨List.mem_append_left _ h.1, h.2.1, ?_⟩
          intro x hx hxu
          rcases List.mem_append.1 hx with h1 | h1
          · exact h.2.2 x h1 hxu
          · rw [List.mem_singleton.1 h1]; omega
    · rw [if_neg hu]
      cases best with
      | none =>
        intro x hx
        rcases List.mem_append.1 hx with h1 | h1
        · exact h x h1
        · rw [List.mem_singleton.1 h1]; simpa using hu
      | some b =>
        refine ⟨List.mem_append_left _ h.1, h.2.1, ?_⟩
        intro x hx hxu
        rcases List.mem_append.1 hx with h1 | h1
        · exact h.2.2 x h1 hxu
        · rw [List.mem_singleton.1 h1] at hxu; exact absurd hxu hu

theorem lookup_best (ms : List Path) (p : Path) : Best p ms (lookup ms p) := by
  have := best_loop p ms [] none (fun _ h => by cases h)
  rw [List.nil_append] at this
  exact this

/-- **C214.** A path has a mount if and only if it is one or lies in one. -/
theorem C214_some (ms : List Path) (p : Path) : (∃ m, lookup ms p = some m) ↔ ∃ m ∈ ms, p = m ∨ ∃ r, p = m ++ 47 :: r := by
  have h := lookup_best ms p
  cases hl : lookup ms p with
  | none =>
    rw [hl] at h
    constructor
    · rintro ⟨m, hm⟩; cases hm
    · rintro ⟨m, hm, hp⟩
      have := h m hm
      rw [(under_iff m p).2 hp] at this
      cases this
  | some b =>
    rw [hl] at h
    exact ⟨fun _ => ⟨b, h.1, (under_iff b p).1 h.2.1⟩, fun _ => ⟨b, rfl⟩⟩

/-- Two mounts of a path lie one in the other. -/
theorem nested (a b p : Path) (ha : under a p = true) (hb : under b p = true) (hl : a.length ≤ b.length) : under a b = true := by
  rw [under_iff] at ha hb ⊢
  rcases hb with rfl | ⟨s, rfl⟩
  · exact ha
  · rcases ha with h | ⟨r, h⟩
    · have := congrArg List.length h
      simp at this
      omega
    · have hd := congrArg (List.take a.length) h
      rw [List.take_left, List.take_append_of_le_length hl] at hd
      have hb : b = a ++ b.drop a.length := by
        have := List.take_append_drop a.length b
        rw [hd] at this
        exact this.symm
      cases hr : b.drop a.length with
      | nil => rw [hr, List.append_nil] at hb; exact Or.inl hb
      | cons c q =>
        rw [hr] at hb
        rw [hb, List.append_assoc] at h
        have := List.append_cancel_left h
        rw [List.cons_append] at this
        have hc : c = 47 := (List.cons.inj this).1
        exact Or.inr ⟨q, by rw [hb, hc]⟩

/-- **C214 (part).** If no mount lies in another, a path that is `m` or lies in `m` has the mount `m`. -/
theorem C214_mount_partial (ms : List Path) (m p : Path) (hm : m ∈ ms) (hp : p = m ∨ ∃ r, p = m ++ 47 :: r)
    (hn : ∀ a ∈ ms, ∀ b ∈ ms, ∀ r, b ≠ a ++ 47 :: r) : lookup ms p = some m := by
  have hu := (under_iff m p).2 hp
  have h := lookup_best ms p
  cases hl : lookup ms p with
  | none => rw [hl] at h; rw [h m hm] at hu; cases hu
  | some b =>
    rw [hl] at h
    have := nested b m p h.2.1 hu (h.2.2 m hm hu)
    rw [under_iff] at this
    rcases this with e | ⟨r, e⟩
    · rw [e]
    · exact absurd e (hn b h.1 m hm r)

/-- **C214 refuted.** A mount inside another is never found: the outer one is taken. -/
theorem C214_nested_refuted (ms : List Path) (a p r : Path) (ha : a ∈ ms) (hp : p = (a ++ 47 :: r) ∨ ∃ q, p = (a ++ 47 :: r) ++ 47 :: q) :
    lookup ms p ≠ some (a ++ 47 :: r) := by
  intro hl
  have h := lookup_best ms p
  rw [hl] at h
  have hu : under a p = true := by
    rw [under_iff]
    rcases hp with rfl | ⟨q, rfl⟩
    · exact Or.inr ⟨r, rfl⟩
    · exact Or.inr ⟨r ++ 47 :: q, by simp⟩
  have := h.2.2 a ha hu
  rw [List.length_append, List.length_cons] at this
  omega

example : lookup [asc "/b", asc "/a"] (asc "/a/x") = some (asc "/a") := by decide +kernel
example : lookup [asc "/b", asc "/a"] (asc "/ab") = none := by decide +kernel
example : lookup [asc "/a/b", asc "/a"] (asc "/a/b/x") = some (asc "/a") := by decide +kernel

/-! ## Files -/

/-- What an open file keeps if it was listed with a size that is not more than its data. -/
def Fits (f : Ch) : Prop := 0 ≤ f.pos ∧ f.pos ≤ f.size ∧ f.size ≤ f.data.length

theorem clamp_fits {size p : Int} (h : 0 ≤ size) : 0 ≤ clamp size p ∧ clamp size p ≤ size := by
  unfold clamp
  split
  · omega
  · split <;> omega

theorem getLine_some : ∀ (n : Nat) (l : List UInt8), n ≤ l.length → ∃ t, getLine n l = some t ∧ t.length ≤ n ∧ t <+: l
  | 0, l, _ => ⟨[], rfl, Nat.le_refl _, List.nil_prefix⟩
  | n + 1, [], h => by simp at h
  | n + 1, c :: l, h => by
    by_cases hc : c = 10
    · exact ⟨[c], by show (if c = 10 then _ else _) = _; rw [if_pos hc], by simp, ⟨l, rfl⟩⟩
    · obtain ⟨t, h1, h2, h3⟩ := getLine_some n l (by simp at h; omega)
      refine ⟨c :: t, ?_, by simp; omega, ?_⟩
      · show (if c = 10 then _ else (getLine n l).map (c :: ·)) = _
        rw [if_neg hc, h1]; rfl
      · obtain ⟨r, hr⟩ := h3
        exact ⟨r, by rw [← hr]; rfl⟩

theorem op_read (f : Ch) (n : Nat) : op f (.read n) =
    if 0 < count f n ∧ (f.data.length : Int) + 1 < f.pos + count f n then none
    else some ({ f with pos := f.pos + count f n }, ((f.data ++ [0]).drop f.pos.toNat).take (count f n).toNat) := rfl

theorem op_gets (f : Ch) (n : Nat) : op f (.gets n) =
    match getLine (min (n - 1) (f.size - f.pos).toNat) ((f.data ++ [0]).drop f.pos.toNat) with
    | none => none
    | some l => some ({ f with pos := f.pos + l.length }, l) := rfl

theorem op_getc (f : Ch) : op f .getc =
    if f.size ≤ f.pos then some (f, [])
    else match (f.data ++ [0])[f.pos.toNat]? with
      | none => none
      | some c => some ({ f with pos := f.pos + 1 }, [c]) := rfl

theorem op_ungetc (f : Ch) (c : UInt8) : op f (.ungetc c) =
    if f.pos ≤ 0 then some (f, [])
    else match (f.data ++ [0])[(f.pos - 1).toNat]? with
      | none => none
      | some d => if d = c then some ({ f with pos := f.pos - 1 }, []) else some (f, []) := rfl

theorem op_fits (f : Ch) (h : Fits f) (o : Op) : ∃ g l, op f o = some (g, l) ∧ Fits g ∧ g.data = f.data ∧ g.size = f.size := by
  obtain ⟨h1, h2, h3⟩ := h
  cases o with
  | read n =>
    have hc : 0 ≤ count f n ∧ count f n ≤ f.size - f.pos := by
      unfold count
      split <;> omega
    rw [op_read, if_neg (by omega)]
    refine ⟨{ f with pos := f.pos + count f n }, _, rfl, ⟨?_, ?_, h3⟩, rfl, rfl⟩
    · show 0 ≤ f.pos + count f n; omega
    · show f.pos + count f n ≤ f.size; omega
  | gets n =>
    obtain ⟨t, e1, e2, _⟩ := getLine_some (min (n - 1) (f.size - f.pos).toNat) ((f.data ++ [0]).drop f.pos.toNat)
      (by rw [List.length_drop, List.length_append]; simp; omega)
    refine ⟨{ f with pos := f.pos + t.length }, t, ?_, ⟨?_, ?_, h3⟩, rfl, rfl⟩
    · rw [op_gets, e1]
    · show 0 ≤ f.pos + t.length; omega
    · show f.pos + t.length ≤ f.size; omega
  | getc =>
    rw [op_getc]
    by_cases he : f.size ≤ f.pos
    · rw [if_pos he]; exact ⟨f, [], rfl, ⟨h1, h2, h3⟩, rfl, rfl⟩
    · rw [if_neg he, List.getElem?_eq_getElem (by rw [List.length_append]; omega)]
      exact ⟨_, _, rfl, ⟨by show 0 ≤ f.pos + 1; omega, by show f.pos + 1 ≤ f.size; omega, h3⟩, rfl, rfl⟩
  | ungetc c =>
    rw [op_ungetc]
    by_cases he : f.pos ≤ 0
    · rw [if_pos he]; exact ⟨f, [], rfl, ⟨h1, h2, h3⟩, rfl, rfl⟩
    · rw [if_neg he, List.getElem?_eq_getElem (by rw [List.length_append]; omega)]
      dsimp only
      split
      · exact ⟨_, _, rfl, ⟨by show 0 ≤ f.pos - 1; omega, by show f.pos - 1 ≤ f.size; omega, h3⟩, rfl, rfl⟩
      · exact ⟨f, [], rfl, ⟨h1, h2, h3⟩, rfl, rfl⟩
  | seekSet o =>
    have := @clamp_fits f.size o (by omega)
    exact ⟨_, _, rfl, ⟨this.1, this.2, h3⟩, rfl, rfl⟩
  | seekCur o =>
    have := @clamp_fits f.size (f.pos - o) (by omega)
    exact ⟨_, _, rfl, ⟨this.1, this.2, h3⟩, rfl, rfl⟩
  | seekEnd o =>
    have := @clamp_fits f.size (f.size - o) (by omega)
    exact ⟨_, _, rfl, ⟨this.1, this.2, h3⟩, rfl, rfl⟩

theorem ops_fits : ∀ (os : List Op) (f : Ch), Fits f → ∃ g ls, ops f os = some (g, ls) ∧ Fits g
  | [], f, h => ⟨f, [], rfl, h⟩
  | o :: os, f, h => by
    obtain ⟨g, l, e1, hg, _, _⟩ := op_fits f h o
    obtain ⟨k, ls, e2, hk⟩ := ops_fits os g hg
    refine ⟨k, l :: ls, ?_, hk⟩
    unfold ops
    rw [e1]
    dsimp only
    rw [e2]

/-- **C215 (part).** If the size a file was listed with is not more than its data, no operations read outside, and the position is in the file. -/
theorem C215_inside_partial (data : List UInt8) (size : Nat) (h : size ≤ data.length) (os : List Op) :
    ∃ g ls, ops ⟨data, size, 0⟩ os = some (g, ls) ∧ 0 ≤ g.pos ∧ g.pos ≤ size := by
  have hf : Fits ⟨data, size, 0⟩ := ⟨Int.le_refl _, by show (0 : Int) ≤ size; omega, by show (size : Int) ≤ data.length; omega⟩
  have : ∀ (os : List Op) (f : Ch), Fits f → ∃ g ls, ops f os = some (g, ls) ∧ Fits g ∧ g.size = f.size := by
    intro os
    induction os with
    | nil => intro f h; exact ⟨f, [], rfl, h, rfl⟩
    | cons o os ih =>
      intro f h
      obtain ⟨g, l, e1, hg, _, hs⟩ := op_fits f h o
      obtain ⟨k, ls, e2, hk, hz⟩ := ih g hg
      refine ⟨k, l :: ls, ?_, hk, by rw [hz, hs]⟩
      unfold ops
      rw [e1]
      dsimp only
      rw [e2]
  obtain ⟨g, ls, e, hg, hs⟩ := this os _ hf
  exact ⟨g, ls, e, hg.1, by have := hg.2.1; rw [hs] at this; exact this⟩

theorem reads (data : List UInt8) (size : Nat) (h : size ≤ data.length) : ∀ (ns : List Nat) (p : Nat), p ≤ size →
    ∃ g ls, ops ⟨data, size, p⟩ (ns.map .read) = some (g, ls) ∧ ls.flatten = ((data.take size).drop p).take ns.sum
  | [], p, _ => ⟨_, [], rfl, by simp⟩
  | n :: ns, p, hp => by
    have hc : count ⟨data, size, p⟩ n = (min n (size - p) : Nat) := by
      unfold count
      dsimp only
      split <;> omega
    obtain ⟨g, ls, e, hl⟩ := reads data size h ns (p + min n (size - p)) (by omega)
    have e1 : op ⟨data, size, p⟩ (.read n) = some (⟨data, size, (p + min n (size - p) : Nat)⟩, ((data.take size).drop p).take n) := by
      rw [op_read, hc, if_neg (by dsimp only; omega)]
      dsimp only
      have e2 : ((p : Int) + ((min n (size - p) : Nat) : Int)) = ((p + min n (size - p) : Nat) : Int) := by omega
      rw [e2, Int.toNat_natCast, Int.toNat_natCast]
      congr 2
      rw [List.drop_append_of_le_length (by omega), List.take_append_of_le_length (by rw [List.length_drop]; omega), List.drop_take, List.take_take]
    refine ⟨g, ((data.take size).drop p).take n :: ls, ?_, ?_⟩
    · rw [List.map_cons]
      unfold ops
      rw [e1]
      dsimp only
      rw [e]
    · rw [List.flatten_cons, hl, List.sum_cons, List.take_add]
      congr 1
      rw [List.drop_drop]
      by_cases hn : n ≤ size - p
      · rw [Nat.min_eq_left hn]
      · rw [Nat.min_eq_right (by omega)]
        rw [List.drop_of_length_le (by rw [List.length_take]; omega), List.drop_of_length_le (by rw [List.length_take]; omega)]

/-- **C215 (part).** Reads of any lengths give the file's bytes in order, and nothing behind the size. -/
theorem C215_read_partial (data : List UInt8) (size : Nat) (h : size ≤ data.length) (ns : List Nat) :
    ∃ g ls, ops ⟨data, size, 0⟩ (ns.map .read) = some (g, ls) ∧ ls.flatten = (data.take size).take ns.sum := by
  obtain ⟨g, ls, e, hl⟩ := reads data size h ns 0 (by omega)
  rw [List.drop_zero] at hl
  exact ⟨g, ls, e, hl⟩

theorem getLine_line : ∀ (l r : List UInt8) (n : Nat), (10 : UInt8) ∉ l → l.length < n → getLine n (l ++ 10 :: r) = some (l ++ [10])
  | [], r, n, _, hn => by
    cases n with
    | zero => simp at hn
    | succ n => show (if (10 : UInt8) = 10 then _ else _) = _; rw [if_pos rfl]; rfl
  | c :: l, r, n, h, hn => by
    cases n with
    | zero => simp at hn
    | succ n =>
      have ih := getLine_line l r n (fun hm => h (List.mem_cons_of_mem _ hm)) (by simp at hn; omega)
      have hc : c ≠ 10 := fun e => h (by rw [e]; exact List.mem_cons_self)
      show (if c = 10 then _ else (getLine n (l ++ 10 :: r)).map (c :: ·)) = _
      rw [if_neg hc, ih]
      rfl

/-- **C215 (part).** With room for it, `gets` gives the next line with its newline, and stands behind it. -/
theorem C215_line_partial (data : List UInt8) (size p n : Nat) (l r : List UInt8) (h : size ≤ data.length) (hd : (data.take size).drop p = l ++ 10 :: r)
    (hl : (10 : UInt8) ∉ l) (hn : l.length + 1 < n) :
    op ⟨data, size, p⟩ (.gets n) = some (⟨data, size, ((p + (l.length + 1) : Nat) : Int)⟩, l ++ [10]) := by
  have hlen := congrArg List.length hd
  rw [List.length_drop, List.length_take, List.length_append, List.length_cons] at hlen
  rw [op_gets]
  dsimp only
  have e : (data ++ [0]).drop (p : Int).toNat = l ++ 10 :: (r ++ (data.drop size ++ [0])) := by
    rw [Int.toNat_natCast, List.drop_append_of_le_length (by omega)]
    have := List.take_append_drop size data
    rw [← this, List.drop_append_of_le_length (by rw [List.length_take]; omega), hd]
    simp
  rw [e, getLine_line l _ _ hl (by omega)]
  dsimp only
  congr 3
  rw [List.length_append]
  simp

/-- **C215.** `getc` before the end gives the byte there. -/
theorem C215_getc (data : List UInt8) (size p : Nat) (h : size ≤ data.length) (hp : p < size) :
    op ⟨data, size, p⟩ .getc = some (⟨data, size, ((p + 1 : Nat) : Int)⟩, [data[p]]) := by
  rw [op_getc]
  dsimp only
  rw [if_neg (by omega), Int.toNat_natCast, List.getElem?_append_left (by omega), List.getElem?_eq_getElem (by omega)]
  dsimp only
  congr 2

/-- **C215 refuted.** A file listed with a size that is more than its data (and the NUL): memory behind the data is read. -/
theorem C215_size_refuted (data : List UInt8) (size : Nat) (h : data.length + 1 < size) : op ⟨data, size, 0⟩ (.read size) = none := by
  have hc : count ⟨data, size, 0⟩ size = size := by
    unfold count
    dsimp only
    rw [if_pos (by omega)]
  rw [op_read, hc, if_pos]
  dsimp only
  omega

/-- **C215 refuted.** A seek from the present position goes the other way. -/
theorem C215_seek_refuted (data : List UInt8) (size p k : Nat) (hk : k ≤ p) (hp : p ≤ size) :
    op ⟨data, size, p⟩ (.seekCur k) = some (⟨data, size, ((p - k : Nat) : Int)⟩, []) := by
  show some (_, _) = _
  have : clamp (size : Int) ((p : Int) - (k : Int)) = ((p - k : Nat) : Int) := by
    unfold clamp
    rw [if_neg (by omega), if_neg (by omega)]
    omega
  rw [this]

example : ((ops ⟨asc "ab\ncd", 5, 0⟩ [.gets 10, .getc, .ungetc 99, .read 1, .read 9, .seekSet 1, .gets 10]).map (·.2)) =
    some [asc "ab\n", asc "c", [], asc "c", asc "d", [], asc "b\n"] := by decide +kernel

end Verif.Vfs
