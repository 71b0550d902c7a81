import Verif.Json.Tokens

/-! Which tokens are read: the tokens of any text form a forest, and the readers stay inside it. -/

namespace Verif.Json

/-- A token with `m` children. -/
def Size (t : Tok) (m : Nat) : Prop := t.stop ≠ none ∧ (t.typ = .array ∨ t.typ = .object → t.size = m)

/-- A forest of closed tokens in pre-order with `n` roots. -/
inductive F : List Tok → Nat → Prop
  | nil : F [] 0
  | cons (t : Tok) (inner rest : List Tok) (m n : Nat) : Size t m → F inner m → F rest n → F (t :: (inner ++ rest)) (n + 1)

theorem F.append {a b : List Tok} {m n : Nat} (h : F a m) (g : F b n) : F (a ++ b) (m + n) := by
  induction h with
  | nil => simpa using g
  | cons t inner rest m k hs hi hr _ ih =>
    have := F.cons t inner (rest ++ b) m (k + n) hs hi ih
    rw [show k + 1 + n = k + n + 1 by omega, List.cons_append, List.append_assoc]
    exact this

theorem F.single {t : Tok} {inner : List Tok} {m : Nat} (hs : Size t m) (h : F inner m) : F (t :: inner) 1 := by
  have := F.cons t inner [] m 0 hs h F.nil
  simpa using this

theorem F.closed {l : List Tok} {n : Nat} (h : F l n) : ∀ t ∈ l, t.stop ≠ none := by
  induction h with
  | nil => simp
  | cons t inner rest m k hs _ _ ih1 ih2 =>
    intro x hx
    simp only [List.mem_cons, List.mem_append] at hx
    rcases hx with rfl | hx | hx
    · exact hs.1
    · exact ih1 x hx
    · exact ih2 x hx

theorem F.tail {t : Tok} {l : List Tok} {n : Nat} (h : F (t :: l) (n + 1)) : ∃ k, n ≤ k ∧ F l k := by
  cases h with
  | cons _ inner rest m _ hs hi hr => exact ⟨m + n, by omega, hi.append hr⟩

theorem F.pos {l : List Tok} {n : Nat} (h : F l (n + 1)) : ∃ t inner rest m, l = t :: (inner ++ rest) ∧ Size t m ∧ F inner m ∧ F rest n := by
  cases h with
  | cons t inner rest m _ hs hi hr => exact ⟨t, inner, rest, m, rfl, hs, hi, hr⟩

theorem F.zero {l : List Tok} (h : F l 0) : l = [] := by cases h; rfl

theorem F.drop {l : List Tok} {n : Nat} (h : F l n) (p : Nat) : ∃ k, F (l.drop p) k := by
  induction p generalizing l n with
  | zero => exact ⟨n, h⟩
  | succ p ih =>
    cases n with
    | zero => rw [h.zero]; exact ⟨0, by simpa using F.nil⟩
    | succ n =>
      obtain ⟨t, inner, rest, m, rfl, hs, hi, hr⟩ := h.pos
      have := ih (hi.append hr)
      simpa using this

theorem F.drop_left {a b : List Tok} {m n : Nat} (h : F a m) (g : F b n) (p : Nat) (hp : p ≤ a.length) :
    ∃ k, n ≤ k ∧ F ((a ++ b).drop p) k := by
  obtain ⟨k, hk⟩ := h.drop p
  refine ⟨k + n, by omega, ?_⟩
  rw [List.drop_append, show p - a.length = 0 by omega, List.drop_zero]
  exact hk.append g

/-- What a reader returns: it stays between `lo` and `hi`. -/
def NU {α : Type} (r : Except Err (α × Nat)) (lo hi : Nat) : Prop :=
  r = .error .outside ∨ ∃ v j, r = .ok (v, j) ∧ lo ≤ j ∧ j ≤ hi

theorem NU.map {α β : Type} {r : Except Err (α × Nat)} {lo hi : Nat} (h : NU r lo hi) (f : α → β) (lo' hi' : Nat)
    (g : Nat → Nat) (hg : ∀ j, lo ≤ j → j ≤ hi → lo' ≤ g j ∧ g j ≤ hi') :
    NU (r.map (fun x => (f x.1, g x.2))) lo' hi' := by
  rcases h with h | ⟨v, j, h, h1, h2⟩
  · left; rw [h]; rfl
  · right; exact ⟨f v, g j, by rw [h]; rfl, (hg j h1 h2).1, (hg j h1 h2).2⟩

/-- Every object has an even number of children. -/
def EvenObj (l : List Tok) : Prop := ∀ t ∈ l, t.typ = .object → t.size % 2 = 0

theorem drop_ge {toks : List Tok} {i j : Nat} {X : List Tok} (h : toks.drop i = X) (hj : i ≤ j) : toks.drop j = X.drop (j - i) := by
  rw [← h, List.drop_drop]; congr 1; omega

theorem mem_of_drop {toks : List Tok} {i : Nat} {t : Tok} {X : List Tok} (h : toks.drop i = t :: X) : t ∈ toks ∧ toks[i]? = some t ∧ i < toks.length := by
  have h0 : (toks.drop i)[0]? = some t := by rw [h]; rfl
  have h1 : toks[i]? = some t := by simpa using h0
  exact ⟨List.mem_of_getElem? h1, h1, by
    by_contra hn
    rw [List.getElem?_eq_none (by omega)] at h1
    exact absurd h1 (by simp)⟩

theorem gen_safe (js : List UInt8) (toks : List Tok) (cap : Nat) (he : EvenObj toks) : ∀ fuel : Nat,
    (∀ (i : Nat) (t : Tok) (inner R : List Tok) (m : Nat), toks.drop i = t :: (inner ++ R) → F inner m → Size t m →
      2 * (inner.length + 1) ≤ fuel → NU (gen1 js toks cap fuel i) i (i + inner.length)) ∧
    (∀ (i n size k : Nat) (G R : List Tok), toks.drop i = G ++ R → F G k → size ≤ n + k → 2 * G.length + 1 ≤ fuel →
      NU (genArr js toks cap fuel size i n) i (i + G.length)) ∧
    (∀ (i n size k : Nat) (o : JObj) (G R : List Tok), toks.drop i = G ++ R → F G k → size ≤ n + k → size % 2 = 0 → n % 2 = 0 →
      2 * G.length + 1 ≤ fuel → NU (genObj js toks cap fuel size i n o) i (i + G.length)) := by
  intro fuel
  induction fuel with
  | zero => exact ⟨fun _ _ _ _ _ _ _ _ h => by omega, fun _ _ _ _ _ _ _ _ _ h => by omega, fun _ _ _ _ _ _ _ _ _ _ _ _ h => by omega⟩
  | succ fuel ih =>
    obtain ⟨ih1, ihA, ihO⟩ := ih
    refine ⟨?_, ?_, ?_⟩
    · intro i t inner R m ht hf hs hfu
      obtain ⟨hm, hg, hlt⟩ := mem_of_drop ht
      have hd1 : toks.drop (i + 1) = inner ++ R := by
        rw [drop_ge ht (by omega)]; simp
      rw [gen1, hg]
      simp only
      cases hty : t.typ with
      | prim =>
        simp only [primVal]
        split
        · right; exact ⟨_, _, rfl, by omega, by omega⟩
        split
        · right; exact ⟨_, _, rfl, by omega, by omega⟩
        split
        · right; exact ⟨_, _, rfl, by omega, by omega⟩
        split
        · right; exact ⟨_, _, rfl, by omega, by omega⟩
        split
        · right; exact ⟨_, _, rfl, by omega, by omega⟩
        · left; rfl
      | string => right; exact ⟨_, _, rfl, by omega, by omega⟩
      | array =>
        have := ihA (i + 1) 0 t.size m inner R hd1 hf (by rw [hs.2 (Or.inl hty)]; omega) (by omega)
        exact this.map JVal.arr i (i + inner.length) (fun j => j - 1) (fun j h1 h2 => by omega)
      | object =>
        have := ihO (i + 1) 0 t.size m .nil inner R hd1 hf (by rw [hs.2 (Or.inr hty)]; omega) (he t hm hty) rfl (by omega)
        exact this.map JVal.obj i (i + inner.length) (fun j => j - 1) (fun j h1 h2 => by omega)
    · intro i n size k G R ht hf hk hfu
      rw [genArr]
      by_cases hc : i < toks.length ∧ n < size
      · rw [if_pos hc]
        by_cases hcap : cap ≤ n
        · rw [if_pos hcap]; right; exact ⟨_, _, rfl, by omega, by omega⟩
        · rw [if_neg hcap]
          obtain ⟨k, rfl⟩ : ∃ k', k = k' + 1 := ⟨k - 1, by omega⟩
          obtain ⟨t, inner, rest, m, rfl, hs, hi, hr⟩ := hf.pos
          simp only [List.length_cons, List.length_append] at hfu
          rcases ih1 i t inner (rest ++ R) m (by rw [ht]; simp) hi hs (by omega) with e | ⟨v, j, e, h1, h2⟩
          · rw [e]; left; rfl
          · rw [e]
            simp only
            obtain ⟨k', hk', hF⟩ := hi.drop_left hr (j - i) (by omega)
            have := ihA (j + 1) (n + 1) size k' ((inner ++ rest).drop (j - i)) R (by
              rw [drop_ge ht (by omega), show j + 1 - i = j - i + 1 by omega, List.cons_append, List.drop_succ_cons,
                List.drop_append, show j - i - (inner ++ rest).length = 0 by simp; omega, List.drop_zero]) hF (by omega)
              (by simp; omega)
            refine this.map (JArr.cons v) i _ (fun j => j) (fun j' a1 a2 => ?_)
            simp only [List.length_drop, List.length_append, List.length_cons] at a2 ⊢
            omega
      · rw [if_neg hc]; right; exact ⟨_, _, rfl, by omega, by omega⟩
    · intro i n size k o G R ht hf hk hs2 hn2 hfu
      rw [genObj]
      cases hgi : toks[i]? with
      | none => right; exact ⟨_, _, rfl, by omega, by omega⟩
      | some tk =>
        simp only
        by_cases hc : n < size
        · rw [if_pos hc, if_neg (by omega)]
          obtain ⟨k, rfl⟩ : ∃ k', k = k' + 1 := ⟨k - 1, by omega⟩
          obtain ⟨t, inner, rest, m, rfl, hs, hi, hr⟩ := hf.pos
          obtain ⟨k1, hk1, hF1⟩ := hf.tail
          obtain ⟨k1, rfl⟩ : ∃ k', k1 = k' + 1 := ⟨k1 - 1, by omega⟩
          have ht1 : toks.drop (i + 1) = (inner ++ rest) ++ R := by
            rw [drop_ge ht (by omega)]; simp
          obtain ⟨t2, inner2, rest2, m2, e2, hs2', hi2, hr2⟩ := hF1.pos
          have hlen : inner.length + rest.length = inner2.length + rest2.length + 1 := by
            have := congrArg List.length e2; simp at this; omega
          simp only [List.length_cons, List.length_append] at hfu
          rw [e2] at ht1
          rcases ih1 (i + 1) t2 inner2 (rest2 ++ R) m2 (by rw [ht1]; simp) hi2 hs2' (by omega) with e | ⟨v, j, e, h1, h2⟩
          · rw [e]; left; rfl
          · rw [e]
            simp only
            obtain ⟨k', hk', hF⟩ := hi2.drop_left hr2 (j - (i + 1)) (by omega)
            have := ihO (j + 1) (n + 2) size k' (o.insert (tokText js tk) v) ((inner2 ++ rest2).drop (j - (i + 1))) R (by
              rw [drop_ge ht1 (by omega), show j + 1 - (i + 1) = j - (i + 1) + 1 by omega, List.cons_append, List.drop_succ_cons,
                List.drop_append, show j - (i + 1) - (inner2 ++ rest2).length = 0 by simp; omega, List.drop_zero]) hF (by omega)
              hs2 (by omega) (by simp; omega)
            rcases this with e | ⟨v', j', e, a1, a2⟩
            · left; exact e
            · right
              refine ⟨v', j', e, by omega, ?_⟩
              simp only [List.length_drop, List.length_append, List.length_cons] at a2 ⊢
              omega
        · rw [if_neg hc]; right; exact ⟨_, _, rfl, by omega, by omega⟩

/-! ### The tokeniser makes forests -/

/-- The tokens while containers are open: `sup` is the innermost open one; it has counted `pend` children more than are
there. -/
inductive Op : Nat → List Tok → Option Nat → Prop
  | base (pend : Nat) (l : List Tok) (n : Nat) : F l n → Op pend l none
  | frame (pend : Nat) (A inner : List Tok) (t : Tok) (s : Option Nat) (m : Nat) : Op 1 A s → t.stop = none →
      F inner m → t.size = m + pend → Op pend (A ++ t :: inner) (some A.length)

theorem Op.last {pend : Nat} {l : List Tok} {s : Option Nat} (h : Op pend l s) : lastOpen l = s := by
  induction h with
  | base pend l n hf => exact lastOpen_closed l hf.closed
  | frame pend A inner t s m _ ht hf _ _ =>
    rw [lastOpen_append]
    simp [lastOpen, lastOpen_closed inner hf.closed, ht]

theorem Op.add {A X : List Tok} {s : Option Nat} (h : Op 1 A s) (hX : F X 1) : Op 0 (A ++ X) s := by
  cases h with
  | base _ _ n hf => exact .base 0 _ _ (hf.append hX)
  | frame _ A inner t s m ho ht hf hs =>
    have := Op.frame 0 A (inner ++ X) t s (m + 1) ho ht (hf.append hX) (by omega)
    simpa using this

theorem Op.bump {l : List Tok} {i : Nat} (h : Op 0 l (some i)) : Op 1 (bump i l) (some i) := by
  cases h with
  | frame _ A inner t s m ho ht hf hs =>
    rw [Json.bump, modify_mid]
    exact Op.frame 1 A inner { t with size := t.size + 1 } s m ho ht hf (by simp; omega)

theorem Op.up {l : List Tok} (h : Op 0 l none) : Op 1 l none := by
  cases h with
  | base _ _ n hf => exact .base 1 _ n hf

theorem Op.forest {pend : Nat} {l : List Tok} {s : Option Nat} (h : Op pend l s) (hs : s = none) : ∃ n, F l n := by
  cases h with
  | base _ _ n hf => exact ⟨n, hf⟩
  | frame => exact absurd hs (by simp)

theorem Op.lt {pend i : Nat} {l : List Tok} (h : Op pend l (some i)) : i < l.length := by
  cases h with
  | frame => simp

theorem Op.bumpSuper {p : P} (h : Op 0 p.toks p.super) : Op 1 (bumpSuper p p.toks) p.super := by
  unfold Json.bumpSuper
  cases hs : p.super with
  | none => rw [hs] at h; exact h.up
  | some i => rw [hs] at h; exact h.bump

/-- The state of the tokeniser. -/
structure Inv (q : Bool) (p : P) : Prop where
  op : Op 0 p.toks p.super
  first : q = true → ty p.toks 0 = some .string

theorem Inv.open {q : Bool} {p : P} (h : Inv q p) (typ : Typ) (pos : Nat) : Inv q (openTok p typ pos) := by
  have hl : (Json.bumpSuper p p.toks).length = p.toks.length := by
    unfold Json.bumpSuper; split <;> simp [Json.bump]
  refine ⟨?_, ?_⟩
  · have := Op.frame 0 _ [] ⟨typ, pos, none, 0⟩ _ 0 h.op.bumpSuper rfl F.nil rfl
    rw [hl] at this
    exact this
  · intro hq
    simp only [openTok]
    apply ty_append
    unfold Json.bumpSuper
    cases p.super with
    | none => exact h.first hq
    | some i =>
      simp only
      rw [bump_eq, ty_bumpN]
      exact h.first hq

theorem Inv.close {q : Bool} {p p' : P} (h : Inv q p) (typ : Typ) (pos : Nat) (hc : closeTok p typ pos = some p') : Inv q p' := by
  unfold closeTok at hc
  rw [h.op.last] at hc
  cases hs : p.super with
  | none => rw [hs] at hc; exact absurd hc (by simp)
  | some i =>
    rw [hs] at hc
    simp only at hc
    split at hc
    · rename_i htyp
      simp only [Option.some.injEq] at hc
      subst hc
      have hop := h.op
      rw [hs] at hop
      obtain ⟨toks, sup, idx, tk⟩ := p
      simp only at hop hs ⊢
      have hf := h.first
      simp only at hf
      refine ⟨?_, fun hq => by simp only; rw [ty_setStop]; exact hf hq⟩
      cases hop with
      | frame _ A inner t s m ho ht hF hsz =>
        have e : setStop A.length pos (A ++ t :: inner) = A ++ { t with stop := some (pos + 1) } :: inner := by
          rw [setStop, modify_mid]
        have hS : Size { t with stop := some (pos + 1) } m := ⟨by simp, fun _ => by simp; omega⟩
        have hop' := ho.add (F.single hS hF)
        simp only [e]
        rw [hop'.last]
        exact hop'
    · exact absurd hc (by simp)

theorem F.bump0 {t : Tok} {l : List Tok} {n : Nat} (h : F (t :: l) n) (ht : t.typ = .string) : F (Json.bump 0 (t :: l)) n := by
  cases h with
  | cons _ inner rest m k hs hi hr =>
    exact F.cons { t with size := t.size + 1 } inner rest m k ⟨hs.1, fun hh => by simp only at hh; rw [ht] at hh; simp at hh⟩ hi hr

theorem Inv.str {q : Bool} {p : P} (h : Inv q p) (pos n : Nat) : Inv q (addString q p pos n) := by
  have hx : F [⟨.string, pos + 1, some (pos + 1 + n), 0⟩] 1 := F.single ⟨by simp, fun hh => by simp at hh⟩ F.nil
  obtain ⟨toks, sup, idx, tk⟩ := p
  have hop := h.op
  have hfst := h.first
  simp only at hop hfst
  cases sup with
  | some i =>
    refine ⟨?_, fun hq => ?_⟩
    · simp only [addString]
      rw [bump_eq, bumpN_append _ _ _ _ hop.lt, ← bump_eq]
      exact hop.bump.add hx
    · simp only [addString]
      rw [bump_eq, ty_bumpN]
      exact ty_append _ _ _ (hfst hq)
  | none =>
    cases q with
    | false =>
      refine ⟨?_, fun hq => by simp at hq⟩
      simp only [addString, Bool.false_eq_true, if_false]
      exact hop.up.add hx
    | true =>
      refine ⟨?_, fun hq => ?_⟩
      · simp only [addString, if_true]
        have h0 := hfst rfl
        have := hop.up.add hx
        obtain ⟨k, hF⟩ := this.forest rfl
        cases toks with
        | nil => simp [ty] at h0
        | cons t l => exact .base 0 _ k (F.bump0 hF (by simpa [ty] using h0))
      · simp only [addString, if_true]
        rw [bump_eq, ty_bumpN]
        exact ty_append _ _ _ (hfst rfl)

theorem Inv.prim {q : Bool} {p : P} (h : Inv q p) (pos n : Nat) : Inv q (addPrim p pos n) := by
  have hx : F [⟨.prim, pos, some (pos + n), 0⟩] 1 := F.single ⟨by simp, fun hh => by simp at hh⟩ F.nil
  obtain ⟨toks, sup, idx, tk⟩ := p
  have hop := h.op
  have hfst := h.first
  simp only at hop hfst
  cases sup with
  | some i =>
    refine ⟨?_, fun hq => ?_⟩
    · simp only [addPrim, bumpSuper]
      rw [bump_eq, bumpN_append _ _ _ _ hop.lt, ← bump_eq]
      exact hop.bump.add hx
    · simp only [addPrim, bumpSuper]
      rw [bump_eq, ty_bumpN]
      exact ty_append _ _ _ (hfst hq)
  | none =>
    refine ⟨?_, fun hq => ?_⟩
    · simp only [addPrim, bumpSuper]
      exact hop.up.add hx
    · simp only [addPrim, bumpSuper]
      exact ty_append _ _ _ (hfst hq)

theorem loop_inv (strict q : Bool) (s : List UInt8) : ∀ (pos : Nat) (p p' : P), Inv q p → loop strict q pos p s = some p' →
    Inv q p' ∧ lastOpen p'.toks = none := by
  induction h : s.length using Nat.strongRecOn generalizing s with
  | _ n ih =>
  intro pos p p' hi hl
  subst h
  cases s with
  | nil =>
    rw [loop] at hl
    split at hl
    · rename_i h0
      simp only [Option.some.injEq] at hl
      subst hl; exact ⟨hi, h0⟩
    · exact absurd hl (by simp)
  | cons c t =>
    have step : ∀ (t' : List UInt8) (pos' : Nat) (q1 : P), t'.length < (c :: t).length → Inv q q1 → loop strict q pos' q1 t' = some p' →
        Inv q p' ∧ lastOpen p'.toks = none := fun t' pos' q1 hlt hq1 h => ih t'.length hlt t' rfl pos' q1 p' hq1 h
    rw [loop] at hl
    split at hl
    · exact step _ _ _ (by simp) (hi.open _ _) hl
    split at hl
    · exact step _ _ _ (by simp) (hi.open _ _) hl
    split at hl
    · split at hl
      · exact absurd hl (by simp)
      · rename_i hc; exact step _ _ _ (by simp) (hi.close _ _ hc) hl
    split at hl
    · split at hl
      · exact absurd hl (by simp)
      · rename_i hc; exact step _ _ _ (by simp) (hi.close _ _ hc) hl
    split at hl
    · split at hl
      · exact absurd hl (by simp)
      · exact step _ _ _ (by simp; omega) (hi.str _ _) hl
    split at hl
    · split at hl
      · exact step _ _ _ (by simp) hi hl
      · exact absurd hl (by simp)
    split at hl
    · split at hl
      · exact step _ _ _ (by simp) hi hl
      · exact absurd hl (by simp)
    split at hl
    · exact step _ _ _ (by simp) hi hl
    split at hl
    · exact absurd hl (by simp)
    split at hl
    · exact absurd hl (by simp)
    · exact step _ _ _ (by simp; omega) (hi.prim _ _) hl

theorem inv_init : Inv false init := ⟨.base 0 [] 0 .nil, by simp⟩

/-- The tokens of a text form a forest. -/
theorem loop_forest (strict : Bool) (js : List UInt8) (p : P)
    (h : loop strict (js.head? = some 34) 0 init js = some p) : ∃ n, F p.toks n := by
  have key : ∀ q p', Inv q p' → lastOpen p'.toks = none → ∃ n, F p'.toks n := by
    intro q p' hi hlast
    exact hi.op.forest (by rw [← hi.op.last, hlast])
  by_cases hq : js.head? = some 34
  · rw [decide_eq_true hq] at h
    cases js with
    | nil => simp at hq
    | cons c t =>
      simp only [List.head?_cons, Option.some.injEq] at hq
      subst hq
      rw [loop] at h
      rw [if_neg (by decide), if_neg (by decide), if_neg (by decide), if_neg (by decide), if_pos rfl] at h
      split at h
      · exact absurd h (by simp)
      · rename_i n _
        have h1 : Inv true (addString true init 0 n) := by
          refine ⟨?_, fun _ => by simp [addString, init, bump, ty]⟩
          have : F (bump 0 [⟨.string, 0 + 1, some (0 + 1 + n), 0⟩]) 1 := F.single ⟨by simp, fun hh => by simp at hh⟩ F.nil
          exact .base 0 _ 1 this
        obtain ⟨a, b⟩ := loop_inv strict true _ _ _ _ h1 h
        exact key _ _ a b
  · rw [decide_eq_false hq] at h
    obtain ⟨a, b⟩ := loop_inv strict false _ _ _ _ inv_init h
    exact key _ _ a b

/-- Reading the tokens of any text. -/
theorem parseTokens_safe (strict : Bool) (cap : Nat) (js : List UInt8)
    (h : ∀ p, loop strict (js.head? = some 34) 0 init js = some p → p.toks ≠ [] ∧ EvenObj p.toks) :
    parseTokens strict cap js ≠ .error .uninit := by
  unfold parseTokens
  cases hl : loop strict (js.head? = some 34) 0 init js with
  | none => simp
  | some p =>
    simp only
    obtain ⟨hne, he⟩ := h p hl
    obtain ⟨n, hF⟩ := loop_forest strict js p hl
    cases hp : p.toks with
    | nil => exact absurd hp hne
    | cons t l =>
      simp only [List.getElem?_cons_zero]
      split
      · simp
      · rw [hp] at hF
        cases n with
        | zero => exact absurd hF.zero (by simp)
        | succ n =>
          obtain ⟨t', inner, rest, m, e, hs, hi, hr⟩ := hF.pos
          rw [← hp]
          have := (gen_safe js p.toks cap he (3 * p.toks.length + 3)).1 0 t' inner rest m
            (by rw [hp, List.drop_zero]; exact e) hi hs (by
              have := congrArg List.length e
              rw [hp]
              simp only [List.length_cons, List.length_append] at this ⊢
              omega)
          rcases this with e' | ⟨v, j, e', _, _⟩
          · rw [e']; simp [Except.map]
          · rw [e']; simp [Except.map]

theorem bumpSuper_len (p : P) (l : List Tok) : (bumpSuper p l).length = l.length := by
  unfold bumpSuper; split <;> simp [bump]

theorem loop_len (strict q : Bool) (s : List UInt8) : ∀ (pos : Nat) (p p' : P), loop strict q pos p s = some p' →
    p.toks.length ≤ p'.toks.length := by
  induction h : s.length using Nat.strongRecOn generalizing s with
  | _ n ih =>
  intro pos p p' hl
  subst h
  cases s with
  | nil =>
    rw [loop] at hl
    split at hl
    · simp only [Option.some.injEq] at hl
      subst hl; exact Nat.le_refl _
    · exact absurd hl (by simp)
  | cons c t =>
    have step : ∀ (t' : List UInt8) (pos' : Nat) (q1 : P), t'.length < (c :: t).length → p.toks.length ≤ q1.toks.length →
        loop strict q pos' q1 t' = some p' → p.toks.length ≤ p'.toks.length :=
      fun t' pos' q1 hlt hq1 h => Nat.le_trans hq1 (ih t'.length hlt t' rfl pos' q1 p' h)
    have ho : ∀ typ pos, p.toks.length ≤ (openTok p typ pos).toks.length := by
      intro typ pos; simp [openTok, bumpSuper_len]
    have hc : ∀ typ pos q1, closeTok p typ pos = some q1 → p.toks.length ≤ q1.toks.length := by
      intro typ pos q1 h
      unfold closeTok at h
      split at h
      · exact absurd h (by simp)
      · split at h
        · simp only [Option.some.injEq] at h; subst h; simp [setStop]
        · exact absurd h (by simp)
    rw [loop] at hl
    split at hl
    · exact step _ _ _ (by simp) (ho _ _) hl
    split at hl
    · exact step _ _ _ (by simp) (ho _ _) hl
    split at hl
    · split at hl
      · exact absurd hl (by simp)
      · rename_i h; exact step _ _ _ (by simp) (hc _ _ _ h) hl
    split at hl
    · split at hl
      · exact absurd hl (by simp)
      · rename_i h; exact step _ _ _ (by simp) (hc _ _ _ h) hl
    split at hl
    · split at hl
      · exact absurd hl (by simp)
      · refine step _ _ _ (by simp; omega) ?_ hl
        simp only [addString]
        split
        · simp [bump]
        · split <;> simp [bump]
    split at hl
    · split at hl
      · exact step _ _ _ (by simp) (Nat.le_refl _) hl
      · exact absurd hl (by simp)
    split at hl
    · split at hl
      · exact step _ _ _ (by simp) (Nat.le_refl _) hl
      · exact absurd hl (by simp)
    split at hl
    · exact step _ _ _ (by simp) (Nat.le_refl _) hl
    split at hl
    · exact absurd hl (by simp)
    split at hl
    · exact absurd hl (by simp)
    · refine step _ _ _ (by simp; omega) ?_ hl
      simp [addPrim, bumpSuper_len]

/-- In strict mode an accepted text that does not start with white space has a token. -/
theorem strict_tok (q : Bool) (c : UInt8) (t : List UInt8) (p : P) (hc : isspace c = false)
    (h : loop true q 0 init (c :: t) = some p) : p.toks ≠ [] := by
  have pos : ∀ (s : List UInt8) (pos' : Nat) (q1 : P), 0 < q1.toks.length → loop true q pos' q1 s = some p → p.toks ≠ [] := by
    intro s pos' q1 h1 h2 e
    have := loop_len true q s pos' q1 p h2
    rw [e] at this
    simp at this
    rw [this] at h1
    simp at h1
  rw [loop] at h
  split at h
  · exact pos _ _ _ (by simp [openTok, bumpSuper, init]) h
  split at h
  · exact pos _ _ _ (by simp [openTok, bumpSuper, init]) h
  split at h
  · simp [closeTok, init, lastOpen] at h
  split at h
  · simp [closeTok, init, lastOpen] at h
  split at h
  · split at h
    · exact absurd h (by simp)
    · refine pos _ _ _ ?_ h
      simp only [addString, init]
      split <;> simp [bump]
  split at h
  · simp [colonOk, init] at h
  split at h
  · simp [commaOk, typAt, init] at h
  split at h
  · rename_i hw
    rcases hw with rfl | rfl | rfl | rfl <;> exact absurd hc (by decide)
  split at h
  · exact absurd h (by simp)
  split at h
  · exact absurd h (by simp)
  · exact pos _ _ _ (by simp [addPrim, bumpSuper, init]) h

theorem dropWhile_head (l : List UInt8) (c : UInt8) (t : List UInt8) (h : l.dropWhile isspace = c :: t) : isspace c = false := by
  induction l with
  | nil => simp at h
  | cons a l ih =>
    by_cases ha : isspace a = true
    · rw [List.dropWhile_cons_of_pos ha] at h; exact ih h
    · rw [List.dropWhile_cons_of_neg ha] at h
      simp only [List.cons.injEq] at h
      rw [← h.1]; simpa using ha

/-- `JSON.parse` on any text. -/
theorem parse_safe (strict : Bool) (cap : Nat) (text : List UInt8)
    (h : ∀ p, loop strict ((text.dropWhile isspace).head? = some 34) 0 init (text.dropWhile isspace) = some p →
      (strict = true ∨ p.toks ≠ []) ∧ EvenObj p.toks) : parse strict cap text ≠ .error .uninit := by
  unfold parse
  simp only
  cases hj : text.dropWhile isspace with
  | nil => simp
  | cons c t =>
    rw [hj] at h
    have hs := dropWhile_head text c t hj
    have key : parseTokens strict cap (c :: t) ≠ .error .uninit := by
      apply parseTokens_safe
      intro p hp
      refine ⟨?_, (h p hp).2⟩
      rcases (h p hp).1 with rfl | h1
      · exact strict_tok _ c t p hs hp
      · exact h1
    simp only
    split
    · simp
    split
    · simp
    split
    · simp
    split
    · split
      · simp
      · exact key
      · rename_i e he
        unfold getDouble at he
        split at he
        · simp only [Except.error.injEq] at he; rw [← he]; simp
        · exact absurd he (by simp)
    · exact key

end Verif.Json
