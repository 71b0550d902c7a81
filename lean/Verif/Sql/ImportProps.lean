import Verif.Sql.Import
import Mathlib.Tactic.ByContra

/-!
# C189, C190: db.import
-/
namespace Verif.Sql.Import
open Verif
open Verif.Sql.Out (Cell cstr colText joinSep csvOut csvCell csvScan csvBody needQuote tabLoop)

/-! ### Quotes and line feeds -/

/-- In a text: an even number of quotes, and before every line feed an odd one. -/
def Par (t : Str) : Prop := quotes t % 2 = 0 ∧ ∀ p q, t = p ++ 10 :: q → quotes p % 2 = 1

theorem quotes_app (a b : Str) : quotes (a ++ b) = quotes a + quotes b := by simp [quotes]
theorem quotes_cons (c : UInt8) (t : Str) : quotes (c :: t) = quotes t + if c = 34 then 1 else 0 := by
  simp [quotes, List.count_cons]

theorem quotes_zero {s : Str} (h : (34 : UInt8) ∉ s) : quotes s = 0 := by
  rw [quotes]; exact List.count_eq_zero.2 h

theorem Par.app {a b : Str} (ha : Par a) (hb : Par b) : Par (a ++ b) := by
  refine ⟨by rw [quotes_app]; have := ha.1; have := hb.1; omega, ?_⟩
  intro p q e
  rcases List.append_eq_append_iff.1 e with ⟨a', e1, e2⟩ | ⟨c', e1, e2⟩
  · rw [e1, quotes_app]
    have := hb.2 a' q e2
    have := ha.1
    omega
  · cases c' with
    | nil =>
      simp only [List.nil_append] at e2
      have := hb.2 [] q (by rw [← e2]; rfl)
      simp [quotes] at this
    | cons x t =>
      rw [List.cons_append] at e2
      obtain ⟨rfl, _⟩ := List.cons.inj e2
      exact ha.2 p t e1

theorem par_clean {s : Str} (h : (34 : UInt8) ∉ s) (h' : (10 : UInt8) ∉ s) : Par s := by
  refine ⟨by rw [quotes_zero h], ?_⟩
  intro p q e
  exact absurd (show (10 : UInt8) ∈ s by rw [e]; simp) h'

theorem doubled_even : ∀ (s p q : Str), doubled s ++ [34] = p ++ 10 :: q → quotes p % 2 = 0
  | [], p, q, e => by
    have : (10 : UInt8) ∈ doubled [] ++ [34] := by rw [e]; simp
    simp [doubled] at this
  | c :: t, p, q, e => by
    rw [doubled] at e
    by_cases hc : c = 34
    · rw [if_pos hc] at e
      cases p with
      | nil => simp at e
      | cons x p =>
        cases p with
        | nil => simp at e
        | cons y p =>
          simp only [List.cons_append, List.cons.injEq] at e
          obtain ⟨rfl, rfl, e⟩ := e
          have := doubled_even t p q e
          rw [quotes_cons, quotes_cons]; simp; omega
    · rw [if_neg hc] at e
      cases p with
      | nil => simp [quotes]
      | cons x p =>
        simp only [List.cons_append, List.cons.injEq] at e
        obtain ⟨rfl, e⟩ := e
        rw [quotes_cons, if_neg hc]
        exact doubled_even t p q e

theorem doubled_count : ∀ s : Str, quotes (doubled s) % 2 = 0
  | [] => rfl
  | c :: t => by
    have := doubled_count t
    rw [doubled]
    by_cases hc : c = 34
    · rw [if_pos hc, quotes_cons, quotes_cons]; simp; omega
    · rw [if_neg hc, quotes_cons, if_neg hc]; omega

theorem par_field {sep : Str} {f : Field} (h : f.Ok sep) : Par f.text := by
  cases f with
  | plain s => exact par_clean h.1 h.2.1
  | quoted s =>
    refine ⟨?_, ?_⟩
    · have := doubled_count s
      rw [Field.text, List.cons_append, quotes_cons, quotes_app]; simp [quotes] at this ⊢; omega
    · intro p q e
      rw [Field.text, List.cons_append] at e
      cases p with
      | nil => simp at e
      | cons x p =>
        simp only [List.cons_append, List.cons.injEq] at e
        obtain ⟨rfl, e⟩ := e
        have := doubled_even s p q e
        rw [quotes_cons]; simp; omega

theorem recText_cons (sep : Str) (f g : Field) (t : List Field) :
    recText sep (f :: g :: t) = f.text ++ (sep ++ recText sep (g :: t)) := by
  simp [recText, joinSep]

theorem recText_one (sep : Str) (f : Field) : recText sep [f] = f.text := rfl

theorem par_rec {sep : Str} (hs : SepOk sep) : ∀ (f : Field) (t : List Field), (∀ x ∈ f :: t, x.Ok sep) →
    Par (recText sep (f :: t))
  | f, [], h => by rw [recText_one]; exact par_field (h f (by simp))
  | f, g :: t, h => by
    rw [recText_cons]
    exact (par_field (h f (by simp))).app
      ((par_clean hs.2.1 hs.2.2).app (par_rec hs g t (fun x hx => h x (by simp [List.mem_cons.1 hx]))))

/-! ### Lines -/

theorem getLines_ne : ∀ {s : Str}, s ≠ [] → getLines s ≠ []
  | [], h => absurd rfl h
  | c :: t, _ => by
    rw [getLines]
    split
    · simp
    · split <;> simp

theorem getLines_app (a : Str) (ha : (10 : UInt8) ∉ a) (t : Str) : getLines (a ++ 10 :: t) = a :: getLines t := by
  induction a with
  | nil => simp [getLines]
  | cons c a ih =>
    have hc : ¬ c = 10 := fun e => ha (by simp [e])
    have ih := ih (fun h => ha (by simp [h]))
    rw [List.cons_append, getLines, if_neg hc, ih]
    cases a <;> rfl

theorem getLines_one (a : Str) (ha : (10 : UInt8) ∉ a) (hne : a ≠ []) : getLines a = [a] := by
  induction a with
  | nil => exact absurd rfl hne
  | cons c a ih =>
    have hc : ¬ c = 10 := fun e => ha (by simp [e])
    rw [getLines, if_neg hc]
    cases a with
    | nil => rfl
    | cons d b => rw [ih (fun h => ha (by simp [h])) (by simp)]; rfl

/-- A text is its first line, or has a line feed. -/
theorem first_line : ∀ s : Str, (10 : UInt8) ∉ s ∨ ∃ a t, s = a ++ 10 :: t ∧ (10 : UInt8) ∉ a
  | [] => Or.inl (by simp)
  | c :: s => by
    by_cases hc : c = 10
    · exact Or.inr ⟨[], s, by rw [hc]; rfl, by simp⟩
    · rcases first_line s with h | ⟨a, t, e, h⟩
      · left; simp only [List.mem_cons, not_or]; exact ⟨fun e => hc e.symm, h⟩
      · right
        refine ⟨c :: a, t, by rw [e]; rfl, ?_⟩
        simp only [List.mem_cons, not_or]; exact ⟨fun e => hc e.symm, h⟩

theorem agg_even {acc : Str} (h : quotes acc % 2 = 0) (ls : List Str) : agg acc ls = some (acc, ls) := by
  cases ls <;> rw [agg, if_pos h]

theorem agg_odd {acc : Str} (h : quotes acc % 2 = 1) (l : Str) (ls : List Str) : agg acc (l :: ls) = agg (acc ++ 10 :: l) ls := by
  rw [agg, if_neg (by omega)]

/-- Putting lines together gives the record back. -/
theorem agg_rest (rest : Str) (n : Nat) : ∀ (u p : Str), u.length ≤ n → Par (p ++ 10 :: u) →
    agg p (getLines (u ++ 10 :: rest)) = some (p ++ 10 :: u, getLines rest) := by
  induction n with
  | zero =>
    intro u p hn h
    have : u = [] := List.length_eq_zero_iff.1 (by omega)
    subst this
    have ho := h.2 p [] rfl
    rw [List.nil_append, show getLines (10 :: rest) = [] :: getLines rest from by simp [getLines], agg_odd ho, agg_even h.1]
  | succ n ih =>
    intro u p hn h
    have ho := h.2 p u rfl
    rcases first_line u with hu | ⟨a, t, e, ha⟩
    · rw [getLines_app u hu, agg_odd ho, agg_even h.1]
    · subst e
      have e1 : a ++ 10 :: t ++ 10 :: rest = a ++ 10 :: (t ++ 10 :: rest) := by simp
      have e2 : p ++ 10 :: (a ++ 10 :: t) = (p ++ 10 :: a) ++ 10 :: t := by simp
      rw [e1, getLines_app a ha, agg_odd ho, ih t (p ++ 10 :: a) (by simp at hn; omega) (by rw [← e2]; exact h), e2]

theorem agg_rec (t rest : Str) (h : Par t) : ∃ l ls, getLines (t ++ 10 :: rest) = l :: ls ∧
    ((34 : UInt8) ∈ t → (34 : UInt8) ∈ l ∧ agg l ls = some (t, getLines rest)) ∧
    ((34 : UInt8) ∉ t → l = t ∧ ls = getLines rest) := by
  rcases first_line t with ht | ⟨a, u, e, ha⟩
  · exact ⟨t, getLines rest, getLines_app t ht rest, fun h4 => ⟨h4, agg_even h.1 _⟩, fun _ => ⟨rfl, rfl⟩⟩
  · subst e
    have ho := h.2 a u rfl
    have h4 : (34 : UInt8) ∈ a := by
      by_cases hm : (34 : UInt8) ∈ a
      · exact hm
      · rw [quotes_zero hm] at ho; omega
    refine ⟨a, getLines (u ++ 10 :: rest), ?_, ?_, ?_⟩
    · have e1 : a ++ 10 :: u ++ 10 :: rest = a ++ 10 :: (u ++ 10 :: rest) := by simp
      rw [e1, getLines_app a ha]
    · intro _
      exact ⟨h4, agg_rest rest _ u a (Nat.le_refl _) h⟩
    · intro hn; exact absurd (by simp [h4]) hn

/-! ### Columns -/

theorem sep_cons {sep : Str} (h : SepOk sep) : ∃ d ds, sep = d :: ds ∧ d ≠ 34 := by
  cases sep with
  | nil => exact absurd rfl h.1
  | cons d ds => exact ⟨d, ds, rfl, fun e => h.2.1 (by simp [e])⟩

theorem strstr_none {d : UInt8} {ds : Str} : ∀ {s : Str}, d ∉ s → strstr (d :: ds) s = none
  | [], _ => rfl
  | c :: t, h => by
    simp only [List.mem_cons, not_or] at h
    rw [strstr, if_neg (by simp [List.isPrefixOf, h.1]), strstr_none h.2]; rfl

theorem strstr_app {d : UInt8} {ds : Str} (t : Str) : ∀ {s : Str}, d ∉ s →
    strstr (d :: ds) (s ++ (d :: ds ++ t)) = some (s, t)
  | [], _ => by
    rw [List.nil_append, List.cons_append, strstr, if_pos (by simp [List.isPrefixOf])]; simp
  | c :: s, h => by
    simp only [List.mem_cons, not_or] at h
    rw [List.cons_append, strstr, if_neg (by simp [List.isPrefixOf, h.1]), strstr_app t h.2]; rfl

theorem qv_other {c : UInt8} (sep acc t : Str) (hc : c ≠ 34) : quotedVal sep acc (c :: t) = quotedVal sep (acc ++ [c]) t := by
  cases t with
  | nil => simp [quotedVal, hc]
  | cons d r => rw [quotedVal, if_pos hc]

theorem qv_double (sep acc t : Str) : quotedVal sep acc (34 :: 34 :: t) = quotedVal sep (acc ++ [34]) t := by
  rw [quotedVal, if_neg (by simp), if_pos rfl]

theorem quotedVal_sep {d : UInt8} {ds : Str} (hd : d ≠ 34) (rest : Str) : ∀ (s acc : Str),
    quotedVal (d :: ds) acc (doubled s ++ 34 :: (d :: ds ++ rest)) = some (acc ++ s, some rest)
  | [], acc => by
    rw [doubled, List.nil_append, List.cons_append, quotedVal, if_neg (by simp), if_neg hd,
      if_pos (by simp [List.isPrefixOf])]; simp
  | c :: s, acc => by
    rw [doubled]
    by_cases hc : c = 34
    · rw [if_pos hc, List.cons_append, List.cons_append, qv_double, quotedVal_sep hd rest s, hc]; simp
    · rw [if_neg hc, List.cons_append, qv_other _ _ _ hc, quotedVal_sep hd rest s]; simp

theorem quotedVal_last {sep : Str} : ∀ (s acc : Str), quotedVal sep acc (doubled s ++ [34]) = some (acc ++ s, none)
  | [], acc => by rw [doubled, List.nil_append, quotedVal, if_neg (by simp), List.append_nil]
  | c :: s, acc => by
    rw [doubled]
    by_cases hc : c = 34
    · rw [if_pos hc, List.cons_append, List.cons_append, qv_double, quotedVal_last s, hc]; simp
    · rw [if_neg hc, List.cons_append, qv_other _ _ _ hc, quotedVal_last s]; simp

theorem headD_plain {s t : Str} (hs : (34 : UInt8) ∉ s) (ht : t.headD 0 ≠ 34) : (s ++ t).headD 0 ≠ 34 := by
  cases s with
  | nil => exact ht
  | cons c s => intro e; exact hs (by simp at e; simp [e])

/-- A value that is not the last. -/
theorem csvCols_step {sep : Str} (hs : SepOk sep) (f : Field) (hf : f.Ok sep) (rest : Str) (n : Nat) :
    csvCols sep (n + 1) (f.text ++ (sep ++ rest)) = (csvCols sep n rest).map (f.val :: ·) := by
  obtain ⟨d, ds, rfl, hd⟩ := sep_cons hs
  cases f with
  | plain s =>
    have hh : (s ++ (d :: ds ++ rest)).headD 0 ≠ 34 := headD_plain hf.1 (by simpa using hd)
    show csvCols _ (n + 1) (s ++ (d :: ds ++ rest)) = _
    rw [csvCols, if_pos hh, strstr_app rest (show d ∉ s from hf.2.2)]
    rfl
  | quoted s =>
    show csvCols _ (n + 1) (34 :: doubled s ++ [34] ++ (d :: ds ++ rest)) = _
    rw [show 34 :: doubled s ++ [34] ++ (d :: ds ++ rest) = 34 :: (doubled s ++ 34 :: (d :: ds ++ rest)) by simp,
      csvCols, if_neg (by simp), List.tail_cons, quotedVal_sep hd]
    rfl

/-- The last value, not quoted. -/
theorem csvCols_last {sep : Str} (hs : SepOk sep) (s : Str) (hf : (Field.plain s).Ok sep) (n : Nat) :
    csvCols sep (n + 1) s = some [s] := by
  obtain ⟨d, ds, rfl, hd⟩ := sep_cons hs
  have hh : s.headD 0 ≠ 34 := by
    have := headD_plain (s := s) (t := []) hf.1 (by decide)
    simpa using this
  rw [csvCols, if_pos hh, strstr_none (show d ∉ s from hf.2.2)]

/-- The values of a record whose last one is not quoted. -/
theorem csvCols_rec {sep : Str} (hs : SepOk sep) (s : Str) : ∀ (init : List Field) (n : Nat),
    (∀ f ∈ init ++ [.plain s], f.Ok sep) → init.length < n →
    csvCols sep n (recText sep (init ++ [.plain s])) = some ((init ++ [Field.plain s]).map Field.val)
  | [], n, h, hn => by
    obtain ⟨m, rfl⟩ : ∃ m, n = m + 1 := ⟨n - 1, by omega⟩
    show csvCols sep (m + 1) s = some [s]
    exact csvCols_last hs s (h _ (by simp)) m
  | f :: t, n, h, hn => by
    obtain ⟨m, rfl⟩ : ∃ m, n = m + 1 := ⟨n - 1, by omega⟩
    have ih := csvCols_rec hs s t m (fun x hx => h x (by simp [List.mem_cons, hx])) (by simp at hn; omega)
    have e : recText sep (f :: t ++ [.plain s]) = f.text ++ (sep ++ recText sep (t ++ [.plain s])) := by
      cases t with
      | nil => exact recText_cons sep f (.plain s) []
      | cons g t => exact recText_cons sep f g (t ++ [.plain s])
    rw [e, csvCols_step hs f (h f (by simp)), ih]
    rfl

theorem plainCols_rec {sep : Str} (hs : SepOk sep) : ∀ (t : List Str) (s : Str) (n : Nat),
    (∀ x ∈ s :: t, sep.headD 0 ∉ x) → t.length ≤ n →
    plainCols sep n (joinSep sep id (s :: t)) = s :: t
  | [], s, n, h, _ => by
    obtain ⟨d, ds, rfl, hd⟩ := sep_cons hs
    have : strstr (d :: ds) s = none := strstr_none (h s (by simp))
    show plainCols (d :: ds) n s = [s]
    cases n with
    | zero => rfl
    | succ n => rw [plainCols, this]
  | g :: t, s, n, h, hn => by
    obtain ⟨d, ds, rfl, hd⟩ := sep_cons hs
    obtain ⟨m, rfl⟩ : ∃ m, n = m + 1 := ⟨n - 1, by simp at hn; omega⟩
    have e : joinSep (d :: ds) id (s :: g :: t) = s ++ (d :: ds ++ joinSep (d :: ds) id (g :: t)) := by simp [joinSep]
    rw [e, plainCols, strstr_app _ (show d ∉ s from h s (by simp))]
    have := plainCols_rec hs t g m (fun x hx => h x (by simp [List.mem_cons.1 hx])) (by simp at hn; omega)
    simp only [this]

/-- The text of a record has a byte for each separator. -/
theorem recText_len {sep : Str} (hs : SepOk sep) : ∀ (f : Field) (t : List Field), t.length ≤ (recText sep (f :: t)).length
  | f, [] => by simp
  | f, g :: t => by
    have := recText_len hs g t
    have : sep.length ≠ 0 := by simpa using hs.1
    rw [recText_cons]; simp; omega

/-- A record with as many values as there are columns, the last not quoted. -/
def RecOk (sep : Str) (nCol : Nat) (r : List Field) : Prop :=
  r.length = nCol ∧ (∀ f ∈ r, f.Ok sep) ∧ ∃ init s, r = init ++ [.plain s]

theorem rec_cons {sep : Str} {nCol : Nat} {r : List Field} (h : RecOk sep nCol r) : ∃ f t, r = f :: t := by
  obtain ⟨_, _, init, s, rfl⟩ := h
  cases init with
  | nil => exact ⟨_, _, rfl⟩
  | cons f t => exact ⟨f, t ++ [.plain s], rfl⟩

/-- The columns of such a record. -/
theorem cols_rec {sep : Str} (hs : SepOk sep) {nCol : Nat} {r : List Field} (h : RecOk sep nCol r) :
    cols true sep nCol (recText sep r) = .ok (r.map Field.val) := by
  obtain ⟨f, t, hft⟩ := rec_cons h
  have hl := recText_len hs f t
  rw [← hft] at hl
  have hlen : r.length = t.length + 1 := by rw [hft]; rfl
  rw [cols]
  by_cases h4 : (34 : UInt8) ∈ recText sep r
  · rw [if_pos ⟨rfl, h4⟩]
    obtain ⟨hn, hok, init, s, e⟩ := h
    have hi : init.length + 1 = r.length := by rw [e]; simp
    have := csvCols_rec hs s init ((recText sep r).length + 2) (by rw [← e]; exact hok) (by omega)
    rw [← e] at this
    rw [this]
    simp only [List.length_map]
    rw [if_neg (by omega), if_neg (by omega)]
  · rw [if_neg (fun x => h4 x.2)]
    have hp : r.map Field.text = r.map Field.val := by
      refine List.map_congr_left ?_
      intro x hx
      cases x with
      | plain s => rfl
      | quoted s =>
        exfalso; apply h4
        have : ∀ (f : Field) (t : List Field), Field.quoted s ∈ f :: t → (34 : UInt8) ∈ recText sep (f :: t) := by
          intro f t
          induction t generalizing f with
          | nil => intro hm; rw [← List.mem_singleton.1 hm, recText_one]; simp [Field.text]
          | cons g t ih =>
            intro hm
            rw [recText_cons]
            rcases List.mem_cons.1 hm with e | hm
            · rw [← e]; simp [Field.text]
            · have := ih g hm; simp [this]
        rw [hft] at hx ⊢
        exact this f t hx
    have : plainCols sep (recText sep r).length (recText sep r) = r.map Field.val := by
      conv_lhs => arg 3; rw [recText, hp]
      rw [hft, List.map_cons]
      refine plainCols_rec hs _ _ _ ?_ ?_
      · intro x hx
        rw [← List.map_cons] at hx
        obtain ⟨y, hy, rfl⟩ := List.mem_map.1 hx
        have hy' : y ∈ r := by rw [hft]; exact hy
        have hq : y.text = y.val := by
          have := List.map_inj_left.1 hp y hy'
          exact this
        have hok := h.2.1 y hy'
        cases y with
        | plain s => exact hok.2.2
        | quoted s =>
          exfalso
          have := congrArg List.length hq
          simp only [Field.text, Field.val, List.length_append, List.length_cons, List.length_nil] at this
          have hd : ∀ s : Str, s.length ≤ (doubled s).length := by
            intro s
            induction s with
            | nil => simp
            | cons c s ih => rw [doubled]; split <;> simp <;> omega
          have := hd s
          omega
      · rw [← hft]; simp; omega
    rw [this, if_neg (by simp [h.1])]

/-- One record. -/
theorem loop_rec {sep nullv : Str} (hs : SepOk sep) {nCol : Nat} {r : List Field} (h : RecOk sep nCol r) (rest : Str) (n : Nat)
    (rows : List (List (Option Str))) :
    loop true sep nullv nCol (n + 1) (getLines (recText sep r ++ 10 :: rest)) rows =
      loop true sep nullv nCol n (getLines rest) (rows ++ [(r.map Field.val).map (bindVal nullv)]) := by
  obtain ⟨f, t, hft⟩ := rec_cons h
  have hp : Par (recText sep r) := by
    rw [hft]; exact par_rec hs f t (by rw [← hft]; exact h.2.1)
  obtain ⟨l, ls, e, h1, h2⟩ := agg_rec (recText sep r) rest hp
  rw [e, loop]
  by_cases h4 : (34 : UInt8) ∈ recText sep r
  · obtain ⟨h5, h6⟩ := h1 h4
    rw [if_pos ⟨rfl, h5⟩, h6]
    simp only [cols_rec hs h]
  · obtain ⟨h5, h6⟩ := h2 h4
    rw [if_neg (fun x => h4 (h5 ▸ x.2))]
    simp only [h5, h6, cols_rec hs h]

theorem loop_file {sep nullv : Str} (hs : SepOk sep) {nCol : Nat} (tail : Str) : ∀ (rs : List (List Field)) (n : Nat)
    (rows : List (List (Option Str))), (∀ r ∈ rs, RecOk sep nCol r) →
    loop true sep nullv nCol (rs.length + n) (getLines (fileText sep rs ++ tail)) rows =
      loop true sep nullv nCol n (getLines tail) (rows ++ rs.map fun r => (r.map Field.val).map (bindVal nullv))
  | [], n, rows, _ => by simp [fileText]
  | r :: rs, n, rows, h => by
    have e : fileText sep (r :: rs) ++ tail = recText sep r ++ 10 :: (fileText sep rs ++ tail) := by simp [fileText]
    rw [e, show (r :: rs).length + n = (rs.length + n) + 1 by simp; omega, loop_rec hs (h r (by simp)),
      loop_file hs tail rs n _ (fun x hx => h x (by simp [hx]))]
    simp

/-- There are at least as many lines as records. -/
theorem lines_count (a rest : Str) : (getLines rest).length < (getLines (a ++ 10 :: rest)).length := by
  induction h : a.length using Nat.strongRecOn generalizing a with
  | _ n ih =>
    rcases first_line a with ha | ⟨b, t, rfl, hb⟩
    · rw [getLines_app a ha]; simp
    · have e1 : b ++ 10 :: t ++ 10 :: rest = b ++ 10 :: (t ++ 10 :: rest) := by simp
      rw [e1, getLines_app b hb]
      have := ih t.length (by rw [← h]; simp; omega) t rfl
      simp; omega

theorem file_count (sep tail : Str) : ∀ rs : List (List Field), rs.length + (getLines tail).length ≤ (getLines (fileText sep rs ++ tail)).length
  | [] => by simp [fileText]
  | r :: rs => by
    have e : fileText sep (r :: rs) ++ tail = recText sep r ++ 10 :: (fileText sep rs ++ tail) := by simp [fileText]
    have h1 := file_count sep tail rs
    have h2 := lines_count (recText sep r) (fileText sep rs ++ tail)
    rw [e]; simp; omega

theorem loop_end (csv : Bool) (sep nullv : Str) (nCol n : Nat) (rows : List (List (Option Str))) :
    loop csv sep nullv nCol n [] rows = .commit rows := by cases n <;> rfl

/-- **C189 (part).** `db.import` with `csv` puts every record of a file into the table, as long as the last value of every
record is not quoted: for any number of records of any length, values with separators, quotes and line feeds between
quotes, separators of any length.  An empty value, and the text of `nullvalue`, become NULL. -/
theorem C189_records_partial (sep nullv : Str) (hs : SepOk sep) (nCol : Nat) (rs : List (List Field))
    (h : ∀ r ∈ rs, RecOk sep nCol r) :
    importFile true sep nullv nCol (fileText sep rs) =
      .commit (rs.map fun r => (r.map Field.val).map fun s => if s = [] ∨ (nullv ≠ [] ∧ s = nullv) then none else some s) := by
  have hc := file_count sep [] rs
  simp only [getLines, List.length_nil, Nat.add_zero, List.append_nil] at hc
  rw [importFile]
  obtain ⟨k, hk⟩ : ∃ k, (getLines (fileText sep rs)).length = rs.length + k := ⟨_, (Nat.add_sub_of_le hc).symm⟩
  have := loop_file (nullv := nullv) hs [] rs k [] h
  simp only [List.append_nil, List.nil_append, getLines] at this
  rw [hk, this, loop_end]
  congr 1
  refine List.map_congr_left ?_
  intro r _
  refine List.map_congr_left ?_
  intro s _
  rw [bindVal]
  congr 1
  exact propext Or.comm

/-- Records that meet the hypotheses: quotes, a line feed and separators between quotes; an empty value. -/
def sampleRecs : List (List Field) := [[.quoted (asc "a\"b,\nc"), .plain [], .plain (asc "x y")], [.plain (asc "1"), .quoted [], .plain (asc "2")]]

theorem sampleRecs_ok : SepOk (asc ",") ∧ ∀ r ∈ sampleRecs, RecOk (asc ",") 3 r := by
  refine ⟨⟨by decide, by decide, by decide⟩, ?_⟩
  intro r hr
  simp only [sampleRecs, List.mem_cons, List.not_mem_nil, or_false] at hr
  rcases hr with rfl | rfl
  · refine ⟨rfl, ?_, [.quoted (asc "a\"b,\nc"), .plain []], asc "x y", rfl⟩
    intro f hf
    simp only [List.mem_cons, List.not_mem_nil, or_false] at hf
    rcases hf with rfl | rfl | rfl <;> simp only [Field.Ok] <;> decide
  · refine ⟨rfl, ?_, [.plain (asc "1"), .quoted []], asc "2", rfl⟩
    intro f hf
    simp only [List.mem_cons, List.not_mem_nil, or_false] at hf
    rcases hf with rfl | rfl | rfl <;> simp only [Field.Ok] <;> decide

example : fileText (asc ",") sampleRecs = asc "\"a\"\"b,\nc\",,x y\n1,\"\",2\n" ∧
    importFile true (asc ",") [] 3 (fileText (asc ",") sampleRecs) =
      .commit [[some (asc "a\"b,\nc"), none, some (asc "x y")], [some (asc "1"), none, some (asc "2")]] := by
  refine ⟨by decide +kernel, ?_⟩
  rw [C189_records_partial _ _ sampleRecs_ok.1 3 _ sampleRecs_ok.2]
  rfl

/-! ### The last value -/

/-- Values before the last, and one more turn. -/
theorem csvCols_init {sep : Str} (hs : SepOk sep) (last : Str) : ∀ (init : List Field) (n : Nat), (∀ f ∈ init, f.Ok sep) →
    csvCols sep (init.length + n) (init.flatMap (fun f => f.text ++ sep) ++ last) =
      (csvCols sep n last).map (init.map Field.val ++ ·)
  | [], n, _ => by
    simp only [List.length_nil, Nat.zero_add, List.flatMap_nil, List.nil_append, List.map_nil]
    cases csvCols sep n last <;> rfl
  | f :: t, n, h => by
    have e : (f :: t).flatMap (fun f => f.text ++ sep) ++ last = f.text ++ (sep ++ (t.flatMap (fun f => f.text ++ sep) ++ last)) := by
      simp
    rw [e, show (f :: t).length + n = (t.length + n) + 1 by simp; omega, csvCols_step hs f (h f (by simp)),
      csvCols_init hs last t n (fun x hx => h x (by simp [hx]))]
    cases csvCols sep n last <;> rfl

theorem recText_init (sep : Str) : ∀ (init : List Field) (l : Field),
    recText sep (init ++ [l]) = init.flatMap (fun f => f.text ++ sep) ++ l.text
  | [], l => by simp [recText_one]
  | [f], l => by simp [recText_cons, recText_one]
  | f :: g :: t, l => by
    have := recText_init sep (g :: t) l
    rw [List.cons_append, List.cons_append, recText_cons, List.flatMap_cons, ← List.cons_append, this]; simp

theorem doubled_len : ∀ s : Str, (doubled s).length = s.length + quotes s
  | [] => rfl
  | c :: t => by
    rw [doubled, quotes_cons]
    have := doubled_len t
    split <;> simp <;> omega

/-- The columns seen if the last value is quoted. -/
theorem csvCols_quoted {sep : Str} (s : Str) (n : Nat) :
    csvCols sep (n + 2) (34 :: doubled s ++ [34]) = if (34 : UInt8) ∈ s then none else some [s, []] := by
  rw [List.cons_append, csvCols, if_neg (by simp), List.tail_cons, quotedVal_last]
  simp only [List.nil_append, List.length_cons, List.length_append, List.length_nil, doubled_len]
  by_cases h4 : (34 : UInt8) ∈ s
  · have : quotes s ≠ 0 := by rw [quotes]; exact fun e => absurd h4 (List.count_eq_zero.1 e)
    rw [if_pos h4, if_neg (by omega), csvCols, if_neg (by simp), List.tail_cons, quotedVal]
    rfl
  · rw [if_neg h4, quotes_zero h4, if_pos (by omega), csvCols, if_pos (by decide)]
    rfl

/-- **C189 refuted.** A record whose last value is quoted is refused, and nothing of the file is put into the table, not
even the records before; this is so for every such file, whatever the values are.  If the last value has a quote in it
the import reads on behind the end of the line. -/
theorem C189_last_quoted_refuted (sep nullv : Str) (hs : SepOk sep) (nCol : Nat) (rs : List (List Field))
    (h : ∀ r ∈ rs, RecOk sep nCol r) (init : List Field) (s : Str) (hi : ∀ f ∈ init, f.Ok sep)
    (hn : (init ++ [Field.quoted s]).length = nCol) (rest : Str) :
    importFile true sep nullv nCol (fileText sep rs ++ (recText sep (init ++ [.quoted s]) ++ 10 :: rest)) =
      if (34 : UInt8) ∈ s then .overrun else .rollback := by
  have hc := file_count sep (recText sep (init ++ [.quoted s]) ++ 10 :: rest) rs
  have hc2 := lines_count (recText sep (init ++ [.quoted s])) rest
  rw [importFile]
  obtain ⟨k, hk⟩ : ∃ k, (getLines (fileText sep rs ++ (recText sep (init ++ [.quoted s]) ++ 10 :: rest))).length =
      rs.length + (k + 1) := by
    refine ⟨(getLines (fileText sep rs ++ (recText sep (init ++ [.quoted s]) ++ 10 :: rest))).length - rs.length - 1, ?_⟩
    omega
  rw [hk, loop_file hs _ rs _ [] h, List.nil_append]
  have hok : ∀ f ∈ init ++ [Field.quoted s], f.Ok sep := by
    intro f hf
    rcases List.mem_append.1 hf with hf | hf
    · exact hi f hf
    · rw [List.mem_singleton.1 hf]; trivial
  have hp : Par (recText sep (init ++ [.quoted s])) := by
    cases init with
    | nil => exact par_rec hs _ [] hok
    | cons f t => exact par_rec hs f (t ++ [Field.quoted s]) hok
  obtain ⟨l, ls, e, h1, _⟩ := agg_rec (recText sep (init ++ [.quoted s])) rest hp
  have h4 : (34 : UInt8) ∈ recText sep (init ++ [.quoted s]) := by rw [recText_init]; simp [Field.text]
  obtain ⟨h5, h6⟩ := h1 h4
  rw [e, loop, if_pos ⟨rfl, h5⟩, h6]
  have hlen : init.length ≤ (recText sep (init ++ [.quoted s])).length := by
    cases init with
    | nil => simp
    | cons f t =>
      have := recText_len hs f (t ++ [.quoted s])
      simp at this ⊢; omega
  have hcols : csvCols sep ((recText sep (init ++ [.quoted s])).length + 2) (recText sep (init ++ [.quoted s])) =
      if (34 : UInt8) ∈ s then none else some (init.map Field.val ++ [s, []]) := by
    conv_lhs => arg 3; rw [recText_init]
    obtain ⟨m, hm⟩ : ∃ m, (recText sep (init ++ [.quoted s])).length + 2 = init.length + (m + 2) :=
      ⟨(recText sep (init ++ [.quoted s])).length - init.length, by omega⟩
    rw [hm, csvCols_init hs _ init _ hi, show (Field.quoted s).text = 34 :: doubled s ++ [34] from rfl, csvCols_quoted]
    split <;> rfl
  have hcol : cols true sep nCol (recText sep (init ++ [.quoted s])) =
      .error (if (34 : UInt8) ∈ s then .overrun else .rollback) := by
    rw [cols, if_pos ⟨rfl, h4⟩, hcols]
    by_cases h34 : (34 : UInt8) ∈ s
    · simp only [if_pos h34]
    · simp only [if_neg h34]
      simp at hn
      rw [if_neg (by simp; omega), if_pos (by simp; omega)]
  simp only [hcol]

/-- **C189 refuted.** A record with two values more than the table has columns is written behind the array of columns
(if there is a quote in it). -/
theorem C189_too_many_refuted (sep nullv : Str) (hs : SepOk sep) (nCol : Nat) (init : List Field) (s rest : Str)
    (hi : ∀ f ∈ init ++ [Field.plain s], f.Ok sep) (hn : nCol + 1 < (init ++ [Field.plain s]).length)
    (hq : (34 : UInt8) ∈ recText sep (init ++ [.plain s])) :
    importFile true sep nullv nCol (recText sep (init ++ [.plain s]) ++ 10 :: rest) = .overflow := by
  have hc2 := lines_count (recText sep (init ++ [.plain s])) rest
  rw [importFile]
  obtain ⟨k, hk⟩ : ∃ k, (getLines (recText sep (init ++ [.plain s]) ++ 10 :: rest)).length = k + 1 := ⟨_, (Nat.succ_pred (by omega)).symm⟩
  rw [hk]
  have hp : Par (recText sep (init ++ [.plain s])) := by
    cases init with
    | nil => exact par_rec hs _ [] hi
    | cons f t => exact par_rec hs f (t ++ [Field.plain s]) hi
  obtain ⟨l, ls, e, h1, _⟩ := agg_rec (recText sep (init ++ [.plain s])) rest hp
  obtain ⟨h5, h6⟩ := h1 hq
  rw [e, loop, if_pos ⟨rfl, h5⟩, h6]
  have hlen : init.length ≤ (recText sep (init ++ [.plain s])).length := by
    cases init with
    | nil => simp
    | cons f t =>
      have := recText_len hs f (t ++ [.plain s])
      simp at this ⊢; omega
  have hcol : cols true sep nCol (recText sep (init ++ [.plain s])) = .error .overflow := by
    rw [cols, if_pos ⟨rfl, hq⟩, csvCols_rec hs s init _ hi (by omega)]
    simp only [List.length_map]
    rw [if_pos (by omega)]
  simp only [hcol]

example : importFile true (asc ",") [] 1 (asc "\"a\",b,c\n") = .overflow := by
  have := C189_too_many_refuted (asc ",") [] ⟨by decide, by decide, by decide⟩ 1 [.quoted (asc "a"), .plain (asc "b")] (asc "c") []
    (by intro f hf
        simp only [List.cons_append, List.nil_append, List.mem_cons, List.not_mem_nil, or_false] at hf
        rcases hf with rfl | rfl | rfl <;> simp only [Field.Ok] <;> decide) (by decide) (by decide)
  exact this

/-- **C189 refuted.** If the last record has a quote that is not closed, the file is closed twice; what was read before is
committed. -/
theorem C189_unclosed_refuted (sep nullv : Str) (hs : SepOk sep) (nCol : Nat) (rs : List (List Field))
    (h : ∀ r ∈ rs, RecOk sep nCol r) (s : Str) (hq : (34 : UInt8) ∉ s) (hl : (10 : UInt8) ∉ s) :
    importFile true sep nullv nCol (fileText sep rs ++ 34 :: s) =
      .closed2 (rs.map fun r => (r.map Field.val).map (bindVal nullv)) := by
  have hc := file_count sep (34 :: s) rs
  have e : getLines (34 :: s) = [34 :: s] := getLines_one _ (by simp [hl]) (by simp)
  rw [e] at hc
  rw [importFile]
  obtain ⟨k, hk⟩ : ∃ k, (getLines (fileText sep rs ++ 34 :: s)).length = rs.length + (k + 1) :=
    ⟨(getLines (fileText sep rs ++ 34 :: s)).length - rs.length - 1, by simp at hc; omega⟩
  have ha : agg (34 :: s) [] = none := by
    rw [agg, if_neg (by rw [quotes_cons, quotes_zero hq]; simp)]
  rw [hk, loop_file hs _ rs _ [] h, List.nil_append, e, loop, if_pos ⟨rfl, by simp⟩, ha]

/-! ### C190: what `db.query` writes -/

theorem getLines_final : ∀ (a : Str), a.getLastD 0 ≠ 10 → a ≠ [] → getLines (a ++ [10]) = getLines a
  | [], _, h => absurd rfl h
  | [c], h, _ => by
    have hc : ¬ c = 10 := by simpa using h
    simp [getLines, hc]
  | c :: d :: t, h, _ => by
    have ih := getLines_final (d :: t) (by simpa using h) (by simp)
    rw [List.cons_append, getLines, ih]
    conv_rhs => rw [getLines]
    rfl

/-- A last line feed makes no difference. -/
theorem import_final (csv : Bool) (sep nullv : Str) (nCol : Nat) (a : Str) (h : a.getLastD 0 ≠ 10) (hne : a ≠ []) :
    importFile csv sep nullv nCol (a ++ [10]) = importFile csv sep nullv nCol a := by
  rw [importFile, importFile, getLines_final a h hne]

theorem csvBody_doubled : ∀ s : Str, csvBody s = doubled s
  | [] => rfl
  | c :: t => by rw [csvBody, doubled, csvBody_doubled t]; split <;> simp_all

/-- One such file: nothing is read of three good records, because of the fourth. -/
example : importFile true (asc ",") [] 2 (asc "a,b\nc,d\ne,\"f\"\n") = .rollback := by
  have := C189_last_quoted_refuted (asc ",") [] ⟨by decide, by decide, by decide⟩ 2
    [[.plain (asc "a"), .plain (asc "b")], [.plain (asc "c"), .plain (asc "d")]]
    (by intro r hr
        simp only [List.mem_cons, List.not_mem_nil, or_false] at hr
        rcases hr with rfl | rfl
        · exact ⟨rfl, by
            intro f hf; simp only [List.mem_cons, List.not_mem_nil, or_false] at hf
            rcases hf with rfl | rfl <;> simp only [Field.Ok] <;> decide, [.plain (asc "a")], asc "b", rfl⟩
        · exact ⟨rfl, by
            intro f hf; simp only [List.mem_cons, List.not_mem_nil, or_false] at hf
            rcases hf with rfl | rfl <;> simp only [Field.Ok] <;> decide, [.plain (asc "c")], asc "d", rfl⟩)
    [.plain (asc "e")] (asc "f")
    (by intro f hf; rw [List.mem_singleton.1 hf]; simp only [Field.Ok]; decide) rfl []
  rw [if_neg (by decide)] at this
  exact this

example : importFile true (asc ",") [] 2 (asc "\"c,e") = .closed2 [] :=
  C189_unclosed_refuted (asc ",") [] ⟨by decide, by decide, by decide⟩ 2 [] (by simp) (asc "c,e") (by decide) (by decide)

/-- The value that `csvCell` writes. -/
def cellField (d : UInt8) (s : Str) : Field :=
  if cstr s = [] ∨ csvScan [d] (cstr s) (cstr s) = true then .quoted (cstr s) else .plain (cstr s)

theorem cellField_text (d : UInt8) (s : Str) : (cellField d s).text = csvCell [d] s := by
  rw [cellField, csvCell]
  by_cases h : cstr s = [] ∨ csvScan [d] (cstr s) (cstr s) = true
  · rw [if_pos h, if_pos h, csvBody_doubled]; rfl
  · rw [if_neg h, if_neg h]; rfl

theorem cellField_val (d : UInt8) (s : Str) : (cellField d s).val = cstr s := by
  rw [cellField]; split <;> rfl

theorem csvScan_clean (d : UInt8) (z : Str) : ∀ t : Str, csvScan [d] z t = false →
    ∀ c ∈ t, needQuote c = false ∧ c ≠ d
  | [], _, c, hc => by simp at hc
  | x :: t, h, c, hc => by
    rw [csvScan] at h
    split at h
    · cases h
    · next hx =>
      simp only [Bool.or_eq_true, not_or, Bool.not_eq_true] at hx
      rcases List.mem_cons.1 hc with rfl | hc
      · refine ⟨hx.1, fun e => ?_⟩
        subst e
        simp at hx
      · exact csvScan_clean d z t h c hc

theorem scan_clean (d : UInt8) (z : Str) : ∀ t : Str, (∀ c ∈ t, needQuote c = false ∧ c ≠ d) → csvScan [d] z t = false
  | [], _ => rfl
  | c :: t, h => by
    have hc := h c (by simp)
    rw [csvScan, if_neg, scan_clean d z t (fun x hx => h x (by simp [hx]))]
    simp [hc.1, hc.2]

theorem cellField_ok (d : UInt8) (s : Str) : (cellField d s).Ok [d] := by
  rw [cellField]
  by_cases h : cstr s = [] ∨ csvScan [d] (cstr s) (cstr s) = true
  · rw [if_pos h]; trivial
  · rw [if_neg h]
    simp only [not_or, Bool.not_eq_true] at h
    have hc := csvScan_clean d _ _ h.2
    refine ⟨fun hm => ?_, fun hm => ?_, fun hm => (hc d hm).2 rfl⟩
    · have := (hc 34 hm).1; exact absurd this (by decide)
    · have := (hc 10 hm).1; exact absurd this (by decide)

/-- The records of a result. -/
def recOf (d : UInt8) (r : List Cell) : List Field := r.map fun c => cellField d (colText c)

theorem recOf_text (d : UInt8) : ∀ r : List Cell, recText [d] (recOf d r) = joinSep [d] (csvCell [d]) (r.map colText)
  | [] => rfl
  | [c] => cellField_text d (colText c)
  | c :: e :: t => by
    have := recOf_text d (e :: t)
    simp only [recOf, List.map_cons] at this ⊢
    rw [recText_cons, this, cellField_text, joinSep]; simp

/-- The text of `db.query` and a line feed. -/
theorem csvOut_file (d : UInt8) (names : List Str) : ∀ (rows : List (List Cell)) (r : List Cell) (cnt : Nat), cnt ≠ 0 →
    tabLoop [d] (csvCell [d]) false names 0 cnt (r :: rows) ++ [10] = 10 :: fileText [d] ((r :: rows).map (recOf d)) := by
  intro rows
  induction rows with
  | nil => intro r cnt h0; simp [tabLoop, h0, fileText, recOf_text]
  | cons r2 rows ih =>
    intro r cnt h0
    rw [tabLoop]
    have := ih r2 (cnt + 1) (by omega)
    simp only [h0, ne_eq, not_false_eq_true, true_or, if_true, false_and, if_false, not_true_eq_false, List.nil_append, List.append_assoc]
    rw [this]
    simp [fileText, recOf_text]

theorem csvOut_text (d : UInt8) (names : List Str) (r : List Cell) (rows : List (List Cell)) :
    csvOut [d] false names 0 (r :: rows) ++ [10] = fileText [d] ((r :: rows).map (recOf d)) := by
  rw [csvOut, tabLoop]
  cases rows with
  | nil => simp [tabLoop, fileText, recOf_text]
  | cons r2 rows =>
    have := csvOut_file d names rows r2 1 (by omega)
    simp only [ne_eq, not_true_eq_false, false_and, if_false, true_and, Bool.false_eq_true, List.nil_append, or_false,
      List.append_assoc]
    rw [this]
    simp [fileText, recOf_text]

/-- Text without blanks, control characters, quotes, letters beyond ASCII and the separator. -/
def Simple (d : UInt8) (s : Str) : Prop := s ≠ [] ∧ ∀ c ∈ s, 32 < c ∧ c < 127 ∧ c ≠ 34 ∧ c ≠ 39 ∧ c ≠ d

theorem simple_field {d : UInt8} {s : Str} (h : Simple d s) : cellField d s = .plain s := by
  have hz : cstr s = s := by
    rw [cstr]
    have : ∀ t : Str, (∀ c ∈ t, (32 : UInt8) < c) → t.takeWhile (· ≠ 0) = t := by
      intro t
      induction t with
      | nil => intro _; rfl
      | cons c t ih =>
        intro h
        have hc : c ≠ 0 := by rintro rfl; exact absurd (h 0 (by simp)) (by decide)
        rw [List.takeWhile_cons, if_pos (by simpa using hc), ih (fun x hx => h x (by simp [hx]))]
    exact this s (fun c hc => (h.2 c hc).1)
  rw [cellField, hz, if_neg]
  rw [not_or]
  refine ⟨h.1, ?_⟩
  rw [scan_clean]
  · simp
  · intro c hc
    obtain ⟨h1, h2, h3, h4, h5⟩ := h.2 c hc
    refine ⟨?_, h5⟩
    rw [needQuote]
    simp only [Bool.or_eq_false_iff, decide_eq_false_iff_not]
    rw [UInt8.lt_iff_toNat_lt] at h1 h2
    refine ⟨⟨⟨?_, h3⟩, h4⟩, ?_⟩
    · rw [UInt8.le_iff_toNat_le]; omega
    · rw [UInt8.le_iff_toNat_le]; omega

/-- The text of `db.query` ends with the last byte of the last value. -/
theorem csvOut_ends (d : UInt8) (names : List Str) (r : List Cell) (rows : List (List Cell))
    (h : ∀ q ∈ r :: rows, ∃ init c, q = init ++ [c] ∧ Simple d (colText c)) :
    (csvOut [d] false names 0 (r :: rows)).getLastD 0 ≠ 10 ∧ csvOut [d] false names 0 (r :: rows) ≠ [] := by
  have key : ∃ a s, csvOut [d] false names 0 (r :: rows) = a ++ s ∧ Simple d s := by
    have e := csvOut_text d names r rows
    obtain ⟨rs, q, hq⟩ : ∃ rs q, r :: rows = rs ++ [q] :=
      ⟨(r :: rows).dropLast, (r :: rows).getLast (by simp), (List.dropLast_concat_getLast (by simp)).symm⟩
    obtain ⟨init, c, rfl, hs⟩ := h q (by rw [hq]; simp)
    rw [hq, List.map_append, List.map_singleton, fileText, List.flatMap_append, List.flatMap_singleton, ← List.append_assoc] at e
    have e := List.append_cancel_right e
    rw [← hq] at e
    have hr : recOf d (init ++ [c]) = init.map (fun c => cellField d (colText c)) ++ [.plain (colText c)] := by
      rw [recOf, List.map_append, List.map_singleton, simple_field hs]
    rw [hr, recText_init, ← List.append_assoc] at e
    exact ⟨_, _, e, hs⟩
  obtain ⟨a, s, e, hs⟩ := key
  rw [e]
  obtain ⟨p, x, rfl⟩ : ∃ p x, s = p ++ [x] := ⟨s.dropLast, s.getLast hs.1, (List.dropLast_concat_getLast hs.1).symm⟩
  refine ⟨?_, by simp⟩
  rw [← List.append_assoc]
  simp only [List.getLastD_concat]
  intro ex
  have := (hs.2 x (by simp)).1
  rw [ex] at this
  exact absurd this (by decide)

/-- **C190 (part).** What `db.query` writes with mode `csv` (without headers) `db.import` with `csv` puts into another table
as it was, an empty text and NULL as NULL; for any number of rows and columns, texts of any length with quotes, separators and
line feeds, but in the last column only simple texts. -/
theorem C190_round_trip_partial (d : UInt8) (hd : d ≠ 34 ∧ d ≠ 10) (names : List Str) (nCol : Nat) (rows : List (List Cell))
    (h : ∀ r ∈ rows, r.length = nCol ∧ ∃ init c, r = init ++ [c] ∧ Simple d (colText c)) :
    importFile true [d] [] nCol (csvOut [d] false names 0 rows) =
      .commit (rows.map fun r => r.map fun c => if cstr (colText c) = [] then none else some (cstr (colText c))) := by
  cases rows with
  | nil => rfl
  | cons r rows =>
    have he := csvOut_ends d names r rows (fun q hq => (h q hq).2)
    rw [← import_final _ _ _ _ _ he.1 he.2, csvOut_text]
    have hsep : SepOk [d] := ⟨by simp, by simpa using fun e => hd.1 e.symm, by simpa using fun e => hd.2 e.symm⟩
    rw [C189_records_partial [d] [] hsep nCol]
    · congr 1
      rw [List.map_map]
      refine List.map_congr_left ?_
      intro q _
      simp only [Function.comp, recOf, List.map_map]
      refine List.map_congr_left ?_
      intro c _
      simp [cellField_val]
    · intro q hq
      obtain ⟨x, hx, rfl⟩ := List.mem_map.1 hq
      obtain ⟨h1, init, c, rfl, hs⟩ := h x hx
      refine ⟨by rw [recOf, List.length_map]; exact h1, ?_, ?_⟩
      · intro f hf
        obtain ⟨c, _, rfl⟩ := List.mem_map.1 hf
        exact cellField_ok d _
      · exact ⟨init.map (fun c => cellField d (colText c)), colText c, by
          rw [recOf, List.map_append, List.map_singleton, simple_field hs]⟩

/-- A result that meets the hypotheses. -/
example : ∀ r ∈ ([[.text (asc "a \"b\",\n"), .num (asc "1")], [.null, .text (asc "x")]] : List (List Cell)),
    r.length = 2 ∧ ∃ init c, r = init ++ [c] ∧ Simple 44 (colText c) := by
  intro r hr
  simp only [List.mem_cons, List.not_mem_nil, or_false] at hr
  rcases hr with rfl | rfl
  · exact ⟨rfl, [.text (asc "a \"b\",\n")], .num (asc "1"), rfl, by decide, by decide⟩
  · exact ⟨rfl, [.null], .text (asc "x"), rfl, by decide, by decide⟩

/-- **C190 refuted.** If the last value of a row has a blank in it (and no quote), nothing of what `db.query` has written is
imported; for all results with more rows. -/
theorem C190_blank_refuted (d : UInt8) (hd : d ≠ 34 ∧ d ≠ 10) (names : List Str) (nCol : Nat)
    (init : List Cell) (s : Str) (r2 : List Cell) (rows : List (List Cell)) (hn : (init ++ [Cell.text s]).length = nCol)
    (hb : (32 : UInt8) ∈ s) (hq : (34 : UInt8) ∉ s) (hz : (0 : UInt8) ∉ s) :
    importFile true [d] [] nCol (csvOut [d] false names 0 ((init ++ [.text s]) :: r2 :: rows)) = .rollback := by
  have hsep : SepOk [d] := ⟨by simp, by simpa using fun e => hd.1 e.symm, by simpa using fun e => hd.2 e.symm⟩
  have hzs : cstr s = s := by
    rw [cstr]
    have : ∀ t : Str, (0 : UInt8) ∉ t → t.takeWhile (· ≠ 0) = t := by
      intro t
      induction t with
      | nil => intro _; rfl
      | cons c t ih =>
        intro h
        simp only [List.mem_cons, not_or] at h
        rw [List.takeWhile_cons, if_pos (by simpa using fun e => h.1 e.symm), ih h.2]
    exact this s hz
  have hlast : cellField d s = .quoted s := by
    rw [cellField, hzs, if_pos]
    right
    by_contra hc
    have := (csvScan_clean d s s (by simpa using hc) 32 hb).1
    exact absurd this (by decide)
  have hf : recOf d (init ++ [.text s]) = init.map (fun c => cellField d (colText c)) ++ [.quoted s] := by
    rw [recOf, List.map_append, List.map_singleton]
    congr 2
    rw [colText, hzs, hlast]
  have ht : ∃ rest, csvOut [d] false names 0 ((init ++ [.text s]) :: r2 :: rows) = recText [d] (recOf d (init ++ [.text s])) ++ 10 :: rest := by
    rw [csvOut, tabLoop, tabLoop]
    refine ⟨joinSep [d] (csvCell [d]) (r2.map colText) ++ tabLoop [d] (csvCell [d]) false names 0 2 rows, ?_⟩
    rw [recOf_text]
    simp
  obtain ⟨rest, ht⟩ := ht
  rw [ht, hf]
  have := C189_last_quoted_refuted [d] [] hsep nCol [] (by simp) (init.map fun c => cellField d (colText c)) s
    (by intro f hf; obtain ⟨c, _, rfl⟩ := List.mem_map.1 hf; exact cellField_ok d _)
    (by simpa using hn) rest
  rw [if_neg hq] at this
  simpa [fileText] using this

example : importFile true [44] [] 2 (csvOut [44] false [] 0 [[.num (asc "1"), .text (asc "a b")], [.num (asc "2"), .null]]) = .rollback :=
  C190_blank_refuted 44 (by decide) [] 2 [.num (asc "1")] (asc "a b") _ [] rfl (by decide) (by decide) (by decide)

end Verif.Sql.Import
