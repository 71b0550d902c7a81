import Verif.Regex.Spec

/-! C133 to C135: String.replace with a regular expression. -/

namespace Verif.Regex

open Verif.Str (Bytes cstr)

/-- Spans as `regexec` gives them for a text of length `n`. -/
def Good (n : Nat) (m : Span) (l : List Span) : Prop := m.In n ∧ ∀ g ∈ l, g = ⟨-1, -1⟩ ∨ g.In n

theorem Good.get {n m l} (h : Good n m l) {k : Nat} {g : Span} (hg : (m :: l)[k]? = some g) :
    g = ⟨-1, -1⟩ ∨ g.In n := by
  have := List.mem_of_getElem? hg
  rcases List.mem_cons.mp this with h' | h'
  · exact .inr (h' ▸ h.1)
  · exact h.2 g h'

theorem tgroup_eq {p : Bytes} (hp : NoNul p) {m l} (h : Good p.length m l) (k : Nat) :
    tgroup p (m :: l) k = some (((m :: l)[k]?.bind (Span.text p)).getD []) := by
  rw [tgroup]
  cases hg : (m :: l)[k]? with
  | none => rfl
  | some g =>
    simp only [Option.bind_some]
    rcases h.get hg with rfl | hi
    · simp [Span.text]
    · obtain ⟨h1, h2, h3⟩ := hi
      rw [if_pos (by omega), rd_eq hp ⟨h1, h2, h3⟩, Span.text, if_neg (by omega)]; rfl

theorem tdollar_piece {p : Bytes} (hp : NoNul p) {m l} (h : Good p.length m l) (x : Piece) (c : UInt8)
    (hx : x.src = [36, c]) : tdollar p m (m :: l) c = some (x.mean p (m :: l)) := by
  obtain ⟨h1, h2, h3⟩ := h.1
  cases x with
  | byte c hc => simp [Piece.src] at hx
  | dollar => simp only [Piece.src, List.cons.injEq, and_true, true_and] at hx; subst hx; simp [tdollar, Piece.mean]
  | group k =>
    simp only [Piece.src, List.cons.injEq, and_true, true_and] at hx
    subst hx
    have hk : ∀ k : Fin 10, (48 : UInt8) ≤ 48 + UInt8.ofNat k.val ∧ 48 + UInt8.ofNat k.val ≤ (57 : UInt8) ∧
      (48 + UInt8.ofNat k.val).toNat - 48 = k.val := by decide
    obtain ⟨h4, h5, h6⟩ := hk k
    rw [tdollar, if_pos ⟨h4, h5⟩, h6, tgroup_eq hp h]; rfl
  | whole =>
    simp only [Piece.src, List.cons.injEq, and_true, true_and] at hx; subst hx
    rw [tdollar, if_neg (by decide), if_pos rfl, tgroup_eq hp h]; rfl
  | before =>
    simp only [Piece.src, List.cons.injEq, and_true, true_and] at hx; subst hx
    rw [tdollar, if_neg (by decide), if_neg (by decide), if_neg (by decide), if_neg (by decide), if_pos rfl, rd,
      cstr_noNul hp, if_pos ⟨Int.le_refl _, h1, by omega⟩]
    simp [Piece.mean]
  | after =>
    simp only [Piece.src, List.cons.injEq, and_true, true_and] at hx; subst hx
    rw [tdollar, if_neg (by decide), if_neg (by decide), if_neg (by decide), if_pos rfl, tpost, cstr_noNul hp]
    have hl : (p.drop m.eo.toNat).length = p.length - m.eo.toNat := List.length_drop ..
    split
    · rw [rd, cstr_noNul hp, if_pos ⟨by omega, by omega, Int.le_refl _⟩]
      simp only [Piece.mean, List.getElem?_cons_zero, Option.map_some, Option.getD_some]
      rw [List.take_of_length_le (by omega)]
    · rw [rd, cstr_noNul hp, if_pos ⟨by omega, Int.le_refl _, by omega⟩]
      simp only [Piece.mean, List.getElem?_cons_zero, Option.map_some, Option.getD_some]
      rw [List.drop_of_length_le (by omega)]; simp
  | other c' hc =>
    simp only [Piece.src, List.cons.injEq, and_true, true_and] at hx; subst hx
    rw [tdollar, if_neg hc.2.2.2.2, if_neg hc.2.1, if_neg hc.1, if_neg hc.2.2.1, if_neg hc.2.2.2.1]; rfl

/-- A template means what its pieces mean. -/
theorem expand_pieces {p : Bytes} (hp : NoNul p) {m l} (h : Good p.length m l) :
    ∀ ps : List Piece, expand p m (m :: l) (srcOf ps) = some (meanOf p (m :: l) ps)
  | [] => rfl
  | x :: ps => by
    have ih := expand_pieces hp h ps
    have hs : srcOf (x :: ps) = x.src ++ srcOf ps := by simp [srcOf]
    have hm : meanOf p (m :: l) (x :: ps) = x.mean p (m :: l) ++ meanOf p (m :: l) ps := by simp [meanOf]
    rw [hs, hm]
    have two : ∀ c, x.src = [36, c] → expand p m (m :: l) (x.src ++ srcOf ps) =
        some (x.mean p (m :: l) ++ meanOf p (m :: l) ps) := by
      intro c hc
      rw [hc, List.cons_append, List.cons_append, List.nil_append, expand, if_pos rfl, tdollar_piece hp h x c hc, ih]
      rfl
    cases x with
    | byte c hc =>
      simp only [Piece.src, Piece.mean, List.cons_append, List.nil_append]
      generalize hr : srcOf ps = r at *
      cases r with
      | nil =>
        rw [expand] at ih
        injection ih with ih
        rw [expand, if_neg hc, ← ih]
      | cons d r => rw [expand, if_neg hc, ih]; rfl
    | dollar => exact two _ rfl
    | group k => exact two _ rfl
    | whole => exact two _ rfl
    | before => exact two _ rfl
    | after => exact two _ rfl
    | other c hc => exact two _ rfl

theorem pieces_plain {p : Bytes} {l} : ∀ ps : List Piece, (36 : UInt8) ∉ srcOf ps → meanOf p l ps = srcOf ps
  | [], _ => rfl
  | x :: ps, h => by
    have hs : srcOf (x :: ps) = x.src ++ srcOf ps := by simp [srcOf]
    have hm : meanOf p l (x :: ps) = x.mean p l ++ meanOf p l ps := by simp [meanOf]
    rw [hs, List.mem_append, not_or] at h
    rw [hs, hm, pieces_plain ps h.2]
    cases x with
    | byte c hc => rfl
    | _ => exact absurd (by simp [Piece.src]) h.1

theorem subst_text {σ : Type} {p : Bytes} (hp : NoNul p) {m l} (h : Good p.length m l) (nsub : Nat) (ps : List Piece)
    (hn : NoNul (srcOf ps)) (s : Bytes) (eoff : Int) (st : σ) :
    subst nsub (.text (srcOf ps)) s p eoff m (m :: l) st = some (.put st (meanOf p (m :: l) ps)) := by
  simp only [subst]
  rw [cstr_noNul hn]
  split
  · rw [expand_pieces hp h]; rfl
  · rename_i hc; rw [pieces_plain ps hc]

/-! ### Without flag g -/

/-- C133.  Without the flag g exactly the first match is replaced by what the template means; without a match the
string stays as it is.  For every engine, string and template without NUL. -/
theorem C133_replace_first_partial {σ : Type} (E : Engine) (hE : Valid E) (s : Bytes) (hs : NoNul s) (ps : List Piece)
    (hp : NoNul (srcOf ps)) (nsub : Nat) (st : σ) :
    (∀ l, E false s = .found l → ∃ m gs, l = m :: gs ∧
      replace E false nsub (.text (srcOf ps)) s st =
        some (.str st (s.take m.so.toNat ++ meanOf s l ps ++ s.drop m.eo.toNat))) ∧
    (E false s = .miss → replace E false nsub (.text (srcOf ps)) s st = some (.str st s)) := by
  constructor
  · intro l hl
    obtain ⟨m, gs, rfl, hm, hg⟩ := hE.found _ _ _ hl
    refine ⟨m, gs, rfl, ?_⟩
    rw [replace, replLoop, if_neg (by decide), cstr_noNul hs, hl]
    simp only
    rw [dif_pos (show 0 ≤ m.so ∧ m.so ≤ m.eo ∧ m.eo ≤ s.length from hm), subst_text hs ⟨hm, hg⟩ nsub ps hp]
    simp only [true_or, dite_true, List.nil_append]
    rw [cstr_noNul (hs.drop _)]
  · intro h
    rw [replace, replLoop, if_neg (by decide), cstr_noNul hs, h]; rfl

/-! ### Successive matches -/

/-- The matches an engine finds one after the other: what was left of the text each time, and the spans found in it;
`rest` is what is left behind the last one. -/
inductive Chain (E : Engine) : Bool → Bytes → List (Bytes × List Span) → Bytes → Prop where
  | done (nb p) : E nb p = .miss → Chain E nb p [] p
  | step (nb p m l ps rest) : E nb p = .found (m :: l) → Chain E true (p.drop m.eo.toNat) ps rest →
      Chain E nb p ((p, m :: l) :: ps) rest

/-- The text before each match followed by what `g` gives for it.  `g` gets the offset in the whole text of what was
left; it may stop with an error. -/
def applyAll {σ : Type} (g : σ → Int → Bytes → List Span → σ × Option Bytes) :
    List (Bytes × List Span) → Int → σ → σ × Option Bytes
  | [], _, st => (st, some [])
  | (_, []) :: _, _, st => (st, some [])
  | (p, m :: l) :: ps, off, st =>
    match g st off p (m :: l) with
    | (st, none) => (st, none)
    | (st, some t) =>
      match applyAll g ps (off + m.eo) st with
      | (st, none) => (st, none)
      | (st, some u) => (st, some (p.take m.so.toNat ++ t ++ u))

/-- The result as replace returns it. -/
def outcome {σ : Type} (out rest : Bytes) : σ × Option Bytes → ROut σ
  | (st, some u) => .str st (out ++ u ++ rest)
  | (st, none) => .err st

/-- The engine finds no empty match and runs into no error. -/
def Eager (E : Engine) : Prop :=
  (∀ nb s, E nb s ≠ .fail) ∧ ∀ nb s m l, E nb s = .found (m :: l) → m.so < m.eo

/-- What `subst` does for one match, as a pair. -/
def asOne {σ : Type} : σ × Option Bytes → One σ
  | (st, some t) => .put st t
  | (st, none) => .err st

theorem replLoop_chain {σ : Type} (E : Engine) (hE : Valid E) (hG : Eager E) (nsub : Nat) (r : Repl σ) (s : Bytes)
    (g : σ → Int → Bytes → List Span → σ × Option Bytes)
    (hsub : ∀ p m l off st, NoNul p → Good p.length m l → m.so < m.eo →
      subst nsub r s p off m (m :: l) st = some (asOne (g st off p (m :: l)))) :
    ∀ n p, p.length = n → ∀ k off nb out st, NoNul p → k + p.length ≤ maxMatches →
      ∃ ps rest, Chain E nb p ps rest ∧
        replLoop E true nsub r s k p off nb out st = some (outcome out rest (applyAll g ps off st)) := by
  intro n
  induction n using Nat.strongRecOn with
  | ind n ih =>
    intro p hn k off nb out st hp hk
    rw [replLoop, if_neg (by omega), cstr_noNul hp]
    cases he : E nb p with
    | fail => exact absurd he (hG.1 _ _)
    | miss => exact ⟨[], p, .done _ _ he, by simp [applyAll, outcome]⟩
    | found L =>
      obtain ⟨m, l, rfl, hm, hg⟩ := hE.found _ _ _ he
      have hne := hG.2 _ _ _ _ he
      obtain ⟨h1, h2, h3⟩ := hm
      simp only
      rw [dif_pos ⟨h1, h2, h3⟩, hsub p m l off st hp ⟨⟨h1, h2, h3⟩, hg⟩ hne]
      cases hgx : g st off p (m :: l) with
      | mk st' t =>
        cases t with
        | none =>
          obtain ⟨ps, rest, hc, _⟩ := ih (p.drop m.eo.toNat).length (by rw [List.length_drop]; omega)
            (p.drop m.eo.toNat) rfl (k + 1) (off + m.eo) true [] st (hp.drop _) (by rw [List.length_drop]; omega)
          refine ⟨(p, m :: l) :: ps, rest, .step _ _ _ _ _ _ he hc, ?_⟩
          simp [asOne, applyAll, hgx, outcome]
        | some t =>
          obtain ⟨ps, rest, hc, hr⟩ := ih (p.drop m.eo.toNat).length (by rw [List.length_drop]; omega)
            (p.drop m.eo.toNat) rfl (k + 1) (off + m.eo) true (out ++ p.take m.so.toNat ++ t) st' (hp.drop _)
            (by rw [List.length_drop]; omega)
          refine ⟨(p, m :: l) :: ps, rest, .step _ _ _ _ _ _ he hc, ?_⟩
          simp only [asOne]
          by_cases hd : p.drop m.eo.toNat = []
          · rw [dif_pos (.inr (.inl hd))]
            rw [hd] at hc
            cases hc with
            | done _ _ _ => simp [applyAll, hgx, outcome, hd, cstr]
            | step _ _ m' l' ps' _ h' =>
              have h6 := hG.2 _ _ _ _ h'
              obtain ⟨m2, gs, h7, h8, _⟩ := hE.found _ _ _ h'
              injection h7 with h7 _
              subst h7
              obtain ⟨h9, _, h10⟩ := h8
              simp only [List.length_nil] at h10
              omega
          · rw [dif_neg (by simp only [hd, Bool.true_eq_false, false_or]; omega), hr]
            simp only [applyAll, hgx]
            cases hx : applyAll g ps (off + m.eo) st' with
            | mk st2 u => cases u <;> simp [outcome]

/-- Replacing by a template, match by match. -/
def byTemplate {σ : Type} (ps : List Piece) : σ → Int → Bytes → List Span → σ × Option Bytes :=
  fun st _ p l => (st, some (meanOf p l ps))

/-- The result of replacing by a template, written out. -/
def spliced (ps : List Piece) (chain : List (Bytes × List Span)) : Bytes :=
  chain.flatMap fun x => x.1.take ((x.2.head?.map (·.so.toNat)).getD 0) ++ meanOf x.1 x.2 ps

theorem applyAll_template {σ : Type} {E : Engine} {nb p chain rest} (h : Chain E nb p chain rest) (ps : List Piece) :
    ∀ off (st : σ), applyAll (byTemplate ps) chain off st = (st, some (spliced ps chain)) := by
  induction h with
  | done => intro off st; rfl
  | step nb p m l cs rest _ _ ih =>
    intro off st
    simp only [applyAll, byTemplate]
    have := ih (off + m.eo) st
    rw [this]
    simp [spliced]

/-- C134.  With the flag g every match an engine finds one after the other is replaced by what the template means,
and everything between them is kept; for every engine that finds no empty match, every string of at most ten million
bytes and every template. -/
theorem C134_replace_each {σ : Type} (E : Engine) (hE : Valid E) (hG : Eager E) (s : Bytes) (hs : NoNul s)
    (hl : s.length ≤ 10000000) (ps : List Piece) (hp : NoNul (srcOf ps)) (nsub : Nat) (st : σ) :
    ∃ chain rest, Chain E false s chain rest ∧
      replace E true nsub (.text (srcOf ps)) s st = some (.str st (spliced ps chain ++ rest)) := by
  obtain ⟨chain, rest, hc, hr⟩ := replLoop_chain E hE hG nsub (.text (srcOf ps)) s (byTemplate (σ := σ) ps)
    (fun p m l off st hp' hg _ => by rw [subst_text hp' hg nsub ps hp]; rfl) _ s rfl 0 0 false [] st hs
    (by rw [maxMatches]; omega)
  refine ⟨chain, rest, hc, ?_⟩
  rw [replace, hr, applyAll_template hc]
  simp [outcome]

theorem posix_eager {r : Rx} (h : NonEmpty r) : Eager (posix r) := by
  constructor
  · intro nb s
    rcases posix_spec r nb s with ⟨a, b, h1, _⟩ | ⟨h1, _⟩ <;> rw [h1] <;> simp
  · intro nb s m l hf
    rcases posix_spec r nb s with ⟨a, b, h1, h2⟩ | ⟨h1, _⟩
    · rw [h1] at hf
      simp only [Res.found.injEq, List.cons.injEq] at hf
      obtain ⟨rfl, _⟩ := hf
      have h3 := h2.2.2.1.le
      have h4 : a ≠ b := fun e => h nb s a (by have h5 := h2.2.2.1; rwa [← e] at h5)
      simp only; omega
    · rw [h1] at hf; cases hf

theorem first_shift {r : Rx} (hr : r.noM = true) {s : Bytes} {i : Nat} (hi : i ≤ s.length) {a b : Nat}
    (h : FirstFrom (decide (0 < i)) (s.drop i) r 0 a b) : FirstFrom false s r i (i + a) (i + b) := by
  have sh : ∀ {x y}, Matches (decide (0 < i)) (s.drop i) r x y ↔ Matches false s r (i + x) (i + y) := by
    intro x y; have := Matches.shift (nb := false) hr i hi (a := x) (b := y); simpa using this
  obtain ⟨_, h2, h3, h4, h5⟩ := h
  rw [List.length_drop] at h2
  refine ⟨by omega, by omega, sh.mp h3, ?_, ?_⟩
  · intro a' b' h6 h7 h8
    have h9 := h8.le
    have := h4 (a' - i) (b' - i) (Nat.zero_le _) (by rw [List.length_drop]; omega)
      (sh.mpr (by rw [show i + (a' - i) = a' by omega, show i + (b' - i) = b' by omega]; exact h8))
    omega
  · intro b' h6
    have h9 := h6.le
    have := h5 (b' - i) (sh.mpr (by rw [show i + (b' - i) = b' by omega]; exact h6))
    omega

theorem none_shift {r : Rx} (hr : r.noM = true) {s : Bytes} {i : Nat} (hi : i ≤ s.length)
    (h : NoneFrom (decide (0 < i)) (s.drop i) r 0) : NoneFrom false s r i := by
  intro a b h1 h2 h3
  have h9 := h3.le
  refine h (a - i) (b - i) (Nat.zero_le _) (by rw [List.length_drop]; omega) ?_
  have := (Matches.shift (nb := false) hr i hi (a := a - i) (b := b - i)).mpr
    (by rw [show i + (a - i) = a by omega, show i + (b - i) = b by omega]; exact h3)
  simpa using this

/-- A template that does not speak of the text before the match. -/
def noBefore (ps : List Piece) : Prop := ∀ x ∈ ps, x ≠ Piece.before

theorem meanOf_shift {s : Bytes} {i a b : Nat} (hi : i + b ≤ s.length) (hab : a ≤ b) (ps : List Piece)
    (h : noBefore ps) :
    meanOf (s.drop i) [⟨a, b⟩] ps = meanOf s [⟨(i + a : Nat), (i + b : Nat)⟩] ps := by
  have hp : part (s.drop i) a b = part s (i + a) (i + b) := by
    rw [part, part, List.drop_drop]; congr 1; omega
  unfold meanOf
  induction ps with
  | nil => rfl
  | cons x ps ih =>
    rw [List.flatMap_cons, List.flatMap_cons, ih (fun y hy => h y (List.mem_cons_of_mem _ hy))]
    congr 1
    have ht : ∀ (t : Bytes) (x y : Nat), Span.text t ⟨(x : Int), (y : Int)⟩ = some (part t x y) := by
      intro t x y; rw [Span.text, if_neg (by simp)]; rfl
    cases x with
    | before => exact absurd rfl (h _ (by simp))
    | group k =>
      simp only [Piece.mean]
      rcases Nat.eq_zero_or_pos k.val with h0 | h0
      · rw [h0]; simp only [List.getElem?_cons_zero, Option.bind_some, ht, hp]
      · rw [List.getElem?_eq_none (by simp; omega), List.getElem?_eq_none (by simp; omega)]; rfl
    | whole => simp only [Piece.mean, List.getElem?_cons_zero, Option.bind_some, ht, hp]
    | after =>
      simp only [Piece.mean, List.getElem?_cons_zero, Option.map_some, Option.getD_some, Int.toNat_natCast,
        List.drop_drop]
    | _ => rfl

theorem replaced_of_chain {r : Rx} (hr : r.noM = true) (hne : NonEmpty r) {s : Bytes} (ps : List Piece)
    (hb : noBefore ps) {nb : Bool} {p rest : Bytes} {chain : List (Bytes × List Span)}
    (h : Chain (posix r) nb p chain rest) : ∀ i, i ≤ s.length → p = s.drop i → nb = decide (0 < i) →
      Replaced r s (fun a b => meanOf s [⟨a, b⟩] ps) i (spliced ps chain ++ rest) := by
  induction h with
  | done nb p he =>
    intro i hi hp hnb
    subst hp; subst hnb
    rcases posix_spec r (decide (0 < i)) (s.drop i) with ⟨a, b, h1, _⟩ | ⟨_, h2⟩
    · rw [h1] at he; cases he
    · exact .done _ (none_shift hr hi h2)
  | step nb p m l cs rest he _ ih =>
    intro i hi hp hnb
    subst hp; subst hnb
    rcases posix_spec r (decide (0 < i)) (s.drop i) with ⟨a, b, h1, h2⟩ | ⟨h1, _⟩
    · rw [h1] at he
      simp only [Res.found.injEq, List.cons.injEq] at he
      obtain ⟨rfl, rfl⟩ := he
      have hle := h2.2.2.1.le
      have hbd := h2.2.2.1.bound h2.2.1
      rw [List.length_drop] at hbd
      have hlt : a < b := by
        rcases Nat.lt_or_ge a b with h | h
        · exact h
        · have h3 := h2.2.2.1
          rw [show b = a by omega] at h3
          exact absurd h3 (hne _ _ _)
      have := ih (i + b) (by omega) (by simp) (by simp; omega)
      have h4 := Replaced.step (f := fun a b => meanOf s [⟨a, b⟩] ps) i (i + a) (i + b) _ (first_shift hr hi h2)
        (by omega) this
      have he : spliced ps ((s.drop i, [⟨a, b⟩]) :: cs) ++ rest =
          part s i (i + a) ++ meanOf s [⟨(i + a : Nat), (i + b : Nat)⟩] ps ++ (spliced ps cs ++ rest) := by
       simp only [spliced, List.flatMap_cons, List.head?_cons, Option.map_some, Option.getD_some, Int.toNat_natCast]
       rw [meanOf_shift (by omega) hle ps hb]
       simp only [part, List.append_assoc]
       congr 2; omega
      rw [he]; exact h4
    · rw [h1] at he; cases he

/-- C134.  With the flag g, for every regular expression that matches no empty text and has no `^` with flag m:
every successive leftmost, longest match in the string is replaced by what the template means, and nothing else is
changed.  Templates with `` $` `` are excluded. -/
theorem C134_replace_all_partial {σ : Type} (r : Rx) (hr : r.noM = true) (hne : NonEmpty r) (s : Bytes)
    (hs : NoNul s) (hl : s.length ≤ 10000000) (ps : List Piece) (hp : NoNul (srcOf ps)) (hb : noBefore ps)
    (nsub : Nat) (st : σ) :
    ∃ out, replace (posix r) true nsub (.text (srcOf ps)) s st = some (.str st out) ∧
      Replaced r s (fun a b => meanOf s [⟨a, b⟩] ps) 0 out := by
  obtain ⟨chain, rest, hc, h⟩ := C134_replace_each (posix r) (posix_valid r) (posix_eager hne) s hs hl ps hp nsub st
  exact ⟨_, h, replaced_of_chain hr hne ps hb hc 0 (Nat.zero_le _) rfl rfl⟩

end Verif.Regex
