import Verif.Lex.Scan
/-! Numbers. -/
namespace Verif.Lex

theorem numCont_b (w : List UInt8) (b : Bool) (p c : UInt8) : numCont w b p c = numCont w false p c := by
  unfold numCont
  cases b <;> simp
  intro h; simp [h]

/-- The characters `w` belong to the number behind `acc`. -/
def Cont : List UInt8 → UInt8 → List UInt8 → Prop
  | _, _, [] => True
  | acc, p, c :: w => numCont acc false p c = true ∧ Cont (acc ++ [c]) c w

theorem numLoop_at (w : List UInt8) : ∀ (f : Nat) {n : Nat} {K : Int} {l : L} {r : List UInt8} (acc : List UInt8) (b : Bool) (d : Nat) (p : UInt8),
    Cont acc p w → numCont (acc ++ w) false (w.getLastD p) (r.headD 0) = false → w.length < f → n < 99 → At false n K l (w ++ r) →
    (numLoop f acc b d p l).1 = (acc ++ w, b || w.any (fun c => c = 88 || c = 120), d + w.countP isxdigit) ∧
    At false n K (numLoop f acc b d p l).2 r := by
  induction w with
  | nil =>
    intro f n K l r acc b d p _ hr hf hn h
    obtain ⟨f, rfl⟩ : ∃ k, f = k + 1 := ⟨f - 1, by simp at hf; omega⟩
    rw [List.nil_append] at h
    obtain ⟨g1, g2⟩ := h.get'
    rw [List.append_nil] at hr
    rw [numLoop]
    rw [if_neg (by rw [numCont_b, g1]; rw [List.getLastD_nil] at hr; rw [hr]; simp)]
    have hx : isxdigit (getchar l).1 = false := by
      rw [g1]
      rw [List.getLastD_nil] at hr
      unfold numCont at hr
      cases hh : isxdigit (r.headD 0) with
      | false => rfl
      | true => rw [hh] at hr; simp at hr
    rw [hx]
    exact ⟨by simp, (h.back hn).1⟩
  | cons c w ih =>
    intro f n K l r acc b d p hc hr hf hn h
    obtain ⟨f, rfl⟩ : ∃ k, f = k + 1 := ⟨f - 1, by simp at hf; omega⟩
    obtain ⟨g1, g2, _⟩ := h.get
    rw [numLoop]
    rw [if_pos (by rw [numCont_b, g1]; exact hc.1), g1]
    obtain ⟨a, e⟩ := ih f (acc ++ [c]) (b || decide (c = 88) || decide (c = 120)) (if isxdigit c then d + 1 else d) c hc.2
      (by rw [List.append_assoc]; rw [List.getLastD_cons] at hr; exact hr) (by simp at hf; omega) hn (g2.mono (show n - 1 ≤ n by omega))
    refine ⟨?_, e⟩
    rw [a]
    simp only [List.append_assoc, List.cons_append, List.nil_append, List.any_cons, Prod.mk.injEq, true_and]
    refine ⟨by simp [Bool.or_assoc], ?_⟩
    rw [List.countP_cons]
    split <;> omega

/-- Characters that always go on, whatever is before them. -/
def Flow (w : List UInt8) : Prop := ∀ acc p, Cont acc p w

theorem cont_append (u w : List UInt8) : ∀ acc p, Cont acc p u → Flow w → Cont acc p (u ++ w) := by
  induction u with
  | nil => intro acc p _ hw; exact hw acc p
  | cons c u ih => intro acc p hu hw; exact ⟨hu.1, ih _ _ hu.2 hw⟩

theorem cont_hex (w : List UInt8) (h : ∀ c ∈ w, isxdigit c = true) : Flow w := by
  induction w with
  | nil => intro _ _; trivial
  | cons c w ih =>
    intro acc p
    refine ⟨?_, ih (fun x hx => h x (by simp [hx])) _ _⟩
    unfold numCont
    rw [h c (by simp)]; rfl

theorem hex_of_digit {c : UInt8} (h : Digit c) : isxdigit c = true := by
  rw [isxdigit_iff]; exact Or.inl h

theorem flow_frac {fp : Option (List UInt8)} (h : ∀ f, fp = some f → ∀ c ∈ f, Digit c) : Flow (fracText fp) := by
  cases fp with
  | none => intro _ _; trivial
  | some f =>
    intro acc p
    exact ⟨by simp [numCont], cont_hex f (fun c hc => hex_of_digit (h f rfl c hc)) _ _⟩

theorem flow_exp {ex : Option Exp} (h : ∀ x, ex = some x → x.Ok) : Flow (expText ex) := by
  cases ex with
  | none => intro _ _; trivial
  | some x =>
    intro acc p
    obtain ⟨he, hs, _, hd⟩ := h x rfl
    have hE : isxdigit x.e = true := by rcases he with e | e <;> rw [e] <;> decide
    have hD := cont_hex x.digits (fun c hc => hex_of_digit (hd c hc))
    refine ⟨by unfold numCont; rw [hE]; rfl, ?_⟩
    rcases hs with e | e | e
    · rw [e]; exact hD _ _
    · rw [e]
      refine ⟨?_, hD _ _⟩
      rcases he with e' | e' <;> simp [numCont, e']
    · rw [e]
      refine ⟨?_, hD _ _⟩
      rcases he with e' | e' <;> simp [numCont, e']

/-- No `x` in a decimal number. -/
theorem dec_chars {ip : List UInt8} {fp : Option (List UInt8)} {ex : Option Exp} (h : (Num.dec ip fp ex).Ok) :
    ∀ c ∈ (Num.dec ip fp ex).text, c ≠ 88 ∧ c ≠ 120 := by
  obtain ⟨h1, h2, h3, _⟩ := h
  have hdg : ∀ c, Digit c → c ≠ 88 ∧ c ≠ 120 := by
    rintro c ⟨ha, hb⟩
    constructor <;> rintro rfl <;> exact absurd hb (by decide)
  intro c hc
  simp only [Num.text, List.mem_append] at hc
  rcases hc with hc | hc | hc
  · exact hdg c (h1 c hc)
  · cases fp with
    | none => simp [fracText] at hc
    | some f =>
      simp only [fracText, List.mem_cons] at hc
      rcases hc with rfl | hc
      · decide
      · exact hdg c (h2 f rfl c hc)
  · cases ex with
    | none => simp [expText] at hc
    | some x =>
      obtain ⟨he, hs, _, hd⟩ := h3 x rfl
      simp only [expText, Exp.text, List.mem_cons, List.mem_append] at hc
      rcases hc with rfl | hc | hc
      · rcases he with e | e <;> rw [e] <;> decide
      · rcases hs with e | e | e <;> rw [e] at hc <;> simp at hc <;> subst hc <;> decide
      · exact hdg c (hd c hc)

instance (c : UInt8) : Decidable (Json.IsHex c) := by unfold Json.IsHex; infer_instance

theorem hexVal_all : ∀ n < 256, Json.IsHex (UInt8.ofNat n) →
    hexVal (UInt8.ofNat n) = Json.hexVal (UInt8.ofNat n) ∧ hexVal (UInt8.ofNat n) < 16 := by decide +kernel

theorem hexVal_eq {c : UInt8} (h : Json.IsHex c) : hexVal c = Json.hexVal c ∧ hexVal c < 16 := by
  have := hexVal_all c.toNat c.toNat_lt
  rw [UInt8.ofNat_toNat] at this
  exact this h

instance (c : UInt8) : Decidable (OctDigit c) := by unfold OctDigit; infer_instance

theorem octVal_all : ∀ n < 256, OctDigit (UInt8.ofNat n) →
    isxdigit (UInt8.ofNat n) = true ∧ isdigit (UInt8.ofNat n) = true ∧ hexVal (UInt8.ofNat n) = n - 48 ∧ hexVal (UInt8.ofNat n) < 8 := by
  decide +kernel

theorem octVal_eq {c : UInt8} (h : OctDigit c) : isxdigit c = true ∧ isdigit c = true ∧ hexVal c = c.toNat - 48 ∧ hexVal c < 8 := by
  have := octVal_all c.toNat c.toNat_lt
  rw [UInt8.ofNat_toNat] at this
  exact this h

theorem foldl_congr {α β : Type} (f g : β → α → β) (xs : List α) (h : ∀ x ∈ xs, ∀ n, f n x = g n x) : ∀ n, xs.foldl f n = xs.foldl g n := by
  induction xs with
  | nil => intro n; rfl
  | cons x xs ih =>
    intro n
    rw [List.foldl_cons, List.foldl_cons, h x (by simp) n]
    exact ih (fun y hy => h y (by simp [hy])) _

theorem takeWhile_all {α : Type} {p : α → Bool} {xs : List α} (h : ∀ x ∈ xs, p x = true) : xs.takeWhile p = xs := by
  induction xs with
  | nil => rfl
  | cons x xs ih => rw [List.takeWhile_cons, if_pos (h x (by simp)), ih (fun y hy => h y (by simp [hy]))]

/-- The number behind `numLoop`. -/
theorem numTok_dec {sd : List UInt8 → Bool} {ip : List UInt8} {fp : Option (List UInt8)} {ex : Option Exp} (h : (Num.dec ip fp ex).Ok)
    (hsd : sd (Num.dec ip fp ex).text = true) {d : Nat} (hd : (Num.dec ip fp ex).text = [48] → d = 1)
    (hd2 : ∀ w, (Num.dec ip fp ex).text = 48 :: 46 :: w → d ≤ 1 + w.length) :
    numTok sd (Num.dec ip fp ex).text false d = .num (Num.dec ip fp ex).val := by
  have h5 := h.2.2.2.2
  have h4 := h.2.2.2.1
  by_cases hz : ip.head? = some 48
  · obtain ⟨e1, e2⟩ := h5 hz
    subst e1
    cases fp with
    | none =>
      have := e2 rfl
      subst this
      have ht : (Num.dec [48] none none).text = [48] := rfl
      rw [ht] at hd ⊢
      rw [hd rfl]
      have h1 : ¬ ([48].head? = some (48 : UInt8) ∧ secondDigit [48] = true ∧ false = false) := by decide
      have h2 : intTok 10 [48] = .num (.int 0) := by decide +kernel
      rw [numTok, if_neg h1, if_pos ⟨rfl, rfl⟩]
      simpa [Num.val] using h2
    | some f =>
      have ht : (Num.dec [48] (some f) ex).text = 48 :: 46 :: (f ++ expText ex) := rfl
      have hv : (Num.dec [48] (some f) ex).val = .real (Num.dec [48] (some f) ex).text := by simp [Num.val]
      rw [hv]
      have := hd2 _ ht
      rw [numTok, if_neg, if_neg, hsd]
      · rfl
      · rw [ht]; rintro ⟨_, e⟩; simp at e this; omega
      · rw [ht]; rintro ⟨_, e, _⟩; exact absurd e (by simp [secondDigit, isdigit])
  · have hv : (Num.dec ip fp ex).val = .real (Num.dec ip fp ex).text := by
      rw [Num.val, if_neg]
      rintro ⟨e, _⟩; apply hz; rw [e]; rfl
    have hh : (Num.dec ip fp ex).text.head? ≠ some 48 := by
      cases ip with
      | nil =>
        obtain ⟨f, e, _⟩ := h4 rfl
        subst e
        simp [Num.text, fracText]
      | cons c ip => simpa [Num.text] using hz
    rw [hv, numTok, if_neg (fun e => hh e.1), if_neg (fun e => hh e.1), hsd]
    rfl

theorem numTok_hex {sd : List UInt8 → Bool} {x : UInt8} {ds : List UInt8} (h : (Num.hex x ds).Ok) :
    numTok sd (Num.hex x ds).text true (1 + ds.length) = .num (Num.hex x ds).val := by
  obtain ⟨h1, h2, h3, h4⟩ := h
  have hsec : ¬ (secondDigit (Num.hex x ds).text = true) := by
    rcases h1 with e | e <;> subst e <;> simp [Num.text, secondDigit, isdigit]
  rw [numTok, if_neg (fun e => hsec e.2.1), if_pos ⟨rfl, by simp [Num.text]; omega⟩]
  have hdg : digitsOf 16 ds = ds := takeWhile_all (fun c hc => by simp [isxdigit_iff, h3 c hc, (hexVal_eq (h3 c hc)).2])
  have hfold : ds.foldl (fun n c => n * 16 + hexVal c) 0 = ds.foldl (fun n c => n * 16 + Json.hexVal c) 0 :=
    foldl_congr _ _ _ (fun c hc n => by rw [(hexVal_eq (h3 c hc)).1]) _
  have hs : strtoll 16 (Num.hex x ds).text = some (ds.foldl (fun n c => n * 16 + Json.hexVal c) 0) := by
    have hdrop : (Num.hex x ds).text.drop 2 = ds := rfl
    have htake : (Num.hex x ds).text.take 2 = [48, x] := rfl
    rw [strtoll, if_pos ⟨rfl, by rw [htake]; rcases h1 with e | e <;> simp [e], by rw [hdrop]; exact h2⟩, hdrop, if_pos hdg, hfold,
      Nat.min_eq_left (by omega)]
  simp only [if_true, intTok, hs]
  rfl

theorem numTok_oct {sd : List UInt8 → Bool} {ds : List UInt8} {d : Nat} (h : (Num.oct ds).Ok) :
    numTok sd (Num.oct ds).text false d = .num (Num.oct ds).val := by
  obtain ⟨h1, h2, h3⟩ := h
  have hsec : secondDigit (Num.oct ds).text = true := by
    cases ds with
    | nil => exact absurd rfl h1
    | cons c ds => exact (octVal_eq (h2 c (by simp))).2.1
  rw [numTok, if_pos ⟨rfl, hsec, rfl⟩]
  have hdg : digitsOf 8 (Num.oct ds).text = (Num.oct ds).text := takeWhile_all (fun c hc => by
    simp only [Num.text, List.mem_cons] at hc
    rcases hc with rfl | hc
    · decide
    · have := octVal_eq (h2 c hc); simp [this.1, this.2.2.2])
  have hfold : (Num.oct ds).text.foldl (fun n c => n * 8 + hexVal c) 0 = ds.foldl (fun n c => n * 8 + (c.toNat - 48)) 0 := by
    rw [Num.text, List.foldl_cons]
    exact foldl_congr _ _ _ (fun c hc n => by rw [(octVal_eq (h2 c hc)).2.2.1]) _
  have hs : strtoll 8 (Num.oct ds).text = some (ds.foldl (fun n c => n * 8 + (c.toNat - 48)) 0) := by
    rw [strtoll, if_neg (by rintro ⟨e, _⟩; exact absurd e (by decide)), if_pos ⟨by simp [Num.text], hdg⟩, hfold,
      Nat.min_eq_left (by omega)]
  simp only [intTok, hs]
  rfl

/-- A number ends where the text goes on with another character. -/
theorem numCont_of_fits {m : Num} {r : List UInt8} (hf : (STok.num m).Fits r) {p : UInt8} (hp : p = 0 ∨ m.text.getLast? = some p) :
    numCont m.text false p (r.headD 0) = false := by
  cases r with
  | nil =>
    have : numCont m.text false p 0 = false := by
      simp [numCont, isxdigit, isdigit]
    exact this
  | cons d r =>
    have hn := hf d rfl
    simp only [List.headD_cons]
    by_cases hcon : numCont m.text false p d = true
    · exfalso
      apply hn
      simp only [numCont, Bool.or_eq_true, isxdigit_iff, decide_eq_true_eq, Bool.and_eq_true, Bool.false_and, Bool.false_eq_true, or_false] at hcon
      show Json.IsHex d ∨ d = 46 ∨ d = 80 ∨ d = 112 ∨ ((d = 88 ∨ d = 120) ∧ m.text = [48]) ∨
        ((d = 43 ∨ d = 45) ∧ (m.text.getLast? = some 69 ∨ m.text.getLast? = some 101))
      rcases hcon with ((((h | h) | h | h) | h | h) | h) | h
      · exact Or.inl h
      · exact Or.inr (Or.inl h)
      · exact Or.inr (Or.inr (Or.inl h))
      · exact Or.inr (Or.inr (Or.inr (Or.inl h)))
      · left; subst h; decide
      · left; subst h; decide
      · exact Or.inr (Or.inr (Or.inr (Or.inr (Or.inl h))))
      · right; right; right; right; right
        refine ⟨h.1.symm, ?_⟩
        rcases hp with hp | hp
        · subst hp; exact absurd h.2 (by decide)
        · rw [hp]
          rcases h.2 with e | e <;> simp [e]
    · exact Bool.eq_false_iff.mpr hcon

theorem getLastD_last (u w : List UInt8) : w.getLastD 0 = 0 ∨ (u ++ w).getLast? = some (w.getLastD 0) := by
  cases hw : w.getLast? with
  | none => left; rw [List.getLastD_eq_getLast?, hw]; rfl
  | some y => right; rw [List.getLastD_eq_getLast?, List.getLast?_append, hw]; rfl

/-- The digits behind the first. -/
theorem doNumber_run {sd : List UInt8 → Bool} {m : Num} {pre w r : List UInt8} {c : UInt8} (hf : (STok.num m).Fits r)
    (ht : m.text = (pre ++ [c]) ++ w) (hlen : m.text.length < 1020) (hc : Cont (pre ++ [c]) 0 w) {n : Nat} {K : Int} {l : L} (hn : n < 99)
    (h : At false n K l (w ++ r)) :
    (doNumber sd pre c l).1 = numTok sd m.text (w.any (fun c => c = 88 || c = 120)) (1 + w.countP isxdigit) ∧
    At false n K (doNumber sd pre c l).2 r := by
  have hl : m.text.length = pre.length + 1 + w.length := by rw [ht]; simp; omega
  obtain ⟨a, b⟩ := numLoop_at w (1020 - (pre.length + 1)) (pre ++ [c]) false 1 0 hc (r := r)
    (by rw [← ht]; refine numCont_of_fits hf ?_; rw [ht]; exact getLastD_last _ _) (by omega) hn h
  unfold doNumber
  simp only [a]
  rw [← ht]
  exact ⟨by simp, b⟩

end Verif.Lex
