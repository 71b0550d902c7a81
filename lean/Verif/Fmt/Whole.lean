import Verif.Fmt.Main

/-! Whole formats. -/

namespace Verif.Fmt
open Verif Verif.Utf8

/-- The text of a directive after its `%`, followed by `R`. -/
theorem dir_text (d : Dir) (R : List UInt8) : d.text ++ R =
    37 :: (d.flags ++ (d.width.text ++ (precText d.prec ++ (d.mod ++ d.conv :: R)))) := by
  simp [Dir.text]

theorem wtail_noflag (d : Dir) (hd : d.Ok) (R : List UInt8) :
    isFlag (peek (d.width.text ++ (precText d.prec ++ (d.mod ++ d.conv :: R)))).1 = false := by
  cases hw : d.width with
  | none =>
    obtain ⟨b, t, e, hb⟩ := ptail_head d hd R
    obtain ⟨b1, b2, _⟩ := after_facts b hb
    simp only [Num0.text, List.nil_append]
    rw [e, peek_ascii b t b1]; exact b2
  | lit n =>
    obtain ⟨c, t, e, hc⟩ := digits_head n (hd.width n hw)
    have key : ∀ c ∈ asc "123456789", c < 0x80 ∧ isFlag c.toNat = false := by decide
    simp only [Num0.text]
    rw [e, List.cons_append, peek_ascii c _ (key c hc).1]; exact (key c hc).2
  | star =>
    simp only [Num0.text, List.cons_append, List.nil_append]
    rw [peek_ascii 42 _ (by decide)]; decide

theorem directive_text {F} (E : Env F) (hE : LibcOk E) (A : List (Arg F)) (d : Dir) (hd : d.Ok) (ht : d.Tame) (ai : Nat)
    (R : List UInt8) (buf : Int) (hb : 100 ≤ buf) (hv : ∀ v ∈ A.drop ai, NoNulStr d v) :
    match dirRes E d (A.drop ai) with
    | .ok t l => ∃ ai' buf', l = A.drop ai' ∧ ai ≤ ai' ∧ 100 ≤ buf' ∧
      directive E A (d.flags ++ (d.width.text ++ (precText d.prec ++ (d.mod ++ d.conv :: R)))) ai buf =
        .ok ⟨t, R, ai', buf'⟩
    | .err => directive E A (d.flags ++ (d.width.text ++ (precText d.prec ++ (d.mod ++ d.conv :: R)))) ai buf = .err
    | .big => True := by
  have hfB : ∀ x ∈ d.flags, isFlagB x = true := fun x h => (flag_mem' x).1 (hd.flags x h)
  by_cases hai : A.length ≤ ai
  · have e0 : A.drop ai = [] := List.drop_of_length_le hai
    have hdir : ∀ r, directive E A r ai buf = .err := by intro r; unfold directive; rw [if_pos hai]
    rw [e0]
    have : dirRes E d [] = .err ∨ dirRes E d [] = .big := by
      unfold dirRes
      cases d.width <;> cases d.prec <;> simp only [widthOf, precOf, dirEnd]
      all_goals first
        | (split
           · exact Or.inr rfl
           · exact Or.inl rfl)
        | exact Or.inl rfl
        | exact Or.inl trivial
    rcases this with h | h <;> rw [h]
    · exact hdir _
    · trivial
  · have hfl := flagLoop_flags _ (wtail_noflag d hd R) d.flags
      ((d.flags ++ (d.width.text ++ (precText d.prec ++ (d.mod ++ d.conv :: R)))).length + 1) [37] false 32 hfB
      (by have := hd.few; simp; omega) (by simp only [List.length_append]; omega)
    have hD : directive E A (d.flags ++ (d.width.text ++ (precText d.prec ++ (d.mod ++ d.conv :: R)))) ai buf =
      (widthStep E A ⟨[37] ++ d.flags, d.flags.contains 45, if d.flags.contains 48 then 48 else 32,
          d.width.text ++ (precText d.prec ++ (d.mod ++ d.conv :: R))⟩ ai).bind fun w =>
        (precStep E A (dotStep w.rem).2 w.ai).bind fun p =>
          finish E A (if d.flags.contains 48 then 48 else 32) w (dotStep w.rem).1 p buf := by
      unfold directive
      rw [if_neg hai, hfl]
      simp only [Bool.false_or]
    rw [hD]
    have hw := widthStep_text E hE A d hd ai ([37] ++ d.flags) (d.flags.contains 45) (if d.flags.contains 48 then 48 else 32)
      (precText d.prec ++ (d.mod ++ d.conv :: R)) (ptail_head d hd R)
    unfold dirRes
    rcases hwo : widthOf E d.width (A.drop ai) with _ | ⟨w, l1⟩
    · rw [hwo] at hw; simp only [] at hw ⊢; rw [hw]; rfl
    · rw [hwo] at hw; simp only [] at hw ⊢
      obtain ⟨ai1, hl1, hns, hs, hwneg, w', hw', hstep⟩ := hw
      rw [hstep]
      simp only [Fmt.R.bind]
      have hp := precStep_text E hE A d hd ai1 (d.mod ++ d.conv :: R) (tail_head d hd R)
      simp only [] at hp
      rw [hl1]
      rcases hpo : precOf E d.prec (A.drop ai1) with _ | ⟨p, l2⟩
      · rw [hpo] at hp; simp only [] at hp ⊢; rw [hp]
      · rw [hpo] at hp; simp only [] at hp ⊢
        obtain ⟨ai2, hl2, hns2, hs2, hpn, hdot, p', hp', hstep2⟩ := hp
        rw [hstep2]
        simp only []
        rw [hdot]
        have hai1 : ai ≤ ai1 := by
          have := congrArg List.length hl1
          have h2 : l1.length ≤ (A.drop ai).length := by
            have : ∀ n (L : List (Arg F)) w l, widthOf E n L = some (w, l) → l.length ≤ L.length := by
              intro n L w l h
              match n, L with
              | .none, L => simp [widthOf] at h; rw [h.2]; exact Nat.le_refl _
              | .lit n, L => simp [widthOf] at h; rw [h.2]; exact Nat.le_refl _
              | .star, [] => simp [widthOf] at h
              | .star, [v] => cases v <;> simp [widthOf] at h
              | .star, .num x :: v :: L => simp [widthOf] at h; rw [← h.2]; simp
              | .star, .str x :: v :: L => simp [widthOf] at h
              | .star, .other x y :: v :: L => simp [widthOf] at h
            exact this _ _ _ _ hwo
          by_cases hst : d.width = .star
          · have := hs hst
            have h3 : l1.length ≠ 0 := fun h => this (List.length_eq_zero_iff.1 h)
            simp only [List.length_drop] at *
            omega
          · rw [hns hst]; exact Nat.le_refl _
        have hai2 : ai1 ≤ ai2 := by
          have := congrArg List.length hl2
          have h2 : l2.length ≤ (A.drop ai1).length := by
            have : ∀ n (L : List (Arg F)) w l, precOf E n L = some (w, l) → l.length ≤ L.length := by
              intro n L w l h
              match n, L with
              | .none, L => simp [precOf] at h; rw [h.2]; exact Nat.le_refl _
              | .lit n, L => simp [precOf] at h; rw [h.2]; exact Nat.le_refl _
              | .star, [] => simp [precOf] at h
              | .star, [v] => cases v <;> simp [precOf] at h
              | .star, .num x :: v :: L => simp [precOf] at h; rw [← h.2]; simp
              | .star, .str x :: v :: L => simp [precOf] at h
              | .star, .other x y :: v :: L => simp [precOf] at h
            exact this _ _ _ _ hpo
          by_cases hst : d.prec = .star
          · have := hs2 hst
            have h3 : l2.length ≠ 0 := fun h => this (List.length_eq_zero_iff.1 h)
            simp only [List.length_drop] at *
            omega
          · rw [hns2 hst]; exact Nat.le_refl _
        have hne : A.drop ai2 ≠ [] := by
          rw [← hl2]
          by_cases hst : d.prec = .star
          · exact hs2 hst
          · rw [hl2, hns2 hst, ← hl1]
            by_cases hst' : d.width = .star
            · exact hs hst'
            · rw [hl1, hns hst']
              intro h
              have := congrArg List.length h
              simp only [List.length_drop, List.length_nil] at this; omega
        obtain ⟨v, rest, hvr⟩ := List.exists_cons_of_ne_nil hne
        have hget : A[ai2]? = some v := by
          have : A[ai2]? = (A.drop ai2)[0]? := by simp
          rw [this, hvr]; rfl
        have hrest : rest = A.drop (ai2 + 1) := by
          have : A.drop (ai2 + 1) = (A.drop ai2).drop 1 := by rw [List.drop_drop]
          rw [this, hvr]; rfl
        rw [hl2, hvr]
        unfold dirEnd
        by_cases hbig : w.natAbs > 10^9 ∨ p.getD 0 > 10^9
        · rw [if_pos hbig]; trivial
        · rw [if_neg hbig]
          rw [hw' (by omega), hp' (by omega)]
          simp only []
          have hmem : v ∈ A.drop ai := by
            have e : A.drop ai2 = (A.drop ai).drop (ai2 - ai) := by rw [List.drop_drop]; congr 1; omega
            exact List.mem_of_mem_drop (i := ai2 - ai) (by rw [← e, hvr]; simp)
          have hcv := convert_agree E hE d hd (decide (w < 0) && !d.flags.contains 45) w.natAbs p v (hv v hmem) buf hb
            (by omega) (by omega) (d.flags.contains 45 || decide (w < 0))
            (by cases d.flags.contains 45 <;> cases decide (w < 0) <;> rfl)
            (by intro h; revert h; cases d.flags.contains 45 <;> cases decide (w < 0) <;> simp)
            (by
              intro hc hm
              by_cases h48 : d.flags.contains 48 = true
              · exfalso
                obtain ⟨z1, z2⟩ := ht.zero hc (by simpa using h48)
                have z3 : ¬ w < 0 := fun h => z2 (hwneg h)
                simp [z1, z3] at hm
              · simpa using h48)
            (fun h => hpn (ht.q h))
          unfold finish
          simp only [lenMod_tail d hd, hget]
          have hpk : peek (d.conv :: R) = (d.conv.toNat, 1) := by
            have key : ∀ c ∈ asc "diuoxXsSqcCaAeEfgG", c < 0x80 := by decide
            exact peek_ascii _ _ (key _ hd.conv)
          rw [hpk]
          simp only [List.cons_append, List.nil_append] at hcv ⊢
          generalize conv1 E d (d.flags.contains 45 || decide (w < 0)) w.natAbs p v = cv at *
          cases cv with
          | ok t =>
            obtain ⟨pc, h1, h2, h3⟩ := hcv
            simp only []
            refine ⟨ai2 + 1, pc.buf, hrest, by omega, h3, ?_⟩
            rw [h1]
            simp only [Fmt.R.bind, h2, List.drop_succ_cons, List.drop_zero]
          | err => simp only [Agree] at hcv; simp only []; rw [hcv]; rfl
          | big => exact absurd hcv (by simp [Agree])

theorem peek_pct (r : List UInt8) : peek (37 :: r) = (37, 1) := peek_ascii 37 r (by decide)

theorem enc_pos (c : Char) : 1 ≤ (String.utf8EncodeChar c).length := by
  unfold String.utf8EncodeChar
  simp only []
  split
  · simp
  · split
    · simp
    · split <;> simp

/-- Every piece and directive keeps to the specification. -/
def Seg.Tame : Seg → Prop
  | .dir d => d.Tame
  | _ => True

/-- No NUL in a string argument, if the format has a `%S` or `%q`. -/
def NoNulArgs {F} (segs : List Seg) (args : List (Arg F)) : Prop :=
  ∀ d, Seg.dir d ∈ segs → ∀ v ∈ args, NoNulStr d v

theorem dir_head_ne (d : Dir) (hd : d.Ok) (R : List UInt8) :
    (peek (d.flags ++ (d.width.text ++ (precText d.prec ++ (d.mod ++ d.conv :: R))))).1 ≠ 37 := by
  cases hf : d.flags with
  | cons b t =>
    have hb : b ∈ asc "-0 +#'" := hd.flags b (by rw [hf]; simp)
    have key : ∀ b ∈ asc "-0 +#'", b < 0x80 ∧ b.toNat ≠ 37 := by decide
    rw [List.cons_append, peek_ascii b _ (key b hb).1]; exact (key b hb).2
  | nil =>
    simp only [List.nil_append]
    cases hw : d.width with
    | none =>
      obtain ⟨b, t, e, hb⟩ := ptail_head d hd R
      have key : ∀ b ∈ after, b < 0x80 ∧ b.toNat ≠ 37 := by decide
      simp only [Num0.text, List.nil_append]
      rw [e, peek_ascii b t (key b hb).1]; exact (key b hb).2
    | lit n =>
      obtain ⟨c, t, e, hc⟩ := digits_head n (hd.width n hw)
      have key : ∀ c ∈ asc "123456789", c < 0x80 ∧ c.toNat ≠ 37 := by decide
      simp only [Num0.text]
      rw [e, List.cons_append, peek_ascii c _ (key c hc).1]; exact (key c hc).2
    | star =>
      simp only [Num0.text, List.cons_append, List.nil_append]
      rw [peek_ascii 42 _ (by decide)]; decide

theorem loop_text {F} (E : Env F) (hE : LibcOk E) (A : List (Arg F)) (segs : List Seg) :
    ∀ (n : Nat) (s : St), (∀ g ∈ segs, g.Ok) → (∀ g ∈ segs, g.Tame) → NoNulArgs segs (A.drop s.ai) →
    s.rem = fmtText segs → s.rem.length < n → 100 ≤ s.buf → s.span.drop s.nb = s.rem →
    s.nb ≤ s.span.length →
    match render E segs (A.drop s.ai) with
    | .ok t => loop E A n s = .ok (s.out ++ s.span.take s.nb ++ t)
    | .err => loop E A n s = .err
    | .big => True := by
  induction segs with
  | nil =>
    intro n s _ _ _ hrem hn hb _ _
    cases n with
    | zero => omega
    | succ n =>
      have : s.rem = [] := by rw [hrem]; rfl
      simp [render, loop, this]
  | cons g segs ih =>
    intro n s hok htame hnn hrem hn hb hspan hnb
    have hok' := fun g' h => hok g' (List.mem_cons_of_mem g h)
    have htame' := fun g' h => htame g' (List.mem_cons_of_mem g h)
    have ht : fmtText (g :: segs) = g.text ++ fmtText segs := by simp [fmtText]
    rw [ht] at hrem
    cases n with
    | zero => omega
    | succ n =>
    cases g with
    | chr c =>
      have hc : c ≠ '%' := hok _ (List.mem_cons_self ..)
      simp only [Seg.text] at hrem
      have hpk : peek s.rem = (c.toNat, (String.utf8EncodeChar c).length) := by rw [hrem]; exact peek_enc c _
      have hne : s.rem ≠ [] := by
        rw [hrem]; intro h; have := congrArg List.length h
        have := enc_pos c
        simp only [List.length_append, List.length_nil] at *; omega
      have hc2 : c.toNat ≠ 37 := by
        intro h
        exact hc (Char.toNat_inj.1 h)
      have hdrop : s.rem.drop (String.utf8EncodeChar c).length = fmtText segs := by rw [hrem]; simp
      have hl : s.rem.length = (String.utf8EncodeChar c).length + (fmtText segs).length := by rw [hrem]; simp
      have hr : round E A s = .ok { s with rem := fmtText segs, nb := s.nb + (String.utf8EncodeChar c).length } := by
        unfold round
        simp only [hpk, hdrop]
        rw [if_pos hc2]
      have h1 : loop E A (n+1) s = loop E A n { s with rem := fmtText segs, nb := s.nb + (String.utf8EncodeChar c).length } := by
        rw [loop, if_neg hne, hr]; rfl
      have hsl : s.span.length = s.nb + s.rem.length := by
        have := congrArg List.length hspan
        simp only [List.length_drop] at this; omega
      have hpos := enc_pos c
      have key := ih n { s with rem := fmtText segs, nb := s.nb + (String.utf8EncodeChar c).length } hok' htame'
        (fun d h => hnn d (List.mem_cons_of_mem _ h)) rfl (by simp only []; omega) hb
        (by simp only []; rw [← List.drop_drop, hspan, hdrop]) (by simp only []; omega)
      simp only [] at key
      have htake : s.span.take (s.nb + (String.utf8EncodeChar c).length) = s.span.take s.nb ++ String.utf8EncodeChar c := by
        rw [List.take_add, hspan, hrem]; simp
      rw [h1]
      simp only [render]
      generalize render E segs (A.drop s.ai) = rr at *
      cases rr with
      | ok t => simp only [] at key ⊢; rw [key, htake]; simp
      | err => exact key
      | big => trivial
    | pct =>
      simp only [Seg.text] at hrem
      have hne : s.rem ≠ [] := by rw [hrem]; simp
      have hl : s.rem.length = 2 + (fmtText segs).length := by rw [hrem]; simp; omega
      have hr : round E A s = .ok ⟨fmtText segs, 37 :: fmtText segs, 1, s.out ++ s.span.take s.nb, s.ai, s.buf⟩ := by
        unfold round
        simp only [hrem, List.cons_append, List.nil_append, peek_pct, List.drop_succ_cons, List.drop_zero]
        rw [if_neg (by simp)]; rfl
      have h1 : loop E A (n+1) s = loop E A n ⟨fmtText segs, 37 :: fmtText segs, 1, s.out ++ s.span.take s.nb, s.ai, s.buf⟩ := by
        rw [loop, if_neg hne, hr]; rfl
      have key := ih n ⟨fmtText segs, 37 :: fmtText segs, 1, s.out ++ s.span.take s.nb, s.ai, s.buf⟩
        hok' htame' (fun d h => hnn d (List.mem_cons_of_mem _ h)) rfl (by simp only []; omega) hb rfl (by simp)
      simp only [] at key
      rw [h1]
      simp only [render]
      generalize render E segs (A.drop s.ai) = rr at *
      cases rr with
      | ok t => simp only [] at key ⊢; rw [key]; simp
      | err => exact key
      | big => trivial
    | dir d =>
      have hd : d.Ok := hok _ (List.mem_cons_self ..)
      have htd : d.Tame := htame _ (List.mem_cons_self ..)
      simp only [Seg.text] at hrem
      rw [dir_text] at hrem
      have hne : s.rem ≠ [] := by rw [hrem]; simp
      have hnp := dir_head_ne d hd (fmtText segs)
      have key := directive_text E hE A d hd htd s.ai (fmtText segs) s.buf hb
        (fun v h => hnn d (List.mem_cons_self ..) v h)
      have hlen : s.rem.length > (fmtText segs).length := by
        rw [hrem]; simp only [List.length_cons, List.length_append]; omega
      generalize d.flags ++ (d.width.text ++ (precText d.prec ++ (d.mod ++ d.conv :: fmtText segs))) = r at *
      have hr : round E A s = (directive E A r s.ai s.buf).bind fun d =>
          .ok ⟨d.rem, d.rem, 0, s.out ++ s.span.take s.nb ++ d.text, d.ai, d.buf⟩ := by
        unfold round
        simp only [hrem, peek_pct, List.drop_succ_cons, List.drop_zero]
        rw [if_neg (by simp), if_neg hnp]
      have h1 : loop E A (n+1) s = (round E A s).out (loop E A n) := by
        rw [loop, if_neg hne]
      rw [h1, hr]
      simp only [render]
      rcases hdr : dirRes E d (A.drop s.ai) with ⟨t, l⟩ | _ | _
      · rw [hdr] at key
        simp only [] at key ⊢
        obtain ⟨ai', buf', hl, hai, hb', hdir⟩ := key
        rw [hdir]
        simp only [R.bind, R.out]
        have key2 := ih n ⟨fmtText segs, fmtText segs, 0, s.out ++ s.span.take s.nb ++ t, ai', buf'⟩ hok' htame'
          (fun d' h v hv => hnn d' (List.mem_cons_of_mem _ h) v (by
            simp only [] at hv
            have e : A.drop ai' = (A.drop s.ai).drop (ai' - s.ai) := by rw [List.drop_drop]; congr 1; omega
            rw [e] at hv
            exact List.mem_of_mem_drop hv)) rfl (by simp only []; omega) hb' rfl (by simp)
        simp only [] at key2
        rw [hl]
        generalize render E segs (A.drop ai') = rr at *
        cases rr with
        | ok t' => simp only [] at key2 ⊢; rw [key2]; simp
        | err => exact key2
        | big => trivial
      · rw [hdr] at key
        simp only [] at key ⊢
        rw [key]; rfl
      · trivial

end Verif.Fmt
