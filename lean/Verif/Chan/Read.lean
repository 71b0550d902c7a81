import Verif.Chan.Model

/-! C150: what `read` returns. -/

namespace Verif.Chan

/-- The bytes of the file from the position on. -/
def FILE.rest (f : FILE) : Bytes := f.data.drop f.pos

/-- The stream `k` bytes further on, `e` telling if the end was met. -/
def FILE.adv (f : FILE) (k : Nat) (e : Bool) : FILE := ⟨f.data, f.pos + k, f.eof || e, f.rd, f.wr, f.app⟩

theorem fread_eq (f : FILE) (h : f.rd = true) (n : Nat) :
    fread f n = (f.rest.take n, f.adv (f.rest.take n).length (decide (f.rest.length < n))) := by
  simp [fread, h, FILE.rest, FILE.adv]

theorem adv_rest (f : FILE) (k : Nat) (e : Bool) : (f.adv k e).rest = f.rest.drop k := by
  simp [FILE.adv, FILE.rest, List.drop_drop]

theorem adv_rd (f : FILE) (k : Nat) (e : Bool) : (f.adv k e).rd = f.rd := rfl

theorem adv_adv (f : FILE) (k k' : Nat) (e e' : Bool) : (f.adv k e).adv k' e' = f.adv (k + k') (e || e') := by
  simp [FILE.adv, Nat.add_assoc, Bool.or_assoc]

/-- Reading a given number of bytes. -/
theorem readLoop_pos (n k sum : Nat) (f : FILE) (h : f.rd = true) (hk : sum < k)
    (hn : min (k - sum) f.rest.length + bufsiz ≤ n * bufsiz) :
    readLoop n k sum f =
      (f.rest.take (k - sum), f.adv (f.rest.take (k - sum)).length (decide (f.rest.length < k - sum))) := by
  have hb : bufsiz = 8192 := rfl
  induction n generalizing sum f with
  | zero => omega
  | succ n ih =>
    rw [readLoop]
    have hr : (if 0 < (k : Int) ∧ (k : Int) < ((sum + bufsiz : Nat) : Int) then ((k : Int) - sum).toNat else bufsiz)
        = min (k - sum) bufsiz := by
      split <;> omega
    simp only [hr, fread_eq f h]
    generalize hm : min (k - sum) bufsiz = m
    have hm0 : 0 < m := by omega
    have hmk : m ≤ k - sum := by omega
    by_cases hf : f.rest = []
    · have h0 : 0 < k - sum := by omega
      simp [hf, hm0, h0]
    · have hl0 : 0 < f.rest.length := by cases hh : f.rest with
        | nil => exact absurd hh hf
        | cons a t => simp
      have hL : (f.rest.take m).length = min m f.rest.length := by simp
      rw [if_neg (by intro e; rw [e] at hL; simp at hL; omega)]
      split
      · rename_i hc
        have : m = k - sum ∧ k - sum ≤ f.rest.length := by omega
        rw [this.1]
      · rename_i hc
        have hc' : sum + (f.rest.take m).length < k := by omega
        have hrl : (f.rest.drop (f.rest.take m).length).length = f.rest.length - min m f.rest.length := by simp
        rw [ih (sum + (f.rest.take m).length) _ (by rw [adv_rd, h]) hc' (by
          rw [adv_rest, hrl, hb]; rw [hb] at hn; omega)]
        simp only [adv_rest, adv_adv, hrl]
        have hsp : f.rest.take m ++ (f.rest.drop (f.rest.take m).length).take (k - (sum + (f.rest.take m).length))
            = f.rest.take (k - sum) := by
          by_cases hs : f.rest.length < m
          · rw [List.take_of_length_le (by omega), List.take_of_length_le (l := f.rest) (i := k - sum) (by omega)]
            simp
          · have e1 : (f.rest.take m).length = m := by omega
            rw [e1]
            have e2 : k - sum = m + (k - (sum + m)) := by omega
            rw [e2, List.take_add]
        refine Prod.ext hsp ?_
        have hlen := congrArg List.length hsp
        rw [List.length_append] at hlen
        show f.adv _ _ = f.adv _ _
        rw [hlen]
        congr 1
        rw [← Bool.decide_or]
        exact decide_eq_decide.mpr (by omega)

/-- Reading all. -/
theorem readLoop_all (n : Nat) (k : Int) (hk : k < 0) (sum : Nat) (f : FILE) (h : f.rd = true)
    (hn : f.rest.length + bufsiz ≤ n * bufsiz) :
    readLoop n k sum f = (f.rest, f.adv f.rest.length true) := by
  have hb : bufsiz = 8192 := rfl
  induction n generalizing sum f with
  | zero => omega
  | succ n ih =>
    rw [readLoop]
    have hr : (if 0 < k ∧ k < ((sum + bufsiz : Nat) : Int) then (k - sum).toNat else bufsiz) = bufsiz := by
      rw [if_neg (by omega)]
    simp only [hr, fread_eq f h]
    by_cases hf : f.rest = []
    · simp [hf, hb]
    · have hl0 : 0 < f.rest.length := by cases hh : f.rest with
        | nil => exact absurd hh hf
        | cons a t => simp
      have hL : (f.rest.take bufsiz).length = min bufsiz f.rest.length := by simp
      rw [if_neg (by intro e; rw [e] at hL; simp at hL; omega), if_neg (by omega)]
      have hrl : (f.rest.drop (f.rest.take bufsiz).length).length = f.rest.length - min bufsiz f.rest.length := by simp
      rw [ih _ _ (by rw [adv_rd, h]) (by rw [adv_rest, hrl, hb]; rw [hb] at hn; omega)]
      simp only [adv_rest, adv_adv, hrl]
      have hsp : f.rest.take bufsiz ++ f.rest.drop (f.rest.take bufsiz).length = f.rest := by
        by_cases hs : f.rest.length < bufsiz
        · rw [List.take_of_length_le (by omega)]; simp
        · have e1 : (f.rest.take bufsiz).length = bufsiz := by omega
          rw [e1]; exact List.take_append_drop _ _
      refine Prod.ext hsp ?_
      show f.adv _ _ = f.adv _ _
      congr 1
      · omega
      · simp

/-- What a string becomes: nothing is undefined. -/
def ofBytes (b : Bytes) : Val := if b = [] then .undef else .str b

theorem read_pos (f : FILE) (h : f.rd = true) (k : Nat) (hk : 0 < k) (hs : k < 2 ^ 31) :
    read (.opened f) k = (ofBytes (f.rest.take k),
      .opened (f.adv (f.rest.take k).length (decide (f.rest.length < k)))) := by
  have hn : min (k - 0) f.rest.length + bufsiz ≤ maxLoop * bufsiz := by
    have : maxLoop * bufsiz = 81920000000 := rfl
    have : bufsiz = 8192 := rfl
    omega
  simp only [read, readLoop_pos maxLoop k 0 f h hk hn, Nat.sub_zero, ofBytes]

/-- **C150** `read(n)` returns the next `n` bytes of the file, or those that are left, or undefined if none is left, and
the position moves behind them. -/
theorem C150_read (d : Bytes) (p : Nat) (e w a : Bool) (k : Nat) (hk : 0 < k) (hs : k < 2 ^ 31) :
    ∃ e', read (.opened ⟨d, p, e, true, w, a⟩) k =
      (if d.length ≤ p then .undef else .str ((d.drop p).take k),
        .opened ⟨d, p + min k (d.length - p), e', true, w, a⟩) := by
  refine ⟨e || decide ((d.drop p).length < k), (read_pos ⟨d, p, e, true, w, a⟩ rfl k hk hs).trans ?_⟩
  refine Prod.ext ?_ ?_
  · show ofBytes ((d.drop p).take k) = _
    unfold ofBytes
    by_cases h : d.length ≤ p
    · rw [if_pos h, List.drop_eq_nil_of_le h]; simp
    · rw [if_neg h, if_neg]
      intro hh
      have := congrArg List.length hh
      simp at this; omega
  · simp [FILE.adv, FILE.rest]

/-- **C150** `read()` returns all that is left. -/
theorem C150_read_all (d : Bytes) (p : Nat) (e w a : Bool) (hs : d.length < 2 ^ 31) :
    read (.opened ⟨d, p, e, true, w, a⟩) (-1) =
      (if d.length ≤ p then .undef else .str (d.drop p), .opened ⟨d, p + (d.length - p), true, true, w, a⟩) := by
  have hn : (FILE.mk d p e true w a).rest.length + bufsiz ≤ maxLoop * bufsiz := by
    have : maxLoop * bufsiz = 81920000000 := rfl
    have : bufsiz = 8192 := rfl
    simp [FILE.rest]; omega
  simp only [read, readLoop_all maxLoop (-1) (by omega) 0 ⟨d, p, e, true, w, a⟩ rfl hn]
  refine Prod.ext ?_ ?_
  · simp [FILE.rest]
  · simp [FILE.rest, FILE.adv]

/-- What a series of calls of `read` with the sizes `ks` returns, put together. -/
def pieces : Obj → List Nat → Bytes
  | _, [] => []
  | o, k :: ks =>
    (match (read o k).1 with
      | .str b => b
      | _ => []) ++ pieces (read o k).2 ks

theorem pieces_opened (ks : List Nat) (f : FILE) (h : f.rd = true) (hk : ∀ k ∈ ks, 0 < k ∧ k < 2 ^ 31) :
    pieces (.opened f) ks = f.rest.take ks.sum := by
  induction ks generalizing f with
  | nil => simp [pieces]
  | cons k ks ih =>
    obtain ⟨h1, h2⟩ := hk k (by simp)
    rw [pieces, read_pos f h k h1 h2]
    rw [ih _ (by rw [adv_rd, h]) (fun x hx => hk x (by simp [hx])), adv_rest]
    rw [List.sum_cons, List.take_add]
    have e : ∀ x : Bytes, (match ofBytes x with | .str b => b | _ => []) = x := by
      intro x; unfold ofBytes; by_cases hx : x = [] <;> simp [hx]
    show (match ofBytes (f.rest.take k) with | .str b => b | _ => []) ++ _ = _
    rw [e]
    congr 1
    by_cases hl : k ≤ f.rest.length
    · rw [show (f.rest.take k).length = k by simp; omega]
    · rw [List.take_of_length_le (l := f.rest) (i := k) (by omega), List.drop_eq_nil_of_le (Nat.le_refl _),
        List.drop_eq_nil_of_le (by omega)]

/-- **C150** In whatever pieces a file is read, nothing is lost, repeated or moved. -/
theorem C150_pieces (d : Bytes) (e w a : Bool) (ks : List Nat) (hk : ∀ k ∈ ks, 0 < k ∧ k < 2 ^ 31) :
    pieces (.opened ⟨d, 0, e, true, w, a⟩) ks = d.take ks.sum := by
  rw [pieces_opened ks _ rfl hk]; rfl

example : pieces (.opened ⟨[1, 2, 3, 4, 5], 0, false, true, false, false⟩) [2, 1, 7] = [1, 2, 3, 4, 5] := by
  rw [C150_pieces _ _ _ _ _ (by decide)]; decide

/-- **C150** (the code does not do this) `read(0)` returns no bytes: it returns the next 8192. -/
theorem C150_zero_refuted :
    ∃ d : Bytes, (read (.opened ⟨d, 0, false, true, false, false⟩) 0).1 = .str d ∧ d ≠ [] := by
  refine ⟨[1, 2, 3], ?_, by simp⟩
  simp only [read]
  rw [show maxLoop = 9999999 + 1 by rfl, readLoop]
  decide

end Verif.Chan
