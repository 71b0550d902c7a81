import Verif.Crypto.Sha256Props
import Verif.Crypto.Sha1Props
import Verif.Crypto.Md5Props
import Verif.Hex.Model

/-!
C42: the proof-of-work search of `Util.hash(msg, {hashcash: n})`, src/jsiCrypto.c:800-835.

Simplification: the digest function is a parameter `H` (the three proved above are instances); the
1024-byte `digest` buffer is `H`'s answer followed by `junk`.
-/

namespace Verif.Crypto.Hashcash

/-- src/jsiCrypto.c:817-818: `smask` after the loop. -/
def smask (sbits : Nat) : Nat := (List.range sbits).foldl (fun m _ => (m >>> 1) ||| 0x80) 0

/-- `snprintf(estr, 10, ":%08x", nonce)` (src/jsiCrypto.c:820) for a non-negative `int`. -/
def nonceText (nonce : Nat) : List UInt8 :=
  58 :: (List.range 8).map fun i => Hex.toHexChar (UInt8.ofNat (nonce / 16 ^ (7 - i) % 16))

/-- src/jsiCrypto.c:822-829: the test made on the digest buffer: all of the first `sbytes` bytes zero
and the masked bits of the next one zero. -/
def accept (digest : List UInt8) (sbytes mask : Nat) : Bool :=
  (List.range sbytes).all (fun i => digest.getD i 0 == 0) &&
    (mask == 0 || ((digest.getD sbytes 0).toNat &&& mask) == 0)

/-- src/jsiCrypto.c:819-831: the `while (1)` loop from `nonce`, at most `fuel` iterations. -/
def search (H : List UInt8 → List UInt8) (junk msg : List UInt8) (sbytes mask : Nat) :
    Nat → Nat → Option (List UInt8)
  | 0, _ => none
  | fuel+1, nonce =>
    let d := H (msg ++ nonceText nonce)
    if accept (d ++ junk) sbytes mask then some d else search H junk msg sbytes mask fuel (nonce+1)

/-- src/jsiCrypto.c:800-835, binary result. `none`: not finished within `fuel` iterations. -/
def cryptoHash (H : List UInt8 → List UInt8) (junk msg : List UInt8) (strength fuel : Nat) :
    Option (List UInt8) :=
  if strength ≤ 0 then some (H msg)
  else
    let sbytes := strength / 8
    search H junk msg sbytes (smask (strength - sbytes * 8)) fuel 0

/-- Specification: the bits of a byte string, most significant first. -/
def bits (l : List UInt8) : List Bool :=
  l.flatMap fun b => (List.range 8).map fun i => b.toNat.testBit (7 - i)

theorem mask_ok : ∀ (b : Fin 256) (s : Fin 8), s.1 ≠ 0 → (b.1 &&& smask s.1) = 0 →
    ∀ i : Fin 8, i.1 < s.1 → b.1.testBit (7 - i.1) = false := by decide +kernel

theorem smask_pos : ∀ s : Fin 8, smask s.1 = 0 → s.1 = 0 := by decide

theorem bits_get (l : List UInt8) (i : Nat) (h : i < 8 * l.length) :
    (bits l)[i]? = some ((l.getD (i / 8) 0).toNat.testBit (7 - i % 8)) := by
  induction l generalizing i with
  | nil => simp at h
  | cons b l ih =>
    have hb : bits (b :: l) = ((List.range 8).map fun i => b.toNat.testBit (7 - i)) ++ bits l := rfl
    rw [hb]
    by_cases h8 : i < 8
    · rw [List.getElem?_append_left (by simpa using h8), Nat.div_eq_of_lt h8, Nat.mod_eq_of_lt h8]
      simp [h8]
    · rw [List.getElem?_append_right (by simp; omega)]
      simp only [List.length_map, List.length_range]
      rw [ih (i - 8) (by simp at h; omega)]
      have e1 : i / 8 = (i - 8) / 8 + 1 := by omega
      have e2 : i % 8 = (i - 8) % 8 := by omega
      rw [e1, e2]
      rfl

theorem accept_bits (d junk : List UInt8) (strength : Nat) (h : strength ≤ 8 * d.length)
    (ha : accept (d ++ junk) (strength / 8) (smask (strength - strength / 8 * 8)) = true) :
    (bits d).take strength = List.replicate strength false := by
  unfold accept at ha
  rw [Bool.and_eq_true] at ha
  obtain ⟨h1, h2⟩ := ha
  rw [List.all_eq_true] at h1
  apply List.ext_getElem?
  intro i
  rw [List.getElem?_take, List.getElem?_replicate]
  split
  · rename_i hi
    rw [bits_get d i (by omega)]
    congr 1
    by_cases hb : i / 8 < strength / 8
    · have := h1 (i / 8) (List.mem_range.mpr hb)
      rw [List.getD_eq_getElem?_getD, List.getElem?_append_left (by omega),
        ← List.getD_eq_getElem?_getD, beq_iff_eq] at this
      rw [this]
      simp
    · have he : i / 8 = strength / 8 := by omega
      have hd : strength / 8 < d.length := by omega
      rw [List.getD_eq_getElem?_getD, List.getElem?_append_left hd,
        ← List.getD_eq_getElem?_getD] at h2
      rw [he]
      have hs : strength - strength / 8 * 8 = strength % 8 := by omega
      rw [hs] at h2
      have hm : (d.getD (strength / 8) 0).toNat &&& smask (strength % 8) = 0 := by
        rw [Bool.or_eq_true, beq_iff_eq, beq_iff_eq] at h2
        rcases h2 with h0 | h0
        · have := smask_pos ⟨strength % 8, by omega⟩ h0
          simp only at this
          omega
        · exact h0
      exact mask_ok ⟨(d.getD (strength / 8) 0).toNat, UInt8.toNat_lt _⟩ ⟨strength % 8, by omega⟩
        (by simp only; omega) hm ⟨i % 8, by omega⟩ (by simp only; omega)
  · rfl

/-- **C42.** Whatever the hash function, message, strength (up to the digest size) and number of
iterations: when the search returns, the answer is the digest of the message followed by `:` and
eight hexadecimal digits of a nonce, and it has at least `strength` leading zero bits. -/
theorem C42_proof_of_work (H : List UInt8 → List UInt8) (junk msg : List UInt8) (strength fuel : Nat)
    (hs : 0 < strength) (hH : ∀ m, strength ≤ 8 * (H m).length) (r : List UInt8)
    (h : cryptoHash H junk msg strength fuel = some r) :
    ∃ nonce < fuel, r = H (msg ++ nonceText nonce) ∧
      (bits r).take strength = List.replicate strength false := by
  unfold cryptoHash at h
  rw [if_neg (by omega)] at h
  simp only at h
  have key : ∀ fuel n, search H junk msg (strength / 8) (smask (strength - strength / 8 * 8)) fuel n =
      some r → ∃ nonce < n + fuel, r = H (msg ++ nonceText nonce) ∧
      (bits r).take strength = List.replicate strength false := by
    intro fuel
    induction fuel with
    | zero => intro n h; simp [search] at h
    | succ f ih =>
      intro n h
      rw [search] at h
      split at h
      · rename_i ha
        simp only [Option.some.injEq] at h
        exact ⟨n, by omega, h.symm, by rw [← h]; exact accept_bits _ junk _ (hH _) ha⟩
      · obtain ⟨k, hk, hr⟩ := ih (n+1) h
        exact ⟨k, by omega, hr⟩
  obtain ⟨k, hk, hr⟩ := key fuel 0 h
  exact ⟨k, by omega, hr⟩

/-- The search misses no answer: if some nonce below `fuel` gives a digest with the zero bits, the
search returns. -/
theorem C42_complete (H : List UInt8 → List UInt8) (junk msg : List UInt8) (strength fuel nonce : Nat)
    (hs : 0 < strength) (hH : ∀ m, strength ≤ 8 * (H m).length) (hn : nonce < fuel)
    (hz : (bits (H (msg ++ nonceText nonce))).take strength = List.replicate strength false) :
    ∃ r, cryptoHash H junk msg strength fuel = some r := by
  have hconv : accept (H (msg ++ nonceText nonce) ++ junk) (strength / 8)
      (smask (strength - strength / 8 * 8)) = true := by
    have hl := hH (msg ++ nonceText nonce)
    generalize H (msg ++ nonceText nonce) = d at *
    have hbit : ∀ i < strength, (d.getD (i / 8) 0).toNat.testBit (7 - i % 8) = false := by
      intro i hi
      have := congrArg (fun l => l[i]?) hz
      simp only [List.getElem?_take, hi, if_true, List.getElem?_replicate] at this
      rw [bits_get d i (by omega)] at this
      simpa using this
    have z8 : ∀ b : Fin 256, (∀ i : Fin 8, b.1.testBit (7 - i.1) = false) → b.1 = 0 := by decide +kernel
    have z7 : ∀ (b : Fin 256) (s : Fin 8), (∀ i : Fin 8, i.1 < s.1 → b.1.testBit (7 - i.1) = false) →
        (b.1 &&& smask s.1) = 0 := by decide +kernel
    unfold accept
    rw [Bool.and_eq_true, List.all_eq_true]
    constructor
    · intro i hi
      have hi := List.mem_range.mp hi
      rw [List.getD_eq_getElem?_getD, List.getElem?_append_left (by omega),
        ← List.getD_eq_getElem?_getD, beq_iff_eq]
      apply UInt8.toNat_inj.mp
      exact z8 ⟨(d.getD i 0).toNat, UInt8.toNat_lt _⟩ (fun j => by
        have := hbit (8 * i + j.1) (by have := j.2; omega)
        rw [show (8 * i + j.1) / 8 = i by have := j.2; omega,
          show (8 * i + j.1) % 8 = j.1 by have := j.2; omega] at this
        exact this)
    · by_cases h0 : strength % 8 = 0
      · have : strength - strength / 8 * 8 = 0 := by omega
        rw [this]; rfl
      · rw [Bool.or_eq_true, beq_iff_eq, beq_iff_eq]
        right
        rw [List.getD_eq_getElem?_getD, List.getElem?_append_left (by omega),
          ← List.getD_eq_getElem?_getD, show strength - strength / 8 * 8 = strength % 8 by omega]
        exact z7 ⟨(d.getD (strength / 8) 0).toNat, UInt8.toNat_lt _⟩ ⟨strength % 8, by omega⟩
          (fun j hj => by
            have hj : j.1 < strength % 8 := hj
            have := hbit (8 * (strength / 8) + j.1) (by omega)
            rw [show (8 * (strength / 8) + j.1) / 8 = strength / 8 by have := j.2; omega,
              show (8 * (strength / 8) + j.1) % 8 = j.1 by have := j.2; omega] at this
            exact this)
  unfold cryptoHash
  rw [if_neg (by omega)]
  simp only
  have key : ∀ fuel n, n ≤ nonce → nonce < n + fuel →
      ∃ r, search H junk msg (strength / 8) (smask (strength - strength / 8 * 8)) fuel n = some r := by
    intro fuel
    induction fuel with
    | zero => intro n h1 h2; omega
    | succ f ih =>
      intro n h1 h2
      rw [search]
      split
      · exact ⟨_, rfl⟩
      · rename_i ha
        have : n ≠ nonce := by intro e; subst e; exact ha hconv
        exact ih (n+1) (by omega) (by omega)
  exact key fuel 0 (by omega) (by omega)

/-- Instance: proof of work with SHA-256, as specified by FIPS 180-4. -/
theorem C42_sha256 (jc junk msg : List UInt8) (strength fuel : Nat) (hj : jc.length = 64)
    (hs : 0 < strength) (h256 : strength ≤ 256) (hm : 8 * (msg.length + 9) < 2^64) (r : List UInt8)
    (h : cryptoHash (Sha256.digest jc) junk msg strength fuel = some r) :
    ∃ nonce < fuel, r = Spec.Sha256.sha256 (msg ++ nonceText nonce) ∧
      (bits r).take strength = List.replicate strength false := by
  obtain ⟨n, hn, hr, hb⟩ := C42_proof_of_work _ junk msg strength fuel hs
    (fun m => by rw [Sha256.C08_length]; omega) r h
  refine ⟨n, hn, ?_, hb⟩
  rw [hr, Sha256.C08_sha256_is_fips180 _ _ hj]
  simp only [List.length_append, nonceText, List.length_cons, List.length_map, List.length_range]
  omega

/-- Non-vacuity: with a toy hash a search for 4 zero bits succeeds at nonce 2. -/
example : cryptoHash (fun m => [16 * (2 - UInt8.ofNat (m.getLastD 0).toNat + 48), 1]) [] (asc "x") 4 10 =
    some [0, 1] ∧ nonceText 2 = asc ":00000002" := by decide +kernel

end Verif.Crypto.Hashcash
