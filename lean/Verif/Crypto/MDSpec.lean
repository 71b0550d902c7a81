/-!
Merkle-Damgård padding and iteration as in FIPS 180-4 sections 5.1.1, 5.2.1, 6: independent of the
C code.
-/

namespace Verif.Crypto.Spec

/-- The 64-bit big-endian encoding of `n mod 2^64`. -/
def be64 (n : Nat) : List UInt8 := (List.range 8).map fun i => UInt8.ofNat (n / 256^(7 - i))

/-- The 64-bit little-endian encoding of `n mod 2^64` (RFC 1321). -/
def le64 (n : Nat) : List UInt8 := (List.range 8).map fun i => UInt8.ofNat (n / 256^i)

/-- The number of zero bytes of padding: the smallest `k` with `len + 1 + k ≡ 56 (mod 64)`. -/
def padZeros (len : Nat) : Nat := (119 - len % 64) % 64

theorem padZeros_spec (len : Nat) : (len + 1 + padZeros len) % 64 = 56 ∧
    ∀ k, (len + 1 + k) % 64 = 56 → padZeros len ≤ k := by
  unfold padZeros
  constructor
  · omega
  · intro k hk; omega

/-- FIPS 180-4 5.1.1: the message, a one bit, zeros, and the length in bits. -/
def pad (encLen : Nat → List UInt8) (msg : List UInt8) : List UInt8 :=
  msg ++ 0x80 :: (List.replicate (padZeros msg.length) 0 ++ encLen (8 * msg.length))

/-- FIPS 180-4 5.2.1: parse into 64-byte blocks (a shorter tail is not a block). -/
def blocks (l : List UInt8) : List (List UInt8) :=
  if _h : l.length < 64 then [] else l.take 64 :: blocks (l.drop 64)
termination_by l.length
decreasing_by simp; omega

/-- The iterated hash. -/
def iterate {σ : Type} (compress : σ → List UInt8 → σ) (iv : σ) (padded : List UInt8) : σ :=
  (blocks padded).foldl compress iv

end Verif.Crypto.Spec
