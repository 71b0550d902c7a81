import Verif.Crypto.MDSpec

/-! SHA-256 as in FIPS 180-4, on 32-bit vectors, constants from their definition as fractional
parts of roots of primes. -/

namespace Verif.Crypto.Spec

/-- Trial-division primality. -/
def isPrime (n : Nat) : Bool := 2 ≤ n && (List.range n).all fun d => d < 2 || n % d != 0

/-- The first 64 primes. -/
def primes : List Nat := (List.range 312).filter isPrime

/-- Greatest `r < 2^40` with `r ^ e ≤ n`, by binary digits. -/
def iroot (e n : Nat) : Nat :=
  (List.range 40).reverse.foldl (fun r i => if (r + 2^i)^e ≤ n then r + 2^i else r) 0

/-- First 32 bits of the fractional part of the `e`-th root of `p`. -/
def fracRoot (e p : Nat) : BitVec 32 := BitVec.ofNat 32 (iroot e (p * 2^(32*e)))

/-- A big-endian 32-bit word from four bytes. -/
def beWord (b0 b1 b2 b3 : UInt8) : BitVec 32 :=
  BitVec.ofNat 32 (b0.toNat * 2^24 + b1.toNat * 2^16 + b2.toNat * 2^8 + b3.toNat)

/-- Big-endian bytes of a word. -/
def wordBytes (w : BitVec 32) : List UInt8 :=
  (List.range 4).map fun i => UInt8.ofNat (w.toNat / 256^(3 - i))

namespace Sha256

/-- FIPS 180-4 4.2.2. -/
def K (t : Nat) : BitVec 32 := fracRoot 3 (primes.getD t 0)
/-- FIPS 180-4 5.3.3. -/
def H0 : List (BitVec 32) := (List.range 8).map fun t => fracRoot 2 (primes.getD t 0)

/-- FIPS 180-4 4.1.2. -/
def Ch (x y z : BitVec 32) : BitVec 32 := (x &&& y) ^^^ (~~~x &&& z)
def Maj (x y z : BitVec 32) : BitVec 32 := (x &&& y) ^^^ (x &&& z) ^^^ (y &&& z)
def Sigma0 (x : BitVec 32) : BitVec 32 := x.rotateRight 2 ^^^ x.rotateRight 13 ^^^ x.rotateRight 22
def Sigma1 (x : BitVec 32) : BitVec 32 := x.rotateRight 6 ^^^ x.rotateRight 11 ^^^ x.rotateRight 25
def sigma0 (x : BitVec 32) : BitVec 32 := x.rotateRight 7 ^^^ x.rotateRight 18 ^^^ (x >>> 3)
def sigma1 (x : BitVec 32) : BitVec 32 := x.rotateRight 17 ^^^ x.rotateRight 19 ^^^ (x >>> 10)

/-- FIPS 180-4 6.2.2 step 1: the message schedule. -/
def W (M : List UInt8) (t : Nat) : BitVec 32 :=
  if t < 16 then beWord (M.getD (4*t) 0) (M.getD (4*t+1) 0) (M.getD (4*t+2) 0) (M.getD (4*t+3) 0)
  else sigma1 (W M (t-2)) + W M (t-7) + sigma0 (W M (t-15)) + W M (t-16)

/-- The working variables `a,b,c,d,e,f,g,h` as a list `[a,...,h]`; FIPS 180-4 6.2.2 step 3. -/
def step (M : List UInt8) (v : List (BitVec 32)) (t : Nat) : List (BitVec 32) :=
  match v with
  | [a, b, c, d, e, f, g, h] =>
    let T1 := h + Sigma1 e + Ch e f g + K t + W M t
    let T2 := Sigma0 a + Maj a b c
    [T1 + T2, a, b, c, d + T1, e, f, g]
  | v => v

/-- FIPS 180-4 6.2.2. -/
def compress (H : List (BitVec 32)) (M : List UInt8) : List (BitVec 32) :=
  List.zipWith (· + ·) ((List.range 64).foldl (step M) H) H

/-- FIPS 180-4 6.2: SHA-256. -/
def sha256 (msg : List UInt8) : List UInt8 :=
  (iterate compress H0 (pad be64 msg)).flatMap wordBytes

end Sha256
end Verif.Crypto.Spec
