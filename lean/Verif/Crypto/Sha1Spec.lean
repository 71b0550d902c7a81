import Verif.Crypto.Sha256Spec

/-! SHA-1 as in FIPS 180-4. -/
namespace Verif.Crypto.Spec.Sha1

/-- FIPS 180-4 4.2.1: the constants are `floor(2^30 * sqrt(x))` for x = 2, 3, 5, 10. -/
def K (t : Nat) : BitVec 32 :=
  BitVec.ofNat 32 (iroot 2 ((if t < 20 then 2 else if t < 40 then 3 else if t < 60 then 5 else 10)
    * 2^60))

/-- FIPS 180-4 4.1.1. -/
def f (t : Nat) (x y z : BitVec 32) : BitVec 32 :=
  if t < 20 then (x &&& y) ^^^ (~~~x &&& z)
  else if t < 40 then x ^^^ y ^^^ z
  else if t < 60 then (x &&& y) ^^^ (x &&& z) ^^^ (y &&& z)
  else x ^^^ y ^^^ z

/-- FIPS 180-4 6.1.2 step 1. -/
def W (M : List UInt8) (t : Nat) : BitVec 32 :=
  if t < 16 then beWord (M.getD (4*t) 0) (M.getD (4*t+1) 0) (M.getD (4*t+2) 0) (M.getD (4*t+3) 0)
  else (W M (t-3) ^^^ W M (t-8) ^^^ W M (t-14) ^^^ W M (t-16)).rotateLeft 1

/-- FIPS 180-4 6.1.2 step 3, working variables `[a,b,c,d,e]`. -/
def step (M : List UInt8) (v : List (BitVec 32)) (t : Nat) : List (BitVec 32) :=
  match v with
  | [a, b, c, d, e] => [a.rotateLeft 5 + f t b c d + e + K t + W M t, a, b.rotateLeft 30, c, d]
  | v => v

/-- FIPS 180-4 6.1.2. -/
def compress (H : List (BitVec 32)) (M : List UInt8) : List (BitVec 32) :=
  List.zipWith (· + ·) ((List.range 80).foldl (step M) H) H

/-- FIPS 180-4 5.3.1: the byte sequence 01 23 45 67 89 ab cd ef fe dc ba 98 76 54 32 10 f0 e1 d2 c3
read as little-endian words. -/
def H0 : List (BitVec 32) := [0x67452301#32, 0xefcdab89#32, 0x98badcfe#32, 0x10325476#32, 0xc3d2e1f0#32]

/-- FIPS 180-4 6.1: SHA-1. -/
def sha1 (msg : List UInt8) : List UInt8 :=
  (iterate compress H0 (pad be64 msg)).flatMap wordBytes

end Verif.Crypto.Spec.Sha1
