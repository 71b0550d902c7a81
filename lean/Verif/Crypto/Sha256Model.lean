import Verif.Crypto.MDModel

/-!
Model of SHA-256: src/jsiCrypto.c:425-568 and `jsi_Sha256Digest` 713-722.
`uint` is 32 bits and wraps.
-/

namespace Verif.Crypto.Sha256

/-- src/jsiCrypto.c:437 `ROTRIGHT`. -/
def rotr (a : UInt32) (b : UInt32) : UInt32 := (a >>> b) ||| (a <<< (32 - b))
/-- src/jsiCrypto.c:439 `CH`. -/
def ch (x y z : UInt32) : UInt32 := (x &&& y) ^^^ (~~~x &&& z)
/-- src/jsiCrypto.c:440 `MAJ`. -/
def maj (x y z : UInt32) : UInt32 := (x &&& y) ^^^ (x &&& z) ^^^ (y &&& z)
/-- src/jsiCrypto.c:441 `EP0`. -/
def ep0 (x : UInt32) : UInt32 := rotr x 2 ^^^ rotr x 13 ^^^ rotr x 22
/-- src/jsiCrypto.c:442 `EP1`. -/
def ep1 (x : UInt32) : UInt32 := rotr x 6 ^^^ rotr x 11 ^^^ rotr x 25
/-- src/jsiCrypto.c:443 `SIG0`. -/
def sig0 (x : UInt32) : UInt32 := rotr x 7 ^^^ rotr x 18 ^^^ (x >>> 3)
/-- src/jsiCrypto.c:444 `SIG1`. -/
def sig1 (x : UInt32) : UInt32 := rotr x 17 ^^^ rotr x 19 ^^^ (x >>> 10)

/-- src/jsiCrypto.c:447-456 `k`. -/
def k : List UInt32 := [
  0x428a2f98,0x71374491,0xb5c0fbcf,0xe9b5dba5,0x3956c25b,0x59f111f1,0x923f82a4,0xab1c5ed5,
  0xd807aa98,0x12835b01,0x243185be,0x550c7dc3,0x72be5d74,0x80deb1fe,0x9bdc06a7,0xc19bf174,
  0xe49b69c1,0xefbe4786,0x0fc19dc6,0x240ca1cc,0x2de92c6f,0x4a7484aa,0x5cb0a9dc,0x76f988da,
  0x983e5152,0xa831c66d,0xb00327c8,0xbf597fc7,0xc6e00bf3,0xd5a79147,0x06ca6351,0x14292967,
  0x27b70a85,0x2e1b2138,0x4d2c6dfc,0x53380d13,0x650a7354,0x766a0abb,0x81c2c92e,0x92722c85,
  0xa2bfe8a1,0xa81a664b,0xc24b8b70,0xc76c51a3,0xd192e819,0xd6990624,0xf40e3585,0x106aa070,
  0x19a4c116,0x1e376c08,0x2748774c,0x34b0bcb5,0x391c0cb3,0x4ed8aa4a,0x5b9cca4f,0x682e6ff3,
  0x748f82ee,0x78a5636f,0x84c87814,0x8cc70208,0x90befffa,0xa4506ceb,0xbef9a3f7,0xc67178f2]

/-- The eight working words. -/
structure S where
  (a b c d e f g h : UInt32)
deriving DecidableEq

/-- src/jsiCrypto.c:463-464: `m[i]` for `i < 16` (the `int` shifts are taken as unsigned). -/
def word (data : List UInt8) (i : Nat) : UInt32 :=
  ((data.getD (4*i) 0).toUInt32 <<< 24) ||| ((data.getD (4*i+1) 0).toUInt32 <<< 16) |||
  ((data.getD (4*i+2) 0).toUInt32 <<< 8) ||| (data.getD (4*i+3) 0).toUInt32

/-- src/jsiCrypto.c:463-466: the array `m`, extended from 16 to `16 + n` words. -/
def sched (data : List UInt8) : Nat → List UInt32
  | 0 => (List.range 16).map (word data)
  | n+1 =>
    let m := sched data n
    let i := 16 + n
    m ++ [sig1 (m.getD (i-2) 0) + m.getD (i-7) 0 + sig0 (m.getD (i-15) 0) + m.getD (i-16) 0]

/-- src/jsiCrypto.c:477-488: one round. -/
def round (s : S) (ki mi : UInt32) : S :=
  let t1 := s.h + ep1 s.e + ch s.e s.f s.g + ki + mi
  let t2 := ep0 s.a + maj s.a s.b s.c
  ⟨t1 + t2, s.a, s.b, s.c, s.d + t1, s.e, s.f, s.g⟩

/-- src/jsiCrypto.c:459-498 `sha256_transform`. -/
def transform (s : S) (data : List UInt8) : S :=
  let m := sched data 48
  let r := (List.range 64).foldl (fun s i => round s (k.getD i 0) (m.getD i 0)) s
  ⟨s.a + r.a, s.b + r.b, s.c + r.c, s.d + r.d, s.e + r.e, s.f + r.f, s.g + r.g, s.h + r.h⟩

/-- src/jsiCrypto.c:500-512 `sha256_init`. -/
def iv : S := ⟨0x6a09e667, 0xbb67ae85, 0x3c6ef372, 0xa54ff53a, 0x510e527f, 0x9b05688c, 0x1f83d9ab,
  0x5be0cd19⟩

/-- src/jsiCrypto.c:559-568: the digest bytes. -/
def out (s : S) : List UInt8 :=
  be32 s.a ++ be32 s.b ++ be32 s.c ++ be32 s.d ++ be32 s.e ++ be32 s.f ++ be32 s.g ++ be32 s.h

/-- src/jsiCrypto.c:713-722 `jsi_Sha256Digest`; `junk` is the uninitialised `ctx.data`. -/
def digest (junk msg : List UInt8) : List UInt8 :=
  out (final transform (update transform ⟨junk, 0, 0, iv⟩ msg))

end Verif.Crypto.Sha256
