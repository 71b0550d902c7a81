import Verif.Crypto.MDModel

/-! Model of SHA-1: src/jsiCrypto.c:254-425. -/

namespace Verif.Crypto.Sha1

/-- src/jsiCrypto.c:271 `ROTLEFT`. -/
def rotl (a : UInt32) (b : UInt32) : UInt32 := (a <<< b) ||| (a >>> (32 - b))

/-- The five working words. -/
structure S where
  (a b c d e : UInt32)
deriving DecidableEq

/-- src/jsiCrypto.c:279-280: `m[i]` for `i < 16`, with `+` (the `int` shifts are taken as unsigned). -/
def word (data : List UInt8) (i : Nat) : UInt32 :=
  ((data.getD (4*i) 0).toUInt32 <<< 24) + ((data.getD (4*i+1) 0).toUInt32 <<< 16) +
  ((data.getD (4*i+2) 0).toUInt32 <<< 8) + (data.getD (4*i+3) 0).toUInt32

/-- src/jsiCrypto.c:279-284: the array `m`, extended from 16 to `16 + n` words. -/
def sched (data : List UInt8) : Nat → List UInt32
  | 0 => (List.range 16).map (word data)
  | n+1 =>
    let m := sched data n
    let i := 16 + n
    let x := m.getD (i-3) 0 ^^^ m.getD (i-8) 0 ^^^ m.getD (i-14) 0 ^^^ m.getD (i-16) 0
    m ++ [(x <<< 1) ||| (x >>> 31)]

/-- The common tail of the four round loops (294-297 etc.), `f` and `k` being the loop's function
value and constant. -/
def round (s : S) (f k mi : UInt32) : S :=
  ⟨rotl s.a 5 + f + s.e + k + mi, s.a, rotl s.b 30, s.c, s.d⟩

/-- src/jsiCrypto.c:292-331: the four loops, as one over `i` with the loop's `f` and `k`. -/
def rnd (m : List UInt32) (s : S) (i : Nat) : S :=
  if i < 20 then round s ((s.b &&& s.c) ^^^ (~~~s.b &&& s.d)) 0x5a827999 (m.getD i 0)
  else if i < 40 then round s (s.b ^^^ s.c ^^^ s.d) 0x6ed9eba1 (m.getD i 0)
  else if i < 60 then
    round s ((s.b &&& s.c) ^^^ (s.b &&& s.d) ^^^ (s.c &&& s.d)) 0x8f1bbcdc (m.getD i 0)
  else round s (s.b ^^^ s.c ^^^ s.d) 0xca62c1d6 (m.getD i 0)

/-- src/jsiCrypto.c:275-338 `sha1_transform` (`k[0..3]` set at 348-351). -/
def transform (s : S) (data : List UInt8) : S :=
  let m := sched data 64
  let r := (List.range 80).foldl (rnd m) s
  ⟨s.a + r.a, s.b + r.b, s.c + r.c, s.d + r.d, s.e + r.e⟩

/-- src/jsiCrypto.c:340-352 `sha1_init`. -/
def iv : S := ⟨0x67452301, 0xEFCDAB89, 0x98BADCFE, 0x10325476, 0xc3d2e1f0⟩

/-- src/jsiCrypto.c:400-406. -/
def out (s : S) : List UInt8 := be32 s.a ++ be32 s.b ++ be32 s.c ++ be32 s.d ++ be32 s.e

/-- src/jsiCrypto.c:412-421 `jsi_Sha1Digest`. -/
def digest (junk msg : List UInt8) : List UInt8 :=
  out (final transform (update transform ⟨junk, 0, 0, iv⟩ msg))

end Verif.Crypto.Sha1
