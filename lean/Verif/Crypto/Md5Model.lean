import Verif.Basic

/-!
Model of MD5: src/jsiCrypto.c:13-252. `uint` is 32 bits; the machine is little endian, so
`jsi_MD5_byteReverse` (25-33) is the identity and `(uint*)ctx->in` reads little-endian words.
-/

namespace Verif.Crypto.Md5

/-- The four chaining words `buf[4]`. -/
structure S where
  (a b c d : UInt32)
deriving DecidableEq

/-- src/jsiCrypto.c:37 `_JSI_F1`. -/
def f1 (x y z : UInt32) : UInt32 := z ^^^ (x &&& (y ^^^ z))
/-- src/jsiCrypto.c:38-40 `_JSI_F2`, `_JSI_F3`, `_JSI_F4`, selected by number. -/
def fn (n : Nat) (x y z : UInt32) : UInt32 :=
  match n with
  | 1 => f1 x y z
  | 2 => f1 z x y
  | 3 => x ^^^ y ^^^ z
  | _ => y ^^^ (x ||| ~~~z)

/-- src/jsiCrypto.c:43-44 `_JSI_MD5STEP`: the new value of `w`. -/
def stepw (n : Nat) (w x y z data s : UInt32) : UInt32 :=
  let w := w + (fn n x y z + data)
  let w := (w <<< s) ||| (w >>> (32 - s))
  w + x

/-- src/jsiCrypto.c:59-126: the 64 steps: function number, role of the registers
(0: w,x,y,z = a,b,c,d; 1: d,a,b,c; 2: c,d,a,b; 3: b,c,d,a), message word, constant, shift. -/
def steps : List (Nat × Nat × Nat × UInt32 × UInt32) := [
  (1, 0, 0, 0xd76aa478, 7), (1, 1, 1, 0xe8c7b756, 12), (1, 2, 2, 0x242070db, 17),
  (1, 3, 3, 0xc1bdceee, 22), (1, 0, 4, 0xf57c0faf, 7), (1, 1, 5, 0x4787c62a, 12),
  (1, 2, 6, 0xa8304613, 17), (1, 3, 7, 0xfd469501, 22), (1, 0, 8, 0x698098d8, 7),
  (1, 1, 9, 0x8b44f7af, 12), (1, 2, 10, 0xffff5bb1, 17), (1, 3, 11, 0x895cd7be, 22),
  (1, 0, 12, 0x6b901122, 7), (1, 1, 13, 0xfd987193, 12), (1, 2, 14, 0xa679438e, 17),
  (1, 3, 15, 0x49b40821, 22), (2, 0, 1, 0xf61e2562, 5), (2, 1, 6, 0xc040b340, 9),
  (2, 2, 11, 0x265e5a51, 14), (2, 3, 0, 0xe9b6c7aa, 20), (2, 0, 5, 0xd62f105d, 5),
  (2, 1, 10, 0x02441453, 9), (2, 2, 15, 0xd8a1e681, 14), (2, 3, 4, 0xe7d3fbc8, 20),
  (2, 0, 9, 0x21e1cde6, 5), (2, 1, 14, 0xc33707d6, 9), (2, 2, 3, 0xf4d50d87, 14),
  (2, 3, 8, 0x455a14ed, 20), (2, 0, 13, 0xa9e3e905, 5), (2, 1, 2, 0xfcefa3f8, 9),
  (2, 2, 7, 0x676f02d9, 14), (2, 3, 12, 0x8d2a4c8a, 20), (3, 0, 5, 0xfffa3942, 4),
  (3, 1, 8, 0x8771f681, 11), (3, 2, 11, 0x6d9d6122, 16), (3, 3, 14, 0xfde5380c, 23),
  (3, 0, 1, 0xa4beea44, 4), (3, 1, 4, 0x4bdecfa9, 11), (3, 2, 7, 0xf6bb4b60, 16),
  (3, 3, 10, 0xbebfbc70, 23), (3, 0, 13, 0x289b7ec6, 4), (3, 1, 0, 0xeaa127fa, 11),
  (3, 2, 3, 0xd4ef3085, 16), (3, 3, 6, 0x04881d05, 23), (3, 0, 9, 0xd9d4d039, 4),
  (3, 1, 12, 0xe6db99e5, 11), (3, 2, 15, 0x1fa27cf8, 16), (3, 3, 2, 0xc4ac5665, 23),
  (4, 0, 0, 0xf4292244, 6), (4, 1, 7, 0x432aff97, 10), (4, 2, 14, 0xab9423a7, 15),
  (4, 3, 5, 0xfc93a039, 21), (4, 0, 12, 0x655b59c3, 6), (4, 1, 3, 0x8f0ccc92, 10),
  (4, 2, 10, 0xffeff47d, 15), (4, 3, 1, 0x85845dd1, 21), (4, 0, 8, 0x6fa87e4f, 6),
  (4, 1, 15, 0xfe2ce6e0, 10), (4, 2, 6, 0xa3014314, 15), (4, 3, 13, 0x4e0811a1, 21),
  (4, 0, 4, 0xf7537e82, 6), (4, 1, 11, 0xbd3af235, 10), (4, 2, 2, 0x2ad7d2bb, 15),
  (4, 3, 9, 0xeb86d391, 21)]

/-- One `_JSI_MD5STEP` line. -/
def step (inw : Nat → UInt32) (s : S) (r : Nat × Nat × Nat × UInt32 × UInt32) : S :=
  match r with
  | (n, role, i, k, sh) =>
    match role with
    | 0 => { s with a := stepw n s.a s.b s.c s.d (inw i + k) sh }
    | 1 => { s with d := stepw n s.d s.a s.b s.c (inw i + k) sh }
    | 2 => { s with c := stepw n s.c s.d s.a s.b (inw i + k) sh }
    | _ => { s with b := stepw n s.b s.c s.d s.a (inw i + k) sh }

/-- The little-endian word `((uint*)in)[i]`. -/
def leWord (data : List UInt8) (i : Nat) : UInt32 :=
  (data.getD (4*i) 0).toUInt32 ||| ((data.getD (4*i+1) 0).toUInt32 <<< 8) |||
  ((data.getD (4*i+2) 0).toUInt32 <<< 16) ||| ((data.getD (4*i+3) 0).toUInt32 <<< 24)

/-- The four bytes of a word in memory. -/
def leBytes (w : UInt32) : List UInt8 :=
  [w.toUInt8, (w >>> 8).toUInt8, (w >>> 16).toUInt8, (w >>> 24).toUInt8]

/-- src/jsiCrypto.c:51-132 `jsi_MD5Transform`. -/
def transform (s : S) (data : List UInt8) : S :=
  let r := steps.foldl (step (leWord data)) s
  ⟨s.a + r.a, s.b + r.b, s.c + r.c, s.d + r.d⟩

/-- `struct jsi_MD5_Context` (src/jsiCrypto.c:15-19). -/
structure Ctx where
  buf : S
  bits0 : UInt32
  bits1 : UInt32
  inb : List UInt8

/-- src/jsiCrypto.c:138-146 `jsi_MD5Init`; `in` is uninitialised. -/
def init (junk : List UInt8) : Ctx :=
  ⟨⟨0x67452301, 0xefcdab89, 0x98badcfe, 0x10325476⟩, 0, 0, junk⟩

/-- `memcpy(d + i, src, |src|)`. -/
def memcpy (d : List UInt8) (i : Nat) (src : List UInt8) : List UInt8 :=
  d.take i ++ src ++ d.drop (i + src.length)

/-- src/jsiCrypto.c:183-196: `while (len >= 64)` and the final copy. -/
def bulk (b : S) (inb buf : List UInt8) : S × List UInt8 :=
  if h : 64 ≤ buf.length then
    let inb := memcpy inb 0 (buf.take 64)
    bulk (transform b inb) inb (buf.drop 64)
  else (b, memcpy inb 0 buf)
termination_by buf.length
decreasing_by simp; omega

/-- src/jsiCrypto.c:152-197 `jsi_MD5Update`. -/
def update (c : Ctx) (buf : List UInt8) : Ctx :=
  let len := UInt32.ofNat buf.length
  let t := c.bits0
  let bits0 := t + (len <<< 3)
  let bits1 := if bits0 < t then c.bits1 + 1 else c.bits1
  let bits1 := bits1 + (len >>> 29)
  let t := ((t >>> 3) &&& 0x3f).toNat
  if t ≠ 0 then
    let need := 64 - t
    if buf.length < need then ⟨c.buf, bits0, bits1, memcpy c.inb t buf⟩
    else
      let inb := memcpy c.inb t (buf.take need)
      let r := bulk (transform c.buf inb) inb (buf.drop need)
      ⟨r.1, bits0, bits1, r.2⟩
  else
    let r := bulk c.buf c.inb buf
    ⟨r.1, bits0, bits1, r.2⟩

/-- src/jsiCrypto.c:203-239 `MD5Final`: the digest. -/
def final (c : Ctx) : List UInt8 :=
  let count := ((c.bits0 >>> 3) &&& 0x3f).toNat
  let inb := memcpy c.inb count [0x80]
  let p := count + 1
  let count := 64 - 1 - count
  let r : S × List UInt8 :=
    if count < 8 then
      let inb := memcpy inb p (List.replicate count 0)
      (transform c.buf inb, memcpy inb 0 (List.replicate 56 0))
    else (c.buf, memcpy inb p (List.replicate (count - 8) 0))
  let inb := memcpy r.2 56 (leBytes c.bits0)
  let inb := memcpy inb 60 (leBytes c.bits1)
  let b := transform r.1 inb
  leBytes b.a ++ leBytes b.b ++ leBytes b.c ++ leBytes b.d

/-- src/jsiCrypto.c:241-250 `jsi_Md5Digest`. -/
def digest (junk msg : List UInt8) : List UInt8 := final (update (init junk) msg)

end Verif.Crypto.Md5
