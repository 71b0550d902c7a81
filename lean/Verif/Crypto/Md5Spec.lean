import Verif.Crypto.MDSpec

/-! MD5 as in RFC 1321. -/
namespace Verif.Crypto.Spec.Md5

def factorial : Nat → Nat
  | 0 => 1
  | n+1 => (n+1) * factorial n

/-- The sine constants: `T[i] = floor(2^32 * |sin i|)`, `i` in radians; the sine is its Taylor
polynomial of degree 241 (error below 10^-36 for `i ≤ 64`) as an exact fraction over `241!`. -/
def sinNum (i : Nat) : Int :=
  (List.range 121).foldl (fun acc n =>
    acc + (if n % 2 = 0 then (1:Int) else -1) * ((i^(2*n+1) * (factorial 241 / factorial (2*n+1)) : Nat) : Int)) 0

/-- RFC 1321 3.4, `T[i]`. -/
def T (i : Nat) : BitVec 32 := BitVec.ofNat 32 (2^32 * (sinNum i).natAbs / factorial 241)

/-- RFC 1321 3.4 auxiliary functions of rounds 1-4, by step number `t` (0-63). -/
def aux (t : Nat) (x y z : BitVec 32) : BitVec 32 :=
  if t < 16 then (x &&& y) ||| (~~~x &&& z)
  else if t < 32 then (x &&& z) ||| (y &&& ~~~z)
  else if t < 48 then x ^^^ y ^^^ z
  else y ^^^ (x ||| ~~~z)

/-- RFC 1321 3.4: the message word used at step `t`. -/
def idx (t : Nat) : Nat :=
  if t < 16 then t % 16 else if t < 32 then (5*t + 1) % 16 else if t < 48 then (3*t + 5) % 16
  else (7*t) % 16

/-- RFC 1321 3.4: the rotation used at step `t`. -/
def shift (t : Nat) : Nat :=
  ([[7, 12, 17, 22], [5, 9, 14, 20], [4, 11, 16, 23], [6, 10, 15, 21]].getD (t / 16) []).getD (t % 4) 0

/-- Word `i` of a block, low-order byte first. -/
def X (M : List UInt8) (i : Nat) : BitVec 32 :=
  BitVec.ofNat 32 ((M.getD (4*i) 0).toNat + (M.getD (4*i+1) 0).toNat * 2^8 +
    (M.getD (4*i+2) 0).toNat * 2^16 + (M.getD (4*i+3) 0).toNat * 2^24)

/-- RFC 1321 3.4: `a = b + ((a + aux(b,c,d) + X[k] + T[i]) <<< s)`, then the roles of the registers
move on by one: `[a,b,c,d]` becomes `[d,a,b,c]`. -/
def step (M : List UInt8) (v : List (BitVec 32)) (t : Nat) : List (BitVec 32) :=
  match v with
  | [a, b, c, d] => [d, b + (a + aux t b c d + X M (idx t) + T (t+1)).rotateLeft (shift t), b, c]
  | v => v

/-- RFC 1321 3.4: one block. -/
def compress (H : List (BitVec 32)) (M : List UInt8) : List (BitVec 32) :=
  List.zipWith (· + ·) H ((List.range 64).foldl (step M) H)

/-- RFC 1321 3.3. -/
def H0 : List (BitVec 32) := [0x67452301#32, 0xefcdab89#32, 0x98badcfe#32, 0x10325476#32]

/-- Low-order byte first. -/
def wordBytes (w : BitVec 32) : List UInt8 := (List.range 4).map fun i => UInt8.ofNat (w.toNat / 256^i)

/-- RFC 1321: MD5. -/
def md5 (msg : List UInt8) : List UInt8 :=
  (iterate compress H0 (pad le64 msg)).flatMap wordBytes

end Verif.Crypto.Spec.Md5
