import Verif.Crypto.Sha256Model

/-!
Model of `Util.encrypt`/`Util.decrypt`: src/jsiCrypto.c:852-935 and src/jsiCmds.c:4538-4560.

Simplifications: the `Jsi_DString` is its content (its own model is in `Verif.DString`); the machine
is little endian; lengths are below 2^31 so the `int`/`uint` conversions are exact where the theorems
use them. The error text is not modelled.
-/

namespace Verif.Crypto.Encrypt

/-- src/jsiCrypto.c:858 `DELTA`. -/
def delta : UInt32 := 0x9e3779b9

/-- src/jsiCrypto.c:854 `_JSI_XXTEA_MX`, with `p` already masked by `&7`. -/
def mx (key : List UInt32) (z y sum : UInt32) (p : Nat) (e : Nat) : UInt32 :=
  (((z >>> 5) ^^^ (y <<< 2)) + ((y >>> 3) ^^^ (z <<< 4))) ^^^
    ((sum ^^^ y) + (key.getD ((p % 8) ^^^ e) 0 ^^^ z))

/-- src/jsiCrypto.c:867,881: `e = (sum >> 2) & 7`. -/
def eOf (sum : UInt32) : Nat := (sum >>> 2).toNat % 8

/-- `v[i]` on an array that contains index `i`. -/
def ix (v : List UInt32) (i : Nat) : UInt32 := v.getD i 0

/-- src/jsiCrypto.c:868-871: the inner `for` of the coding part, from `p`, `todo` iterations; carries
`z`. -/
def encFor (key : List UInt32) (sum : UInt32) : Nat → Nat → List UInt32 → UInt32 → List UInt32 × UInt32
  | _, 0, v, z => (v, z)
  | p, todo+1, v, z =>
    let y := ix v (p+1)
    let w := ix v p + mx key z y sum p (eOf sum)
    encFor key sum (p+1) todo (v.set p w) w

/-- src/jsiCrypto.c:865-874: the `do` loop of the coding part, `rounds` iterations. -/
def encRounds (key : List UInt32) (n : Nat) : Nat → UInt32 → List UInt32 → UInt32 → List UInt32
  | 0, _, v, _ => v
  | r+1, sum, v, z =>
    let sum := sum + delta
    let (v, z) := encFor key sum 0 (n-1) v z
    let y := ix v 0
    let w := ix v (n-1) + mx key z y sum (n-1) (eOf sum)
    encRounds key n r sum (v.set (n-1) w) w

/-- src/jsiCrypto.c:882-885: the inner `for` of the decoding part, from `p` down to 1; carries `y`. -/
def decFor (key : List UInt32) (sum : UInt32) : Nat → List UInt32 → UInt32 → List UInt32 × UInt32
  | 0, v, y => (v, y)
  | p+1, v, y =>
    let z := ix v p
    let w := ix v (p+1) - mx key z y sum (p+1) (eOf sum)
    decFor key sum p (v.set (p+1) w) w

/-- src/jsiCrypto.c:880-889: the `do` loop of the decoding part. -/
def decRounds (key : List UInt32) (n : Nat) : Nat → UInt32 → List UInt32 → UInt32 → List UInt32
  | 0, _, v, _ => v
  | r+1, sum, v, y =>
    let (v, y) := decFor key sum (n-1) v y
    let z := ix v (n-1)
    let w := ix v 0 - mx key z y sum 0 (eOf sum)
    decRounds key n r (sum - delta) (v.set 0 w) w

/-- src/jsiCrypto.c:862,877 `rounds = 6 + 52/n`. -/
def rounds (n : Nat) : Nat := 6 + 52 / n

/-- src/jsiCrypto.c:856-875 `jsi_btea` with `n > 0`. -/
def bteaEnc (key v : List UInt32) : List UInt32 :=
  let n := v.length
  if n > 1 then encRounds key n (rounds n) 0 v (ix v (n-1)) else v

/-- src/jsiCrypto.c:876-890 `jsi_btea` with `n < 0`. -/
def bteaDec (key v : List UInt32) : List UInt32 :=
  let n := v.length
  if n > 1 then decRounds key n (rounds n) (UInt32.ofNat (rounds n) * delta) v (ix v 0) else v

/-- `(uint32_t*)buf`: the words of a byte buffer (only whole words are ever used). -/
def load : List UInt8 → List UInt32
  | a :: b :: c :: d :: l =>
    (a.toUInt32 ||| (b.toUInt32 <<< 8) ||| (c.toUInt32 <<< 16) ||| (d.toUInt32 <<< 24)) :: load l
  | _ => []

/-- The bytes in memory of an array of words. -/
def store (v : List UInt32) : List UInt8 :=
  v.flatMap fun (w : UInt32) => [w.toUInt8, (w >>> 8).toUInt8, (w >>> 16).toUInt8, (w >>> 24).toUInt8]

/-- src/jsiCrypto.c:914-917: the key schedule: 32-byte keys as they are, others hashed. `junk` is the
uninitialised buffer of the SHA-256 context. -/
def keyWords (junk key : List UInt8) : List UInt32 :=
  load (if key.length = 32 then key else Sha256.digest junk key)

/-- src/jsiCrypto.c:904-908: append zero bytes up to a multiple of 4; the number appended. -/
def padLoop : Nat → List UInt8 → Nat → List UInt8 × Nat
  | 0, buf, pad => (buf, pad)
  | fuel+1, buf, pad =>
    if buf.length % 4 ≠ 0 then padLoop fuel (buf ++ [0]) (pad+1) else (buf, pad)

/-- src/jsiCmds.c:4538-4560 and src/jsiCrypto.c:893-935 with `decrypt` false. `none` is an error.
(The loop of `padLoop` runs at most 3 times.) -/
def encrypt (junk str key : List UInt8) : Option (List UInt8) :=
  if str.length = 0 then none
  else if str.length < 2 then none
  else
    let (buf, pad) := padLoop 4 str 0
    if buf.length % 4 ≠ 0 then none
    else some (store (bteaEnc (keyWords junk key) (load buf)) ++ [UInt8.ofNat pad])

/-- `(uint)buf[i]` with `char` signed: the pad read back, as a 32-bit unsigned number. -/
def charToUint (b : UInt8) : Nat := if b < 128 then b.toNat else b.toNat + 2^32 - 256

/-- The 32-bit unsigned difference, read as `int` (src/jsiCrypto.c:923). -/
def subInt (a b : Nat) : Int :=
  let d : Nat := (a + 2^32 - b) % 2^32
  if d < 2^31 then (d : Int) else (d : Int) - 2^32

/-- src/jsiDString.c:192-221 `Jsi_DSSetLength`: the content can only shrink. -/
def setLength (buf : List UInt8) (n : Nat) : List UInt8 := buf.take n

/-- src/jsiCmds.c:4538-4560 and src/jsiCrypto.c:893-935 with `decrypt` true. -/
def decrypt (junk str key : List UInt8) : Option (List UInt8) :=
  if str.length = 0 then none
  else if str.length % 4 ≠ 1 then none
  else if str.length < 2 then none
  else
    let nlen := str.length - 1
    let pad := charToUint (str.getD nlen 0)
    let buf := setLength str nlen
    if nlen % 4 ≠ 0 then none
    else
      let buf := store (bteaDec (keyWords junk key) (load buf))
      let olen := subInt buf.length pad
      if olen < 0 then some buf
      else some (setLength buf olen.toNat)

end Verif.Crypto.Encrypt
