import Verif.Basic

/-!
Model of SHA-3: src/jsiCrypto.c:576-710, `jsi_Sha3Digest` 733-742 and the dispatch in
`jsi_CryptoHash` 770-797. The machine is little endian (`(uint64_t*)ctx->blk`).
-/

namespace Verif.Crypto.Sha3

/-- src/jsiCrypto.c:669 `ROTL64`. -/
def rotl (x : UInt64) (y : UInt64) : UInt64 := (x <<< y) ||| (x >>> (64 - y))

/-- src/jsiCrypto.c:645-655 `keccakf_rndc`. -/
def rndc : List UInt64 := [
  0x0000000000000001, 0x0000000000008082, 0x800000000000808a,
  0x8000000080008000, 0x000000000000808b, 0x0000000080000001,
  0x8000000080008081, 0x8000000000008009, 0x000000000000008a,
  0x0000000000000088, 0x0000000080008009, 0x000000008000000a,
  0x000000008000808b, 0x800000000000008b, 0x8000000000008089,
  0x8000000000008003, 0x8000000000008002, 0x8000000000000080,
  0x000000000000800a, 0x800000008000000a, 0x8000000080008081,
  0x8000000000008080, 0x0000000080000001, 0x8000000080008008]

/-- src/jsiCrypto.c:657-661 `keccakf_rotc`. -/
def rotc : List Nat := [
  1,  3,  6,  10, 15, 21, 28, 36, 45, 55, 2,  14,
  27, 41, 56, 8,  25, 43, 62, 18, 39, 61, 20, 44]

/-- src/jsiCrypto.c:663-667 `keccakf_piln`. -/
def piln : List Nat := [
  10, 7,  11, 17, 18, 3, 5,  16, 8,  21, 24, 4,
  15, 23, 19, 13, 12, 2, 20, 14, 22, 9,  6,  1]

/-- `st[i]`. -/
abbrev at' (st : List UInt64) (i : Nat) : UInt64 := st.getD i 0

/-- src/jsiCrypto.c:685-686: the column parities `bc`. -/
def thetaC (st : List UInt64) : List UInt64 :=
  (List.range 5).map fun i =>
    at' st i ^^^ at' st (i+5) ^^^ at' st (i+10) ^^^ at' st (i+15) ^^^ at' st (i+20)

/-- src/jsiCrypto.c:684-692 Theta. -/
def theta (st : List UInt64) : List UInt64 :=
  let bc := thetaC st
  (List.range 5).foldl (fun st i =>
    let t := at' bc ((i+4) % 5) ^^^ rotl (at' bc ((i+1) % 5)) 1
    [0, 5, 10, 15, 20].foldl (fun st j => st.set (j+i) (at' st (j+i) ^^^ t)) st) st

/-- src/jsiCrypto.c:694-701 Rho Pi: the walk carrying `t`. -/
def rhopi (st : List UInt64) : List UInt64 :=
  ((List.range 24).foldl (fun (p : List UInt64 × UInt64) i =>
    let j := piln.getD i 0
    (p.1.set j (rotl p.2 (UInt64.ofNat (rotc.getD i 0))), at' p.1 j)) (st, at' st 1)).1

/-- src/jsiCrypto.c:703-709 Chi. -/
def chi (st : List UInt64) : List UInt64 :=
  [0, 5, 10, 15, 20].foldl (fun st j =>
    let bc := (List.range 5).map fun i => at' st (j+i)
    (List.range 5).foldl (fun st i =>
      st.set (j+i) (at' st (j+i) ^^^ ((~~~ at' bc ((i+1) % 5)) &&& at' bc ((i+2) % 5)))) st) st

/-- src/jsiCrypto.c:711-712 Iota. -/
def iota (st : List UInt64) (round : Nat) : List UInt64 := st.set 0 (at' st 0 ^^^ rndc.getD round 0)

/-- src/jsiCrypto.c:682-713: the 24 rounds. -/
def rounds (st : List UInt64) : List UInt64 :=
  (List.range 24).foldl (fun st r => iota (chi (rhopi (theta st))) r) st

/-- `((uint64_t*)blk)[i]`, little endian. -/
def lane (blk : List UInt8) (i : Nat) : UInt64 :=
  (List.range 8).foldl (fun w k => w ||| ((blk.getD (8*i+k) 0).toUInt64 <<< UInt64.ofNat (8*k))) 0

/-- `SHA3_CTX` (src/jsiCrypto.c:603-610). -/
structure Ctx where
  state : List UInt64
  index : Nat
  dgstlen : Nat
  blklen : Nat
  blk : List UInt8

/-- src/jsiCrypto.c:614-640 `SHA3_Init`: everything zeroed, then the sizes of the variant
(0: 224, 2: 384, 3: 512, anything else: 256). -/
def init (type : Nat) : Ctx :=
  let r : Nat × Nat := match type with
    | 0 => (144, 28)
    | 2 => (104, 48)
    | 3 => (72, 64)
    | _ => (136, 32)
  ⟨List.replicate 25 0, 0, r.2, r.1, List.replicate 256 0⟩

/-- src/jsiCrypto.c:671-714 `SHA3_Transform`. -/
def transform (c : Ctx) : Ctx :=
  let st := (List.range (c.blklen / 8)).foldl
    (fun st i => st.set i (at' st i ^^^ lane c.blk i)) c.state
  ⟨rounds st, c.index, c.dgstlen, c.blklen, c.blk⟩

/-- `memcpy(&blk[idx], p, |p|)`. -/
def memcpy (d : List UInt8) (i : Nat) (src : List UInt8) : List UInt8 :=
  d.take i ++ src ++ d.drop (i + src.length)

/-- src/jsiCrypto.c:722-738: the loop of `SHA3_Update` (`idx` is the loop variable). `fuel` bounds
the iterations: each full iteration consumes at least one byte when `idx < blklen`. -/
def updLoop : Nat → Ctx → Nat → List UInt8 → Ctx
  | 0, c, _, _ => c
  | fuel+1, c, idx, p =>
    let r := if p.length < c.blklen - idx then p.length else c.blklen - idx
    let c := { c with blk := memcpy c.blk idx (p.take r) }
    if idx + r < c.blklen then { c with index := idx + r }
    else updLoop fuel (transform c) 0 (p.drop r)

/-- src/jsiCrypto.c:716-739 `SHA3_Update`. -/
def update (c : Ctx) (p : List UInt8) : Ctx := updLoop (p.length + 2) c c.index p

/-- The bytes of the state in memory. -/
def stateBytes (st : List UInt64) : List UInt8 :=
  st.flatMap fun w => (List.range 8).map fun k => (w >>> UInt64.ofNat (8*k)).toUInt8

/-- src/jsiCrypto.c:741-754 `SHA3_Final`: the bytes written to the digest buffer. Note that the
bytes of `blk` after `index` are not cleared. -/
def final (c : Ctx) : List UInt8 :=
  let blk := c.blk.set c.index 6
  let blk := blk.set (c.blklen - 1) (blk.getD (c.blklen - 1) 0 ||| 0x80)
  let c := transform { c with blk := blk }
  (stateBytes c.state).take c.dgstlen

/-- src/jsiCrypto.c:733-742 `jsi_Sha3Digest`: always claims 64 bytes; `junk` (64 bytes or more) is
what the caller's uninitialised `digest` buffer held. -/
def digest (junk msg : List UInt8) (type : Nat) : List UInt8 :=
  let d := final (update (init type) msg)
  (d ++ junk.drop d.length).take 64

/-- The SHA-3 members of `Jsi_CryptoHashType`, in the order of src/jsi.h:710-711, as offsets from
`Jsi_CHash_SHA3_224`: this offset is what src/jsiCrypto.c:793 passes as `type`. -/
inductive Req | sha3_224 | sha3_384 | sha3_512 | sha3_256
deriving DecidableEq

def Req.offset : Req → Nat
  | .sha3_224 => 0
  | .sha3_384 => 1
  | .sha3_512 => 2
  | .sha3_256 => 3

/-- `Util.hash(msg, {type: ...})` for a SHA-3 type with `noHex` (src/jsiCmds.c:4477-4520,
src/jsiCrypto.c:788-793): the bytes of the answer. -/
def hash (junk msg : List UInt8) (r : Req) : List UInt8 := digest junk msg r.offset

end Verif.Crypto.Sha3
