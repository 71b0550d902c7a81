import Verif.Basic

/-!
The block buffering shared by `sha1_update`/`sha1_final` (src/jsiCrypto.c:351-411) and
`sha256_update`/`sha256_final` (src/jsiCrypto.c:510-568). The two pairs of functions are the same
text apart from the transform they call, so they are modelled once, over an arbitrary transform `tr`.

Simplifications: `size_t`/`uint` loop counters are unbounded; `ctx->bitlen` is a 64-bit word as in C.
-/

namespace Verif.Crypto

/-- `jsi_SHA1_CTX` / `jsi_SHA256_CTX` (src/jsiCrypto.c:260-266, 428-433). `data` has 64 bytes, the
part from `datalen` on is whatever was there before (uninitialised after `init`). -/
structure Ctx (σ : Type) where
  data : List UInt8
  datalen : Nat
  bitlen : UInt64
  state : σ

/-- Loop body of `sha1_update` 355-363 / `sha256_update` 514-522. -/
def step {σ : Type} (tr : σ → List UInt8 → σ) (c : Ctx σ) (b : UInt8) : Ctx σ :=
  let data := c.data.set c.datalen b
  if c.datalen + 1 = 64 then ⟨data, 0, c.bitlen + 512, tr c.state data⟩
  else ⟨data, c.datalen + 1, c.bitlen, c.state⟩

/-- `sha1_update` 351-364 / `sha256_update` 510-523. -/
def update {σ : Type} (tr : σ → List UInt8 → σ) (c : Ctx σ) (msg : List UInt8) : Ctx σ :=
  msg.foldl (step tr) c

/-- `while (i < n) ctx->data[i++] = 0x00;` (375-376, 380-381, 534-535, 539-540). -/
def zfill (d : List UInt8) (i n : Nat) : List UInt8 :=
  if i < n then zfill (d.set i 0) (i+1) n else d
termination_by n - i

/-- `memset(ctx->data, 0, 56)` (383, 542). -/
def memset56 (d : List UInt8) : List UInt8 := List.replicate 56 0 ++ d.drop 56

/-- The stores of the bit length, big endian, into `data[56..63]` (388-395, 547-554). -/
def putLen (d : List UInt8) (n : UInt64) : List UInt8 :=
  (((((((d.set 63 n.toUInt8).set 62 (n >>> 8).toUInt8).set 61 (n >>> 16).toUInt8).set 60
    (n >>> 24).toUInt8).set 59 (n >>> 32).toUInt8).set 58 (n >>> 40).toUInt8).set 57
    (n >>> 48).toUInt8).set 56 (n >>> 56).toUInt8

/-- `sha1_final` 366-396 / `sha256_final` 525-555: the state from which the digest is copied. -/
def final {σ : Type} (tr : σ → List UInt8 → σ) (c : Ctx σ) : σ :=
  let i := c.datalen
  let p : List UInt8 × σ :=
    if c.datalen < 56 then (zfill (c.data.set i 0x80) (i+1) 56, c.state)
    else
      let d := zfill (c.data.set i 0x80) (i+1) 64
      (memset56 d, tr c.state d)
  let bitlen := c.bitlen + UInt64.ofNat (c.datalen * 8)
  tr p.2 (putLen p.1 bitlen)

/-- The copy-out loop (400-406, 559-568): word `w`, most significant byte first. -/
def be32 (w : UInt32) : List UInt8 :=
  [(w >>> 24 &&& 0xff).toUInt8, (w >>> 16 &&& 0xff).toUInt8, (w >>> 8 &&& 0xff).toUInt8,
   (w &&& 0xff).toUInt8]

end Verif.Crypto
