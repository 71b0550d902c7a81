/-! SHA-3 as in FIPS 202 (byte-aligned messages). -/
namespace Verif.Crypto.Spec.Sha3

/-- A state array: lane `A x y`, `x, y < 5`, of 64 bits. Indices are taken mod 5. -/
abbrev State := Nat → Nat → BitVec 64

/-- FIPS 202 3.2.1. -/
def C (A : State) (x : Nat) : BitVec 64 := A x 0 ^^^ A x 1 ^^^ A x 2 ^^^ A x 3 ^^^ A x 4
def θ (A : State) : State := fun x y =>
  A x y ^^^ (C A ((x + 4) % 5) ^^^ (C A ((x + 1) % 5)).rotateLeft 1)

/-- FIPS 202 3.2.2: the walk `(x,y) := (y, 2x+3y)` from (1,0): position at time `t`. -/
def walk : Nat → Nat × Nat
  | 0 => (1, 0)
  | t+1 => let p := walk t; (p.2, (2 * p.1 + 3 * p.2) % 5)

/-- FIPS 202 3.2.2: the rotation offset of lane `(x,y)`: `(t+1)(t+2)/2` for the `t` at which the walk
visits it, 0 for lane (0,0). -/
def offset (x y : Nat) : Nat :=
  match (List.range 24).find? (fun t => walk t == (x, y)) with
  | some t => (t + 1) * (t + 2) / 2 % 64
  | none => 0

def ρ (A : State) : State := fun x y => (A x y).rotateLeft (offset x y)

/-- FIPS 202 3.2.3. -/
def π (A : State) : State := fun x y => A ((x + 3 * y) % 5) x

/-- FIPS 202 3.2.4. -/
def χ (A : State) : State := fun x y => A x y ^^^ (~~~ A ((x + 1) % 5) y &&& A ((x + 2) % 5) y)

/-- FIPS 202 3.2.5, algorithm 5: the LFSR `rc(t)`; `R` is a list of 8 bits. -/
def lfsr : Nat → List Bool
  | 0 => [true, false, false, false, false, false, false, false]
  | t+1 =>
    match lfsr t with
    | [r0, r1, r2, r3, r4, r5, r6, r7] =>
      -- R = 0 || R; R[0] ^= R[8]; R[4] ^= R[8]; R[5] ^= R[8]; R[6] ^= R[8]; truncate
      [r7, r0, r1, r2, r3 ^^ r7, r4 ^^ r7, r5 ^^ r7, r6]
    | l => l
def rc (t : Nat) : Bool := (lfsr (t % 255)).getD 0 false

/-- FIPS 202 3.2.5: the round constant: bit `2^j - 1` is `rc(j + 7 ir)`. -/
def RC (ir : Nat) : BitVec 64 :=
  (List.range 7).foldl (fun w j => if rc (j + 7 * ir) then w ||| (1#64 <<< (2^j - 1)) else w) 0#64

def ι (A : State) (ir : Nat) : State := fun x y => if x = 0 ∧ y = 0 then A x y ^^^ RC ir else A x y

/-- FIPS 202 3.3: KECCAK-f[1600]. -/
def keccakF (A : State) : State := (List.range 24).foldl (fun A ir => ι (χ (π (ρ (θ A)))) ir) A

/-- Lane `i` (little endian) of a byte string. -/
def laneOf (b : List UInt8) (i : Nat) : BitVec 64 :=
  BitVec.ofNat 64 ((List.range 8).foldl (fun n k => n + (b.getD (8*i+k) 0).toNat * 256^k) 0)

/-- Absorb one block of `rate` bytes. -/
def absorb (rate : Nat) (A : State) (blk : List UInt8) : State :=
  keccakF fun x y => if 5*y + x < rate / 8 then A x y ^^^ laneOf blk (5*y + x) else A x y

/-- FIPS 202 section 6.1 and pad10*1, for bytes: suffix 01, then 1 0* 1. -/
def pad (rate : Nat) (msg : List UInt8) : List UInt8 :=
  let q := rate - msg.length % rate
  if q = 1 then msg ++ [0x86] else msg ++ 0x06 :: (List.replicate (q - 2) 0 ++ [0x80])

/-- Consecutive blocks of `rate` bytes. -/
def blocks (rate : Nat) (l : List UInt8) : List (List UInt8) :=
  if h : l.length < rate ∨ rate = 0 then [] else l.take rate :: blocks rate (l.drop rate)
termination_by l.length
decreasing_by simp; omega

/-- The first `len` bytes of the state. -/
def squeeze (len : Nat) (A : State) : List UInt8 :=
  (List.range len).map fun i =>
    UInt8.ofNat ((A (i / 8 % 5) (i / 8 / 5)).toNat / 256^(i % 8))

/-- SHA3 with `d` bytes of digest (`d` = 28, 32, 48, 64): rate 200 - 2d. -/
def sha3 (d : Nat) (msg : List UInt8) : List UInt8 :=
  squeeze d ((blocks (200 - 2*d) (pad (200 - 2*d) msg)).foldl (absorb (200 - 2*d)) (fun _ _ => 0#64))

end Verif.Crypto.Spec.Sha3
