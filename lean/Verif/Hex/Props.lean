import Verif.Hex.Model

namespace Verif.Hex

/-- Specification: `s` is the lower case hexadecimal text of `b`: two digits per byte, the more
significant first, digit values by position in "0123456789abcdef". -/
def digitVal (c : UInt8) : Option Nat :=
  if 48 ≤ c ∧ c ≤ 57 then some (c.toNat - 48)
  else if 97 ≤ c ∧ c ≤ 102 then some (c.toNat - 97 + 10) else none

/-- Reading hexadecimal text back. -/
def readHex : List UInt8 → Option (List UInt8)
  | [] => some []
  | a :: b :: t => do
    let x ← digitVal a
    let y ← digitVal b
    let r ← readHex t
    some (UInt8.ofNat (16 * x + y) :: r)
  | _ => none

theorem hi_lo : ∀ c : Fin 256,
    digitVal (toHexChar (UInt8.ofNat c.val >>> 4)) = some (c.val / 16) ∧
    digitVal (toHexChar (UInt8.ofNat c.val &&& 15)) = some (c.val % 16) := by decide +kernel

/-- **C04** (digest printer).  The printed digest is lower-case hex of the digest bytes: it reads
back to the same bytes and is twice as long. -/
theorem C04_digest_hex_partial (b : List UInt8) :
    readHex (toHexStr b) = some b ∧ (toHexStr b).length = 2 * b.length := by
  induction b with
  | nil => simp [toHexStr, readHex]
  | cons c t ih =>
    have h := hi_lo ⟨c.toNat, c.toNat_lt⟩
    simp only [UInt8.ofNat_toNat] at h
    have hu : toHexStr (c :: t) =
        toHexChar (c >>> 4) :: toHexChar (c &&& 15) :: toHexStr t := by
      simp [toHexStr]
    rw [hu]
    refine ⟨?_, ?_⟩
    · simp only [readHex, h.1, h.2, ih.1, Option.bind_eq_bind, Option.bind_some]
      have : 16 * (c.toNat / 16) + c.toNat % 16 = c.toNat := by omega
      rw [this]; simp
    · simp [ih.2]; omega

/-- The second sentence of C04, as documented for `Util.hexStr(val, decode=false)`: with
`decode=false` it returns the hex text and with `decode=true` it reads it back. -/
def HexStrWorks : Prop :=
  ∀ b : List UInt8, b ≠ [] → hexStr b false = .ok (toHexStr b) ∧ hexStr (toHexStr b) true = .ok b

/-- **C04** is false of the code: `Util.hexStr("AB")` fails. -/
theorem C04_hexStr_refuted : ¬ HexStrWorks := by
  intro h
  have := (h (asc "AB") (by decide)).1
  revert this
  decide

/-- `Util.hexStr(s)` fails for every string of two or more non-NUL characters, valid or not. -/
theorem C04_hexStr_never_decodes (a b : UInt8) (t : List UInt8) (ha : a ≠ 0) (hb : b ≠ 0) :
    hexStr (a :: b :: t) false = .error := by
  have : fromHexStr (a :: b :: t) = .error := by
    unfold fromHexStr
    simp [ha, hb]
  simp [hexStr, this]

/-- `Util.hexStr(s,true)` never returns any text, and for strings of 100 bytes or more it stores
outside its buffer. -/
theorem C04_hexStr_decode_overflows (s : List UInt8) :
    (0 < s.length → s.length < 100 → hexStr s true = .ok []) ∧
    (100 ≤ s.length → hexStr s true = .overflow) := by
  unfold hexStr storage staticSize
  constructor
  · intro h h1
    have h2 : ¬ s.length / 2 + 1 ≥ 200 := by omega
    have h3 : ¬ s.length = 0 := by omega
    simp only [h3, h2, if_false, if_true, Bool.not_true, Bool.false_eq_true]
    rw [if_neg (by omega)]
  · intro h
    have h3 : ¬ s.length = 0 := by omega
    simp only [h3, if_false, if_true, Bool.not_true, Bool.false_eq_true]
    rw [if_pos]
    split <;> omega

example : hexStr (List.replicate 100 65) true = .overflow := (C04_hexStr_decode_overflows _).2 (by simp)
example : toHexStr [0xde, 0xad, 0x0f] = asc "dead0f" := by decide

end Verif.Hex
