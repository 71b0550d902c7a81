import Verif.Basic

/-!
Model of the hexadecimal helpers, src/jsiUtils.c:2504-2545, of `Util.hexStr`
(src/jsiCmds.c:4437-4456) and of the hex printing of digests (src/jsiCrypto.c:844).
-/

namespace Verif.Hex

/-- `isdigit` in the C locale. -/
def isdigit (c : UInt8) : Bool := 48 ≤ c && c ≤ 57

/-- `isxdigit` in the C locale. -/
def isxdigit (c : UInt8) : Bool := isdigit c || (65 ≤ c && c ≤ 70) || (97 ≤ c && c ≤ 102)

/-- `tolower` in the C locale. -/
def tolower (c : UInt8) : UInt8 := if 65 ≤ c && c ≤ 90 then c + 32 else c

/-- src/jsiUtils.c:2505-2507  `jsi_fromHexChar` (result truncated to `char`). -/
def fromHexChar (c : UInt8) : UInt8 := if isdigit c then c - 48 else tolower c - 97 + 10

/-- src/jsiUtils.c:2510-2513  `jsi_toHexChar`: `hex[code & 15]`. -/
def toHexChar (code : UInt8) : UInt8 := (asc "0123456789abcdef").getD (code.toNat &&& 15) 0

/-- src/jsiUtils.c:2515-2524  `jsi_ToHexStr`: the bytes stored in `out`, without the final NUL. -/
def toHexStr (data : List UInt8) : List UInt8 :=
  data.flatMap fun (c : UInt8) => [toHexChar (c >>> 4), toHexChar (c &&& 15)]

/-- Result of a C function that fills a buffer. -/
inductive Res (α : Type) where
  | ok (v : α)
  | error            -- the function reports an error
  | overflow         -- a write outside the destination (undefined behaviour)
  deriving DecidableEq, Repr

/-- src/jsiUtils.c:2526-2535  `jsi_FromHexStr` on the NUL terminated `data`: the test
`!isxdigit(in[0]) || isxdigit(in[0])` is always true, so it returns -1 as soon as two characters are
available. -/
def fromHexStr : List UInt8 → Res (List UInt8)
  | a :: b :: t =>
    if a = 0 ∨ b = 0 then .ok []
    else if !isxdigit a || isxdigit a then .error
    else match fromHexStr t with
      | .ok r => .ok ((fromHexChar a <<< 4 ||| fromHexChar b) :: r)
      | e => e
  | _ => .ok []

/-- `sizeof(dsPtr->Str)`, src/jsi.h:346-348. -/
def staticSize : Nat := 200

/-- src/jsiDString.c:190-217 `Jsi_DSSetLength` on a fresh DString: bytes of storage behind
`Jsi_DSValue` afterwards (the static array, or `length+1` from the heap).  The length of the string
stays 0. (Sizes below JSI_MAX_ALLOC_BUF.) -/
def storage (length : Nat) : Nat := if length ≥ staticSize then length + 1 else staticSize

/-- src/jsiUtils.c:2538-2545  `Jsi_HexStr` followed by `Jsi_ValueFromDS` (src/jsiValue.c:1847-1861)
as in `SysHexStrCmd` (src/jsiCmds.c:4437-4456): the string value returned to the script.
`Jsi_DSSetLength` does not raise `dStr.len`, which stays 0, so the value is the empty string whatever
was stored; `jsi_ToHexStr` stores `2*len+1` bytes. An empty `data` is rejected at 4446. -/
def hexStr (data : List UInt8) (decode : Bool) : Res (List UInt8) :=
  if data.length = 0 then .error
  else
    let olen := if decode then data.length / 2 + 1 else data.length * 2 + 1
    if !decode then
      match fromHexStr data with
      | .ok _ => .ok []
      | .error => .error
      | .overflow => .overflow
    else if 2 * data.length + 1 > storage olen then .overflow
    else .ok []

end Verif.Hex
