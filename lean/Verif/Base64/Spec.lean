/-!
RFC 4648 section 4 base64, written from the RFC: the input is cut in groups of 24 bits read as a
number, each group gives four base-64 digits, a last group of 8 or 16 bits is completed with zero
bits and `=`.
-/

namespace Verif.Base64.Spec

/-- RFC 4648 Table 1. -/
def digit (n : Nat) : UInt8 :=
  UInt8.ofNat <|
    if n < 26 then 65 + n            -- A-Z
    else if n < 52 then 97 + (n - 26) -- a-z
    else if n < 62 then 48 + (n - 52) -- 0-9
    else if n = 62 then 43            -- +
    else 47                           -- /

/-- The `k`-th (from the left) of the four base-64 digits of a 24 bit number. -/
def dig (n k : Nat) : UInt8 := digit (n / 64 ^ (3 - k) % 64)

/-- RFC 4648 base64 text of a byte string. -/
def rfc4648 : List UInt8 → List UInt8
  | [] => []
  | [a] => let n := a.toNat * 65536; [dig n 0, dig n 1, 61, 61]
  | [a, b] => let n := a.toNat * 65536 + b.toNat * 256; [dig n 0, dig n 1, dig n 2, 61]
  | a :: b :: c :: t =>
    let n := a.toNat * 65536 + b.toNat * 256 + c.toNat
    dig n 0 :: dig n 1 :: dig n 2 :: dig n 3 :: rfc4648 t

/-- A newline after every 72nd character. -/
def wrap72 (s : List UInt8) : List UInt8 :=
  if s.length < 72 then s else s.take 72 ++ 10 :: wrap72 (s.drop 72)
termination_by s.length
decreasing_by simp; omega

end Verif.Base64.Spec
