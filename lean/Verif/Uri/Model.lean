import Verif.Hex.Model

/-!
Model of `encodeURI`, `decodeURI`, `encodeURIComponent`, `decodeURIComponent`:
`url_encode` / `url_decode`, src/jsiCmds.c:1176-1220, commands at 1223-1258.

A string is its bytes up to the NUL.  `isalnum` is the C locale's (bytes >= 128 are not alnum).
-/

namespace Verif.Uri
open Verif.Hex (isdigit toHexChar fromHexChar)

/-- `isalnum` in the C locale. -/
def isalnum (c : UInt8) : Bool := isdigit c || (65 ≤ c && c ≤ 90) || (97 ≤ c && c ≤ 122)

/-- src/jsiCmds.c:1179 `ncomps`. -/
def ncomps : List UInt8 := asc "-_.!~*'()"
/-- src/jsiCmds.c:1179,1198 `comps`. -/
def comps : List UInt8 := asc ";,/?:@&=+$#"

/-- `Jsi_Strchr(s,c)` as a test: `strchr` also finds the terminating NUL. -/
def strchr (s : List UInt8) (c : UInt8) : Bool := s.contains c || c == 0

/-- src/jsiCmds.c:1183-1188: the bytes written for one character. -/
def enc1 (comp : Bool) (c : UInt8) : List UInt8 :=
  if isalnum c || (!strchr ncomps c && (!comp || !strchr comps c)) then [c]
  else if c = 32 then [43]
  else [37, toHexChar (c >>> 4), toHexChar (c &&& 15)]

/-- src/jsiCmds.c:1178-1193 `url_encode`. -/
def encode (comp : Bool) (s : List UInt8) : List UInt8 :=
  (s.takeWhile (· ≠ 0)).flatMap (enc1 comp)

/-- src/jsiCmds.c:1200-1217: the loop of `url_decode`, on a string without NUL. -/
def decLoop (comp : Bool) : List UInt8 → List UInt8
  | [] => []
  | 37 :: a :: b :: t =>
    let cc := fromHexChar a <<< 4 ||| fromHexChar b
    if !comp && strchr comps cc then 37 :: decLoop comp (a :: b :: t)
    else cc :: decLoop comp t
  | c :: t =>
    if c = 37 then decLoop comp t       -- '%' with fewer than two characters left: dropped
    else if c = 43 then 32 :: decLoop comp t
    else c :: decLoop comp t

/-- src/jsiCmds.c:1197-1220 `url_decode`; the returned length is the number of bytes stored. -/
def decode (comp : Bool) (s : List UInt8) : List UInt8 := decLoop comp (s.takeWhile (· ≠ 0))

end Verif.Uri
