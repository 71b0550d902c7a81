import Verif.Utf8.Model
import Verif.Hex.Model

/-!
Model of JSON output (`jsiValueGetString`, src/jsiUtils.c:670-915, as called by `JSON.stringify`,
src/jsiJSON.c:443-475) and of JSON input (`Jsi_JsonParse`, src/jsmn.c:66-253, and `Jsi_JSONParse`,
src/jsiJSON.c:7-234).

A C string is the list of its bytes without the NUL.  A pointer into it is the rest of the list together with the
number of bytes before it (`pos`).
-/

namespace Verif.Json

open Hex (isxdigit toHexChar fromHexChar)

mutual
/-- The values JSON deals with.  `str o s`: a string, `o` telling whether it is a string object with a stored length
(`JSI_OT_STRING`) or a primitive string (`JSI_VT_STRING`).  `num n`: a number with the integer value `n` (numbers with a
fraction are not modelled).  Not modelled: functions, regular expressions, user objects, properties that are not
enumerable, arrays with holes. -/
inductive JVal
  | undef
  | null
  | bool (b : Bool)
  | num (n : Int)
  | str (o : Bool) (s : List UInt8)
  | arr (l : JArr)
  | obj (l : JObj)
/-- The elements of an array. -/
inductive JArr
  | nil
  | cons (v : JVal) (t : JArr)
/-- The properties of an object in the order in which its tree is walked. -/
inductive JObj
  | nil
  | cons (k : List UInt8) (v : JVal) (t : JObj)
end

mutual
def JVal.decEq : (a b : JVal) → Decidable (a = b)
  | .undef, .undef => isTrue rfl
  | .null, .null => isTrue rfl
  | .bool a, .bool b => if h : a = b then isTrue (by rw [h]) else isFalse (by simp [h])
  | .num a, .num b => if h : a = b then isTrue (by rw [h]) else isFalse (by simp [h])
  | .str o a, .str p b => if h : o = p ∧ a = b then isTrue (by rw [h.1, h.2]) else isFalse (by simpa using h)
  | .arr a, .arr b => match JArr.decEq a b with
    | isTrue h => isTrue (by rw [h])
    | isFalse h => isFalse (by simp [h])
  | .obj a, .obj b => match JObj.decEq a b with
    | isTrue h => isTrue (by rw [h])
    | isFalse h => isFalse (by simp [h])
  | .undef, .null | .undef, .bool _ | .undef, .num _ | .undef, .str _ _ | .undef, .arr _ | .undef, .obj _
  | .null, .undef | .null, .bool _ | .null, .num _ | .null, .str _ _ | .null, .arr _ | .null, .obj _
  | .bool _, .undef | .bool _, .null | .bool _, .num _ | .bool _, .str _ _ | .bool _, .arr _ | .bool _, .obj _
  | .num _, .undef | .num _, .null | .num _, .bool _ | .num _, .str _ _ | .num _, .arr _ | .num _, .obj _
  | .str _ _, .undef | .str _ _, .null | .str _ _, .bool _ | .str _ _, .num _ | .str _ _, .arr _ | .str _ _, .obj _
  | .arr _, .undef | .arr _, .null | .arr _, .bool _ | .arr _, .num _ | .arr _, .str _ _ | .arr _, .obj _
  | .obj _, .undef | .obj _, .null | .obj _, .bool _ | .obj _, .num _ | .obj _, .str _ _ | .obj _, .arr _ =>
    isFalse (by simp)
def JArr.decEq : (a b : JArr) → Decidable (a = b)
  | .nil, .nil => isTrue rfl
  | .cons v t, .cons w u => match JVal.decEq v w, JArr.decEq t u with
    | isTrue h, isTrue g => isTrue (by rw [h, g])
    | isFalse h, _ => isFalse (by simp [h])
    | _, isFalse h => isFalse (by simp [h])
  | .nil, .cons _ _ | .cons _ _, .nil => isFalse (by simp)
def JObj.decEq : (a b : JObj) → Decidable (a = b)
  | .nil, .nil => isTrue rfl
  | .cons k v t, .cons l w u => if hk : k = l then
      match JVal.decEq v w, JObj.decEq t u with
      | isTrue h, isTrue g => isTrue (by rw [hk, h, g])
      | isFalse h, _ => isFalse (by simp [h])
      | _, isFalse h => isFalse (by simp [h])
    else isFalse (by simp [hk])
  | .nil, .cons _ _ _ | .cons _ _ _, .nil => isFalse (by simp)
end

instance : DecidableEq JVal := JVal.decEq

/-! ### Output -/

/-- `isprint` in the C locale (bytes above 127 are negative `char`s and not printable). -/
def isprint (c : UInt8) : Bool := 32 ≤ c && c ≤ 126

/-- The characters that get a short escape, and its letter: src/jsiUtils.c:787-800 (`JSI_OUTPUT_NEWLINES` off, JSON on,
so that the apostrophe is not among them). -/
def shortEsc (c : UInt8) : Option UInt8 :=
  if c = 92 ∨ c = 34 then some c
  else if c = 10 then some 110
  else if c = 13 then some 114
  else if c = 9 then some 116
  else if c = 12 then some 102
  else if c = 8 then some 98
  else none

/-- src/jsiUtf8.c:222-234 `Jsi_UtfEncode` on the code point `n`: the six characters `\uNNNN` (the low 16 bits). -/
def utfEncode (n : Nat) : List UInt8 :=
  [92, 117, toHexChar (UInt8.ofNat ((n &&& 0xF000) >>> 12)), toHexChar (UInt8.ofNat ((n &&& 0xF00) >>> 8)),
    toHexChar (UInt8.ofNat ((n &&& 0xF0) >>> 4)), toHexChar (UInt8.ofNat (n &&& 0x0F))]

/-- Code point and length at the head of a nonempty string. (`utfToUniChar` does not read past the end then:
`C06_decode_safe`.) -/
def uni (s : List UInt8) : Nat × Nat := (Utf8.utfToUniChar s).getD (0, 1)

/-- The loop of src/jsiUtils.c:785-812: what is appended between the quotes. -/
def quoteBody (s : List UInt8) : List UInt8 :=
  match s with
  | [] => []
  | c :: t =>
    match shortEsc c with
    | some e => 92 :: e :: quoteBody t
    | none =>
      if isprint c then c :: quoteBody t
      else utfEncode (uni (c :: t)).1 ++ quoteBody (t.drop ((uni (c :: t)).2 - 1))
termination_by s.length
decreasing_by all_goals simp <;> omega

/-- src/jsiUtils.c:777-815: a string with its quotes. -/
def quote (s : List UInt8) : List UInt8 := 34 :: (quoteBody s ++ [34])

/-- The bytes of a string that are output: `Jsi_Strlen` for primitive strings (777-779), the stored length for string
objects (826-829). -/
def strBytes (o : Bool) (s : List UInt8) : List UInt8 := if o then s else s.takeWhile (· ≠ 0)

/-- `%" PRId64 "` of a non-negative number. -/
def decNat (n : Nat) : List UInt8 := if h : n < 10 then [UInt8.ofNat (48 + n)] else decNat (n / 10) ++ [UInt8.ofNat (48 + n % 10)]

/-- `Jsi_NumberItoA10`, src/jsiNumber.c:46-49. -/
def dec (n : Int) : List UInt8 := if n < 0 then 45 :: decNat n.natAbs else decNat n.natAbs

mutual
/-- src/jsiUtils.c:726-900 `jsiValueGetString`, strict JSON without formatting (`JSON.stringify(v)`); `d` is
`owPtr->depth`, `maxDepth` is `interp->maxDepth`.  `none`: the error "recursive ToString". -/
def str (maxDepth : Nat) (d : Nat) (v : JVal) : Option (List UInt8) :=
  if 0 < maxDepth ∧ maxDepth < d then none
  else match v with
  | .undef => some (asc "undefined")
  | .null => some (asc "null")
  | .bool b => some (if b then asc "true" else asc "false")
  | .num n => some (dec n)
  | .str o s => some (quote (strBytes o s))
  | .arr .nil => some (asc "[]")
  | .arr (.cons v t) => (strArr maxDepth (d + 1) true (.cons v t)).map (fun b => asc "[ " ++ b ++ asc " ]")
  | .obj .nil => some (asc "{}")
  | .obj (.cons k v t) => (strObj maxDepth (d + 1) true (.cons k v t)).map (fun b => asc "{ " ++ b ++ asc " }")
/-- The loop of lines 853-868; `isFirst` is `i = 0`. -/
def strArr (maxDepth : Nat) (d : Nat) (isFirst : Bool) (l : JArr) : Option (List UInt8) :=
  match l with
  | .nil => some []
  | .cons v t => (str maxDepth d v).bind fun a => (strArr maxDepth d false t).map fun b =>
      (if isFirst then [] else asc ", ") ++ a ++ b
/-- `jsi_ObjectGetFmt`, lines 681-704, for each property; `isFirst` is `subcnt = 1`.  The key is output as it is. -/
def strObj (maxDepth : Nat) (d : Nat) (isFirst : Bool) (l : JObj) : Option (List UInt8) :=
  match l with
  | .nil => some []
  | .cons k v t =>
    if v = .undef then strObj maxDepth d false t
    else (str maxDepth d v).bind fun a => (strObj maxDepth d false t).map fun b =>
      (if isFirst then [] else asc ", ") ++ [34] ++ k ++ asc "\":" ++ a ++ b
end

/-- `JSON.stringify(v)`, src/jsiJSON.c:443-475. -/
def stringify (maxDepth : Nat) (v : JVal) : Option (List UInt8) := str maxDepth 0 v

/-! ### The tokeniser -/

inductive Typ
  | prim | object | array | string
  deriving DecidableEq

/-- `Jsi_JsonTok`; `stop = none` is `end == -1`.  (`start` is -1 only before the token is filled.) -/
structure Tok where
  typ : Typ
  start : Nat
  stop : Option Nat
  size : Nat
  deriving DecidableEq

/-- The parser: `tokens[0..toknext)`, `toksuper` (`none`: -1), and the local variables `index` (`none`: -1) and `token`
(`none`: NULL).  `token` is a pointer into `tokens` that is set again after every growth of `tokens` before it is used,
so an index. -/
structure P where
  toks : List Tok
  super : Option Nat
  index : Option Nat
  token : Option Nat

/-- What can go wrong: an error reported by the parser; reading a token that was never written; a number whose text is
not an integer, which is outside the model. -/
inductive Err
  | syntax | uninit | outside
  deriving DecidableEq

/-- src/jsmn.c:72-83: characters that end a primitive. -/
def primEnd (strict : Bool) (c : UInt8) : Bool :=
  (c = 58 && !strict) || c = 9 || c = 13 || c = 10 || c = 32 || c = 44 || c = 93 || c = 125

/-- src/jsmn.c:66-92 the loop of `Jsi_JsonParse_primitive`: the number of characters of the primitive. -/
def scanPrim (strict : Bool) : List UInt8 → Option Nat
  | [] => if strict then none else some 0
  | c :: t =>
    if primEnd strict c then some 0
    else if c < 32 ∨ 127 ≤ c then none
    else (scanPrim strict t).map (· + 1)

/-- `isxdigit` of the next four characters (src/jsmn.c:141-143; the NUL is no hexadecimal digit, so nothing is read
past the end). -/
def hex4 : List UInt8 → Bool
  | a :: b :: c :: d :: _ => isxdigit a && isxdigit b && isxdigit c && isxdigit d
  | _ => false

/-- src/jsmn.c:108-158 `Jsi_JsonParse_string` after the opening quote: the number of characters before the closing
one. -/
def scanStr : List UInt8 → Option Nat
  | [] => none
  | c :: t =>
    if c = 34 then some 0
    else if c = 92 then
      match t with
      | [] => none
      | e :: t =>
        if e = 34 ∨ e = 47 ∨ e = 92 ∨ e = 98 ∨ e = 102 ∨ e = 114 ∨ e = 110 ∨ e = 116 then (scanStr t).map (· + 2)
        else if e = 117 ∧ hex4 t = true then (scanStr t).map (· + 2)
        else none
    else (scanStr t).map (· + 1)

/-- `tokens[i].size++`. -/
def bump (i : Nat) (l : List Tok) : List Tok :=
  l.modify i (fun t => { t with size := t.size + 1 })

/-- The size count of the enclosing token, lines 172-175, 221-224, 247-248. -/
def bumpSuper (p : P) (l : List Tok) : List Tok :=
  match p.super with
  | some i => bump i l
  | none => l

/-- The largest index of a token that is not closed: what the downward loops of lines 201-220 find. -/
def lastOpen : List Tok → Option Nat
  | [] => none
  | t :: l => match lastOpen l with
    | some i => some (i + 1)
    | none => if t.stop = none then some 0 else none

def typAt (p : P) (i : Option Nat) : Option Typ := i.bind fun k => (p.toks[k]?).map (·.typ)

/-- Lines 166-180: `{` and `[`. -/
def openTok (p : P) (typ : Typ) (pos : Nat) : P where
  toks := bumpSuper p p.toks ++ [⟨typ, pos, none, 0⟩]
  super := some p.toks.length
  index := some p.toks.length
  token := some p.toks.length

/-- `token->end = parser->pos + 1`. -/
def setStop (i pos : Nat) (l : List Tok) : List Tok := l.modify i (fun t => { t with stop := some (pos + 1) })

/-- Lines 181-220: `}` and `]`.  After the loops `token` is the new `toksuper`, or the token 0. -/
def closeTok (p : P) (typ : Typ) (pos : Nat) : Option P :=
  match lastOpen p.toks with
  | none => none
  | some i =>
    if typAt p (some i) = some typ then
      some ⟨setStop i pos p.toks, lastOpen (setStop i pos p.toks), p.index,
        some ((lastOpen (setStop i pos p.toks)).getD 0)⟩
    else none

/-- `if (index>=0) token = &parser->tokens[index]`. -/
def retoken (p : P) : Option Nat := if p.index.isSome then p.index else p.token

/-- Lines 221-229: a string was scanned. `q`: `js[0] == '"'`. -/
def addString (q : Bool) (p : P) (pos n : Nat) : P where
  toks := match p.super with
    | some i => bump i (p.toks ++ [⟨.string, pos + 1, some (pos + 1 + n), 0⟩])
    | none => if q then bump 0 (p.toks ++ [⟨.string, pos + 1, some (pos + 1 + n), 0⟩])
      else p.toks ++ [⟨.string, pos + 1, some (pos + 1 + n), 0⟩]
  super := p.super
  index := p.index
  token := retoken p

/-- Lines 243-249: a primitive was scanned. -/
def addPrim (p : P) (pos n : Nat) : P where
  toks := bumpSuper p (p.toks ++ [⟨.prim, pos, some (pos + n), 0⟩])
  super := p.super
  index := p.index
  token := retoken p

/-- Lines 235-239, `,` (and `:` after its own checks): is it accepted? -/
def commaOk (strict : Bool) (p : P) : Bool :=
  !strict || typAt p p.token = some .array || typAt p p.token = some .object

/-- Lines 230-234, `:`. -/
def colonOk (strict : Bool) (p : P) : Bool :=
  p.token.isSome && (!strict || typAt p p.token = some .object || typAt p p.super = some .object)

/-- Lines 242-245: the characters with which a primitive starts in strict mode. -/
def primStart (c : UInt8) : Bool := c = 45 || (48 ≤ c && c ≤ 57) || c = 116 || c = 102 || c = 110

/-- src/jsmn.c:163-262 `Jsi_JsonParse`. -/
def loop (strict q : Bool) (pos : Nat) (p : P) (s : List UInt8) : Option P :=
  match s with
  | [] => if lastOpen p.toks = none then some p else none
  | c :: t =>
    if c = 123 then loop strict q (pos + 1) (openTok p .object pos) t
    else if c = 91 then loop strict q (pos + 1) (openTok p .array pos) t
    else if c = 125 then
      match closeTok p .object pos with
      | none => none
      | some p => loop strict q (pos + 1) p t
    else if c = 93 then
      match closeTok p .array pos with
      | none => none
      | some p => loop strict q (pos + 1) p t
    else if c = 34 then
      match scanStr t with
      | none => none
      | some n => loop strict q (pos + n + 2) (addString q p pos n) (t.drop (n + 1))
    else if c = 58 then
      if colonOk strict p && commaOk strict p then loop strict q (pos + 1) p t else none
    else if c = 44 then
      if commaOk strict p then loop strict q (pos + 1) p t else none
    else if c = 9 ∨ c = 13 ∨ c = 10 ∨ c = 32 then loop strict q (pos + 1) p t
    else if strict = true ∧ primStart c = false then none
    else
      match scanPrim strict (c :: t) with
      | none => none
      | some n => loop strict q (pos + n) (addPrim p pos n) (t.drop (n - 1))
termination_by s.length
decreasing_by all_goals simp <;> omega

/-- `Jsi_JsonInit`, src/jsmn.c:268-279. -/
def init : P := ⟨[], none, none, none⟩

/-! ### From tokens to values -/

/-- src/jsiUtf8.c:237-266 `Jsi_UtfDecode` on four hexadecimal digits: the bytes stored. -/
def utfDecode (a b c d : UInt8) : List UInt8 :=
  let uc := (fromHexChar a).toNat * 4096 + (fromHexChar b).toNat * 256 + (fromHexChar c).toNat * 16 + (fromHexChar d).toNat
  if uc < 0x80 then [UInt8.ofNat uc]
  else if uc < 0x800 then [UInt8.ofNat (0xc0 ||| (uc >>> 6)), UInt8.ofNat (0x80 ||| (uc &&& 0x3f))]
  else [UInt8.ofNat (0xe0 ||| (uc >>> 12)), UInt8.ofNat (0x80 ||| ((uc >>> 6) &&& 0x3f)), UInt8.ofNat (0x80 ||| (uc &&& 0x3f))]

/-- The letter of a short escape, src/jsiJSON.c:16-22. -/
def unEsc (e : UInt8) : List UInt8 :=
  if e = 98 then [8] else if e = 110 then [10] else if e = 114 then [13] else if e = 102 then [12]
  else if e = 116 then [9] else if e = 34 then [34] else if e = 92 then [92] else []

/-- src/jsiJSON.c:7-46 `jsonNewDString` on the characters of a string token.  Escapes without a case (`\/`) yield
nothing.  (The tokeniser lets no backslash end a token; `Jsi_UtfDecode` gets four characters of the token.) -/
def unquote (s : List UInt8) : List UInt8 :=
  match s with
  | [] => []
  | c :: t =>
    if c = 92 then
      match t with
      | [] => []
      | e :: t =>
        if e = 117 then
          match t with
          | a :: b :: c :: d :: t' =>
            if isxdigit a && isxdigit b && isxdigit c && isxdigit d then utfDecode a b c d ++ unquote t'
            else 92 :: 117 :: unquote (a :: b :: c :: d :: t')
          | t' => 92 :: 117 :: unquote t'
        else unEsc e ++ unquote t
    else c :: unquote t
termination_by s.length
decreasing_by all_goals simp <;> omega

def isdig (c : UInt8) : Bool := 48 ≤ c && c ≤ 57

/-- Characters after which `strtod` would go on reading a number: `.`, `e`, `E`, `x`, `X`. -/
def numMore (c : UInt8) : Bool := c = 46 || c = 101 || c = 69 || c = 120 || c = 88

def digVal (p : List UInt8) : Nat := p.foldl (fun n c => 10 * n + (c.toNat - 48)) 0

/-- `strtod` on the text of an integer: the number and what follows it.  `none`: not an integer, outside the model. -/
def strtod (s : List UInt8) : Option (Int × List UInt8) :=
  let neg := s.head? = some 45
  let b := if neg then s.tail else s
  let ds := b.takeWhile isdig
  let r := b.dropWhile isdig
  if ds = [] ∨ (r.head?.map numMore).getD false = true then none
  else some (if neg then -(digVal ds : Int) else digVal ds, r)

/-- The text of a token, `Jsi_JsonGetTokstr`, src/jsmn.c:315-324. -/
def tokText (js : List UInt8) (t : Tok) : List UInt8 := (js.drop t.start).take (t.stop.getD 0 - t.start)

/-- `Jsi_ObjInsert` into the tree of an object: an existing key gets the new value.  (The place of a new key in the
tree depends on the address of the interned key; here it goes to the end.) -/
def JObj.insert (k : List UInt8) (v : JVal) : JObj → JObj
  | .nil => .cons k v .nil
  | .cons k' v' t => if k' = k then .cons k v t else .cons k' v' (insert k v t)

/-- A primitive token, src/jsiJSON.c:70-91. -/
def primVal (js : List UInt8) (t : Tok) : Except Err JVal :=
  if tokText js t = asc "null" then .ok .null
  else if tokText js t = asc "true" then .ok (.bool true)
  else if tokText js t = asc "false" then .ok (.bool false)
  else if tokText js t = asc "undefined" then .ok .null
  else match strtod (js.drop t.start) with
    | some (n, _) => .ok (.num n)
    | none => .error .outside

mutual
/-- src/jsiJSON.c:61-116 `jsonGen1Value` at the token `i`: the value and `*endPos`.

`interp->maxArrayList` bounds arrays: the largest number of elements for which `Jsi_ObjArraySizer`
(src/jsiObj.c:449-468) makes room is the parameter `cap`.  The fuel bounds the recursion; `uninit` also stands for
running out of it. -/
def gen1 (js : List UInt8) (toks : List Tok) (cap : Nat) : Nat → Nat → Except Err (JVal × Nat)
  | 0, _ => .error .uninit
  | fuel + 1, i =>
    match toks[i]? with
    | none => .error .uninit
    | some t =>
      match t.typ with
      | .prim => (primVal js t).map (fun v => (v, i))
      | .string => .ok (.str true (unquote (tokText js t)), i)
      | .array => (genArr js toks cap fuel t.size (i + 1) 0).map (fun r => (.arr r.1, r.2 - 1))
      | .object => (genObj js toks cap fuel t.size (i + 1) 0 .nil).map (fun r => (.obj r.1, r.2 - 1))
/-- src/jsiJSON.c:147-174 the loop of `jsonGenArray`. -/
def genArr (js : List UInt8) (toks : List Tok) (cap : Nat) : Nat → Nat → Nat → Nat → Except Err (JArr × Nat)
  | 0, _, _, _ => .error .uninit
  | fuel + 1, size, i, n =>
    if i < toks.length ∧ n < size then
      if cap ≤ n then .ok (.nil, i)
      else match gen1 js toks cap fuel i with
        | .error e => .error e
        | .ok r => (genArr js toks cap fuel size (r.2 + 1) (n + 1)).map (fun q => (.cons r.1 q.1, q.2))
    else .ok (.nil, i)
/-- src/jsiJSON.c:118-145 the loop of `jsonGenObject`. -/
def genObj (js : List UInt8) (toks : List Tok) (cap : Nat) : Nat → Nat → Nat → Nat → JObj → Except Err (JObj × Nat)
  | 0, _, _, _, _ => .error .uninit
  | fuel + 1, size, i, n, o =>
    match toks[i]? with
    | none => .ok (o, i)
    | some t =>
      if n < size then
        if size ≤ n + 1 then genObj js toks cap fuel size (i + 2) (n + 2) (o.insert (tokText js t) .undef)
        else match gen1 js toks cap fuel (i + 1) with
          | .error e => .error e
          | .ok r => genObj js toks cap fuel size (r.2 + 1) (n + 2) (o.insert (tokText js t) r.1)
      else .ok (o, i)
end

/-- `isspace` in the C locale. -/
def isspace (c : UInt8) : Bool := c = 32 || (9 ≤ c && c ≤ 13)

/-- `Jsi_GetDouble`, src/jsiUtils.c:2478-2488 and 2346-2361: `.ok none` if it is not a number. -/
def getDouble (s : List UInt8) : Except Err (Option Int) :=
  match strtod s with
  | none => .error .outside
  | some (n, r) => .ok (if r.all isspace then some n else none)

/-- src/jsiJSON.c:193-234, the part of `Jsi_JSONParse` after the special cases. -/
def parseTokens (strict : Bool) (cap : Nat) (js : List UInt8) : Except Err JVal :=
  match loop strict (js.head? = some 34) 0 init js with
  | none => .error .syntax
  | some p =>
    match p.toks[0]? with
    | none => .error .uninit
    | some t =>
      if t.size = 0 then
        .ok (match t.typ with
          | .object => .obj .nil
          | .array => .arr .nil
          | _ => .undef)
      else (gen1 js p.toks cap (3 * p.toks.length + 3) 0).map (·.1)

/-- src/jsiJSON.c:176-234 `Jsi_JSONParse`; `JSON.parse(js)` is `parse true`.  Empty text leaves the result
undefined. -/
def parse (strict : Bool) (cap : Nat) (text : List UInt8) : Except Err JVal :=
  let js := text.dropWhile isspace
  match js with
  | [] => .ok .undef
  | c :: _ =>
    if js = asc "true" then .ok (.bool true)
    else if js = asc "false" then .ok (.bool false)
    else if js = asc "null" then .ok .null
    else if isdig c ∨ c = 45 then
      match getDouble js with
      | .ok (some n) => .ok (.num n)
      | .ok none => parseTokens strict cap js
      | .error e => .error e
    else parseTokens strict cap js

/-- `JSON.check(js)`, src/jsiJSON.c:379-399. -/
def check (strict : Bool) (js : List UInt8) : Bool := (loop strict (js.head? = some 34) 0 init js).isSome

end Verif.Json
