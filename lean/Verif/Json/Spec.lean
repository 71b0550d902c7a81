import Verif.Json.Model

/-!
JSON texts, after RFC 8259, as concrete syntax trees: `text` is what is written, `val` what it means.  Numbers with a
fraction or an exponent are left out (the model has integers only).  If a key is repeated the last value counts, as in
ECMAScript.
-/

namespace Verif.Json

/-- Space, tab, line feed, carriage return. -/
def Ws (l : List UInt8) : Prop := ∀ c ∈ l, c = 32 ∨ c = 9 ∨ c = 10 ∨ c = 13

/-- Value of a hexadecimal digit. -/
def hexVal (c : UInt8) : Nat :=
  if 48 ≤ c ∧ c ≤ 57 then c.toNat - 48 else if 65 ≤ c ∧ c ≤ 70 then c.toNat - 55 else c.toNat - 87

def IsHex (c : UInt8) : Prop := (48 ≤ c ∧ c ≤ 57) ∨ (65 ≤ c ∧ c ≤ 70) ∨ (97 ≤ c ∧ c ≤ 102)

def hexVal4 (a b c d : UInt8) : Nat := hexVal a * 4096 + hexVal b * 256 + hexVal c * 16 + hexVal d

/-- One element of a string literal. -/
inductive Piece
  /-- a character written as itself -/
  | raw (c : Char)
  /-- a backslash and one of `" \ / b f n r t` -/
  | esc (e : UInt8)
  /-- `\uXXXX` -/
  | uni (a b c d : UInt8)
  /-- a surrogate pair `\uD8xx\uDCxx` -/
  | pair (a b c d e f g h : UInt8)

/-- The characters that may follow a backslash, and what they mean. -/
def escVal (e : UInt8) : Option UInt8 :=
  if e = 34 then some 34 else if e = 92 then some 92 else if e = 47 then some 47 else if e = 98 then some 8
  else if e = 102 then some 12 else if e = 110 then some 10 else if e = 114 then some 13 else if e = 116 then some 9
  else none

/-- Which elements are allowed. `full = false` leaves out `\/` and surrogate pairs. -/
def Piece.Ok (full : Bool) : Piece → Prop
  | .raw c => 32 ≤ c.toNat ∧ c.toNat ≠ 34 ∧ c.toNat ≠ 92
  | .esc e => (escVal e).isSome ∧ (full = false → e ≠ 47)
  | .uni a b c d => IsHex a ∧ IsHex b ∧ IsHex c ∧ IsHex d ∧ (hexVal4 a b c d < 0xD800 ∨ 0xE000 ≤ hexVal4 a b c d)
  | .pair a b c d e f g h => full = true ∧ IsHex a ∧ IsHex b ∧ IsHex c ∧ IsHex d ∧ IsHex e ∧ IsHex f ∧ IsHex g ∧ IsHex h ∧
      0xD800 ≤ hexVal4 a b c d ∧ hexVal4 a b c d < 0xDC00 ∧ 0xDC00 ≤ hexVal4 e f g h ∧ hexVal4 e f g h < 0xE000

def Piece.text : Piece → List UInt8
  | .raw c => String.utf8EncodeChar c
  | .esc e => [92, e]
  | .uni a b c d => [92, 117, a, b, c, d]
  | .pair a b c d e f g h => [92, 117, a, b, c, d, 92, 117, e, f, g, h]

/-- The bytes (UTF-8) an element stands for. -/
def Piece.val : Piece → List UInt8
  | .raw c => String.utf8EncodeChar c
  | .esc e => [(escVal e).getD 0]
  | .uni a b c d => String.utf8EncodeChar (Char.ofNat (hexVal4 a b c d))
  | .pair a b c d e f g h => String.utf8EncodeChar
      (Char.ofNat (0x10000 + (hexVal4 a b c d - 0xD800) * 0x400 + (hexVal4 e f g h - 0xDC00)))

def ptext (l : List Piece) : List UInt8 := l.flatMap Piece.text
def pval (l : List Piece) : List UInt8 := l.flatMap Piece.val

mutual
inductive Doc
  | null | true | false
  | num (n : Int)
  | str (s : List Piece)
  /-- `[ ws ]` -/
  | arr0 (w : List UInt8)
  | arr (e : Els)
  /-- `{ ws }` -/
  | obj0 (w : List UInt8)
  | obj (m : Mems)
/-- One or more array elements with the space around them. -/
inductive Els
  | one (w1 : List UInt8) (d : Doc) (w2 : List UInt8)
  | cons (w1 : List UInt8) (d : Doc) (w2 : List UInt8) (t : Els)
/-- One or more members, each: space, key, space, colon, space, value, space. -/
inductive Mems
  | one (w1 : List UInt8) (k : List Piece) (w2 w3 : List UInt8) (d : Doc) (w4 : List UInt8)
  | cons (w1 : List UInt8) (k : List Piece) (w2 w3 : List UInt8) (d : Doc) (w4 : List UInt8) (t : Mems)
end

def memHead (w1 : List UInt8) (k : List Piece) (w2 w3 : List UInt8) : List UInt8 :=
  w1 ++ ([34] ++ ptext k ++ [34]) ++ w2 ++ [58] ++ w3

mutual
def Doc.text : Doc → List UInt8
  | .null => asc "null"
  | .true => asc "true"
  | .false => asc "false"
  | .num n => dec n
  | .str s => [34] ++ ptext s ++ [34]
  | .arr0 w => [91] ++ w ++ [93]
  | .arr e => [91] ++ e.text ++ [93]
  | .obj0 w => [123] ++ w ++ [125]
  | .obj m => [123] ++ m.text ++ [125]
def Els.text : Els → List UInt8
  | .one w1 d w2 => w1 ++ d.text ++ w2
  | .cons w1 d w2 t => w1 ++ d.text ++ w2 ++ [44] ++ t.text
def Mems.text : Mems → List UInt8
  | .one w1 k w2 w3 d w4 => memHead w1 k w2 w3 ++ d.text ++ w4
  | .cons w1 k w2 w3 d w4 t => memHead w1 k w2 w3 ++ d.text ++ w4 ++ [44] ++ t.text
end

/-- Keys: with `full = false` no escape sequences. -/
def KeyOk (full : Bool) (k : List Piece) : Prop :=
  (∀ p ∈ k, p.Ok full) ∧ (full = false → ∀ p ∈ k, ∃ c, p = .raw c)

mutual
def Doc.Ok (full : Bool) : Doc → Prop
  | .null => True
  | .true => True
  | .false => True
  | .num _ => True
  | .str s => ∀ p ∈ s, p.Ok full
  | .arr0 w => Ws w
  | .arr e => e.Ok full
  | .obj0 w => Ws w
  | .obj m => m.Ok full
def Els.Ok (full : Bool) : Els → Prop
  | .one w1 d w2 => Ws w1 ∧ d.Ok full ∧ Ws w2
  | .cons w1 d w2 t => Ws w1 ∧ d.Ok full ∧ Ws w2 ∧ t.Ok full
def Mems.Ok (full : Bool) : Mems → Prop
  | .one w1 k w2 w3 d w4 => Ws w1 ∧ KeyOk full k ∧ Ws w2 ∧ Ws w3 ∧ d.Ok full ∧ Ws w4
  | .cons w1 k w2 w3 d w4 t => Ws w1 ∧ KeyOk full k ∧ Ws w2 ∧ Ws w3 ∧ d.Ok full ∧ Ws w4 ∧ t.Ok full
end

mutual
/-- What a text means (strings as string objects, which is what `JSON.parse` makes). -/
def Doc.val : Doc → JVal
  | .null => .null
  | .true => .bool Bool.true
  | .false => .bool Bool.false
  | .num n => .num n
  | .str s => .str Bool.true (pval s)
  | .arr0 _ => .arr .nil
  | .arr e => .arr e.val
  | .obj0 _ => .obj .nil
  | .obj m => .obj (m.val .nil)
def Els.val : Els → JArr
  | .one _ d _ => .cons d.val .nil
  | .cons _ d _ t => .cons d.val t.val
def Mems.val (o : JObj) : Mems → JObj
  | .one _ k _ _ d _ => o.insert (pval k) d.val
  | .cons _ k _ _ d _ t => t.val (o.insert (pval k) d.val)
end

mutual
/-- The longest array in a text. -/
def Doc.width : Doc → Nat
  | .arr e => e.width 0
  | .obj m => m.width
  | _ => 0
def Els.width (n : Nat) : Els → Nat
  | .one _ d _ => max (n + 1) d.width
  | .cons _ d _ t => max d.width (t.width (n + 1))
def Mems.width : Mems → Nat
  | .one _ _ _ _ d _ => d.width
  | .cons _ _ _ _ d _ t => max d.width t.width
end

/-! ### Values that survive -/

/-- The UTF-8 encoding of a text. -/
def utf8 (cs : List Char) : List UInt8 := cs.flatMap String.utf8EncodeChar

/-- Strings: UTF-8 texts without characters beyond U+FFFF; a primitive string also without NUL (it ends there). -/
def StrGood (o : Bool) (s : List UInt8) : Prop :=
  ∃ cs : List Char, s = utf8 cs ∧ (∀ c ∈ cs, c.toNat < 0x10000) ∧ (o = false → ∀ c ∈ cs, c.toNat ≠ 0)

/-- Keys: UTF-8 texts without control characters, quotes and backslashes. -/
def KeyGood (k : List UInt8) : Prop :=
  ∃ cs : List Char, k = utf8 cs ∧ ∀ c ∈ cs, 32 ≤ c.toNat ∧ c.toNat ≠ 34 ∧ c.toNat ≠ 92

def JObj.keys : JObj → List (List UInt8)
  | .nil => []
  | .cons k _ t => k :: t.keys

mutual
/-- Values without `undefined`, with strings and keys as above, and no key twice in an object. -/
def JVal.Good : JVal → Prop
  | .undef => False
  | .null => True
  | .bool _ => True
  | .num _ => True
  | .str o s => StrGood o s
  | .arr l => l.Good
  | .obj l => l.Good
def JArr.Good : JArr → Prop
  | .nil => True
  | .cons v t => v.Good ∧ t.Good
def JObj.Good : JObj → Prop
  | .nil => True
  | .cons k v t => KeyGood k ∧ v.Good ∧ k ∉ t.keys ∧ t.Good
end

mutual
/-- Nesting: how many nonempty arrays and objects enclose the innermost value. -/
def JVal.depth : JVal → Nat
  | .arr .nil => 0
  | .obj .nil => 0
  | .arr (.cons v t) => (JArr.cons v t).depth + 1
  | .obj (.cons k v t) => (JObj.cons k v t).depth + 1
  | _ => 0
def JArr.depth : JArr → Nat
  | .nil => 0
  | .cons v t => max v.depth t.depth
def JObj.depth : JObj → Nat
  | .nil => 0
  | .cons _ v t => max v.depth t.depth
end

def JArr.length : JArr → Nat
  | .nil => 0
  | .cons _ t => t.length + 1

mutual
/-- No array is longer than `cap`. -/
def JVal.Fits (cap : Nat) : JVal → Prop
  | .arr l => l.length ≤ cap ∧ l.Fits cap
  | .obj l => l.Fits cap
  | _ => True
def JArr.Fits (cap : Nat) : JArr → Prop
  | .nil => True
  | .cons v t => v.Fits cap ∧ t.Fits cap
def JObj.Fits (cap : Nat) : JObj → Prop
  | .nil => True
  | .cons _ v t => v.Fits cap ∧ t.Fits cap
end

mutual
/-- The same value with string objects instead of primitive strings. -/
def JVal.boxed : JVal → JVal
  | .str _ s => .str Bool.true s
  | .arr l => .arr l.boxed
  | .obj l => .obj l.boxed
  | .undef => .undef
  | .null => .null
  | .bool b => .bool b
  | .num n => .num n
def JArr.boxed : JArr → JArr
  | .nil => .nil
  | .cons v t => .cons v.boxed t.boxed
def JObj.boxed : JObj → JObj
  | .nil => .nil
  | .cons k v t => .cons k v.boxed t.boxed
end

end Verif.Json
