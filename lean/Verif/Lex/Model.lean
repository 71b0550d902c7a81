import Verif.Json.Model
/-!
Model of the lexer, src/jsiLexer.c, reading from a string (`LT_STRING`): `jsi_evalStrFile` (src/jsiEval.c:2468-2660)
puts a script file into a string before it is parsed, so that this is the only way scripts are read.

The text is the list of its bytes up to the NUL.  `char` is signed: bytes from 128 on are negative `int`s, 255 is EOF (-1); a byte is
kept as it is here, and `code` gives the number the parser sees.  `isdigit`, `isalpha`, ... are those of the C locale.

Not modelled: column numbers, messages, `Jsi_KeyAdd` and the tables of strings; `Jsi_RegExpNew` is taken to accept every regular
expression; the value of a number that is read with `strtod` is left as its text, and `strtod`'s verdict whether it uses
all of the text is a parameter.
-/
namespace Verif.Lex

/-- `jsi_Lexer`, src/jsiInt.h:804-817: `d.str` up to `cur` (last first), the rest, `unch` (last pushed first), `cur_line`, `inStr`.
`oob`: something outside an array was used. -/
structure L where
  before : List UInt8
  rest : List UInt8
  unch : List UInt8
  line : Int
  inStr : Bool
  oob : Bool
deriving DecidableEq, Repr

/-- src/jsiPstate.c:190-191, 194-211, 233-243. -/
def init (text : List UInt8) : L := ⟨[], text, [], 1, false, false⟩

/-- src/jsiLexer.c:15-20: one character, 0 at the end. -/
def take (l : L) : UInt8 × L :=
  match l.unch with
  | c :: u => (c, ⟨l.before, l.rest, u, l.line, l.inStr, l.oob⟩)
  | [] =>
    match l.rest with
    | [] => (0, l)
    | c :: r => (c, ⟨c :: l.before, r, [], l.line, l.inStr, l.oob⟩)

/-- src/jsiLexer.c:30-34. -/
def count (c : UInt8) (l : L) : L := if c = 10 then ⟨l.before, l.rest, l.unch, l.line + 1, l.inStr, l.oob⟩ else l

/-- The array index below 0 at src/jsiLexer.c:23. -/
def fault (l : L) : L := ⟨l.before, l.rest, l.unch, l.line, l.inStr, true⟩

/-- src/jsiLexer.c:23: `unch[ungot-1]`, or the byte before `cur`. -/
def peekBack (l : L) : Option UInt8 :=
  match l.unch with
  | u :: _ => some u
  | [] => l.before.head?

/-- src/jsiLexer.c:7-38 `lexer_getchar`; the number bounds the recursion (line 25). -/
def getcharF : Nat → L → UInt8 × L
  | 0, l => ((take l).1, count (take l).1 (take l).2)
  | n + 1, l =>
    let t := take l
    if t.2.inStr = true ∧ t.1 = 92 then
      match peekBack t.2 with
      | none => (t.1, count t.1 (fault t.2))
      | some nc => if nc = 10 then getcharF n t.2 else (t.1, count t.1 t.2)
    else (t.1, count t.1 t.2)

/-- `lexer_getchar`: a backslash that is skipped comes from `unch` (`C66_getchar_fuel`). -/
def getchar (l : L) : UInt8 × L := getcharF (l.unch.length + 1) l

/-- src/jsiLexer.c:45-47. -/
def uncount (c : UInt8) (l : L) : L := if c = 10 then ⟨l.before, l.rest, l.unch, l.line - 1, l.inStr, l.oob⟩ else l

/-- src/jsiLexer.c:50-57; `sizeof(lex->unch)` is 400, `ungot` is below 98, see `Verif.Lex.Safe`. -/
def pushback (c : UInt8) (l : L) : L :=
  match l.unch, l.before with
  | [], b :: p => if c = b then ⟨p, c :: l.rest, [], l.line, l.inStr, l.oob⟩ else ⟨b :: p, l.rest, [c], l.line, l.inStr, l.oob⟩
  | u, p => if u.length + 2 < 400 then ⟨p, l.rest, c :: u, l.line, l.inStr, l.oob || decide (100 ≤ u.length)⟩ else l

/-- src/jsiLexer.c:40-60 `lexer_ungetc`. -/
def ungetc (c : UInt8) (l : L) : L := if c = 0 then l else pushback c (uncount c l)

/-- `lex->inStr = ...` -/
def setInStr (b : Bool) (l : L) : L := ⟨l.before, l.rest, l.unch, l.line, b, l.oob⟩

/-- A bound on the number of characters that can still be read. -/
def size (l : L) : Nat := l.unch.length + l.rest.length

/-! ### Characters -/

def isdigit (c : UInt8) : Bool := 48 ≤ c && c ≤ 57
def isupper (c : UInt8) : Bool := 65 ≤ c && c ≤ 90
def islower (c : UInt8) : Bool := 97 ≤ c && c ≤ 122
def isalpha (c : UInt8) : Bool := isupper c || islower c
def isalnum (c : UInt8) : Bool := isalpha c || isdigit c
def isxdigit (c : UInt8) : Bool := isdigit c || (65 ≤ c && c ≤ 70) || (97 ≤ c && c ≤ 102)
/-- src/jsiUtils.c:2505-2507 `jsi_fromHexChar`. -/
def hexVal (c : UInt8) : Nat := if isdigit c then c.toNat - 48 else if isupper c then c.toNat + 32 - 97 + 10 else c.toNat - 97 + 10

/-! ### Tokens -/

/-- The value of a number token. -/
inductive NumVal where
  /-- src/jsiLexer.c:462-465: `strtoll` -/
  | int (n : Nat)
  /-- src/jsiLexer.c:467: `strtod` of this text -/
  | real (word : List UInt8)
deriving DecidableEq, Repr

/-- What `jsi_yylex` returns. -/
inductive Tok where
  /-- 0 at the end of the text -/
  | eof
  /-- 0 or -1 after a message -/
  | error
  /-- COMMENT -/
  | comment
  | num (v : NumVal)
  | str (s : List UInt8)
  | kw (name : List UInt8)
  | ident (name : List UInt8)
  | regex (text : List UInt8)
  /-- an operator of two or more characters -/
  | op (name : List UInt8)
  /-- a single character -/
  | char (c : UInt8)
deriving DecidableEq, Repr

/-- src/jsiLexer.c:62-113: the keywords; `...` is left out, a word never is `...`. -/
def keywords : List (List UInt8) :=
  [asc "if", asc "else", asc "for", asc "in", asc "while", asc "do", asc "continue", asc "switch", asc "case", asc "default",
   asc "break", asc "function", asc "return", asc "var", asc "let", asc "const", asc "of", asc "new", asc "delete", asc "try",
   asc "catch", asc "throw", asc "finally", asc "with", asc "undefined", asc "true", asc "false", asc "this", asc "arguments",
   asc "void", asc "typeof", asc "instanceof", asc "string", asc "number", asc "regexp", asc "any", asc "userobj", asc "iterobj",
   asc "object", asc "boolean", asc "array", asc "null", asc "export", asc "set", asc "get", asc "debugger"]

/-- src/jsiLexer.c:334-359. -/
def signs : List (List UInt8) :=
  [asc ">>>=", asc "<<=", asc ">>=", asc "===", asc "!==", asc ">>>", asc "==", asc "!=", asc "<=", asc ">=", asc "++", asc "--",
   asc "&&", asc "||", asc "+=", asc "-=", asc "*=", asc "/=", asc "%=", asc "&=", asc "|=", asc "^=", asc "<<", asc ">>", asc "=>"]

/-- src/jsiLexer.c:366-370: up to `n` characters; a newline ends them and is lost. -/
def readSign : Nat → L → List UInt8 × L
  | 0, l => ([], l)
  | n + 1, l =>
    let g := getchar l
    if g.1 = 0 ∨ g.1 = 10 then ([], g.2)
    else
      let r := readSign n g.2
      (g.1 :: r.1, r.2)

/-- src/jsiLexer.c:377-378, 384-385: the last character is pushed back first. -/
def ungetAll : List UInt8 → L → L
  | [], l => l
  | c :: b, l => ungetc c (ungetAll b l)

/-- src/jsiLexer.c:326-388 `jsi_do_sign`. -/
def doSign (l : L) : Tok × L :=
  let r := readSign 4 l
  match r.1 with
  | [] => (.eof, r.2)
  | c :: b =>
    match signs.find? (·.isPrefixOf r.1) with
    | some s => (.op s, ungetAll (r.1.drop s.length) r.2)
    | none => (.char c, ungetAll b r.2)

/-- src/jsiUtf8.c:237-263 `Jsi_UtfDecode`; `[]` stands for the result -1. -/
def utfDecode (h : List UInt8) : List UInt8 :=
  match h with
  | [a, b, c, d] => if h.all isxdigit then Verif.Json.utfDecode a b c d else []
  | _ => []

/-- src/jsiLexer.c:203-204: the next characters. -/
def getN : Nat → L → List UInt8 × L
  | 0, l => ([], l)
  | n + 1, l =>
    let g := getchar l
    let r := getN n g.2
    (g.1 :: r.1, r.2)

/-- src/jsiLexer.c:176-185: the buffer is made larger in time (`bsiz`). -/
def grow (bufi bsiz : Nat) : Nat := if bsiz ≤ bufi + 5 then bsiz + 8192 else bsiz

/-- `k` bytes are written at `bufi`. -/
def checkBuf (bufi k bsiz : Nat) (l : L) : L := if bufi + k ≤ bsiz then l else fault l

/-- src/jsiLexer.c:193-199, 222-232: what an escape other than `\u` stands for. -/
def escape (n : UInt8) : UInt8 :=
  if n = 98 then 8 else if n = 102 then 12 else if n = 110 then 10 else if n = 114 then 13 else if n = 116 then 9
  else if n = 48 then 0 else n

/-- src/jsiLexer.c:175-243, the loop of `jsi_do_string`; `buf` are the bytes up to `bufi`.  No result: an error (0). -/
def strLoop (endchar : UInt8) : Nat → List UInt8 → Nat → L → Option (List UInt8) × L
  | 0, _, _, l => (none, l)
  | fuel + 1, buf, bsiz0, l =>
    let bsiz := grow buf.length bsiz0
    let g := getchar l
    if g.1 = 0 ∨ g.1 = 255 then (none, checkBuf buf.length 1 bsiz g.2)
    else if g.1 = 92 then
      let n := getchar g.2
      if n.1 = 117 then
        let r := getN 4 n.2
        let u := utfDecode r.1
        if u = [] then (none, checkBuf buf.length 1 bsiz r.2)
        else strLoop endchar fuel (buf ++ u) bsiz (checkBuf buf.length u.length bsiz r.2)
      else if n.1 = 0 ∨ n.1 = 255 then (none, checkBuf buf.length 1 bsiz n.2)
      else strLoop endchar fuel (buf ++ [escape n.1]) bsiz (checkBuf buf.length 1 bsiz n.2)
    else if g.1 = endchar then (some buf, checkBuf buf.length 1 bsiz g.2)
    else strLoop endchar fuel (buf ++ [g.1]) bsiz (checkBuf buf.length 1 bsiz g.2)

/-- src/jsiLexer.c:161-263 `jsi_do_string`. -/
def doString (l : L) : Tok × L :=
  let g := getchar (setInStr true l)
  let r := strLoop g.1 (size g.2 + 1) [] 8192 g.2
  match r.1 with
  | none => (.error, setInStr false r.2)
  | some s => (.str s, setInStr false r.2)

/-- src/jsiLexer.c:305-310: the letters behind a regular expression. -/
def flagLoop : Nat → List UInt8 → Nat → L → Option (List UInt8 × UInt8) × L
  | 0, _, _, l => (none, l)
  | fuel + 1, buf, bsiz, l =>
    if bsiz ≤ buf.length + 5 then (none, checkBuf buf.length 1 bsiz l)
    else
      let g := getchar l
      if isalnum g.1 then flagLoop fuel (buf ++ [g.1]) bsiz (checkBuf buf.length 1 bsiz g.2)
      else (some (buf, g.1), checkBuf buf.length 1 bsiz g.2)

/-- src/jsiLexer.c:272-317, the loop of `jsi_do_regex`. -/
def regexLoop : Nat → List UInt8 → Nat → L → Option (List UInt8) × L
  | 0, _, _, l => (none, l)
  | fuel + 1, buf, bsiz0, l =>
    let bsiz := grow buf.length bsiz0
    let g := getchar l
    if g.1 = 0 ∨ g.1 = 255 then (none, checkBuf buf.length 1 bsiz g.2)
    else if g.1 = 92 then
      let n := getchar g.2
      if n.1 = 255 then (none, checkBuf buf.length 1 bsiz n.2)
      else regexLoop fuel (buf ++ [92, n.1]) bsiz (checkBuf buf.length 2 bsiz n.2)
    else if g.1 = 47 then
      let f := flagLoop (size g.2 + 1) (buf ++ [47]) bsiz (checkBuf buf.length 1 bsiz g.2)
      match f.1 with
      | none => (none, f.2)
      | some (s, c) => (some s, ungetc c f.2)
    else regexLoop fuel (buf ++ [g.1]) bsiz (checkBuf buf.length 1 bsiz g.2)

/-- src/jsiLexer.c:265-324 `jsi_do_regex`. -/
def doRegex (l : L) : Tok × L :=
  let g := getchar l
  let r := regexLoop (size g.2 + 1) [g.1] 8192 g.2
  match r.1 with
  | none => (.error, r.2)
  | some s => (.regex s, r.2)

/-- src/jsiLexer.c:400-411 `jsi_eat_comment`. -/
def eatComment : Nat → L → L
  | 0, l => l
  | fuel + 1, l =>
    let g := getchar l
    if g.1 = 0 then g.2
    else if g.1 = 42 then
      let h := getchar g.2
      if h.1 = 47 then h.2 else eatComment fuel (ungetc h.1 h.2)
    else eatComment fuel g.2

/-- src/jsiLexer.c:493. -/
def eatLine : Nat → L → L
  | 0, l => l
  | fuel + 1, l =>
    let g := getchar l
    if g.1 = 13 ∨ g.1 = 10 ∨ g.1 = 0 then g.2 else eatLine fuel g.2

/-- src/jsiLexer.c:422: the first character that is not white space. -/
def skipWs : Nat → L → UInt8 × L
  | 0, l => getchar l
  | fuel + 1, l =>
    let g := getchar l
    if g.1 = 32 ∨ g.1 = 9 ∨ g.1 = 10 ∨ g.1 = 13 then skipWs fuel g.2 else g

/-- src/jsiLexer.c:446-450: does the character belong to the number? -/
def numCont (word : List UInt8) (base16 : Bool) (cpre c : UInt8) : Bool :=
  isxdigit c || c = 46 || (c = 80 || c = 112) || (c = 69 || c = 101) || ((c = 88 || c = 120) && word = [48]) ||
    ((c = 45 || c = 43) && (cpre = 69 || cpre = 101)) || (base16 && isxdigit c)

/-- src/jsiLexer.c:441-458; the first argument is `1020 - wi`. -/
def numLoop : Nat → List UInt8 → Bool → Nat → UInt8 → L → (List UInt8 × Bool × Nat) × L
  | 0, word, base16, digCnt, _, l => ((word, base16, digCnt), l)
  | n + 1, word, base16, digCnt, cpre, l =>
    let g := getchar l
    let digCnt1 := if isxdigit g.1 then digCnt + 1 else digCnt
    if numCont word base16 cpre g.1 then
      numLoop n (word ++ [g.1]) (base16 || g.1 = 88 || g.1 = 120) digCnt1 g.1 g.2
    else ((word, base16, digCnt1), ungetc g.1 g.2)

/-- `strtoll`: the digits of the base at the beginning. -/
def digitsOf (base : Nat) (w : List UInt8) : List UInt8 := w.takeWhile fun c => isxdigit c && decide (hexVal c < base)

/-- `strtoll(word, &eptr, base)`, when all of the word is used (`*eptr` is 0).  The result is cut at the largest `long long`. -/
def strtoll (base : Nat) (w : List UInt8) : Option Nat :=
  if base = 16 ∧ (w.take 2 = [48, 120] ∨ w.take 2 = [48, 88]) ∧ w.drop 2 ≠ [] then
    if digitsOf 16 (w.drop 2) = w.drop 2 then
      some (min ((w.drop 2).foldl (fun n c => n * 16 + hexVal c) 0) (2 ^ 63 - 1))
    else none
  else if w ≠ [] ∧ digitsOf base w = w then some (min (w.foldl (fun n c => n * base + hexVal c) 0) (2 ^ 63 - 1))
  else none

/-- src/jsiLexer.c:462, 464, 469-476. -/
def intTok (base : Nat) (word : List UInt8) : Tok :=
  match strtoll base word with
  | some n => .num (.int n)
  | none => .error

/-- `isdigit(word[1])` -/
def secondDigit (word : List UInt8) : Bool :=
  match word with
  | _ :: d :: _ => isdigit d
  | _ => false

/-- src/jsiLexer.c:461-477. -/
def numTok (strtodAll : List UInt8 → Bool) (word : List UInt8) (base16 : Bool) (digCnt : Nat) : Tok :=
  if word.head? = some 48 ∧ secondDigit word = true ∧ base16 = false then intTok 8 word
  else if word.head? = some 48 ∧ digCnt + base16.toNat = word.length then intTok (if base16 then 16 else 10) word
  else if strtodAll word then .num (.real word) else .error

/-- src/jsiLexer.c:434-477; `word` is `[]`, or `.` before the digit `c`. -/
def doNumber (strtodAll : List UInt8 → Bool) (word : List UInt8) (c : UInt8) (l : L) : Tok × L :=
  let r := numLoop (1020 - (word.length + 1)) (word ++ [c]) false 1 0 l
  (numTok strtodAll r.1.1 r.1.2.1 r.1.2.2, r.2)

/-- A character of a word. -/
def wordChar (c : UInt8) : Bool := isalnum c || c = 95 || c = 36

/-- src/jsiLexer.c:486-490; the first argument is `1020 - wi`; `c` is the last character read. -/
def wordLoop : Nat → List UInt8 → UInt8 → L → List UInt8 × UInt8 × L
  | 0, word, c, l => (word, c, l)
  | n + 1, word, _, l =>
    let g := getchar l
    if wordChar g.1 then wordLoop n (word ++ [g.1]) g.1 g.2 else (word, g.1, g.2)

/-- src/jsiLexer.c:485-499. -/
def doWord (c : UInt8) (l : L) : Tok × L :=
  let r := wordLoop 1020 [] c l
  (if r.1 ∈ keywords then .kw r.1 else .ident r.1, ungetc r.2.1 r.2.2)

/-- src/jsiLexer.c:510-512: a regular expression may begin here. -/
def regexAllowed (last : Tok) : Bool :=
  last = .char 61 || last = .char 40 || last = .char 58 || last = .char 63 || last = .char 44 || last = .eof || last = .char 91 ||
    last = .char 123

/-- src/jsiLexer.c:426-434: a point before a digit. -/
def point (c : UInt8) (l : L) : List UInt8 × UInt8 × L :=
  if c = 46 then
    let g := getchar l
    if isdigit g.1 then ([46], g.1, g.2) else ([], c, ungetc g.1 g.2)
  else ([], c, l)

/-- src/jsiLexer.c:413-531 `jsi_yylex`: the line of the token, the token. -/
def yylex1 (strtodAll : List UInt8 → Bool) (last : Tok) (l : L) : (Int × Tok) × L :=
  let s := skipWs (size l) l
  let line := s.2.line
  let p := point s.1 s.2
  let c := p.2.1
  let l1 := p.2.2
  if isdigit c then let r := doNumber strtodAll p.1 c l1; ((line, r.1), r.2)
  else if c = 34 ∨ c = 39 ∨ c = 96 then let r := doString (ungetc c l1); ((line, r.1), r.2)
  else if isalpha c || c = 95 || c = 36 then let r := doWord c (ungetc c l1); ((line, r.1), r.2)
  else if c = 47 then
    let d := getchar l1
    if d.1 = 47 then ((line, .comment), eatLine (size d.2 + 1) d.2)
    else if d.1 = 42 then ((line, .comment), eatComment (size d.2 + 1) d.2)
    else
      let l2 := ungetc d.1 d.2
      if regexAllowed last then let r := doRegex (ungetc c l2); ((line, r.1), r.2)
      else let r := doSign (ungetc c l2); ((line, r.1), r.2)
  else let r := doSign (ungetc c l1); ((line, r.1), r.2)

/-- COMMENT is -128: so is the character 128. -/
def isComment (t : Tok) : Bool := t = .comment || t = .char 128

/-- src/jsiLexer.c:533-545 `yylex`; the first argument bounds the number of comments. -/
def yylex (strtodAll : List UInt8 → Bool) (last : Tok) : Nat → L → (Int × Tok) × L
  | 0, l => yylex1 strtodAll last l
  | n + 1, l =>
    let r := yylex1 strtodAll last l
    if isComment r.1.2 then yylex strtodAll last n r.2 else r

/-- The parser takes a token that is not positive for the end (as every parser made by bison does). -/
def isEnd : Tok → Bool
  | .eof => true
  | .error => true
  | .char c => 128 ≤ c
  | _ => false

/-- What the parser gets to see: the tokens with their lines, up to the end; and the lexer then. -/
def lexF (strtodAll : List UInt8 → Bool) : Nat → Tok → L → List (Int × Tok) × L
  | 0, _, l => ([], l)
  | n + 1, last, l =>
    let r := yylex strtodAll last (size l + 1) l
    if isEnd r.1.2 then ([r.1], r.2)
    else
      let q := lexF strtodAll n r.1.2 r.2
      (r.1 :: q.1, q.2)

/-- All tokens of a text (`last_token` is 0 at first). -/
def lexAll (strtodAll : List UInt8 → Bool) (text : List UInt8) : List (Int × Tok) × L :=
  lexF strtodAll (text.length + 1) .eof (init text)

end Verif.Lex
