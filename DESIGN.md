# Formal model of pcmacdon/jsish in Lean 4 — design

This file is put together by `tools/design.py` from `tools/design_head.md` (written by hand), `properties.jsonl`,
`MANIFEST.json` and the axiom report `tools/axioms.txt`.

## Method

* `lean/Verif/<Area>/Model.lean` (and further files where noted) — the C functions as total Lean functions, one definition
  per C function or loop, each with a comment naming file and lines in `/repo`.  C integers have fixed width
  (`UInt8/UInt32/UInt64/BitVec`) where wrap-around matters, and are `Nat`/`Int` where the code's own checks keep
  values in range (stated at the definition).  Where C has undefined behaviour (an access outside an object, use of freed
  memory, a read of an uninitialised byte, a loop that does not end) or an assertion fails, the model has a distinct outcome
  (`none` or a constructor of its own), never a silently defined value.
* `lean/Verif/<Area>/Spec.lean` — the specification (RFC/FIPS text, finite maps, sequences, languages, source
  semantics), which does not mention the helpers of the model.  For small areas it stands in `Props.lean`.
* `lean/Verif/<Area>/Props.lean` (and files named for the topic) — the theorems `Cnn_...`, examples beside them that
  show that the hypotheses can be met, and, where the code does **not** have the property, the refutation
  `Cnn_..._refuted`: the modelled code violates the statement on a concrete input, or (where noted) on every input of a
  class.  Then the strongest restricted theorem is proved too, with the suffix `_partial`.
* Status in `MANIFEST.json`: `proved` if the statement in `properties.jsonl` is a theorem for all it ranges over;
  `partial` if a restriction is needed, which is either because the full statement is refuted (most cases; the note says so)
  or because a part of the code is outside the model.

## Trusted base

* The Lean 4.33.0 kernel.  The axioms used are at most `propext`, `Classical.choice` and `Quot.sound`; the exact set for each
  theorem of the manifest is in the table at the end.  No axioms of our own, no compiled evaluation.  `decide +kernel` is
  used for closed facts only (the kernel evaluates them).
* The correspondence between the C text and the Lean definitions: made by hand, function by function.  The code was not
  run.  Compiler, libc (`strtod`, `qsort`, `regexec`, `malloc` which is taken not to fail, `printf`) and the operating
  system are outside; where they matter they are parameters of the model over which the theorems quantify.
* The machine is 64-bit, little endian, with two's complement arithmetic; `JSI__UTF8` on, `Assert` off, as in the default
  configuration.

## What is modelled, and what is not

| area (directory) | code modelled | left out, simplified |
|---|---|---|
| Base64, Crc, Hex, Uri | src/jsiCmds.c 1176-1258, 4196-4348, 4437-4456; src/jsiUtils.c 2504-2545 | conversion of arguments to strings; locales other than C |
| Crypto | src/jsiCrypto.c 13-935 (MD5, SHA-1, SHA-256, SHA-3, btea), jsi_CryptoHash, Util.encrypt/decrypt, hashcash | file input of the digests, lengths of 2^61 bytes and more; timing |
| Utf8 | src/jsiUtf8.c, substr/charAt/charCodeAt | `int` overflow of lengths |
| Str | string methods without regular expressions (src/jsiString.c), Jsi_SplitStr, searches of src/jsiChar.c | size limits, regular expressions, conversion of arguments |
| Lex | src/jsiLexer.c reading from a string | columns, messages; `strtod` and Jsi_RegExpNew are parameters |
| Obj | objects, properties, array elements, variables and the values they share: src/jsiObj.c, src/jsiValue.c (subscripts, assignment), src/jsiEval.c (assignment, ++, delete), src/jsiProto.c (create, assign, merge, freeze, setPrototypeOf, values, apply), src/jsiArray.c (filter, callbacks) | accessors, functions as values, wrapped primitives, fractions, `readonly`/`dontdel` values; `strtod`, the size check of arrays, `callee`/`constructor` are parameters |
| Interp | src/jsiInterp.c new Interp, Interp.conf, Interp.source, Jsi_InterpAccess; src/jsiOptions.c Jsi_OptionsProcess, Jsi_OptionsFind, jsi_SetOption_; src/jsiEval.c the opening of a main script; src/jsiCmds.c the check in exec | threads, privKeys, sub-options, custom parsers (parameter), deletion of interpreters |
| Dict | Jsi_DictionaryCompare | nothing |
| Glob | Jsi_GlobMatch, JsiCharsetMatch | locales other than C |
| Opt | Jsi_GetIndex | flags that only change the text of messages |
| Hash | src/jsiHash.c: create, find, delete, rebuild, search, clear | lock/free callbacks, allocation failure |
| Tree | src/jsiTree.c: insert, delete, find, searches | lock/free callbacks, Jsi_TreeClear; parent pointers are represented by a zipper, so their agreement with child pointers is assumed |
| DString, Stack, LList | Jsi_DString, Jsi_Stack, Jsi_List with explicit storage | allocation failure, aliasing of arguments with the string itself |
| Array | array part of Jsi_Obj, methods of src/jsiArray.c, C interface | reference counts (see Ref), arrays with entries in the property tree, `modifying`; callbacks that throw |
| Json | jsiValueGetString in JSON mode, src/jsmn.c, Jsi_JSONParse | numbers with fraction or exponent, functions, user objects, holes |
| Value | Jsi_ValueCmp, Jsi_ValueIsEqual, jsiLogicLess | `strtod` and the printing of numbers are parameters |
| Ref | reference counts: values, objects, copy/move/replace/reset, arrays, properties, pushed variables | prototypes, functions, iterators, user objects; memory is never used again, so use after free is visible |
| Vm | parser.y actions and src/jsiCode.c (code emission), src/jsiEval.c main loop (control flow, operand stack, try list) | values and primitive operations are parameters; `with`, `eval`, debugger, limits, a stale `this` slot; parsing itself |
| Path | Jsi_NormalPath, NormalizeUnixPath, Jsi_InterpAccess, Jsi_Open, File.mkdir/remove | strings beyond PATH_MAX, virtual file systems, Windows |
| Fmt | Jsi_FormatString (src/jsiFormat.c), behind format and printf | C's printf for integers is modelled in Fmt/CPrintf.lean (trusted), for doubles a parameter; `isdigit` beyond 255 taken as false |
| Queue | the message queues between threads: InterpCallCmd, InterpEvalCmd_, jsi_AliasInvoke, SubInterpEvalCallback (src/jsiInterp.c) | sequentially consistent memory; the bodies of messages are opaque; addresses are not given out again |
| Web | the web server (src/jsiWebSocket.c): the file for a URL, server side includes, headers, parameters, password | libwebsockets; redirects, callbacks, directory listings, sending; files without symbolic links |
| File | path name functions, File.remove, File.mkdir, File.copy, File.write, File.read (src/jsiFileCmds.c) | native file system on Unix, no other processes; no hard links in trees, no symbolic links on the disk of C109; open modes, virtual and compressed files |
| Pkg | versions, provide, require and the search for package files (src/jsiCmds.c 620-1130) | main interpreter only; what else scripts do, the options of packages, isMain; an extension already loaded; Jsish from /zvfs |
| Call | function calls: parameters, checks, results, call, apply, bind, forEach (src/jsiFunc.c 82-384, 619-660; src/jsiProto.c 109-487; src/jsiPstate.c 75-121) | functions of the language only; reference counts, tracing, maxDepth, static checks while parsing; `this` of arrow functions; frozen arrays |
| Opt | option records: find, set, get, process, dump, free; enumerations, bit sets, sub-options (src/jsiOptions.c 176-1058, 1354-1434, 1437-1775) | time types, DSTRING, VAR, USEROBJ, REGEXP, float and long double, bit fields, C arrays, ENUM_SPEC; reference counts; noCheck |
| Regex | String.replace, match, search with regular expressions, RegExp.exec, test, constructor (src/jsiString.c 258-275, 643-930, src/jsiRegexp.c 31-354) | regcomp and regexec (a parameter; Lang.lean gives engines without groups); limits on array sizes; reference counts |
| Scope | scopes of the parser, scope chains, calls, closures, var and function statements, catch, order of operands, on trees (src/jsiPstate.c 69-172, src/parser.y 194-221, 345-365, 487-511, 586, 635-644, 928-939, src/jsiFunc.c 490-632, src/jsiEval.c 207-227, 811-935, 1253-1302, 1384-1388, 1959-2008, src/jsiProto.c 113-225) | the grammar itself, opcodes (Vm), eval, with, this, properties, types and default values of parameters, all values but numbers and functions |
| Limit | the loop of the interpreter: cap on instructions, exit, interruption, depth, with arbitrary instructions (src/jsiEval.c 347-393, 1112-1220, 1261-1265, 2121-2138, 2195-2246, src/jsiCmds.c 518-547) | what the instructions do (a parameter), the debugger, busyCallback, deletion of interpreters |
| Chan | Channel objects on ordinary files (src/jsiFilesys.c 166-229, 702-1012) with fopen, fread, fgets, fwrite, fseek, feof of stdio as specified by C | buffering between stdio and the file (truncate sees what was written), failing writes, other processes, compressed and zip files, stdin, safe interpreters (C34) |
| Sort | Array.sort (src/jsiArray.c 933-1128, src/jsiValue.c 895-961, src/jsiChar.c 135-140) | qsort itself (any function with its specification; glibc's merge sort is shown to be one), comparison functions with side effects on the array |
| Number | number to text and back, toFixed, toPrecision, toString(radix), parseInt, isInteger and companions (src/jsiNumber.c 6-75, 123-213, src/jsiValue.c 508-528, 571-628, src/jsiCmds.c 550-588) | printf and strtod are modelled as exact (glibc), with the default dblPrec; texts with blanks, hexadecimal floats and other spellings of infinity; toExponential |
| Arith | and, or, xor, not, shifts, %, ++, --, Math.min, max, floor, ceil, round (src/jsiEval.c 229-238, 1424-1430, 1532-1543, 1590-1617, 1705-1742, src/jsiMath.c 8-80, 110-124) | the conversion of operands that are not numbers; the other functions of Math |
| Date | Date.strftime, Date.strptime (src/jsiCmds.c 1945-2245) | strftime, strptime, sscanf, gmtime of glibc are modelled for the conversions %Y %m %d %H %M %S %F %T, mktime by its contract; fractions of a millisecond; formats longer than 8 KB; points and exponents behind a fraction; Windows |
| Option paths | Jsi_OptionsGet, Jsi_OptionsSet with dotted names (src/jsiOptions.c 581-645, 813-879), -I (src/jsiInterp.c 1280-1312) | C arrays of options (a[3]): no built-in table has one; -I traceCall; Jsi_GetDouble is a parameter |
| User objects | Jsi_UserObjRegister, New, Free, Delete, Unregister, ToName, FromName, Dump (src/jsiUserObj.c), Info.named | hash tables are lists; every type has a freefun; Jsi_UserObjGetData; what a freefun does; objects that move between interpreters |
| Query output 2 | modes json, json2, list, column, line of SqliteQueryCmd, dbEvalSetColumnJSON (src/jsiSqlite.c), Jsi_JSONQuote (src/jsiJSON.c) | floating point columns; the width option is a list of positive numbers; the rows come from SQLite |
| Query output 3 | mode list of SqliteQueryCmd (src/jsiSqlite.c) | as Query output 2 |
| Import | dbLocalGetline, SqliteImportCmd (src/jsiSqlite.c) | Lines as lists of bytes; SQLite itself as the list of rows bound |
| File.glob | FileGlobCmd, SubGlobsDirectory (src/jsiFileCmds.c) | The file system as sorted listings and stat; matching of names a parameter (module Glob); callbacks without effects; no retInfo |
| Aliases | jsi_AliasInvoke, InterpAliasCmd, jsi_AliasFree, jsi_AliasCreateCmd, Jsi_CleanValue (src/jsiInterp.c), Jsi_FunctionInvoke, Jsi_ValueArrayConcat | One thread; names without a dot; whole numbers in copied values |
| Names of values | Jsi_NameLookup, FindEndB, Jsi_GetInt (src/jsiUtils.c) | Jsi_VarLookup and jsi_ValueSubscript are parameters; numbers of digits only |
| System.matchObj | SysMatchObjCmd, jsi_sysTypeGet (src/jsiCmds.c), jsi_ValueTypeName (src/jsiFunc.c) | The order of keys is that of module Obj |
| verConvert | SysVerConvertCmd (src/jsiCmds.c) | Doubles are rationals with an arbitrary rounding, as in C111 |
| Signals | src/jsiSignal.c but alarm and kill; the signals of Jsi_EventProcess (src/jsiCmds.c) | Numbers of Linux; the table of callbacks does not change while a callback is looked for |
| The interactive shell | jsi_StrIsBalanced, the loop of Jsi_Interactive (src/jsiUtils.c) | Lines are given; evaluating is an event; no onEval, no history file, no completion |
| SQL from objects | Jsi_SqlObjBinds (src/jsiUtils.c), its use in query (src/jsiSqlite.c) | The object is a list of fields; the text of a number and the JSON of an object are given |
| Getters and setters | jsi_ValueLookupBase, jsi_GetterCall, jsi_SetterCall, jsi_ObjValInsert (src/jsiValue.c), OP_SUBSCRIPT, OP_ASSIGN, OP_INC, OP_DEC (src/jsiEval.c) | Functions are arbitrary; ++ on objects that are not frozen; no special keys |
| isPrototypeOf | ObjectIsPrototypeOfCmd (src/jsiProto.c) | The graph of prototypes is given |
| The line editor | the keys of linenoiseEdit on its buffer (src/linenoise.c) | Drawing, completion and the keys of the history are not modelled |
| The history of the line editor | linenoiseHistoryAdd, linenoiseHistorySetMaxLen, linenoiseHistorySave, linenoiseHistoryLoad, linenoiseEditHistoryNext (src/linenoise.c) | The array is a list; failing allocations are not modelled |
| The range of Info.completions | InfoCompletionsCmd to the text it completes (src/jsiCmds.c) | The search in the tables is not modelled |
| Breakpoints | jsi_InterpDebugHook (src/jsiInterp.c), Debug.add, remove, enable (src/jsiCmds.c) | Stops for errors and signals are not modelled; the table is a list in the order of its search |
| Vfs | VfsLookupMount and the channel operations (src/jsiVfs.c 50-129, 337-390) | Mounting, the callback and Zvfs are not modelled |
| Vfs directories | the file list of a mount (src/jsiVfs.c 640-680) | Callbacks of a mount are not modelled |
| Vfs listing | Jav_FSScandirProc (src/jsiVfs.c 218-268) | Types of entries, filter and sorting are not modelled |
| Sql | the SQLite binding (src/jsiSqlite.c): transactions, the cache of compiled statements, parameters, output modes csv, insert and html | SQLite itself is an environment with the documented meaning; numbers to text; other output modes, cdata, user functions, backup |
| Timer | setTimeout/Interval, clearInterval, event processing, update | signal and always events, handlers in C, counter wrap-around |

Not modelled at all: the LALR grammar (Lex ends with tokens, Vm starts from syntax trees), sockets, websockets,
SQLite and MySQL bindings, zip and virtual file systems, linenoise, CData, the debugger, signals, chroot, dynamic loading,
options processing beyond Jsi_GetIndex — except where a property below says otherwise.

## Main findings (all are theorems `Cnn_..._refuted` or general theorems beside them)

* C04 `Util.hexStr` decodes wrongly and overruns its buffer; C05 a percent sign is not encoded; C07, C57 the last or first
  character beyond ASCII is damaged; C11 SHA-3 uses stale bytes and the wrong variant; C13 short texts are not encrypted.
* C15, C43 hash tables with shared string keys lose keys after the table grows, clearing keeps the size; C16, C18, C44-C46
  trees: wrong deletion for struct keys, keys confused beyond `int`, attributes left behind, endless pre-order search.
* C20 lists: pop of the head; C22 the dictionary order has a cycle; C24 `?` reads behind an empty string.
* C25, C26, C54, C55 arrays: holes, limits, ends beyond the length, writes outside the vector.
* C27, C50-C52 JSON: unescaped keys, surrogates, reading past the last token.
* C29-C33 evaluation: late reading of variables, finally skipped by return, exceptions replaced.
* C34, C35 safe interpreters: File.mkdir/remove with `..`; C36, C37 timers: early by up to a second, use after free in callbacks.
* C38, C39, C47-C49 comparisons; C40 reference counts: copies of uncounted values and overwriting by own parts.
* C58-C60 string methods depart from ECMAScript; C61 messages and full names.
* C79, C80: `in` sees no inherited properties, Object.keys does; for-in goes in byte order and skips named properties of
  arrays.
* C75-C83 objects: `++` on an inherited property changes the prototype; Object.assign, merge, create, filter, Object.values
  share values, so changes in place show elsewhere; string indices of arrays; frozen arrays can be changed; prototype
  cycles crash; parameters of forEach/map callbacks and apply are the elements; Object.assign skips values that came
  through a parameter.
* C69-C74 safe interpreters: ways out by `new Interp({lockDown:...})`, `sub.source`, the first `Interp.source`, the live
  arrays `Interp.conf` gives out, `Interp.conf({lockDown:"."})` and exec with a newline, `load` when locked down; some
  locked options are not inherited.
* C63-C68 lexer: a newline behind a sign is lost, bytes from 0x80 on end the script silently, wrong line numbers.
* C84, C85 format: `%2000000000.147483647d` and long runs of flags overrun stack buffers; `%-05s` puts zeros at the right;
  `%.3q` starts with a NUL; `%c` of 128-255 is not a character.
* C88-C90 queues: a body that makes its own thread empty the queue again runs twice and its record is used after free;
  lockTimeout passes a relative time to pthread_mutex_timedlock, so a contended lock fails at once and the message is
  carried out again; deleting an interpreter frees records that threads wait on; texts overtake calls; `// c` hides the
  next text. Seen but not modelled: the error returns in jsi_AliasInvoke and InterpCallCmd keep QMutex locked.
* C92-C96 web server: urlPrefix is compared without regard to names, so a URL without `..` can leave the root directory;
  an alias behind such a prefix skips one character too many; #echo and #set act in parts that are left out; `#include fil"`
  uses what an earlier directive left in the buffer; an included empty file is an error; the second parameter of a form is
  never found by name. Seen but not modelled: the bound on the number of headers is compared with the wrong number.
* C98-C104 SQLite: `db.transaction` inside the script's own BEGIN ends that transaction; a query whose text is that of a query
  running further out crashes, as do blanks behind the last statement; the mode `insert` takes from the first row which columns
  are NULL and loses the values of the others, and falls into the code of `tabs`; the type of a parameter applies to the
  ones behind it. Seen but not modelled: type names of parameters longer than 49 bytes overflow a buffer; the per-query option
  `mapundef` is ignored; mode `line` joins the columns of the first row; mode `json2` gives an empty text for no rows.
* C105-C110 files: `File.remove("~/d", true)` lists one directory and removes from another; it reports success when the directory
  cannot be listed or removed; "//" and "/." are not protected as "/" is; `File.copy` with force onto a hard link of the source
  can empty it, and takes a read error for the end of the file. Seen but not modelled: FileCopy leaks the source handle when the
  destination cannot be opened; `File.link` is not refused in lockdown; files called stdin, stdout or stderr cannot be opened;
  `File.mknod` uses its second argument as device number too.
* C111-C116 packages: a package whose file throws after `provide` is returned by the next `require`; with options given the
  requested version is not compared; packages that require each other and provide themselves last fail after maxIncDepth
  evaluations. Seen but not modelled: `*poptsPtr` is set after a `return` in Jsi_PkgRequireEx; `evalFlags` is not restored when
  a file does not parse.
* C117-C122 calls: `f.apply(t, a)` uses the caller's array as the scope of the call, so assigning to a parameter changes `a`, the
  parameters stay behind as properties of `a`, and two calls with the same array share their local variables; a bound function
  remembers what its body assigned to a bound argument; `forEach` lets the callback change the elements by assigning to its
  parameter; `f.bind(o)` handed to `apply`, `forEach` or `setTimeout` fails; `a=void` is shown as `a:void=undefined`, and `...` is not
  shown. Seen but not modelled: `this` of an arrow function is that of the caller at the time of the call; jsi_SharedArgs releases
  whatever is in `args` at the end, so that changing `arguments` in the body unbalances reference counts.
* C123-C132 options: `conf({subOpts:null})` resets the options of the group that may only be set at creation, so a script can clear
  `subOpts.blacklist`; the object form of a bit set writes one byte, so `conf({traceCall:{before:true}})` and `conf({log:{parse:true}})`
  are accepted and do nothing; `null` for a group with a bit set crashes, with an enumeration fails; a bool reset by `null` gets an
  uninitialized variable; NaN is stored and then refused; a failing conf keeps the members before; required options are not
  checked when `null` is given; fractions and NaN are accepted for integers, -1 for unsigned 64 bit ones.
* C133-C140 regular expressions: `"abc".replace(/x*/g,"-")` is "-abc"; a `$` at the end of a template adds a NUL; `/(a)b/.exec("abxab")` returns
  both matches in one array and with flag g sets lastIndex inside the string; groups equal to the match are left out of match and exec,
  groups behind an unused one too; `re.lastIndex = -1` makes exec read before the string; all RegExp objects of the same text share
  the position of exec; `while (m = /x*/g.exec(s))` never ends; `new RegExp("")` fails.
* C141-C144 scope: `(a,b) => { var x = 2; }` sets x of the function around it; `() => …` and a getter leave a scope behind, so that variables declared
  before them in the same function become global; a setter has its own undefined copies of all variables declared before it; the name
  of a function expression is not bound; functions cannot be called above their statement; `var x;` resets x; `x + (x = 5)` reads x late.
* C149: maxUserObjs N lets N+1 objects be made (src/jsiEval.c 1262).
* C150: read(0) returns up to 8192 bytes (src/jsiFilesys.c 850-860).
* C151: gets splits lines of more than 8190 bytes without a way to tell, and cuts a line at NUL (src/jsiFilesys.c 793-813).
* C152: puts cuts its argument at NUL (src/jsiFilesys.c 985).
* C153: seek, tell, eof, truncate, flush, stat, lstat and mode of a closed channel use freed memory (src/jsiFilesys.c 702-711).
* C154: open returns true whether the file could be opened or not (src/jsiFilesys.c 735-782).
* C158: sort() puts missing elements first, and gives up the order if undefined is in the array (src/jsiArray.c 996-1007, src/jsiValue.c 920-923).
* C159: the number returned by a comparison function is cut to an int: (a,b)=>a-b does not sort 1.5 and 1.25, nor numbers more than 2^31 apart; exceptions are ignored (src/jsiArray.c 985-992).
* C160: sort with unique leaves pointers behind the end of the array; the next push frees an element (src/jsiArray.c 1091-1114).
* C161: a number prints with 15 digits, so 0.1+0.2 prints as 0.3 and reads back as another number; a subnormal number prints as "undefined" (src/jsiValue.c 515-527, src/jsiNumber.c 62-75).
* C162: toString(radix) knows 8, 10 and 16 only; other bases print decimal; negative numbers print as 64-bit two's complement; base 10 drops fractions (src/jsiNumber.c 205-209).
* C163: without a base parseInt("-5") and parseInt(" 5") are NaN and parseInt("016") is 14; with a base a text without digits is 0; 2^63 and more, 1e20 and Infinity give -2^63 (src/jsiCmds.c 560-586, src/jsiValue.c 611-614).
* C164: isInteger(2^70) is false (src/jsiNumber.c 25), and such numbers print with 15 digits only.
* C165: toPrecision cuts the text of %.*f instead of rounding: 1.7890625 with 2 digits is 1.7, 12345.5 is 123; toFixed cuts at 100 characters (src/jsiNumber.c 134, 153-158).
* C166: &, | and ^ convert to 64 unsigned bits and back to a double: -1|0 is 18446744073709551616; 2147483648|0 is not negative (src/jsiEval.c 229-238).
* C167: an operand outside 32 bits becomes -2^31 (src/jsiEval.c 1596-1617; jsi_ValueToOInt32 does not reduce).
* C168: the value of x++ is computed as (x+1)-1, which is not x for 0.1 or 2^53 (src/jsiEval.c 1705-1742).
* C169: Math.max(NaN,1) is 1 and Math.max(1,NaN) is NaN; Math.round(-2.5) is -3; Math.pow overflows to NaN (src/jsiMath.c 33, 38-80, 119).
* C170: strftime cuts milliseconds before 1970 towards 1970, so -1 shows as 1970-01-01 00:00:00; with utc an empty format has no seconds (src/jsiCmds.c 2067-2075).
* C171: the second before 1970 reads as NaN; UTC times that the local clocks skip come back an hour off, as UTC is computed with mktime (src/jsiCmds.c 2033, 2045, 2048).
* C172: milliseconds before 1970 show as ".-001"; strptime replaces %f by ":%S.", so it cannot read what strftime wrote with %f (src/jsiCmds.c 2008, 2106).
* C173: a format that fails leaves its fields set: "10:20:30" is read with the year 10; 2023-02-31 is the third of March; with an empty format, as used for options, the seconds of "2024-02-29 12:34:56" are lost (src/jsiCmds.c 2013-2019).
* C174: without utc an offset in the text is added to the local one; .5 is ignored and .1234 adds 1234 ms (src/jsiCmds.c 2026-2046).
* C175: ss[3] is overrun by three or more signs behind a date (src/jsiCmds.c 2032, 2035).
* C177: Jsi_OptionsSet does not look at the flags of the option: -I sets read-only options (src/jsiOptions.c 642-645, src/jsiInterp.c 1308).  Also, the index of a C array, a[99999], is not compared with the size of the array (src/jsiOptions.c 631, 861; not modelled).
* C178: -I name=c:x is split at the colon; the words t, fal, TRUE, null cannot be given as texts (src/jsiInterp.c 1281-1307).
* C180: Jsi_UserObjUnregister reads the hash entry it has deleted and frees the registration that the table's free procedure has freed (src/jsiUserObj.c 14-18); reached when a module is unloaded.
* C182: Info.named("#x_1"), and a channel named so, crash: the entry that is not found is dereferenced (src/jsiUserObj.c 191-193); atoi takes "#File_1junk" and "#File_4294967297" for #File_1 (190).
* C183: Jsi_JSONQuote counts characters where the length counts bytes (src/jsiJSON.c 411), so a blob with n letters of two bytes is followed in the output by up to n bytes behind it in memory.
* C184, C185: without rows mode json with headers leaves out the names, and mode json2 gives an empty string (src/jsiSqlite.c 2689, 2762).
* C186: mode line writes no line feed in the first row (src/jsiSqlite.c 2962).
* C187: mode column writes the names also without headers, on the line of the first row (src/jsiSqlite.c 2815-2834).
* C188: mode list quotes nothing (src/jsiSqlite.c 2767-2790).
* C189: after a quoted value at the end of a record the pointer is left on its last byte, not behind it (src/jsiSqlite.c 2289-2314): every such file is refused, or read behind the end of the line.
* C189: azCol has nCol+1 entries, `azCol[++i]` is not bounded in records with quotes (src/jsiSqlite.c 2219, 2270-2311).
* C189: a record that ends inside quotes closes the file twice, and what was read before is committed (src/jsiSqlite.c 2265-2268).
* C192: without dir the names are cut by the length of the current directory's path (src/jsiFileCmds.c 1134-1138 with 1251).
* C193: without dir, File.glob('*/x') looks under / (src/jsiFileCmds.c 1022).
* C194: after the search for a regular expression the search goes on with dir as the pattern (src/jsiFileCmds.c 1283, 1291-1307); without dir it reads freed memory (1249-1254, 1283).
* C195: goto dumpit passes over the pattern and the search of the directory (src/jsiFileCmds.c 1045-1046) and leaks sStr; continue passes over the check of maxDiscard (1122).
* C197: interp->nullFuncArg is the scope of every call without arguments (src/jsiFunc.c 764-770; called from src/jsiSqlite.c 1199, 1243, 3447 and src/jsiCmds.c 4162), and the array given with an alias that of a call of it without arguments (src/jsiInterp.c 292-293).
* C198: Jsi_HashEntryNew comes before the checks of the arguments (src/jsiInterp.c 483-489); `ac->dinterp` is read before `if (!ac)` (281-287).
* C199: iskey is set to 1, so the length of the string is lost (src/jsiInterp.c 239-245); when the result cannot be copied this is ignored (362).
* src/jsiInterp.c 317-320: QMutex stays locked when the arguments cannot be written.
* C200: `o[1]` is looked up with the variable named 1 unless o is an array (src/jsiUtils.c 456-468); the loop ends after 1000 steps with the value it has (427); the index is an int (2466-2476); the quotes are removed but escapes stay (437-441).
* C201: `if (arg3 && Jsi_GetBoolFromValue(interp, arg4, ...))` tests the wrong argument (src/jsiCmds.c 4067), noerror is not initialized (4040); a trailing space makes `*ep++ = *tp++` copy the NUL and go on (4074-4077).
* C202: the loop of verConvert goes on to the middle part when the last one was not zero (src/jsiCmds.c 3994-3999): "1.0.5" becomes "1".
* C203: find_signal_by_name looks for "sig" at `name`, not behind the - (src/jsiSignal.c 104-110); "unknown signal" is compared without its first three letters (122).
* C204: the results of sigaction are not looked at (src/jsiSignal.c 204-220).
* C205: the bit of a signal is cleared at the first callback for it, and before `busy` is looked at (src/jsiCmds.c 264-286); sigloc is not volatile and is changed with |= in the handler and &= outside (src/jsiSignal.c 25-31, 129-132).
* C206: jsi_StrIsBalanced counts brackets and quotes wherever they stand (src/jsiUtils.c 940-962), and lines are joined with a space (1232); get_inputline leaves the end of the line in without readline, so the comparison with a backslash at 1218 fails.
* C207: the rc of query is still JSI_OK when Jsi_SqlObjBinds fails (src/jsiSqlite.c 2629-2632); noDefaults is never read (src/jsiUtils.c 542-543); texts go into SQL between quotes as they are (620-625), the name in CHECK(typeof(..)) without brackets (642-646); numbers with %g (606).
* C208: interp->hPtrGet is written in jsi_GetterCall only (src/jsiValue.c 1396) and never cleared, and OP_SUBSCRIPT takes it each time (src/jsiEval.c 1290): `a.x; b.y++` calls the setter of a.x, also when a is freed. `this` of that setter is whatever is below on the stack, or the number (1737). A setter of a prototype is not looked for (src/jsiValue.c 1410). An error of a getter is turned into `undefined` (1005).
* C209: ObjectIsPrototypeOfCmd looks for the prototype of `this`, not for `this` (src/jsiProto.c 604-611).
* C210: the keys of the editor work on bytes: Backspace after a character of two bytes leaves half of it (src/linenoise.c 734-742).
* C211: with a full history every edit session drops the oldest line, since the empty entry for the present line counts (src/linenoise.c 792, 1119-1123); `linenoiseEditHistoryNext` cuts a full line by one byte, since `buflen` has been decremented already (715-716); edits of older entries stay in the history (704-705).
* C212: `Info.completions("foo.bar",5,2)` writes a NUL before its buffer, `Info.completions("",0)` reads before the text (src/jsiCmds.c 3650-3684).
* C213: `lastLine` is not updated by lines the debugger is not told of, so a loop back to the line of the last stop counts as the same line: the breakpoint there is missed (src/jsiInterp.c 1008-1013).
* C214: VfsLookupMount takes the shortest mount, not the longest (src/jsiVfs.c 60). C215: the `size` of a fileList entry is trusted, so File.read reads past the data (337-348); SEEK_CUR subtracts the offset (110).
* C216: a directory of the fileList that comes after a file in it is refused as a duplicate (src/jsiVfs.c 657-680).
* C217: names are cut to 255 bytes, so a listing gives names that do not exist, or one twice (src/jsiVfs.c 246-247).

## Plan per property

| id | property | modelled | how it is proved | status |
|---|---|---|---|---|
| C01 | Base64 decode inverts encode | B64EncodeDStr, B64DecodeDStr, b64getidx | induction on 3-byte groups with a column counter | proved |
| C02 | Base64 encode output is RFC 4648 text | B64EncodeDStr | comparison with RFC 4648 digits group by group | proved |
| C03 | CRC-32 equals the reflected polynomial 0xEDB88320 definition and can be computed incrementally | Jsi_Crc32 nibble table loop | nibble step = 4 bit steps (closed kernel check), induction on input | proved |
| C04 | Hexadecimal conversion round trip | jsi_ToHexStr, jsi_FromHexStr, Jsi_HexStr | per byte round trip, induction; refutation | partial |
| C05 | URI component decoding inverts encoding | url_encode, url_decode | induction on bytes; refutation | partial |
| C06 | UTF-8 encode/decode of one character round-trips | Jsi_UtfToUniChar, Jsi_UniCharToUtf | case analysis on lengths, bit arithmetic, agreement with Lean core | proved |
| C07 | Character-indexed substring of UTF-8 text | Jsi_UtfSubstr and callers | induction on characters; refutation | partial |
| C08 | SHA-256 digest equals FIPS 180-4 | sha256 init/update/final/transform | buffer invariant (state = fold over blocks, buffer = rest), padding lemma | proved |
| C09 | SHA-1 digest equals FIPS 180-4 | sha1 | same invariant as C08 | proved |
| C10 | MD5 digest equals RFC 1321 | MD5 | buffer invariant, padding | proved |
| C11 | SHA-3 digest equals FIPS 202 | SHA3_* | Keccak rounds equal FIPS 202; stale bytes made explicit; refutations | partial |
| C12 | Decryption inverts encryption | jsi_btea, Jsi_Encrypt, Jsi_Decrypt | each round step inverted; induction over words and rounds | proved |
| C13 | Encryption hides the plaintext | jsi_btea | refutation; permutation | partial |
| C14 | Hash table behaves as a finite map | jsiHash.c buckets with chains, RANDOM_INDEX, RebuildTable | invariant: every chain member is in its bucket; refinement to a finite map | proved |
| C15 | Hash table with shared string keys behaves as a finite map | string keyed tables with lookup in a second table | refutation; partial refinement | partial |
| C16 | Ordered tree behaves as a sorted finite map | jsiTree.c insert/delete/find | refinement to a sorted association list | partial |
| C17 | Ordered tree stays balanced | same | red-black invariant through every fix-up case | proved |
| C18 | Word-keyed trees distinguish every key | TreeCompareWords | arithmetic on int truncation | partial |
| C19 | Dynamic string is concatenation of what was appended | jsiDString.c with capacity and buffer | invariant and concatenation | partial |
| C20 | List is a doubly linked sequence | Jsi_List as heap of nodes | path predicates; refutations | partial |
| C21 | Stack is LIFO | Jsi_Stack | refinement to a list | proved |
| C22 | Dictionary comparison is a consistent order | Jsi_DictionaryCompare | equality with lexicographic order on tokens; refutations | partial |
| C23 | Splitting then joining gives the string back | Jsi_SplitStr, Array.join | induction on occurrences | partial |
| C24 | Glob matching agrees with the pattern language | Jsi_GlobMatch | denotational language of patterns; out-of-bounds outcome explicit | partial |
| C25 | Array stack and queue operations | push/pop/shift/unshift | refinement to lists with holes | partial |
| C26 | Array slice, splice, concat, reverse, fill | slice/splice/concat/reverse/fill | refinement to lists | partial |
| C27 | JSON parse inverts JSON stringify | stringify, jsmn, Jsi_JSONParse | mutual induction on values, token stream in between | partial |
| C28 | JSON string escaping is safe | jsonNewDString and quoting | induction on bytes | proved |
| C29 | Compiled expressions compute the source value | code of expressions, machine | simulation between big-step semantics and machine steps | partial |
| C30 | Compiled statements execute as written | code of statements, machine | simulation, by induction on fuel and syntax; jump targets resolved | partial |
| C31 | finally blocks always run | try/finally code | corollaries of the simulation; refutations | partial |
| C32 | An uncaught exception keeps its value through finally | exception register | corollaries; refutations | partial |
| C33 | The operand stack is restored when an exception is caught | try list and stack | machine invariant for arbitrary code | proved |
| C34 | Safe interpreter only reaches listed directories | Jsi_InterpAccess, Jsi_Open, File commands on a file tree with links | resolution lemmas; refutations | partial |
| C35 | Lexical path normalisation | Jsi_NormalPath, NormalizeUnixPath | induction on components; refutations | partial |
| C36 | Timers never fire early | event table and clock as a transition system | invariants over all runs; refutations | partial |
| C37 | update(ms) processes events for at least ms | update loop | invariants; refutation | partial |
| C38 | Loose equality agrees with numeric equality | Jsi_ValueCmp | case analysis, rounding of the difference | partial |
| C39 | Strict equality is an equivalence | Jsi_ValueIsEqual | case analysis | partial |
| C40 | Reference counts equal the number of references | values and objects on an explicit heap with release work list | inductive invariant with pending work; reachability; refutations | partial |
| C41 | Decryption of arbitrary data is safe | jsi_btea on any buffer | bounds in every access | proved |
| C42 | Proof-of-work hashes have the requested zero bits | hashcash search | induction on attempts | proved |
| C43 | Clearing a hash table empties it | Jsi_HashClear | computation on the model | partial |
| C44 | An entry handle keeps designating its key | tree entries as handles | identity carried through SwapNodes | partial |
| C45 | Property attributes stay with their property | entry flags | same | partial |
| C46 | Tree iteration visits every entry exactly once | Jsi_TreeSearch orders | queue/stack invariants; refutations | partial |
| C47 | Only undefined and null equal null and undefined | Jsi_ValueCmp | case analysis | partial |
| C48 | Relational operators are a total order | jsiLogicLess | order of integers and of byte lists | partial |
| C49 | Strict equality of strings means same content | Jsi_ValueIsEqual | strcmp on C strings | partial |
| C50 | JSON.parse reads JSON texts | jsmn and Jsi_JSONParse | induction on concrete syntax trees | partial |
| C51 | JSON.check accepts exactly the JSON texts | jsmn in strict mode | bracket invariant of the token stack | partial |
| C52 | JSON.parse looks only at tokens it made | Jsi_JSONParse | token count invariant | partial |
| C53 | Array methods never touch memory outside the array | array methods | bounds invariant | proved |
| C54 | Array methods with callbacks and searches | callback loops and searches | induction on the index with arbitrary callback state | partial |
| C55 | C interface to arrays | C interface | refinement; refutations | partial |
| C56 | trim removes exactly the white space at the ends | trim | dropWhile characterisation | partial |
| C57 | Case conversion changes only the case of letters | case conversion | induction on characters | partial |
| C58 | String searches return the position of the first or last occurrence | indexOf, lastIndexOf, search | first/last occurrence characterised with the prefix relation | partial |
| C59 | substring and slice return the characters ECMAScript says | substring, slice | ECMAScript definition on character lists | partial |
| C60 | replace, repeat, concat and map | replace, repeat, concat, map | leftmost occurrence | partial |
| C61 | Names of options and subcommands are looked up correctly | Jsi_GetIndex | two-pass loop invariants | partial |
| C62 | Storing calls store what they say and change nothing else | heap model of C40 | frame lemma for the release of cells, then per call | proved |
| C63 | A script is split into the tokens it is written with | the lexer on a string, with its pushed back characters | scanning lemmas per kind of token in terms of the text that is left; a script minus one newline near its beginning is still a script; induction over the tokens | partial |
| C64 | Each token is read to its end | same | dispatch on the first character, then the scanning lemma; longest match for operators from a finite check of the table | partial |
| C65 | A string literal means what it says | same | induction over the elements of the literal | partial |
| C66 | The lexer is safe on any text | same | invariant on the pushed back characters (at most 3, no newline, what precedes them), decreasing size, independence of fuel | proved |
| C67 | No part of a script is ignored | same | all characters seen are characters of the text; end only when nothing is left | partial |
| C68 | Tokens are reported on the line they are on | same | invariant line + newlines left = constant, with the lost newline accounted for | partial |
| C69 | Everything below a safe interpreter is safe and has its limits | interpreters as records of options, new Interp, conf, source, edits of option arrays as steps of a world of interpreters | invariant over histories and descendants | proved |
| C70 | A safe interpreter cannot get at more files or programs by creating interpreters | same, with Jsi_InterpAccess of the Path area and exec | invariant over ordinary histories; counterexamples for the others | partial |
| C71 | Interp.conf respects fixed and locked options | Jsi_OptionsProcess over the table of interpreter options | induction on the options | proved |
| C72 | Option names may be abbreviated unambiguously | Jsi_OptionsFind over the table of interpreter options | the loop computes the list of fitting names | proved |
| C73 | Interpreters below a safe one nest to a fixed depth | as C69 | depth is one more than that of the creator, bounded by the inherited limit | proved |
| C74 | exec in a safe interpreter is confined to what the pattern allows | the check in front of the shell; the regular expression match is a parameter | case analysis; counterexample | partial |
| C75 | Scripts see objects as ECMAScript describes them | cells of values shared by properties, elements and variables; trees, array parts, prototypes, calls as frames of cells; ECMAScript as a separate specification on maps | simulation relation kept by every step; counterexamples | partial |
| C76 | Assignment and ++ change only the place they name | as C75 | the relation of C75 in the state before and after one step; counterexamples | partial |
| C77 | Array elements are found under their index and only there | as C75, index strings as strtol reads them | as C76 | partial |
| C78 | A frozen object does not change | flags of objects and of cells | every step is a sequence of small changes, invariant over these; counterexamples | partial |
| C79 | for-in visits every property once | collection of names through the prototypes, the loop with an arbitrary body given as a function of the state | induction on the names; invariants over the steps of the body; counterexamples | partial |
| C80 | in, hasOwnProperty and Object.keys tell which properties there are | OP_IN, hasOwnProperty, Jsi_ValueGetKeys on the objects of C75 | the relation of C75; counterexamples | partial |
| C81 | Property lookup through prototypes ends | as C75 | prototypes are older than the objects they are given to: invariant over all histories; counterexamples | partial |
| C82 | Variables are separate | as C75 | cells of variables are no cells of properties and all different: invariant; counterexamples | partial |
| C83 | Object.assign copies every property | as C75 | as C76 | partial |
| C84 | format prints what C's printf would | Jsi_FormatString step by step on bytes, with the 100-byte buffer for the directive and the number buffer; C printf of integers is defined in Fmt/CPrintf.lean, of doubles a parameter | induction on the pieces of the format, against a renderer that consumes arguments (Fmt/Spec.lean); counterexamples | partial |
| C85 | format never writes outside its buffers | as C84; every write is checked against the size of its buffer | invariant of the loop: the rest is a suffix of the characters; counterexamples | partial |
| C86 | format ends, and extra arguments change nothing | as C84 | the rest gets shorter in every round; the index stays below the number of arguments | proved |
| C87 | Formatted integers can be read back | as C84 | C84, and a proof that the digits read back (strtol in Fmt/Props.lean) | proved |
| C88 | Messages to another thread are carried out once each and in order | the queues of an interpreter as a machine whose steps are single statements: any number of posting threads (InterpCallCmd, InterpEvalCmd_, jsi_AliasInvoke) and the owner (SubInterpEvalCallback), with the linked list in memory, the lock, isExec and rc | invariant over all schedules (Queue/Inv.lean): the list holds what is posted and not finished; explicit schedules for the counterexamples | partial |
| C89 | A waiting thread gets the result of its own message | as C88 | the same invariant: one outstanding message per waiting thread, results in step with what was returned | partial |
| C90 | Texts sent with asynchronous eval are evaluated once each, in order | as C88, with the string interpEvalQ | invariant: the texts are split into the groups evaluated and those pending | partial |
| C91 | Threads that exchange messages are never stuck | as C88 | a measure on the owner that decreases with each statement; the holder of the lock walks along a finite list | partial |
| C92 | The web server hands out files below its root directory only | jsi_wsHttp from the URL to the name of the file, jsi_wsPathAlias, the root check of jsi_wsFileRead, on the model of Jsi_NormalPath | the location of a concatenation of paths; explicit URLs for the counterexamples | partial |
| C93 | A page with server side includes shows what it says | jsi_wsEvalSSI: the loop over directives, the stack of conditionals, includes | a tree grammar of pages with a meaning (Web/SsiSpec.lean); mutual induction over pages and the alternatives of conditionals, in continuation style | partial |
| C94 | Evaluating a page ends and uses only the page | as C93, with a fault for text behind the directive | every fault comes from a short include directive that occurs in a file, by induction over levels and steps | partial |
| C95 | A script sees the headers of a request as they were sent | the buffer of headers with its array of lengths | induction over the headers | proved |
| C96 | A parameter of a form is found by its name | the loop over the parameters | induction two steps at a time | partial |
| C97 | The password protects the pages | the check of the authorization header on top of the models of headers and base64 | the lookup theorem C95 and the round trip C01 | proved |
| C98 | A transaction of the database is all or nothing | SqliteTransactionCmd and dbTransPostCmd over a small machine for the transaction statements of SQLite; scripts as programs | simulation of an ideal semantics by induction over the script; the log of durable contents for crashes | partial |
| C99 | The cache of compiled statements changes nothing | the hash table, list, counts and use of compiled statements, on the pointer model of Jsi_List; SQLite as an arbitrary environment | an invariant of the cache (which records are cached, which in use), simulation of the cacheless meaning by induction over the script | partial |
| C100 | The cache of statements stays within its limit | as C99 | an invariant that relates stmtCacheCnt, the list and the limit | partial |
| C101 | CSV output reads back | dbOutputCsv and the loop of the mode | a reader of CSV as a state machine; induction over cells and rows | partial |
| C102 | INSERT output puts the rows back | dbOutputQuotedString, dbOutputHexBlob, the loop of the mode and the loop it falls into | a reader of INSERT statements; induction over cells and rows | partial |
| C103 | HTML output shows the rows and nothing else | dbOutputHtmlString and the loop of the mode | a reader of rows of HTML; induction | partial |
| C104 | Each parameter of a query gets the value of its variable | the loop of dbBindStmt with its variables kept between turns, and dbEvalSetColumnValue | induction over the parameters; explicit lists for the counterexamples | partial |
| C105 | The parts of a path name the path | FileDirnameCmd, FileTailCmd, FileRootnameCmd, FileExtensionCmd on byte lists, with strrchr and jsi_SubstrDup | induction over the text; location of a path from the specification of C35 | partial |
| C106 | File.remove removes nothing outside | FileRemoveCmd and RmdirAll on tables of locations with the POSIX resolution of C34; permissions, descriptors and PATH_MAX as parameters | resolution in a smaller tree agrees with that in a greater one; induction over the depth and the list of entries | partial |
| C107 | File.remove with force removes the whole tree | as C106 | induction over the depth with the invariant that the tree is the old one without the subtrees done | partial |
| C108 | File.mkdir with force makes the whole way | FileMkdirCmd and mkdir_all with the errors of mkdir | induction over the path text | partial |
| C109 | File.copy makes an equal file | FileCopyCmd and FileCopy on a disk of files with several names; short reads, writes and closes as parameters | induction over the contents; explicit disks for the counterexamples | partial |
| C110 | What File.write stores File.read returns | FileWriteCmd, FileReadCmd and their loops | induction over the contents | partial |
| C111 | Version numbers keep their meaning | jsi_GetVerFromVal and jsi_VersionNormalize on rationals with an arbitrary rounding of bounded relative error; sscanf on byte lists | error bounds by linear arithmetic | partial |
| C112 | require returns a package that is recent enough | SysRequireCmd, Jsi_PkgRequireEx; scripts as programs of provide, require, effects, throw and try | case analysis | partial |
| C113 | A provided package stays as it is | as C112, with Jsi_PkgProvideEx | induction over the depth and the script with a relation every step respects | partial |
| C114 | A package is loaded from the first place in the search order | jsi_PkgLoad, jsi_PkgLoadOne as loops | the loops equal a search in the list of places | proved |
| C115 | A package that failed to load is not taken for loaded | as C114 | case analysis; explicit package for the counterexample | partial |
| C116 | Packages that require each other load | as C114, requires nested as deep as maxIncDepth allows | induction over the depth left and the script | partial |
| C117 | Parameters get their arguments or defaults | jsi_SharedArgs and jsi_InitLocalVar over a memory of cells and array objects with names | what a step leaves alone, by induction over the parameters | proved |
| C118 | Calls are by value | as C117; assignment writes into a cell | all variables of the callee live in new cells; explicit programs for the counterexamples | partial |
| C119 | Arguments are checked before the body runs | jsi_ArgTypeCheck, jsi_RunFuncCallCheck, jsi_argInsert with the state of the checks | the row of tests equals a table of types; induction over the parameters | proved |
| C120 | A result is of the declared type | the end of jsi_FuncCallSub | case analysis | proved |
| C121 | Types shown are the types | jsi_typeName and jsi_typeGet on byte lists, jsi_FuncArgsToString per parameter | joining and splitting at bars are inverse | partial |
| C122 | call, apply and bind pass this and the arguments | Jsi_FunctionCall, Jsi_FunctionApply, bind and jsi_FuncBindCall | the array handed on holds the values | partial |
| C123 | Integer options hold the number given | the integer cases of jsi_SetOption_ and jsi_GetOption on little endian bytes; numbers as in C21 | casts are the identity exactly on the range of the type | partial |
| C124 | Setting options touches nothing else | jsi_SetOption_, Jsi_OptionsProcess, Jsi_OptionsFree over a memory; tables nest | mutual induction over values and members, with the set of places a call may touch | proved |
| C125 | Locked options stay as they are | as C124 with the flags | a place in a locked field is not among the places touched | partial |
| C126 | A refused value leaves the option as it was | jsi_SetOption_ for every type | case analysis | partial |
| C127 | A refused conf changes nothing | the loop of Jsi_OptionsProcess | splitting at the first member that fails | partial |
| C128 | Required options must be given | the required flags and the marks of options given | every mark comes from a member | partial |
| C129 | Enumerated options take and show names | jsi_ValueToEnum, jsi_EnumToValue on top of C61 | load after store | partial |
| C130 | Bit sets are changed by name | jsi_ValueToBitset, jsi_BitsetToValue bit by bit | testBit of the folded masks | partial |
| C131 | conf() can be saved and restored | Jsi_OptionsDump and Jsi_OptionsProcess | reading depends only on the field; induction over the table | partial |
| C132 | Options are found by name or unique abbreviation | Jsi_OptionsFind | induction over the table | partial |
| C133 | replace without g changes the first match only | StringReplaceCmd, one turn of the loop, templates; regexec is a parameter | case analysis over the pieces of a template | partial |
| C134 | replace with g changes every match | the loop of StringReplaceCmd; a language of regular expressions with POSIX meaning and an engine for it | induction on what is left of the string; matching in the rest is matching in the string | partial |
| C135 | A function given to replace is called for every match | as C134, with an arbitrary function on an arbitrary state | induction along the matches | partial |
| C136 | match returns the matches | jsi_RegExpMatches as called by match | induction on what is left of the string | partial |
| C137 | exec walks through the matches | RegexpExecCmd with the property lastIndex and the position shared by equal texts | one call by cases, the loop by induction over the matches | partial |
| C138 | test and search agree with the pattern | StringSearchCmd, Jsi_RegExpMatch | specification of the engine | partial |
| C139 | new RegExp compiles the text given | RegExp_constructor, Jsi_RegExpNew up to regcomp | induction over the text and the flags | partial |
| C140 | Matching stays inside the string and ends | all of these; reads outside the string are an explicit result | induction on what is left of the string | partial |
| C141 | Variables have lexical scope | the scopes of the parser, the scope chain and jsiPushVar of the interpreter, on a tree language | the parser by induction over trees; simulation of the interpreter by a big-step semantics with environments, by induction on the depth of evaluation | partial |
| C142 | Every well-formed function is accepted | jsi_FuncMake | induction over trees | partial |
| C143 | Declarations take effect on entry | the semantics with and without hoisting | simulation: the states agree but for declarations not yet reached | partial |
| C144 | Operands are read from left to right | the semantics with late and immediate reading of variables | invariant: names never assigned keep their values; pure operands change nothing | partial |
| C145 | A cap on instructions is kept | the loop of jsiEvalCodeSub and jsi_evalcode over arbitrary instructions, which are finite trees of calls | invariant over the trace; measure: instructions left | proved |
| C146 | exit cannot be caught | as C145, jsiDoThrow | invariant over the trace | proved |
| C147 | An interruption cannot be caught | as C145 with tryDepth | invariant: an interruption is pending, or everything has failed | proved |
| C148 | Calls nest to a fixed depth | as C145 | invariant: level is the depth | proved |
| C149 | The number of objects is limited | OP_NEWFCALL, Jsi_UserObjNew | induction over the attempts | partial |
| C150 | Channel.read returns the bytes of the file | fread on a file that does not change, the loop of FilesysReadCmd | induction over the turns of the loop | partial |
| C151 | Channel.gets returns the lines of the file | fgets with a buffer of 8192 bytes, strlen | induction over the lines | partial |
| C152 | Channel.write and puts change what they should | fwrite, fprintf of %s | byte by byte against a specification of overwriting; round trip with C151 | partial |
| C153 | A closed channel is harmless | object open or closed, the other methods without a check | cases; invariant over the calls | partial |
| C154 | Opening a channel tells the truth | fopen by mode and existence | cases | partial |
| C155 | seek, tell and eof agree | fseek, ftell, feof | cases | proved |
| C156 | A channel opened for reading leaves the file | all methods but open | invariant over the calls | proved |
| C157 | sort keeps the elements | jsi_ArraySortCmd with qsort as a parameter that has the properties C demands | qsort permutes; unique gives a sublist | proved |
| C158 | sort orders | SortSubCmd, Jsi_ValueCmp on binary64 numbers and bytes | the comparison is consistent, so qsort orders | partial |
| C159 | sort follows a comparison function | SortSubCmd with an arbitrary function | as C158; counterexamples by computation | partial |
| C160 | sort with unique removes duplicates | the loop of unique, on contents and on slots with reference counts | induction over the loop; counterexample by computation | partial |
| C161 | numbers survive their text | binary64 numbers as multiples of 2^-1074, %.15g and strtod with exact rounding to nearest even | error analysis over the rationals: half a unit of 53 bits is less than half a unit of 15 digits; induction over the digits for the layout | partial |
| C162 | toString(radix) and parseInt undo each other | NumberToStringCmd, parseIntCmd, strtoll | digits and their reading are inverse, by induction; counterexamples by computation | partial |
| C163 | parseInt reads whole numbers | parseIntCmd with strtoll (blanks, sign, prefix, saturation) | induction over the digits; counterexamples by computation | partial |
| C164 | isInteger, isSafeInteger, isFinite and isNaN are right | the classification functions on all binary64 numbers | case analysis; rounding is exact below 2^53 | partial |
| C165 | toFixed and toPrecision round to the nearest | %.*f with exact rounding, the buffers of 101 and 200 bytes | the rounded quotient is nearest; reading the text gives it back | partial |
| C166 | &, | and ^ work on 32 bits | common_bitwise_opr with the conversions of doubles to 64 unsigned bits | bit by bit: the upper 33 bits of the patterns are copies of the sign | partial |
| C167 | ~ and the shifts work on 32 bits | OP_BNOT, OP_SHF and jsi_ValueToOInt32 | integer division by powers of two | partial |
| C168 | ++ and -- step by one and know before from after | OP_INC and OP_DEC | sums below 2^53 are exact; counterexamples by computation | partial |
| C169 | %, Math.min, max, floor, ceil and round are exact | fmod, the loops of min and max, round, floor, ceil | division with remainder; induction over the arguments | partial |
| C170 | Date.strftime shows the date | Jsi_DatetimeFormat, DateStrftimeCmd; strftime and gmtime on the conversions used, an arbitrary zone | the calendar count is injective and gmtime inverts it (integer arithmetic); the day count is checked against counting day by day | partial |
| C171 | Date.strptime undoes Date.strftime | the same with Jsi_DatetimeParse; mktime by its contract | what each conversion writes it reads back; counterexamples by computation | partial |
| C172 | milliseconds survive | the same with %f | digits | partial |
| C173 | the usual ways to write a date are understood | the list of formats tried in turn on the same fields | follows each format to the character where it fails | partial |
| C174 | offsets and fractions in the text count | the tail of Jsi_DatetimeParse with sscanf | digits; counterexamples by computation | partial |
| C175 | reading a date is safe | the bytes that sscanf stores | what is left of the text is an end of it | partial |
| C176 | conf(path) shows what conf() shows | Jsi_OptionsGet on the tables and records of C123-C132 | the walk along the path and the dump visit the same options (induction on the path) | partial |
| C177 | an option set by its path | Jsi_OptionsSet; Jsi_OptionsProcess of C124 | induction on the path, with the frame theorem of C124 | partial |
| C178 | -I path:value | the -I branch of jsi_InterpNew, Jsi_GetBool; Jsi_GetDouble as a parameter | case analysis of the text | partial |
| C179 | the name of an object leads to it | the tables of types and objects under any history of calls | an invariant of the tables; the name is split again at its last _; numbers only grow | partial |
| C180 | the data of an object is released exactly once | the same, with the list of data released; the blocks that Jsi_UserObjUnregister touches | the invariant: data is held by one object or released once | partial |
| C181 | Info.named lists the objects | the same | the table of a type and the objects of the type are the same set (invariant) | proved |
| C182 | texts that name no object are refused | jsi_UserObjFromName with strrchr and atoi | what is found is in the table; counterexamples for every unknown type and by computation | partial |
| C183 | query results as JSON objects | the loop, the value of a column and Jsi_JSONQuote on a memory with what lies behind a blob | the output is the text of a tree of the grammar of C27, whose value is the rows; then C50 | partial |
| C184 | query results as JSON arrays | the same | the same | partial |
| C185 | query results as names and values | the same | the same | partial |
| C186 | query results by lines | the loop with its line feeds | induction over the rows; the output cut into lines; counterexample by computation | partial |
| C187 | query results in columns | the loop, widths and fields | induction over the rows; counterexamples by computation | partial |
| C188 | query results as lists | the loop of the mode list | induction over the rows; the output cut into lines and at separators | partial |
| C189 | db.import reads CSV files | the lines of the file, the lines put together while the number of quotes is odd, the columns of a record, the loop over the records | induction over the lines, the values of a record and the records; the parity of the quotes | partial |
| C190 | what db.query writes as CSV db.import reads | the same with the output of mode csv (C98) | the output shown to be the text of records (C189) | partial |
| C191 | File.glob with recurse | SubGlobsDirectory with listings as a function of the path; the counts and the list | induction over the depth and the listings: the search equals a walk of the tree cut off at the limit; the walk equals the inductive set of found paths | partial |
| C192 | File.glob in one directory | the same, and the cutting of pattern and path | the walk of depth 0 | partial |
| C193 | File.glob with a star in a directory | the same, and mid | induction over the subdirectories | partial |
| C194 | File.glob with a regular expression | the two searches of FileGlobCmd for regular expressions | the second search shown to find nothing | partial |
| C195 | types and maxDiscard of File.glob | the loop with types and maxDiscard | induction over the listing | partial |
| C196 | An alias calls its function with its own arguments and those of the call | jsi_AliasInvoke and Jsi_ValueArrayConcat over the memory of module Call | the array the function gets is shown to hold the arguments | proved |
| C197 | Each call of an alias has its own variables | the same, with the array of calls without arguments | the cells of the new array are fresh | partial |
| C198 | The aliases of an interpreter | aliasHash as a list of entries that may be NULL, and the commands | an invariant along the history: entry and command agree with the last accepted call | partial |
| C199 | Values passed between interpreters are copied | the output of JSON that is not strict, and the reader of module Json | the proofs of C27 with keys that may be names without quotes | partial |
| C200 | Info.lookup gives the value of a path | Jsi_NameLookup over an environment that gives variables, elements and subscripts | each step of the text is one step of the loop; induction over the path | partial |
| C201 | System.matchObj compares keys and types | SysMatchObjCmd on the list of keys and names of types | a text has one reading if the keys are plain; the search finds the first place of each entry, so it finds all if and only if it is a sublist | partial |
| C202 | verConvert between texts and numbers of versions | SysVerConvertCmd over the versions of module Pkg | the theorems of C111 for the numbers; the loop looks at the last two and the two bytes before | partial |
| C203 | Names of signals | find_signal_by_name with the table of Linux | the search depends on lower case letters only, then the table | partial |
| C204 | What is done on a signal | the tables signal_handling and saOld, and sigaction with signals that cannot be changed | an invariant over the list of settings | partial |
| C205 | A signal that arrives is followed by a call of its callback | the bits, the flag busy and the visits of the loop of Jsi_EventProcess as events | a set bit stays until a visit; counting | partial |
| C206 | The interactive shell evaluates a text when it is complete | jsi_StrIsBalanced, the loop of Jsi_Interactive over lines | texts as lists of tokens with a stack of brackets; the count is the height of the stack | partial |
| C207 | SQL filled in from an object | the loop over fields with its two texts and the comma; the search for %v | a fold is a list with commas; readers of quoted texts and names in brackets | partial |
| C208 | Getters and setters stand for the property | lookup along prototypes, interp->hPtrGet, assignment and ++; the functions are arbitrary | each operation is a call of the function; an invariant for scripts without setters | partial |
| C209 | isPrototypeOf | the loop along __proto__, which compares pointers to values | induction over the chain | partial |
| C210 | The line editor keeps the line | the buffer with its stores and moves, key by key, and a flag for an access outside | simulation: a relation between the buffer and a pair of texts, kept by each key | partial |
| C211 | The history of the line editor | add, limit, save, load and the keys up and down on the list of lines, newest first | induction over the lines; an invariant of the session: with the present line put back, the texts are those of the specification | partial |
| C212 | The range of Info.completions | the range, Jsi_DSAppendLen and the store of the NUL, with none for an access outside | arithmetic of the clamps and of list ranges | partial |
| C213 | Breakpoints | the hook with the state of debugOpts, and the commands on the table, as steps of a history | induction over the history; counting of enabled breakpoints with a number | partial |
| C214 | A path is found in its mount | the loop over the table of mounts | an invariant of the loop; two mounts of a path lie one in the other | partial |
| C215 | A file of a Vfs reads as its data | the operations on the position, with none for a byte outside | the position stays in the file, by induction over the operations; reads concatenate | partial |
| C216 | The directories above the files of a Vfs | the loop over the file list, with the loop that adds the directories above an entry | the table is closed under parent inside the mount; induction over the list and over the length of a path | partial |
| C217 | Listing a directory of a Vfs | the loop over the table of files | a name is listed exactly if directory, slash and name is a key; keys are not repeated; with C216 this speaks of the file list | partial |

## Notes per property (as in MANIFEST.json)

* **C01** Full statement, all byte strings; also decodes unwrapped RFC text and any line wrapping between groups.
* **C02** Full statement; includes absence of out-of-bounds reads.
* **C03** Both halves, all inputs and all starting values.
* **C04** Digest printer half proved; hexStr half is false of the code: refuted, with general failure and buffer overflow theorems.
* **C05** Full claim refuted (percent sign, plus sign); proved for all strings without those characters.
* **C06** encoder equals Lean core String.utf8EncodeChar for every Char; decoder round-trips with exact length, is in-bounds and makes progress on every nonempty byte string
* **C07** refuted as stated (C07_refuted, C07_charAt_refuted: a multi-byte first character drags extra bytes); proved for ASCII first char / range reaching the end, to-end substr, negative start, charCodeAt
* **C08** every message below 2^61 bytes, any uninitialised buffer; specification is FIPS 180-4 written out separately
* **C09** every message below 2^61 bytes; specification is FIPS 180-4
* **C10** every message below 2^61 bytes; specification is RFC 1321
* **C11** full claim refuted three ways (variant selection swapped, stale bytes in the last block of multi-block messages, 64 bytes always returned); exact behaviour characterised and FIPS 202 agreement proved when the stale bytes are zero, in particular for all messages shorter than a block
* **C12** every string and key (lengths below 2^31); plus injectivity and exact length
* **C13** refuted: texts of 2..4 bytes are not encrypted at all; what remains true (permutation) is proved
* **C14** all histories of create/set/unset on word, string and struct keyed tables, any value type; no crash, lookup, search exactly once, size; counters within int range below 805306368 operations; bucket indexes in bounds
* **C15** refuted: removing a present key crashes when the two placements differ, and after 48 keys stored keys are lost (general theorem); proved for histories without removal and with at most 47 keys; exact crash condition proved
* **C16** proved for word, interned-string and string keyed trees with any total key order, for every history; struct keyed trees refuted (deletion of a node with two children); string keyed trees, which are ordered by the dictionary comparison, refuted in general (12 finds 1,2) and proved for keys without commas and the characters between Z and a
* **C17** red-black invariant and height at most 2 log2(n+1) after every history on word, interned-string and string keyed trees (struct keyed trees do not survive deletion, see C16)
* **C18** refuted for keys whose difference does not fit an int; proved: exactly which keys are confused, and order for keys less than 2^31 apart
* **C19** Full claim refuted (reservation on empty string leaves no NUL; DSPrintf loses text with >=8192 spare bytes); proved for all other histories.
* **C20** Full claim refuted (pop of head, delete of only entry, clear); forward order proved for all valid histories but the deletion of the only entry; reverse order for histories that keep the first entry.
* **C21** Full statement over all histories, including growth and absence of undefined behaviour.
* **C22** reflexivity and antisymmetry proved for all strings; transitivity refuted (Z > a > _ > Z), zero only for equal strings refuted (1,2 and 12); on strings without commas and the characters between Z and a the comparison is proved to be exactly the dictionary order, hence total and transitive
* **C23** proved for all strings and separators without NUL bytes: split then join is the identity, join then split gives the pieces back when no piece makes the separator appear early (one-byte separators: when no piece contains it), split fills exactly the vector it allocated; refuted: overlapping separators, join without argument, holes, NUL bytes, split without argument
* **C24** proved for all texts and all patterns of literals, ?, * and plain sets and ranges: matches iff in the language, no read beyond either string; memory safety for arbitrary bytes unless the string is empty; refuted: a leading ? on the empty string reads behind it, negated sets are not negated, escapes in sets
* **C25** proved for every history on arrays within the size limit, without holes for shift, at least one argument for unshift; refuted: shift with a leading hole, unshift without arguments, push beyond the limit
* **C26** proved for every history with whole arguments in range, sizes within the limit; refuted: end beyond the length, start before the beginning, splice with an out of range start, chains of concat reaching the limit with empty arrays, splice that fails after removing
* **C27** proved for values without undefined, with basic-plane UTF-8 strings and keys that need no escape, within the depth and array limits; refuted for keys with quotes, characters beyond U+FFFF, byte strings that are not UTF-8, undefined members, and values deeper than maxDepth
* **C28** all byte strings; in addition a refutation for property keys, which are written without escapes
* **C29** the emitted code is proved to compute the structured semantics of jsish for every expression, placement, stack and state (C29_expr_code); agreement with the ECMAScript reading is proved for expressions without a side effect between a variable operand and its use and refuted in general (x + (x = 5))
* **C30** machine result iff source result (including non-termination), stack balance, no internal inconsistency, for every program whose break/continue have a destination and do not leave a for-in/switch through a finally; refuted for the others
* **C31** proved for leaving normally, by exception, break, continue, for every placement; refuted for return and for a throw statement in a catch block at the outermost level
* **C32** proved for finally blocks without try statements (and calls that handle no exceptions); refuted in general and for thrown undefined
* **C33** depth as stated, for any code whatever; in addition the contents, for programs within okS, and a refutation of the contents in general
* **C34** proved: every existing file opened (any text, links included) lies in a listed directory (or is argv[0]/the executable, for reading), the check is exact for existing files, new files in a file system without links, mkdir/remove of absolute paths without dots; refuted: File.mkdir with .., writing through a dangling link, removing a link that points inside, ~ with a different $HOME
* **C35** File.normalize: same location and idempotence proved; removal of .. refuted (never removed), // becomes empty, leading/trailing . stays; NormalizeUnixPath: clean result, no overflow, same location when every .. closes a component below the first; refuted otherwise
* **C36** transition system of the event table with arbitrary scripts, nested update calls and clocks: never early unless due on a whole second, identifiers fresh, one-shot at most once, cleared never again; no use after free when timers are cleared and update is called outside callbacks only; refuted: due on a whole second fires at once, clearing a timer in its own callback or another in the same bucket, and nested update, use freed memory
* **C37** proved: not early within the same second, never more than a second early, ends once the time is over; refuted: returns up to a second early as soon as the second changes
* **C38** refuted: a number and a numeric string at distance 1/2 or less are always ==, and infinity is not == to a string denoting it; proved for whole numbers and for distances of 1 or more
* **C39** the relation is proved to be symmetric, transitive and reflexive except on NaN, for all values; the operator with type checking (the default) is refuted: undefined === 1 is an error, 1 === undefined is false
* **C40** heap of values and objects with copy, move, replace, reset, push of variables, arrays and properties; for every history that keeps the rules (what is passed stays reachable without what is overwritten, sources of copies are counted): counts equal references, nothing referenced is freed, the unreferenced is freed, calls are safe and end, no leak without a cycle; refuted without the rules: copy of an uncounted value, overwriting by an own element, copy over a cycle, cycles leak
* **C41** every byte string and key
* **C42** every hash function, message, strength up to the digest size; instance for SHA-256
* **C43** refuted: the size is not reset; what holds (nothing found, nothing visited) is proved for tables that were never rebuilt
* **C44** proved for string keyed trees; refuted for word and interned-string keys (deletion swaps key and value between nodes)
* **C45** proved for string keyed trees; refuted for word and interned-string keys, the kind used for object properties (flags are not swapped with key and value)
* **C46** in order and post order proved for all trees; pre order refuted (never ends); level order proved below 199 entries and refuted beyond (NULL dereference)
* **C47** refuted: every object that is not a wrapper is == null and == undefined, null == 0, null == false; exact characterisation of == undefined proved
* **C48** proved for numbers and for strings without NUL bytes; refuted for a number and a numeric string (10 < "9")
* **C49** proved for strings without NUL bytes; refuted for others (what follows a NUL is not compared)
* **C50** proved for texts without solidus escapes, surrogate pairs and escaped keys, within the array limit; each exclusion refuted, and true/false/null followed by white space refuted; in any text a repeated member keeps its last value and each key appears once
* **C51** completeness proved for arrays, objects and strings; refuted for scalars; soundness refuted; what holds: in an accepted text the brackets outside strings and words match
* **C52** refuted: an object with an odd number of children makes the reader run one token past the end, and a lone comma without strict mode has no token; proved for every text in which objects have an even number of children
* **C53** all histories of the twelve operations, any size limit; callbacks see C54
* **C54** proved for callbacks that leave the array and its elements alone (any state, any results): calls made, their order, result, for every array with holes; every needs an element, reduce without initial value no leading hole, indexOf a start not before the array, lastIndexOf no start, flat depth 1-1000 and no undefined; each exclusion refuted; refuted: find with a callback that pops (NULL dereference), callbacks that assign to their parameter change the array, filter shares elements, forEach visits appended elements
* **C55** push, pop (last element not a hole) and shift (room behind the last element) proved; refuted: shift on a full vector writes outside it, push at the limit too, unshift drops the wrong element, shift leaves a stale cell
* **C56** proved for all byte strings and all ASCII character sets; refuted for character sets beyond ASCII (bytes of a character are removed)
* **C57** proved for all texts whose last character is ASCII; refuted: a last character beyond ASCII is lost (for every text), letters beyond ASCII keep their case
* **C58** proved for all strings without NUL: first occurrence (byte offset), found in a text exactly when it occurs as characters, last occurrence without start; refuted: offsets count bytes, lastIndexOf searches from the start upwards, empty substrings at the end
* **C59** proved: one argument, end at or beyond the end, slice from 0; refuted for all ASCII texts: substring includes the end, slice takes the end as a length, slice beyond the end gives the last character, swapped and negative arguments of substring
* **C60** replace with a string, repeat of non-empty strings, concat, map (leftmost, first pair) proved; refuted: function gets the whole string, repeat of the empty string, NUL in concat, empty source in map
* **C61** proved for all tables and words: unique words accepted in all modes, exact mode exactly right, answers sound; refuted: messages duplicate/unknown swapped in exact mode, full name rejected after a longer entry
* **C62** on the heap model of C40, for every call that returns, without any rules for the caller
* **C63** proved for all sequences of tokens whose neighbours stay apart when a newline between them is lost, names and numbers below 1020 characters, regular expressions below 8000 and only where jsish allows them; refuted: a newline behind a sign is lost (names are glued together, a newline at the beginning of a string vanishes, an empty // comment swallows the next line), 0e5, 0x1E-2, regular expression behind return, form feed, names of 1020 characters
* **C64** proved for all tokens of the grammar of C63 in front of any text; regular expressions at the beginning of the script only
* **C65** proved for all literals of plain bytes other than 0xFF, the escapes jsish knows and \u except surrogates; quoting round trip for all byte strings without 0xFF; refuted: 0xFF, line continuation, \x, \v, surrogate pairs
* **C66** all texts; strtod and the compilation of regular expressions are parameters
* **C67** proved for ASCII texts; refuted: a byte from 0x80 on outside strings and comments ends the script silently, the byte 0x80 is skipped
* **C68** for the texts of C63: exact if a space or tab follows each token, never too small otherwise; refuted without the space
* **C69** all histories; /etc/jsish.conf, if present, is assumed well formed and silent on these options; threads and privKeys outside the model; for the other locked options (noAutoLoad, noCheck, noError, noInput, maxDumpStack, maxDumpArgs, historyFile) inheritance is refuted
* **C70** proved for histories without the lockDown option, without changes to the arrays Interp.conf gives out and with Interp.source only where safeMode is off; refuted: new Interp({lockDown:dir}), sub.source, the first Interp.source, Interp.conf("safeReadDirs").push, Interp.conf({lockDown:"."}) followed by exec, load in a locked down interpreter
* **C71** the parsers of custom options (enumerations, bit sets, sub-options) are a parameter
* **C72** for all strings and the actual table of options
* **C73** as C69
* **C74** proved: nothing without pattern or lockDown, what is run matches and has none of the eight characters; refuted: a newline starts a second command
* **C75** proved for all histories of two kinds: sharing by assign/merge/create/filter without changes in place, or changes in place, own ++ and calls without sharing; refuted in general
* **C76** proved for the histories of C75; refuted after Object.assign, merge, Object.create with properties, filter, Object.values and for ++ of an inherited property
* **C77** proved for all arrays, positions and histories of the second kind of C75; refuted: string indices are written elsewhere, 1abc/01/0x1/1.5 alias elements, delete of an element, length
* **C78** proved for plain objects: keys unless something is unfrozen; values unless Object.values or apply is used; refuted: arrays, Object.values, unfreezing an object that shares values, the flag travels with a value read
* **C79** what the variable holds when a body begins: proved without callbacks and apply; each name and position at most once and in order: proved for all states and bodies; ends, reaches every name: proved without setPrototypeOf (and delete in the body); the names are the readable properties: proved after the histories of C75; refuted: order of insertion, named properties of arrays, prototype circles
* **C80** proved after the histories of C75: hasOwnProperty for ordinary keys, in for own properties and positions, Object.keys of arrays and of objects that inherit nothing; refuted: in and inherited properties, in and named properties of arrays, own property this, Object.keys lists inherited properties
* **C81** proved for all histories without setPrototypeOf; refuted: setPrototypeOf makes cycles, an empty object is not taken as prototype
* **C82** proved for all histories without callbacks of array methods and apply; refuted for these
* **C83** proved for the first kind of histories of C75; refuted: values that came through a parameter, arrays as sources
* **C84** proved for all formats made of characters and directives with at most 70 flags, widths and precisions to 10^9; refuted: zero and minus flags together on strings, precision of q, S with NUL, width counted in bytes, c above 127; the text of integers is a model of C printf (CPrintf.lean), that of floating point numbers a parameter
* **C85** proved for formats with at most 53 flags and 9 digits in a row and stars to 10^9; refuted: long runs of flags, sizes beyond int
* **C86** for all byte strings and all arguments
* **C87** for widths and precisions up to 10^9, on the model of C printf in CPrintf.lean
* **C88** proved for all schedules without nested callbacks, failing locks and deletion of the interpreter; with a nested callback or a failing lock a message is carried out twice and freed memory is used (refuted)
* **C89** proved for all schedules without nested callbacks, failing locks and deletion of the interpreter; deleting the interpreter frees what the waiting thread reads (refuted)
* **C90** proved for all schedules without nested callbacks, failing locks and deletion of the interpreter; refuted: an asynchronous text overtakes an earlier call of the same thread; a comment at the end of a text hides the next text
* **C91** proved for all schedules without nested callbacks, failing locks and deletion of the interpreter; that every call ends is proved as possibility from every state, not for every fair schedule
* **C92** proved for URLs without a name ".." (lexically, no symbolic links), a urlPrefix that ends at the end of a name, absolute or relative roots; refuted: ".." is kept; urlPrefix "/a" and "/a../x"; urlPrefix "/a/" with an alias and "/a/lib/x../y"; the root check of included files compares characters, so "/srv/www" admits "/srv/www2"
* **C93** proved for well formed pages without #echo and #set in left out parts and with conditions that have a truth value; refuted: #echo and #set act in parts that are left out, conditions there can end the page, #elif behind #else shows two parts, the mark @ has no effect behind the part that is shown
* **C94** proved unless a file has one of four misspelt include directives; refuted for those
* **C95** names and looked-up names without "="; the array for 100 headers is not bounded by the code and not bounded in the model
* **C96** proved for parameters at even places; refuted: the second parameter is never found by its name
* **C97** for useridPass without onAuth, GET requests; POST requests return before the check and are not modelled
* **C98** proved for scripts that do not use BEGIN, COMMIT, ROLLBACK, savepoints or OR ROLLBACK themselves, on the documented meaning of SQLite; refuted: inside a BEGIN of the script the call ends the script's own transaction; a statement with OR ROLLBACK caught inside makes the rest durable although the call fails
* **C99** proved for scripts that do not change stmtCacheMax, without bindWarn; the two ways to crash are part of the statement; refuted: the text of a running query inside its callback, blanks or a comment behind the last statement, and a smaller stmtCacheMax inside a callback crash; with bindWarn a parameter without a value keeps that of an earlier query
* **C100** proved for queries one after another; refuted for queries inside others and after db.conf
* **C101** proved for separators of one byte and names of columns that need no quotes, text without NUL; refuted: separators of two bytes, names with a separator; NULL is written as an empty text
* **C102** proved where the same columns are NULL in all rows, and no limit cuts; refuted: a column NULL in the first row is NULL in all, a NULL in a later row becomes an empty text, a limit adds a row in another format, quotes in the table name
* **C103** proved for all results; text is cut at NUL, NULL is shown as an empty text; rows of headers: only that no name can be markup
* **C104** proved where none or all of the parameters name a type, without casts; refuted: a type stays in force for later parameters, a cast changes the script's variable, type bool refuses true, text with NUL comes back cut
* **C105** proved for every path but "..": dirname("..") is "..", one level too high
* **C106** proved for every path that does not begin with "~", with any links, permissions, listing orders, descriptors and lengths of paths; refuted for "~/d" if there is a directory called "~"
* **C107** proved where everything is permitted, the paths fit in PATH_MAX, the path does not go through the tree itself nor end in "." or "..", and there are descriptors for the depth; refuted: success although nothing, or not all, was removed ("~/d", no permission, no descriptors, "d/."), the root is protected as "/" but not as "//"
* **C108** proved for every path that does not begin with "~"; that the call succeeds is proved for paths without "." and ".."; refuted for "~": checked in the home directory, made in the working directory; a call that fails can leave new directories
* **C109** proved where nothing fails; refuted: onto a second name of the source in a directory where nothing may be removed the contents are lost; read errors and errors of closing are not noticed, a failed copy has removed the old destination, a copy onto itself loses the permissions
* **C110** proved where nothing fails, and with short writes; refuted: an error of closing is not noticed
* **C111** proved for texts with one to three parts below 100, for any rounding with relative error 2^-50, and for numbers up to 99.9999; refuted: "1.2.3.4.5" and "2..9" are accepted, 4294967297 is taken for 1, 99.99999 is shown as 100.0.0, which is refused
* **C112** proved for require(name) and require(name, version); refuted: with a third argument, or with noError set, the version is not compared
* **C113** proved for every session; refuted: a second provide by the same file with another version is accepted and ignored
* **C114** for the main interpreter and absolute directories
* **C115** proved for the first require, and that a file which provides last and does not require or catch is not taken for loaded; refuted: if the file throws after provide the second require returns the package
* **C116** depth and end proved for every session; once proved if every file begins with provide; refuted otherwise: packages that provide themselves last are evaluated until the limit is reached and then fail
* **C117** for functions of the language, called by any means; parameters and local variables with different names (else the parser refuses, unless noCheck)
* **C118** proved for direct calls and call; refuted: apply shares the cells of the array with the parameters, and all calls with the same array share one scope; bound arguments and the elements forEach passes are shared too
* **C119** for functions of the language; refuted beside it: the documentation says untyped functions are unchecked and that checking ends at typeWarnMax
* **C120** for functions of the language, with checking on when the body returns
* **C121** proved for every set of types and every parameter but those with default void; refuted for void, which is shown as undefined
* **C122** proved for call, apply and bound functions that are called directly; refuted: a bound function that is called by apply, forEach or a timer before it was ever called directly throws "bind failure"
* **C123** proved for whole numbers and all types of up to 32 bits, and for signed 64 bits in range; refuted: fractions are cut off silently, unsigned 64 bit options take -1 and show 2^64, 64 bit options turn NaN and huge numbers into -2^63
* **C124** for all types modelled and all depths; options of a table must not overlap and string buffers must have room for their end
* **C125** proved for the options of the table, and at every depth when no value is null; refuted: conf({subOpts:null}) resets the locked options of the group, among them the list of packages that may not be loaded
* **C126** proved for all types but floating numbers and groups; refuted: NaN is refused after it has been stored; increment of a bool is refused after it has been set
* **C127** proved: the members before the one refused stay set, those after it are not looked at; refuted as stated
* **C128** proved for objects; refuted: null in place of the object is accepted
* **C129** proved for lists that fit in the field; refuted: a negative value is shown as the first name. ENUM_SPEC is not modelled
* **C130** proved for 32 bit fields (the size used by all tables of the program): strings, arrays, reading; objects only for lists of at most eight names: refuted for longer ones (traceCall "before", log "parse"); null inside a group that is reset follows a null pointer; narrower fields show bits of the next field
* **C131** proved for tables of open options without bit sets and groups, with values that can be written; refuted for bit sets (an array only adds) and for tables with a read-only option
* **C132** proved: unique beginnings, full names with at most one longer name before them, unknown and ambiguous words; refuted: a full name after two longer ones is ambiguous
* **C133** proved for every engine, string and template without NUL whose last byte is not a lone $; refuted for that: a NUL byte is added
* **C134** proved for expressions that match no empty text, without ^ under flag m, up to ten million bytes, templates without $`; refuted: empty matches end the replacing, ^ with flag m behind a match, $` is only the text since the last match, more than 10000001 matches fail. The expressions of Lang.lean have no groups; C134_replace_each is about every engine, with groups
* **C135** as C134; refuted: no call for an empty match
* **C136** g: proved for expressions as in C134; without g: proved when all groups took part, none is empty at the beginning and none has the extent of the one before; refuted otherwise: [] for an empty match, groups left out
* **C137** proved for expressions without groups and without ^ that match no empty text; refuted: ^ matches wherever the search goes on, an empty match is found forever, groups make exec return several matches and spoil lastIndex, a negative lastIndex reads before the string, objects made from the same text share the position
* **C138** proved for all expressions and strings without NUL, with the index in bytes; refuted: characters
* **C139** proved for all texts but the empty one and flags without a slash; refuted for those
* **C140** proved for replace and match, and exec with a lastIndex that is not negative; refuted for a negative one (C137_negative_index_refuted)
* **C141** proved for programs whose functions are written with the word function and without a name of their own in expressions, or are arrow functions with parameters and no declarations, nested less than 4096 deep; refuted for the others: arrow functions with declarations or with (), getters, setters, named function expressions
* **C142** proved for the same programs, if no parameter is declared again in the body; refuted for that and for setters
* **C143** proved for programs in which var x; comes first and function statements next; refuted in general
* **C144** proved for programs in which a variable used as an operand cannot be changed by the operands behind it; refuted in general
* **C145** each interpreter has its own count: what its sub-interpreters execute is not counted (C69, C73 limit those)
* **C146** 
* **C147** under the condition on native functions in the statement; the example deaf shows what happens without it
* **C148** 
* **C149** proved for N+1; refuted for N: one more object than the limit is made
* **C150** proved for contents and sizes below 2^31; refuted for read(0), which returns the next 8192 bytes
* **C151** proved for lines of at most 8190 bytes without NUL; refuted for a line of 8191 bytes and for a line with NUL
* **C152** write proved; lines for at most 8190 bytes without NUL; refuted: puts cuts its argument at NUL
* **C153** proved for read, gets, write, puts, close; refuted for seek, tell, eof, truncate, flush: they use memory that has been freed
* **C154** the constructor and successful open proved; refuted: open returns true if the file cannot be opened
* **C155** 
* **C156** 
* **C157** for every qsort that keeps the elements, as glibc's does also for inconsistent comparisons
* **C158** proved for arrays of numbers without NaN, of strings without NUL, of whole numbers below 2^30 mixed with truth values, for dict of plain strings (C22); refuted for arrays with undefined, for missing elements (they come first) and for strings with NUL
* **C159** proved for whole numbers below 2^31; refuted for fractions ((a,b)=>a-b leaves 1.5 before 1.25), for large numbers, and for exceptions (ignored)
* **C160** proved for the contents of arrays of numbers; refuted: missing elements stay, and the next push frees a value that is in the array
* **C161** proved for whole numbers below 2^63, for NaN and the infinities, and for every number written with at most 15 significant digits in the normal range (binary rounding against decimal rounding, any exponent); refuted for numbers that need 16 or 17 digits (0.1+0.2) and for subnormal numbers (text "undefined")
* **C162** proved for 0 to 2^53 in base 8, 10, 16 and for negative numbers in base 10; refuted for negative numbers in base 8 and 16, for all other bases and for fractions with base 10
* **C163** proved with a base: blanks, sign, digits, value up to 2^53; without a base for digits that begin with 1 to 9; refuted without a base for a sign, a blank or a leading 0, with a base for texts without digits, and for numbers from 2^63 on (the result is negative)
* **C164** proved for isNaN, isFinite, isSafeInteger, and isInteger below 2^63; refuted for isInteger(2^70)
* **C165** proved for toFixed when the text has at most 100 characters; refuted for larger numbers and for toPrecision
* **C166** proved for & unless both operands are negative, for | when none is, for ^ when the signs agree, in the range of 32 bits; refuted otherwise: the work is done on 64 unsigned bits, -1|0 is 2^64 and 2^31|0 stays 2^31
* **C167** proved for operands in the range of 32 bits and whole counts up to 2^53; refuted outside: 4294967295>>>0 is 2147483648
* **C168** proved for whole numbers below 2^53; refuted for x++ on 0.1 and 2^53, whose value is (x+1)-1
* **C169** proved for % by a number that is not 0, min and max without NaN, floor, ceil, and round except negative halves; refuted for min and max with NaN (depends on the order), Math.round(-2.5), and Math.pow, whose overflow is NaN
* **C170** proved for years 1000 to 9999 in every time zone; refuted for times before 1970 that have a fraction of a second (cut towards 1970) and for an empty format, which drops the seconds with utc
* **C171** proved for years 1000 to 9999 with and without utc, for every time zone whose clocks show the time once; refuted for the second before 1970 (taken for an error of mktime) and, with utc, for times that the local clocks skip
* **C172** proved from 1970 on; refuted before 1970 (".-001") and for the format %FT%T.%f, which shows but does not read
* **C173** proved for the five forms; refuted for times of day alone, for dates that do not exist and texts with something behind, and for an empty format (seconds lost)
* **C174** proved with utc for offsets +-HH:MM and fractions of three digits; refuted without utc and for other fractions
* **C175** proved for texts without three signs side by side; refuted for others: sscanf("%[+-]") overruns ss[3]
* **C176** proved for all options and sub-options; refuted for a member of an object that is the value of an option
* **C177** proved for options that are open; refuted for read-only options, which the path sets and the object does not
* **C178** proved for names up to 49 bytes and, with =, for values without a colon; refuted for values with a colon behind = and for file names that are beginnings of true or false
* **C179** proved for up to 2^31-1 objects of a type, where the counter overflows
* **C180** proved for all histories of register, new, release and deletion; refuted for the withdrawal of a type before the end of the interpreter (use after free, double free)
* **C181** all histories
* **C182** proved that what is found exists and has that type and number; refuted: a text with an unknown type follows a null pointer, and texts with junk, blanks or a number that is too large are accepted
* **C183** proved for UTF-8 texts without NUL up to U+FFFF, whole numbers, NULL and printable blobs, and JSON.parse back for plain column names; floating point numbers are not modelled; refuted: blobs with letters beyond ASCII are followed by memory behind them, other column names do not come back, U+1F600 becomes U+F600
* **C184** as C183, with JSON.parse back for all names; refuted for results without rows, where the names are missing
* **C185** as C184; refuted for results without rows: the empty string
* **C186** proved for queries with one column; refuted for more columns: the first row is on one line
* **C187** proved for the rows; refuted for the names: written without headers too, run together if as wide as their columns, and letters are cut in two
* **C188** proved for separators of one character and values without it and without line feeds; refuted for values with the separator, which are not quoted, and for results without rows, where the names are missing
* **C189** proved for files whose records have the right number of values, the last of them not quoted, for files read without csv, and for records without quotes that have a wrong number of values; for any file every row has the right number of columns; refuted for quoted last values (nothing of the file is imported, or, with a quote inside, the reading goes on behind the line), for records with too many values (written behind the array) and for a quote that is not closed (the file is closed twice, what was read stays). Not modelled: the options headers and limit, errors of SQL constraints, a transaction that is open already
* **C190** proved when the last column has only texts that need no quotes; refuted for a last value with a blank
* **C191** proved without types d, noTypes and tails, with maxDepth at most maxIncDepth. Not modelled: retInfo, directories that begin with ~, callbacks with effects, paths longer than PATH_MAX, maxArrayList reached with limit below 0
* **C192** proved when dir is given, is not / and has no star; refuted without dir (a name as long as the path of the current directory is cut by its length: in /tmp hello.c becomes o.c) and for dir / (. is listed instead, the first letter is cut)
* **C193** proved when dir is given, every subdirectory can be read and there is no limit; refuted: the limit is not looked at between the subdirectories; without dir the subdirectories are looked for under /, which is an error
* **C194** proved for a dir that is a single name and matches nothing in it; refuted: for dir x/y a second search with dir as the pattern fails; with recurse a dir with a slash is always an error; without dir memory is read that is no longer the program's
* **C195** proved for types and noTypes without recurse, and that after maxDiscard refusals the next file accepted is the last; refuted: with recurse and types d the pattern is ignored and the directories are not searched; noTypes leaves no directory and no link; maxDiscard is not looked at when something is discarded
* **C196** in one thread; the copy of the arguments is a parameter (C199)
* **C197** proved for alias calls with at least one argument, and that a call without arguments starts with fresh parameters; refuted: calls without arguments share one array, which holds their variables; without arguments the array given with the alias is used itself
* **C198** calls, function and arguments proved for every history; the list, and the answers for other names, if no call was refused; deletion for aliases made by another interpreter. Refuted: a refused call leaves a name without an alias; the command of an alias an interpreter gave itself stays when it is deleted, and calling it reads through a NULL pointer. Names with a dot and threads are not modelled
* **C199** proved for scalars, strings without a NUL, and arrays and objects of such values without undefined, with keys that need no escape; refuted: strings are cut at a NUL, undefined in an array (as arguments are) becomes null, characters beyond U+FFFF become others
* **C200** proved for paths of at most 1000 steps with names and keys without special characters and numbers in the brackets of arrays; refuted: o[1] looks for a variable 1 if o is not an array; after 1000 steps the value of the part before is given; an index is cut to 32 bits; escapes in quoted keys are not undone. Variables and subscripts are parameters
* **C201** proved for keys without signs of the format and types that exist. Refuted: matchObj(o, s, true) is an error, as the fourth argument is read if the third is there; without arguments noerror is not set; a space at the end of s makes it read and write behind the text; with partial the types need only begin alike; keys with commas and colons. The flags are booleans or missing
* **C202** proved for every rounding of doubles; refuted: verConvert(n, 2) of a version a.0.c with c from 1 to 9 is "a". Numbers are not negative
* **C203** proved; refuted: "-SIGINT" is unknown, "SIGCHLD" too, "9x" is 9 and "nown signal" 16
* **C204** proved for every signal the system lets a process change; refuted: SIGKILL is listed as handled though it is not; after an error the names before the unknown one are set. Other users of sigaction in the process are not modelled
* **C205** that there are not more calls than arrivals is proved for every history; that there is a call if the signal has one callback, events are not processed inside it and bits are cleared at once. Refuted: of two callbacks one is called; an arrival while the callback runs is lost when events are processed in it; another signal that arrives while a bit is cleared is lost. Signals that arrive several times before events are processed count once
* **C206** proved for texts in whose strings there are no brackets and no other quotes: they are complete if and only if no bracket and no string is open, and lines that are complete with the last are evaluated once, joined by spaces, when it is there. Refuted: brackets and quotes in strings count, so f("it's") is never complete; lines are joined with spaces, so // makes all that follow a comment; without readline the backslash does not take lines back. onEval and history files are not modelled
* **C207** proved for every object and every query whose first word is one of the three and that has a %v; read back for names without ] and texts without a quote. Refuted: a quote in a text is not doubled, so a value can end the statement; a space before the first word, REPLACE and %v after a newline; noDefaults does nothing; errors are not given to the caller of query; with no field the text is not SQL; with defaultNull a text has no type. Numbers are given as %g prints them (six digits)
* **C208** reads and assignments of own accessors, and of properties without, are proved for all functions; ++ calls the setter with the number, and changes only its property in every history of a script without setters. Refuted: after a read of a property with both, ++ on any property of any object calls that setter; the setter is called by ++ with a wrong this; a getter of a prototype gets the prototype as this, its setter is never called; the exception of a getter is lost
* **C209** an object of the chain that has a prototype itself is found, for chains that end; true is right when no other object has the same prototype value and v is not a. Refuted: any two objects with the same prototype are prototypes of each other and of themselves ({}.isPrototypeOf({})); Object.prototype is never found. Chains with a cycle do not end (see C81)
* **C210** proved for bytes, left, right, Home, End, Delete, Backspace, Ctrl-W, Ctrl-T, Ctrl-U and Ctrl-K, with a buffer of any size; a text that fits and is typed is the line. Refuted as a claim about characters: keys work on bytes (Backspace after é leaves half of it), and a key that does not fit is dropped. Not modelled: drawing, completion, the keys of the history, Ctrl-C, escapes that are not known
* **C211** the history is exact for all lines and limits; save and load for plain lines shorter than 4095 bytes; the walk and Enter for lines shorter than the buffer, a history that is not full and whose newest line is not empty. Refuted: an older line that is edited and left is changed in the history; a line that fills the buffer loses its last byte when one looks at the history; with a full history any Enter forgets the oldest line; a line of 4095 bytes loads as itself and an empty one
* **C212** proved without a range, with start <= end inside the text, and with no end or one outside. Refuted: if end + 1 < start the rest of the text is copied and a byte before the copy is written (a store outside the buffer, from a script); for the empty text any start reads the byte before it. Numbers beyond an int are not modelled
* **C213** hits, temporary breakpoints, numbers, and no stop elsewhere are proved for all histories; the stop is proved unless the line is the one the debugger was last told of. Refuted: who stopped at a line by stepping, sets a breakpoint there and continues, is never stopped there again though the line is done any number of times, other lines between. Stops for errors and signals, and a callback that fails, are not modelled
* **C214** exact for having a mount; the mount itself if no mount lies in another. Refuted: a mount inside another is never found, the outermost one is taken, so its files do not exist
* **C215** proved when the size the file was listed with is not more than its data. Refuted: with a larger size (which a script gives) memory behind the data is read; a seek from the present position goes the other way. getc and gets give the next byte and line in order, but at the end getc gives 0
* **C216** exact if the list is accepted. Refuted: a directory listed after a file in it makes the whole mount fail as a duplicate file, though before the file it is accepted. Size, data and type of an entry are not in this part of the model
* **C217** exact for every accepted file list. Refuted: names of 256 bytes and more are cut to 255, so two can be listed as one name twice. Missing: the type of an entry; the filter and order of the caller

## Axioms per theorem

K = none, P = propext, Q = Quot.sound, C = Classical.choice.

* **C01**: `Base64.C01_base64_decode_any_wrapping` (PCQ), `Base64.C01_base64_roundtrip` (PCQ), `Base64.C01_base64_decode_rfc4648` (PCQ)
* **C02**: `Base64.C02_base64_encode_is_rfc4648` (PCQ)
* **C03**: `Crc.C03_crc32_is_bit_serial` (PQ), `Crc.C03_crc32_incremental` (PCQ)
* **C04**: `Hex.C04_digest_hex_partial` (PCQ), `Hex.C04_hexStr_refuted` (PCQ), `Hex.C04_hexStr_never_decodes` (PQ), `Hex.C04_hexStr_decode_overflows` (PQ)
* **C05**: `Uri.C05_component_refuted` (PCQ), `Uri.C05_uri_refuted` (PCQ), `Uri.C05_component_roundtrip_partial` (PCQ), `Uri.C05_uri_roundtrip_partial` (PCQ), `Uri.C05_component_no_reserved` (PCQ), `Uri.C05_decode_escape` (PCQ)
* **C06**: `Utf8.C06_encode_is_utf8` (PCQ), `Utf8.C06_decode_encode` (PCQ), `Utf8.C06_decode_safe` (PCQ)
* **C07**: `Utf8.C07_refuted` (PQ), `Utf8.C07_charAt_refuted` (PQ), `Utf8.C07_substr_partial` (PCQ), `Utf8.C07_substr_to_end` (PCQ), `Utf8.C07_substr_from_end` (PCQ), `Utf8.C07_charCodeAt` (PCQ), `Utf8.C07_empty_negative_hangs` (PQ)
* **C08**: `Crypto.Sha256.C08_sha256_is_fips180` (PCQ), `Crypto.Sha256.C08_chunking` (PQ), `Crypto.Sha256.C08_length` (PQ)
* **C09**: `Crypto.Sha1.C09_sha1_is_fips180` (PCQ), `Crypto.Sha1.C09_chunking` (PQ)
* **C10**: `Crypto.Md5.C10_md5_is_rfc1321` (PCQ), `Crypto.Md5.C10_chunking` (PCQ)
* **C11**: `Crypto.Sha3.C11_exact` (PCQ), `Crypto.Sha3.C11_sha3_partial` (PCQ), `Crypto.Sha3.C11_single_block` (PCQ), `Crypto.Sha3.C11_sha3_224_partial` (PCQ), `Crypto.Sha3.C11_variant_swap` (PCQ), `Crypto.Sha3.C11_variant_refuted` (PCQ), `Crypto.Sha3.C11_uninitialised_refuted` (PCQ), `Crypto.Sha3.C11_multiblock_refuted` (PCQ)
* **C12**: `Crypto.Encrypt.C12_decrypt_encrypt` (PCQ), `Crypto.Encrypt.C12_injective` (PCQ), `Crypto.Encrypt.C12_length` (PQ)
* **C13**: `Crypto.Encrypt.C13_short_plaintext_leaks` (PQ), `Crypto.Encrypt.C13_refuted` (PQ), `Crypto.Encrypt.C13_pad_in_clear` (PQ), `Crypto.Encrypt.C13_permutation_partial` (PQ)
* **C14**: `Hash.C14_map_word` (PCQ), `Hash.C14_map_string` (PCQ), `Hash.C14_map_struct` (PCQ), `Hash.C14_unset_result` (PCQ), `Hash.C14_no_overflow` (PQ), `Hash.C14_in_bounds` (PCQ)
* **C15**: `Hash.C15_unset_refuted` (P), `Hash.C15_map_partial` (PCQ), `Hash.C15_unset_crash_partial` (PCQ), `Hash.C15_rebuild_loses` (PCQ), `Hash.C15_lookup_refuted` (PCQ)
* **C16**: `Tree.C16_objects` (PCQ), `Tree.C16_struct_refuted` (PQ), `Tree.C16_map` (PCQ), `Tree.C16_unset_result` (PCQ), `Dict.C16_string_refuted` (PCQ), `Dict.C16_string_plain_partial` (PCQ)
* **C17**: `Tree.C17_redblack` (PCQ), `Tree.C17_height` (PCQ)
* **C18**: `Tree.C18_equal_iff_partial` (PCQ), `Tree.C18_refuted` (PQ), `Tree.C18_small_partial` (PCQ)
* **C19**: `DString.C19_setlength_refuted` (K), `DString.C19_printf_lost` (PQ), `DString.C19_refuted` (P), `DString.C19_dstring_is_sequence_partial` (PCQ)
* **C20**: `LList.C20_pop_head_refuted` (PQ), `LList.C20_delete_only_entry_uaf` (P), `LList.C20_reverse_after_delete_uaf` (P), `LList.C20_clear_uaf` (P), `LList.C20_list_forward_partial` (PCQ), `LList.C20_list_backward_partial` (PCQ)
* **C21**: `Stack.C21_stack_is_sequence` (PQ)
* **C22**: `Dict.C22_antisymmetric` (PCQ), `Dict.C22_reflexive` (PCQ), `Dict.C22_zero_refuted` (PCQ), `Dict.C22_transitive_refuted` (PCQ), `Dict.C22_is_dictionary_order_partial` (PCQ), `Dict.C22_transitive_partial` (PCQ), `Dict.C22_zero_partial` (PCQ)
* **C23**: `Str.C23_join_partial` (PQ), `Str.C23_split_join` (PQ), `Str.C23_join_split` (PQ), `Str.C23_join_split_char` (PQ), `Str.C23_overlap_refuted` (PQ), `Str.C23_join_default_refuted` (PQ), `Str.C23_join_hole_refuted` (PCQ), `Str.C23_nul_refuted` (PQ), `Str.C23_split_omitted_refuted` (PCQ), `Str.C23_split_null` (PQ), `Str.C23_split_bytes` (PQ)
* **C24**: `Glob.C24_glob_partial` (PCQ), `Glob.C24_overrun_refuted` (PQ), `Glob.C24_negation_refuted` (PCQ), `Glob.C24_set_escape_refuted` (PQ), `Glob.C24_safe_partial` (PQ)
* **C25**: `Array.C25_history_partial` (PCQ), `Array.C25_push_partial` (PCQ), `Array.C25_pop` (PCQ), `Array.C25_shift_partial` (PCQ), `Array.C25_unshift_partial` (PCQ), `Array.C25_shift_hole_refuted` (PQ), `Array.C25_unshift_none_refuted` (P), `Array.C25_push_limit_refuted` (PCQ)
* **C26**: `Array.C26_slice_partial` (PCQ), `Array.C26_slice_to_end` (PCQ), `Array.C26_splice_partial` (PCQ), `Array.C26_concat_partial` (PCQ), `Array.C26_reverse` (PCQ), `Array.C26_fill_partial` (PCQ), `Array.C26_end_refuted` (P), `Array.C26_far_start_refuted` (PQ), `Array.C26_far_start_js` (PQ), `Array.C26_splice_refuted` (P), `Array.C26_concat_chain_refuted` (PQ), `Array.C26_concat_chain_js` (PQ), `Array.C26_splice_error_refuted` (P)
* **C27**: `Json.C27_round_trip_partial` (PCQ), `Json.C27_output_is_json` (PCQ), `Json.C27_key_refuted` (PCQ), `Json.C27_emoji_refuted` (PCQ), `Json.C27_bytes_refuted` (PCQ), `Json.C27_undefined_refuted` (PCQ), `Json.C27_depth_refuted` (PCQ)
* **C28**: `Json.C28_printable` (PCQ), `Json.C28_ends_at_quote` (PCQ), `Json.C28_no_bare_quote` (PCQ), `Json.C28_keys_refuted` (PCQ)
* **C29**: `Vm.C29_expr_code` (PCQ), `Vm.C29_expr_code_in_try` (PCQ), `Vm.C29_ecma_partial` (PCQ), `Vm.C29_ecma_refuted` (P)
* **C30**: `Vm.C30_program_partial` (PCQ), `Vm.C30_no_bug_partial` (PCQ), `Vm.C30_balanced_partial` (PCQ), `Vm.C30_crossing_refuted` (P), `Vm.C30_stray_break_refuted` (P)
* **C31**: `Vm.C31_finally_runs_partial` (PCQ), `Vm.C31_return_refuted` (P), `Vm.C31_throw_in_catch_refuted` (P)
* **C32**: `Vm.C32_value_kept_partial` (P), `Vm.C32_thrown_value_partial` (P), `Vm.C32_value_lost_refuted` (P)
* **C33**: `Vm.C33_depth` (PQ), `Vm.C33_recorded` (PQ), `Vm.C33_catch_stack_partial` (PCQ), `Vm.C33_contents_refuted` (P)
* **C34**: `Path.C34_mkdir_partial` (PCQ), `Path.C34_remove_partial` (PCQ), `Path.C34_mkdir_refuted` (PCQ), `Path.C34_create_refuted` (PCQ), `Path.C34_remove_refuted` (PCQ), `Path.C34_home_refuted` (PCQ), `Path.C34_check_existing` (PCQ), `Path.C34_open_existing` (PQ), `Path.C34_create_partial` (PQ)
* **C35**: `Path.C35_normalize_location` (PQ), `Path.C35_normalize_location_rel` (PQ), `Path.C35_normalize_idempotent` (PQ), `Path.C35_normalize_dots_partial` (PQ), `Path.C35_dotdot_refuted` (PQ), `Path.C35_slashes_refuted` (P), `Path.C35_dot_refuted` (PCQ), `Path.C35_realpath_location_partial` (PQ), `Path.C35_realpath_clean` (PQ), `Path.C35_realpath_refuted` (PCQ), `Path.C35_realpath_in_place` (PQ)
* **C36**: `Timer.C36_not_early_partial` (PCQ), `Timer.C36_ids` (PCQ), `Timer.C36_once` (PCQ), `Timer.C36_cleared` (PCQ), `Timer.C36_not_early_refuted` (PCQ), `Timer.C36_clear_self_refuted` (PCQ), `Timer.C36_clear_other_refuted` (PCQ), `Timer.C36_nested_refuted` (PCQ), `Timer.C36_safe_partial` (PCQ)
* **C37**: `Timer.C37_update_partial` (PQ), `Timer.C37_update_ends` (PQ), `Timer.C37_update_refuted` (PQ)
* **C38**: `Value.C38_far_not_equal` (PCQ), `Value.C38_close_refuted` (PCQ), `Value.C38_refuted` (PCQ), `Value.C38_whole_partial` (PCQ), `Value.C38_inf_refuted` (P)
* **C39**: `Value.C39_refl` (PCQ), `Value.C39_symm` (PCQ), `Value.C39_trans` (PCQ), `Value.C39_operator` (PCQ), `Value.C39_checked_refuted` (P)
* **C40**: `Ref.C40_count_is_references_partial` (PCQ), `Ref.C40_referenced_is_live_partial` (PCQ), `Ref.C40_unreferenced_is_freed_partial` (PCQ), `Ref.C40_allowed_call_is_safe_partial` (PCQ), `Ref.C40_fresh_iff_zero_partial` (PCQ), `Ref.C40_decr_frees_last_partial` (PCQ), `Ref.C40_decr_keeps_reachable_partial` (PCQ), `Ref.C40_no_leak_partial` (PCQ), `Ref.C40_copy_of_uncounted_refuted` (P), `Ref.C40_copy_of_own_element_refuted` (P), `Ref.C40_replace_by_own_element_refuted` (PQ), `Ref.C40_arraySet_of_own_element_refuted` (P), `Ref.C40_copy_over_cycle_refuted` (PQ), `Ref.C40_pushVar_twice_refuted` (P), `Ref.C40_cycle_leaks_refuted` (PQ)
* **C41**: `Crypto.Encrypt.C41_decrypt_total` (PCQ)
* **C42**: `Crypto.Hashcash.C42_proof_of_work` (PCQ), `Crypto.Hashcash.C42_complete` (PCQ), `Crypto.Hashcash.C42_sha256` (PCQ)
* **C43**: `Hash.C43_clear_size_refuted` (PQ), `Hash.C43_clear_partial` (PCQ)
* **C44**: `Tree.C44_string_partial` (PCQ), `Tree.C44_word_refuted` (PQ)
* **C45**: `Tree.C45_word_refuted` (PQ), `Tree.C45_string_partial` (PCQ)
* **C46**: `Tree.C46_in_order` (PCQ), `Tree.C46_in_order_space` (PCQ), `Tree.C46_post_order` (PCQ), `Tree.C46_pre_never_ends` (P), `Tree.C46_pre_refuted` (P), `Tree.C46_level_partial` (PCQ), `Tree.C46_level_refuted` (P)
* **C47**: `Value.C47_object_refuted` (P), `Value.C47_undefined` (PQ), `Value.C47_null_refuted` (PCQ)
* **C48**: `Value.C48_numbers` (P), `Value.C48_extended` (P), `Value.C48_strings` (PQ), `Value.C48_trichotomy` (PCQ), `Value.C48_mixed_refuted` (PCQ)
* **C49**: `Value.C49_strings_partial` (PCQ), `Value.C49_nul_refuted` (PCQ)
* **C50**: `Json.C50_parse_partial` (PCQ), `Json.C50_solidus_refuted` (PCQ), `Json.C50_trailing_space_refuted` (PCQ), `Json.C50_keys_refuted` (PCQ), `Json.C50_surrogates_refuted` (PCQ), `Json.C50_long_array_refuted` (PCQ), `Json.C50_last_value_counts` (PQ), `Json.C50_keys_once` (PQ)
* **C51**: `Json.C51_complete_partial` (PCQ), `Json.C51_scalar_refuted` (PCQ), `Json.C51_sound_refuted` (PCQ), `Json.C51_more` (PCQ), `Json.C51_brackets_match_partial` (PCQ), `Json.C51_word_refuted` (PCQ)
* **C52**: `Json.C52_strict_partial` (PCQ), `Json.C52_loose_partial` (PCQ), `Json.C52_refuted` (PCQ), `Json.C52_comma_refuted` (PCQ)
* **C53**: `Array.C53_no_undefined_behaviour` (PCQ)
* **C54**: `Array.C54_forEach` (PQ), `Array.C54_find` (PQ), `Array.C54_findIndex` (PQ), `Array.C54_some` (PQ), `Array.C54_every_partial` (PQ), `Array.C54_every_empty_refuted` (PQ), `Array.C54_map` (PQ), `Array.C54_filter` (PQ), `Array.C54_reduce_partial` (PCQ), `Array.C54_indexOf_partial` (PQ), `Array.C54_indexOf_refuted` (PQ), `Array.C54_lastIndexOf_partial` (PQ), `Array.C54_lastIndexOf_start_refuted` (P), `Array.C54_find_pop_refuted` (PQ), `Array.C54_param_refuted` (PQ), `Array.C54_filter_shares_refuted` (P), `Array.C54_reduce_hole_refuted` (PQ), `Array.C54_forEach_push_refuted` (P), `Array.C54_flat_partial` (PQ), `Array.C54_flat_refuted` (P)
* **C55**: `Array.C55_push_partial` (PQ), `Array.C55_pop_partial` (PQ), `Array.C55_shift_partial` (PCQ), `Array.C55_shift_refuted` (P), `Array.C55_shift_full_refuted` (PQ), `Array.C55_shift_assign_refuted` (P), `Array.C55_unshift_refuted` (PQ), `Array.C55_push_refuted` (PCQ)
* **C56**: `Str.C56_trim` (PCQ), `Str.C56_utf8_refuted` (P), `Str.C56_trim_chars` (PCQ)
* **C57**: `Str.C57_case_partial` (PCQ), `Str.C57_last_char_refuted` (PCQ), `Str.C57_accents_refuted` (PQ)
* **C58**: `Str.C58_indexOf_partial` (PQ), `Str.C58_search_partial` (PQ), `Str.C58_indexOf_empty_refuted` (PQ), `Str.C58_indexOf_text_partial` (PCQ), `Str.C58_offset_refuted` (PQ), `Str.C58_lastIndexOf_partial` (PCQ), `Str.C58_lastIndexOf_start_refuted` (PCQ), `Str.C58_lastIndexOf_empty_refuted` (PQ)
* **C59**: `Str.C59_substring_to_end_partial` (PCQ), `Str.C59_substring_partial` (PCQ), `Str.C59_substring_end_refuted` (PCQ), `Str.C59_substring_swap_refuted` (PQ), `Str.C59_substring_negative_refuted` (PCQ), `Str.C59_slice_to_end_partial` (PCQ), `Str.C59_slice_partial` (PCQ), `Str.C59_slice_end_refuted` (PCQ), `Str.C59_slice_beyond_refuted` (PCQ)
* **C60**: `Str.C60_replace_partial` (PQ), `Str.C60_replace_fn_refuted` (PQ), `Str.C60_repeat_partial` (PQ), `Str.C60_repeat_empty_refuted` (P), `Str.C60_concat_partial` (PQ), `Str.C60_concat_nul_refuted` (K), `Str.C60_map` (PQ), `Str.C60_map_total` (PQ), `Str.C60_map_identity` (PQ), `Str.C60_map_empty_refuted` (K)
* **C61**: `Opt.C61_unique` (PQ), `Opt.C61_exact` (PCQ), `Opt.C61_message_refuted` (PCQ), `Opt.C61_sound` (PCQ), `Opt.C61_full_name_partial` (PCQ), `Opt.C61_full_name_refuted` (PCQ)
* **C62**: `Ref.C62_nothing_else_changes` (PQ), `Ref.C62_copy_copies` (PQ), `Ref.C62_move_moves` (PQ), `Ref.C62_value_set` (PCQ), `Ref.C62_arraySet_sets` (PCQ), `Ref.C62_arrayAdd_adds` (PQ), `Ref.C62_insert_sets` (PCQ), `Ref.C62_names_are_unique` (PCQ)
* **C63**: `Lex.C63_tokens_partial` (PCQ), `Lex.C63_glue_refuted` (PCQ), `Lex.C63_empty_comment_refuted` (PCQ), `Lex.C63_newline_in_string_refuted` (PCQ), `Lex.C63_zero_exponent_refuted` (PCQ), `Lex.C63_hex_minus_refuted` (PCQ), `Lex.C63_regex_after_return_refuted` (PCQ), `Lex.C63_form_feed_refuted` (PCQ), `Lex.C63_long_name_refuted` (PCQ)
* **C64**: `Lex.C64_first_token_partial` (PCQ), `Lex.C64_name_partial` (PCQ), `Lex.C64_operator_partial` (PCQ)
* **C65**: `Lex.C65_string_partial` (PCQ), `Lex.C65_quote_roundtrip_partial` (PCQ), `Lex.C65_ff_refuted` (PCQ), `Lex.C65_continuation_refuted` (PCQ), `Lex.C65_hex_escape_refuted` (PCQ), `Lex.C65_vtab_refuted` (PCQ), `Lex.C65_surrogates_refuted` (PCQ)
* **C66**: `Lex.C66_safe` (PCQ), `Lex.C66_no_bound` (PCQ), `Lex.C66_getchar_fuel` (PQ)
* **C67**: `Lex.C67_all_read_partial` (PCQ), `Lex.C67_high_byte_refuted` (PCQ), `Lex.C67_comment_byte_refuted` (PCQ)
* **C68**: `Lex.C68_lines_partial` (PCQ), `Lex.C68_not_before_partial` (PCQ), `Lex.C68_line_refuted` (PCQ)
* **C69**: `Interp.C69_limits` (PCQ), `Interp.C69_noSubs` (PCQ), `Interp.C69_others_refuted` (PCQ)
* **C70**: `Interp.C70_access` (PQ), `Interp.C70_confined_partial` (PCQ), `Interp.C70_sourced_partial` (PCQ), `Interp.C70_lockDown_refuted` (PCQ), `Interp.C70_source_refuted` (PCQ), `Interp.C70_selfSource_refuted` (P), `Interp.C70_selfSource_case` (PCQ), `Interp.C70_edit_refuted` (PCQ), `Interp.C70_conf_refuted` (PCQ), `Interp.C70_load_refuted` (PCQ)
* **C71**: `Interp.C71_conf_fixed` (PCQ), `Interp.C71_conf_unnamed` (PCQ), `Interp.C71_process` (PCQ), `Interp.C71_noConfig` (PCQ), `Interp.C71_noConfig_stays` (PCQ)
* **C72**: `Interp.C72_find` (PCQ)
* **C73**: `Interp.C73_depth` (PCQ)
* **C74**: `Interp.C74_none` (PCQ), `Interp.C74_exec` (PCQ), `Interp.C74_newline_refuted` (PCQ)
* **C75**: `Obj.C75_objects_agree_partial` (PCQ), `Obj.C75_refuted` (PCQ)
* **C76**: `Obj.C76_inherited_refuted` (PCQ), `Obj.C76_assigned_refuted` (PCQ), `Obj.C76_merged_refuted` (PCQ), `Obj.C76_created_refuted` (PCQ), `Obj.C76_filtered_refuted` (PCQ), `Obj.C76_values_refuted` (PCQ), `Obj.C76_put_one_place_partial` (PCQ), `Obj.C76_inc_one_place_partial` (PCQ)
* **C77**: `Obj.C77_array_put_partial` (PCQ), `Obj.C77_string_index_refuted` (PCQ), `Obj.C77_notation_refuted` (PCQ), `Obj.C77_delete_refuted` (PCQ), `Obj.C77_length_refuted` (PCQ)
* **C78**: `Obj.C78_array_refuted` (PCQ), `Obj.C78_values_refuted` (PCQ), `Obj.C78_shared_refuted` (PCQ), `Obj.C78_travels_refuted` (PCQ), `Obj.C78_frozen_keys_partial` (PCQ), `Obj.C78_frozen_values_partial` (PCQ)
* **C79**: `Obj.C79_once` (PCQ), `Obj.C79_ends_partial` (PCQ), `Obj.C79_all_partial` (PCQ), `Obj.C79_names_partial` (PCQ), `Obj.C79_elements_once` (PCQ), `Obj.C79_elements_partial` (PCQ), `Obj.C79_variable_name_partial` (PCQ), `Obj.C79_variable_element_partial` (PCQ), `Obj.C79_order_refuted` (PCQ), `Obj.C79_array_names_refuted` (PCQ), `Obj.C79_cycle_refuted` (PCQ)
* **C80**: `Obj.C80_hasOwn_partial` (PCQ), `Obj.C80_in_partial` (PCQ), `Obj.C80_array_keys_partial` (PCQ), `Obj.C80_keys_partial` (PCQ), `Obj.C80_in_inherited_refuted` (PCQ), `Obj.C80_in_array_refuted` (PCQ), `Obj.C80_hasOwn_refuted` (PCQ), `Obj.C80_keys_refuted` (PCQ)
* **C81**: `Obj.C81_lookups_end_partial` (PCQ), `Obj.C81_cycle_refuted` (PCQ), `Obj.C81_empty_prototype_refuted` (PCQ)
* **C82**: `Obj.C82_each_refuted` (PCQ), `Obj.C82_apply_refuted` (PCQ), `Obj.C82_assignment_local_partial` (PCQ)
* **C83**: `Obj.C83_parameter_refuted` (PCQ), `Obj.C83_array_refuted` (PCQ), `Obj.C83_assign_all_partial` (PCQ)
* **C84**: `Fmt.C84_format_partial` (PCQ), `Fmt.C84_plain_text` (PCQ), `Fmt.C84_libc_satisfiable` (PCQ), `Fmt.C84_example` (PCQ), `Fmt.C84_zero_left_refuted` (PCQ), `Fmt.C84_q_precision_refuted` (PCQ), `Fmt.C84_nul_refuted` (PCQ), `Fmt.C84_width_characters_refuted` (PCQ), `Fmt.C84_char_byte_refuted` (PCQ)
* **C85**: `Fmt.C85_format_safe_partial` (PCQ), `Fmt.C85_unknown_conversion_refuted` (PCQ), `Fmt.C85_flags_width_refuted` (PCQ), `Fmt.C85_refuted` (PCQ), `Fmt.C85_example` (PCQ)
* **C86**: `Fmt.C86_terminates` (PCQ), `Fmt.C86_no_missing_argument` (PQ), `Fmt.C86_extra_arguments` (PQ), `Fmt.C86_example` (PCQ)
* **C87**: `Fmt.C87_integers_read_back` (PCQ), `Fmt.C87_different_integers` (PCQ), `Fmt.C87_example` (PCQ)
* **C88**: `Queue.C88_memory_partial` (PCQ), `Queue.C88_in_order_partial` (PCQ), `Queue.C88_one_at_a_time_partial` (PCQ), `Queue.C88_emptied_partial` (PCQ), `Queue.C88_nested_refuted` (P), `Queue.C88_timeout_refuted` (P), `Queue.C88_timeout_freed_refuted` (P)
* **C89**: `Queue.C89_own_result_partial` (PCQ), `Queue.C89_all_answered_partial` (PCQ), `Queue.C89_deleted_refuted` (P)
* **C90**: `Queue.C90_texts_partial` (PCQ), `Queue.C90_emptied_partial` (PCQ), `Queue.C90_overtakes_refuted` (PCQ), `Queue.C90_comment_refuted` (PCQ)
* **C91**: `Queue.C91_no_deadlock_partial` (PCQ), `Queue.C91_lock_given_back_partial` (PCQ), `Queue.C91_bounded_partial` (PCQ), `Queue.C91_call_ends_partial` (PCQ)
* **C92**: `Web.Files.C92_file_in_root_partial` (PQ), `Web.Files.C92_file_exists` (PQ), `Web.Files.C92_file_below_partial` (PQ), `Web.Files.C92_dotdot_refuted` (PCQ), `Web.Files.C92_prefix_refuted` (PCQ), `Web.Files.C92_alias_refuted` (PCQ), `Web.Files.C92_read_check_partial` (PQ), `Web.Files.C92_read_check_refuted` (PCQ)
* **C93**: `Web.C93_page_means_partial` (PCQ), `Web.C93_unclosed` (PCQ), `Web.C93_required` (PCQ), `Web.C93_left_out_echo_refuted` (PCQ), `Web.C93_left_out_set_refuted` (PCQ), `Web.C93_left_out_condition_refuted` (PCQ), `Web.C93_two_parts_refuted` (PCQ), `Web.C93_lax_mark_refuted` (PCQ)
* **C94**: `Web.C94_own_text_partial` (PCQ), `Web.C94_own_text_refuted` (PCQ), `Web.C94_self_include` (PCQ), `Web.C94_depth` (PCQ)
* **C95**: `Web.Head.C95_all_headers` (P), `Web.Head.C95_names` (PCQ), `Web.Head.C95_header_by_name` (PQ)
* **C96**: `Web.Head.C96_parameter_partial` (PQ), `Web.Head.C96_absent` (P), `Web.Head.C96_second_refuted` (P)
* **C97**: `Web.Head.C97_right_password` (PCQ), `Web.Head.C97_only_right_password` (PCQ), `Web.Head.C97_one_password` (PCQ)
* **C98**: `Sql.C98_scripts_partial` (PCQ), `Sql.C98_all_or_nothing_partial` (PCQ), `Sql.C98_crash_partial` (PCQ), `Sql.C98_own_begin_refuted` (K), `Sql.C98_own_begin_commits_refuted` (K), `Sql.C98_or_rollback_refuted` (K)
* **C99**: `Sql.Cache.C99_same_text_refuted` (PCQ), `Sql.Cache.C99_trailing_blank_refuted` (PCQ), `Sql.Cache.C99_conf_inside_refuted` (PCQ), `Sql.Cache.C99_bindWarn_refuted` (PCQ), `Sql.Cache.C99_cache_transparent_partial` (PCQ), `Sql.Cache.C99_steps` (PCQ)
* **C100**: `Sql.Cache.C100_nested_refuted` (PCQ), `Sql.Cache.C100_conf_refuted` (PCQ), `Sql.Cache.C100_size_partial` (PCQ)
* **C101**: `Sql.Out.C101_csv_reads_back_partial` (PCQ), `Sql.Out.C101_long_separator_refuted` (PCQ), `Sql.Out.C101_header_refuted` (PCQ)
* **C102**: `Sql.Out.C102_insert_reads_back_partial` (PCQ), `Sql.Out.C102_null_refuted` (PCQ), `Sql.Out.C102_limit_refuted` (PCQ), `Sql.Out.C102_table_refuted` (PCQ)
* **C103**: `Sql.Out.C103_html_reads_back_partial` (PCQ), `Sql.Out.C103_no_markup` (PCQ)
* **C104**: `Sql.Bind.C104_own_value_partial` (PQ), `Sql.Bind.C104_round_trip` (P), `Sql.Bind.C104_round_trip_int` (P), `Sql.Bind.C104_type_stays_refuted` (PCQ), `Sql.Bind.C104_cast_refuted` (PCQ), `Sql.Bind.C104_bool_refuted` (PCQ), `Sql.Bind.C104_nul_refuted` (PCQ)
* **C105**: `File.C105_parts` (PQ), `File.C105_bare` (PCQ), `File.C105_root_extension` (PCQ), `File.C105_extension` (PCQ), `File.C105_location` (PQ), `File.C105_location_relative` (PCQ), `File.C105_dotdot_refuted` (PCQ), `File.C105_shapes` (PCQ)
* **C106**: `File.C106_tilde_refuted` (PCQ), `File.C106_only_inside_partial` (PCQ), `File.C106_not_forced` (PCQ)
* **C107**: `File.C107_whole_tree_partial` (PCQ), `File.C107_tilde_refuted` (PCQ), `File.C107_success_refuted` (PCQ), `File.C107_dots_refuted` (PCQ), `File.C107_root_refuted` (PCQ), `File.C107_link_refuted` (PCQ)
* **C108**: `File.C108_makes_the_way` (PCQ), `File.C108_tilde_refuted` (PCQ), `File.C108_failure_leaves` (PCQ), `File.C108_makes_only_the_way_partial` (PCQ)
* **C109**: `File.Copy.C109_copies_partial` (PQ), `File.Copy.C109_refuses` (P), `File.Copy.C109_alias_refuted` (PCQ), `File.Copy.C109_fault_refuted` (PCQ), `File.Copy.C109_failure_refuted` (PCQ), `File.Copy.C109_self_refuted` (PCQ)
* **C110**: `File.Copy.C110_round_trip_partial` (PQ), `File.Copy.C110_returned_number_partial` (PQ), `File.Copy.C110_close_refuted` (PCQ)
* **C111**: `Pkg.C111_shown_as_given_partial` (PCQ), `Pkg.C111_order_partial` (PCQ), `Pkg.C111_same_partial` (PCQ), `Pkg.C111_shown_text_is_accepted` (PCQ), `Pkg.C111_number_range` (PCQ), `Pkg.C111_number_partial` (PCQ), `Pkg.C111_junk_refuted` (PCQ), `Pkg.C111_wraps_refuted` (PCQ), `Pkg.C111_hundred_refuted` (PCQ)
* **C112**: `Pkg.C112_options_refuted` (PCQ), `Pkg.C112_noError_refuted` (PCQ), `Pkg.C112_at_least_partial` (PCQ), `Pkg.C112_there` (PCQ), `Pkg.C112_known` (PCQ), `Pkg.C112_downlevel_partial` (PCQ)
* **C113**: `Pkg.C113_second_version_refuted` (PCQ), `Pkg.C113_stays` (PCQ), `Pkg.C113_not_again` (PCQ), `Pkg.C113_provided` (P), `Pkg.C113_other_file` (P)
* **C114**: `Pkg.C114_first_place` (PCQ), `Pkg.C114_nowhere` (PCQ)
* **C115**: `Pkg.C115_half_loaded_refuted` (PCQ), `Pkg.C115_first_time_partial` (PCQ), `Pkg.C115_error_is_reported` (PCQ), `Pkg.C115_provide_last_partial` (PCQ)
* **C116**: `Pkg.C116_late_refuted` (PCQ), `Pkg.C116_depth` (PCQ), `Pkg.C116_once_partial` (PCQ)
* **C117**: `Call.C117_parameters` (PQ)
* **C118**: `Call.C118_direct_partial` (PCQ), `Call.C118_call_partial` (PCQ), `Call.C118_apply_refuted` (PCQ), `Call.C118_bind_refuted` (PCQ), `Call.C118_forEach_refuted` (PCQ), `Call.C118_shared_scope_refuted` (PCQ)
* **C119**: `Call.C119_checked` (PCQ), `Call.C119_no_check` (PQ), `Call.C119_no_error` (P), `Call.C119_untyped_refuted` (PCQ), `Call.C119_limit_refuted` (P)
* **C120**: `Call.C120_result` (PQ), `Call.C120_exception` (P), `Call.C120_unchecked` (P)
* **C121**: `Call.C121_types` (PCQ), `Call.C121_any` (PCQ), `Call.C121_words` (PCQ), `Call.C121_signature_partial` (PCQ), `Call.C121_void_refuted` (PCQ)
* **C122**: `Call.C122_call` (PCQ), `Call.C122_apply` (P), `Call.C122_bind_partial` (PCQ), `Call.C122_bind_makes_partial` (PCQ), `Call.C122_bind_failure_refuted` (P)
* **C123**: `Opt.C123_int_partial` (PCQ), `Opt.C123_int_type` (PQ), `Opt.C123_fraction_refuted` (PCQ), `Opt.C123_unsigned_refuted` (P), `Opt.C123_huge_refuted` (P)
* **C124**: `Opt.C124_record` (PQ), `Opt.C124_only_named` (PQ)
* **C125**: `Opt.C125_nested_partial` (PQ), `Opt.C125_null_refuted` (PCQ), `Opt.C125_locked` (PQ), `Opt.C125_refused` (P)
* **C126**: `Opt.C126_refused_partial` (P), `Opt.C126_nan_refuted` (P), `Opt.C126_incr_refuted` (P)
* **C127**: `Opt.C127_stops_partial` (PQ), `Opt.C127_atomic_refuted` (PCQ)
* **C128**: `Opt.C128_required` (PQ), `Opt.C128_missing` (PQ), `Opt.C128_null_refuted` (PCQ)
* **C129**: `Opt.C129_round_partial` (PCQ), `Opt.C129_sound_partial` (PCQ), `Opt.C129_negative_refuted` (PCQ)
* **C130**: `Opt.C130_string` (PCQ), `Opt.C130_string_only` (PCQ), `Opt.C130_object_partial` (PCQ), `Opt.C130_array` (PCQ), `Opt.C130_array_only` (PCQ), `Opt.C130_read` (PQ), `Opt.C130_object_refuted` (PCQ), `Opt.C130_reset_refuted` (P), `Opt.C130_narrow_refuted` (PCQ)
* **C131**: `Opt.C131_restore_partial` (PCQ), `Opt.C131_bitset_refuted` (PCQ), `Opt.C131_readonly_refuted` (PCQ)
* **C132**: `Opt.C132_unique` (PCQ), `Opt.C132_full_partial` (PCQ), `Opt.C132_full_refuted` (PCQ), `Opt.C132_sound` (PQ), `Opt.C132_ambiguous` (PCQ), `Opt.C132_unknown` (P)
* **C133**: `Regex.C133_replace_first_partial` (PCQ), `Regex.C133_dollar_at_end_refuted` (PCQ)
* **C134**: `Regex.C134_replace_each` (PCQ), `Regex.C134_replace_all_partial` (PCQ), `Regex.C134_empty_match_refuted` (PCQ), `Regex.C134_line_start_refuted` (PCQ), `Regex.C134_text_before_refuted` (PCQ), `Regex.C134_many_matches_refuted` (PCQ)
* **C135**: `Regex.C135_function_each` (PCQ), `Regex.C135_function_all_partial` (PCQ), `Regex.C135_empty_match_refuted` (PCQ)
* **C136**: `Regex.C136_match_all_partial` (PCQ), `Regex.C136_match_first_partial` (PQ), `Regex.C136_match_none` (PQ), `Regex.C136_empty_match_refuted` (PCQ), `Regex.C136_same_group_refuted` (PQ), `Regex.C136_unused_group_refuted` (PQ)
* **C137**: `Regex.C137_exec_next_partial` (PQ), `Regex.C137_exec_loop_partial` (PQ), `Regex.C137_other_objects_partial` (PQ), `Regex.C137_exec_first_partial` (PQ), `Regex.C137_line_start_refuted` (PCQ), `Regex.C137_empty_match_refuted` (PCQ), `Regex.C137_groups_refuted` (PCQ), `Regex.C137_negative_index_refuted` (PQ), `Regex.C137_shared_index_refuted` (PCQ)
* **C138**: `Regex.C138_search_test_partial` (PQ), `Regex.C138_bytes_refuted` (PCQ)
* **C139**: `Regex.C139_construct_partial` (P), `Regex.C139_construct_refuted` (PCQ)
* **C140**: `Regex.C140_replace_safe` (PQ), `Regex.C140_match_safe_partial` (PQ)
* **C141**: `Scope.C141_arrow_var_refuted` (P), `Scope.C141_arrow_leak_refuted` (P), `Scope.C141_getter_refuted` (P), `Scope.C141_setter_refuted` (P), `Scope.C141_own_name_refuted` (P), `Scope.C141_lexical_scope_partial` (PQ)
* **C142**: `Scope.C142_accepted_partial` (PCQ), `Scope.C142_accepted_refuted` (PQ)
* **C143**: `Scope.C143_hoisting_partial` (PCQ), `Scope.C143_function_refuted` (P), `Scope.C143_var_refuted` (P)
* **C144**: `Scope.C144_ecmascript_partial` (PCQ), `Scope.C144_sum_refuted` (P), `Scope.C144_argument_refuted` (P)
* **C145**: `Limit.C145_cap` (PCQ), `Limit.C145_ends` (PCQ)
* **C146**: `Limit.C146_exit` (PCQ)
* **C147**: `Limit.C147_interrupt` (PCQ)
* **C148**: `Limit.C148_depth` (PCQ)
* **C149**: `Limit.C149_objects_partial` (PCQ), `Limit.C149_objects_refuted` (PQ)
* **C150**: `Chan.C150_read` (PCQ), `Chan.C150_read_all` (PQ), `Chan.C150_pieces` (PCQ), `Chan.C150_zero_refuted` (P)
* **C151**: `Chan.C151_gets_partial` (PQ), `Chan.C151_long_line_refuted` (PQ), `Chan.C151_nul_refuted` (K)
* **C152**: `Chan.C152_write` (PQ), `Chan.C152_append` (P), `Chan.C152_read_back` (PCQ), `Chan.C152_lines_partial` (PQ), `Chan.C152_puts_nul_refuted` (K)
* **C153**: `Chan.C153_closed_partial` (K), `Chan.C153_stays_closed` (K), `Chan.C153_freed_refuted` (K), `Chan.C153_opened_safe` (P)
* **C154**: `Chan.C154_new` (PQ), `Chan.C154_open_partial` (P), `Chan.C154_open_refuted` (K)
* **C155**: `Chan.C155_seek_tell` (P), `Chan.C155_seek_rel` (PQ), `Chan.C155_eof_read` (PCQ), `Chan.C155_eof_gets` (P)
* **C156**: `Chan.C156_read_only` (P), `Chan.C156_told` (P)
* **C157**: `Sort.C157_same_elements` (PQ), `Sort.C157_unique_elements` (PQ)
* **C158**: `Sort.C158_numbers_partial` (PCQ), `Sort.C158_numbers_desc_partial` (PCQ), `Sort.C158_strings_partial` (PCQ), `Sort.C158_strings_desc_partial` (PCQ), `Sort.C158_nocase_partial` (PCQ), `Sort.C158_mixed_refuted` (PQ), `Sort.C158_holes_refuted` (PQ), `Sort.C158_nul_refuted` (PQ), `Sort.C158_dict_partial` (PCQ), `Sort.C158_mixed_partial` (PCQ)
* **C159**: `Sort.C159_function_partial` (PCQ), `Sort.C159_fraction_refuted` (PQ), `Sort.C159_large_refuted` (PQ), `Sort.C159_exception_refuted` (PQ)
* **C160**: `Sort.C160_unique_numbers_partial` (PCQ), `Sort.C160_holes_refuted` (PQ), `Sort.C160_memory_refuted` (P)
* **C161**: `Number.C161_whole_numbers` (PCQ), `Number.C161_special` (PCQ), `Number.C161_fifteen_digits` (PCQ), `Number.C161_prints_as_written` (PCQ), `Number.C161_refuted` (PCQ), `Number.C161_subnormal_refuted` (PCQ)
* **C162**: `Number.C162_radix_round_trip_partial` (PCQ), `Number.C162_decimal_round_trip_partial` (PCQ), `Number.C162_negative_refuted` (PCQ), `Number.C162_base_refuted` (PCQ), `Number.C162_fraction_refuted` (PCQ)
* **C163**: `Number.C163_parseInt_base_partial` (PCQ), `Number.C163_parseInt_plain_partial` (PCQ), `Number.C163_number` (PCQ), `Number.C163_negative_refuted` (PCQ), `Number.C163_blank_refuted` (PCQ), `Number.C163_octal_refuted` (PCQ), `Number.C163_garbage_refuted` (PCQ), `Number.C163_large_refuted` (PCQ)
* **C164**: `Number.C164_nan_finite` (PQ), `Number.C164_isInteger_partial` (PCQ), `Number.C164_isInteger_refuted` (PCQ), `Number.C164_isSafeInteger` (PCQ)
* **C165**: `Number.C165_toFixed_partial` (PCQ), `Number.C165_toFixed_refuted` (PCQ), `Number.C165_toPrecision_refuted` (PCQ)
* **C166**: `Arith.C166_and_partial` (PCQ), `Arith.C166_or_partial` (PCQ), `Arith.C166_xor_partial` (PCQ), `Arith.C166_refuted` (P), `Arith.C166_large_refuted` (P)
* **C167**: `Arith.C167_not_partial` (PCQ), `Arith.C167_shl_partial` (PCQ), `Arith.C167_shr_partial` (PCQ), `Arith.C167_ushr_partial` (PCQ), `Arith.C167_refuted` (P)
* **C168**: `Arith.C168_inc_partial` (PCQ), `Arith.C168_refuted` (P)
* **C169**: `Arith.C169_remainder` (PQ), `Arith.C169_min_max_partial` (PCQ), `Arith.C169_nan_refuted` (K), `Arith.C169_round_partial` (PCQ), `Arith.C169_floor_ceil` (PCQ), `Arith.C169_round_refuted` (P)
* **C170**: `Date.C170_utc_partial` (PCQ), `Date.C170_local_partial` (PCQ), `Date.C170_secs_partial` (PCQ), `Date.C170_before_1970_refuted` (PCQ), `Date.C170_empty_refuted` (PCQ)
* **C171**: `Date.C171_utc_partial` (PCQ), `Date.C171_local_partial` (PCQ), `Date.C171_minus_one_refuted` (PCQ), `Date.C171_skipped_refuted` (PCQ)
* **C172**: `Date.C172_shows_partial` (PCQ), `Date.C172_round_trip_partial` (PCQ), `Date.C172_refuted` (PCQ)
* **C173**: `Date.C173_forms_partial` (PCQ), `Date.C173_time_refuted` (PCQ), `Date.C173_nonsense_refuted` (PCQ), `Date.C173_empty_refuted` (PCQ)
* **C174**: `Date.C174_offset_partial` (PCQ), `Date.C174_local_refuted` (PCQ), `Date.C174_fraction_refuted` (PCQ)
* **C175**: `Date.C175_partial` (PCQ), `Date.C175_refuted` (PCQ)
* **C176**: `Opt.C176_full` (PQ), `Opt.C176_sound` (PQ), `Opt.C176_value_refuted` (PCQ)
* **C177**: `Opt.C177_frame` (PQ), `Opt.C177_names` (PQ), `Opt.C177_object` (PQ), `Opt.C177_readonly_refuted` (PCQ)
* **C178**: `Opt.C178_colon_partial` (PCQ), `Opt.C178_equals_partial` (PCQ), `Opt.C178_alone` (PCQ), `Opt.C178_equals_refuted` (PCQ), `Opt.C178_word_refuted` (PCQ)
* **C179**: `UObj.C179_back_partial` (PCQ), `UObj.C179_distinct` (PCQ), `UObj.C179_fresh` (PCQ)
* **C180**: `UObj.C180_once` (PQ), `UObj.C180_alive` (PQ), `UObj.C180_end` (PQ), `UObj.C180_free` (PQ), `UObj.C180_unregister_refuted` (P)
* **C181**: `UObj.C181_listed` (PQ)
* **C182**: `UObj.C182_sound` (PQ), `UObj.C182_unknown_refuted` (PQ), `UObj.C182_loose_refuted` (PCQ)
* **C183**: `Sql.OutJson.C183_rows_as_objects_partial` (PCQ), `Sql.OutJson.C183_read_back_partial` (PCQ), `Sql.OutJson.C183_name_refuted` (PCQ), `Sql.OutJson.C183_emoji_refuted` (PCQ), `Sql.OutJson.C183_blob_leak_refuted` (PCQ)
* **C184**: `Sql.OutJson.C184_names_and_rows_partial` (PCQ), `Sql.OutJson.C184_no_rows_refuted` (PCQ)
* **C185**: `Sql.OutJson.C185_names_and_values_partial` (PCQ), `Sql.OutJson.C185_no_rows_refuted` (PCQ)
* **C186**: `Sql.OutLine.C186_one_column_partial` (PCQ), `Sql.OutLine.C186_first_row_refuted` (PCQ)
* **C187**: `Sql.OutLine.C187_rows_partial` (PCQ), `Sql.OutLine.C187_no_headers_refuted` (PCQ), `Sql.OutLine.C187_names_refuted` (PCQ), `Sql.OutLine.C187_cut_refuted` (PCQ)
* **C188**: `Sql.OutLine.C188_read_back_partial` (PCQ), `Sql.OutLine.C188_separator_refuted` (PCQ), `Sql.OutLine.C188_no_rows_refuted` (K)
* **C189**: `Sql.Import.C189_lines_partial` (PCQ), `Sql.Import.C189_wrong_count_partial` (PCQ), `Sql.Import.C189_rows_partial` (PCQ), `Sql.Import.C189_records_partial` (PCQ), `Sql.Import.C189_last_quoted_refuted` (PCQ), `Sql.Import.C189_too_many_refuted` (PCQ), `Sql.Import.C189_unclosed_refuted` (PCQ)
* **C190**: `Sql.Import.C190_round_trip_partial` (PCQ), `Sql.Import.C190_blank_refuted` (PCQ)
* **C191**: `FGlob.C191_members_partial` (PCQ), `FGlob.C191_limit_partial` (PCQ)
* **C192**: `FGlob.C192_members_partial` (PCQ), `FGlob.C192_limit_partial` (PCQ), `FGlob.C192_cut_refuted` (PCQ), `FGlob.C192_root_refuted` (PCQ)
* **C193**: `FGlob.C193_members_partial` (PCQ), `FGlob.C193_limit_refuted` (PQ), `FGlob.C193_nodir_refuted` (PQ)
* **C194**: `FGlob.C194_members_partial` (PCQ), `FGlob.C194_path_refuted` (PQ), `FGlob.C194_recurse_refuted` (P)
* **C195**: `FGlob.C195_dirs_refuted` (PCQ), `FGlob.C195_discard_refuted` (PQ), `FGlob.C195_types_partial` (PCQ), `FGlob.C195_notypes_partial` (PCQ), `FGlob.C195_notypes_refuted` (PCQ), `FGlob.C195_discard_partial` (PQ)
* **C196**: `Call.C196_own` (PCQ), `Call.C196_other` (PCQ), `Call.C196_refused` (P)
* **C197**: `Call.C197_arguments_partial` (PCQ), `Call.C197_start_partial` (PQ), `Call.C197_preset_refuted` (PCQ), `Call.C197_nested_refuted` (PCQ), `Call.C197_left_over_refuted` (PCQ)
* **C198**: `Alias.C198_calls` (PQ), `Alias.C198_function` (PQ), `Alias.C198_arguments` (PQ), `Alias.C198_others` (P), `Alias.C198_refused` (P), `Alias.C198_names_partial` (PQ), `Alias.C198_none_partial` (PQ), `Alias.C198_deleted_partial` (PQ), `Alias.C198_names_refuted` (PCQ), `Alias.C198_deleted_refuted` (PCQ)
* **C199**: `Json.Bare.C199_copy_partial` (PCQ), `Json.C199_scalar_partial` (PCQ), `Json.C199_string_partial` (PCQ), `Json.C199_nul_refuted` (PCQ), `Json.C199_undefined_refuted` (PCQ), `Json.C199_emoji_refuted` (PCQ)
* **C200**: `Lookup.C200_lookup_partial` (PCQ), `Lookup.C200_limit_refuted` (PCQ), `Lookup.C200_number_refuted` (PCQ), `Lookup.C200_wrap_refuted` (PCQ), `Lookup.C200_escape_refuted` (PCQ)
* **C201**: `Match.C201_type_partial` (PCQ), `Match.C201_exact_partial` (PCQ), `Match.C201_part_partial` (PCQ), `Match.C201_three_refuted` (P), `Match.C201_space_refuted` (PCQ), `Match.C201_prefix_refuted` (PCQ), `Match.C201_key_refuted` (PCQ), `Match.C201_junk_refuted` (PCQ)
* **C202**: `Pkg.C202_there_and_back_partial` (PCQ), `Pkg.C202_two_partial` (PCQ), `Pkg.C202_zero_refuted` (PCQ), `Pkg.C202_other` (PCQ)
* **C203**: `Signal.C203_names_partial` (PCQ), `Signal.C203_numbers_partial` (PCQ), `Signal.C203_found_partial` (PCQ), `Signal.C203_table_partial` (PCQ), `Signal.C203_refuted` (PCQ)
* **C204**: `Signal.C204_action_partial` (PCQ), `Signal.C204_list` (PCQ), `Signal.C204_kill_refuted` (PCQ), `Signal.C204_error_refuted` (PCQ)
* **C205**: `Signal.C205_called_partial` (PQ), `Signal.C205_after_return_partial` (PQ), `Signal.C205_not_more` (PQ), `Signal.C205_not_again` (PQ), `Signal.C205_two_refuted` (P), `Signal.C205_busy_refuted` (K), `Signal.C205_race_refuted` (K)
* **C206**: `Repl.C206_complete_partial` (PQ), `Repl.C206_string_partial` (PCQ), `Repl.C206_lines_partial` (PCQ), `Repl.C206_cancel_partial` (PCQ), `Repl.C206_inside_refuted` (PCQ), `Repl.C206_comment_refuted` (PCQ), `Repl.C206_cancel_refuted` (PCQ)
* **C207**: `Sql.ObjBind.C207_insert_partial` (PCQ), `Sql.ObjBind.C207_update_partial` (PCQ), `Sql.ObjBind.C207_create_partial` (PCQ), `Sql.ObjBind.C207_read_partial` (PCQ), `Sql.ObjBind.C207_quote_refuted` (PCQ), `Sql.ObjBind.C207_space_refuted` (PCQ), `Sql.ObjBind.C207_noDefaults_refuted` (PCQ), `Sql.ObjBind.C207_silent_refuted` (PCQ), `Sql.ObjBind.C207_empty_refuted` (PCQ), `Sql.ObjBind.C207_null_refuted` (PCQ)
* **C208**: `Obj.Access.C208_get_partial` (P), `Obj.Access.C208_set` (P), `Obj.Access.C208_plain` (P), `Obj.Access.C208_frozen` (P), `Obj.Access.C208_inc_partial` (P), `Obj.Access.C208_inc_plain_partial` (P), `Obj.Access.C208_stale_refuted` (P), `Obj.Access.C208_proto_refuted` (P), `Obj.Access.C208_throw_refuted` (P), `Obj.Access.C208_this_refuted` (PCQ)
* **C209**: `Obj.IsProto.C209_found_partial` (PQ), `Obj.IsProto.C209_sound_partial` (P), `Obj.IsProto.C209_none_partial` (P), `Obj.IsProto.C209_same_refuted` (K), `Obj.IsProto.C209_root_refuted` (K), `Obj.IsProto.C209_refuted` (K)
* **C210**: `Edit.C210_keys_partial` (PCQ), `Edit.C210_typed_partial` (PCQ), `Edit.C210_utf8_refuted` (PCQ), `Edit.C210_full_refuted` (PCQ)
* **C211**: `Edit.C211_add` (PQ), `Edit.C211_max` (PQ), `Edit.C211_save_partial` (PCQ), `Edit.C211_save_refuted` (PCQ), `Edit.C211_walk_partial` (PQ), `Edit.C211_enter_partial` (PQ), `Edit.C211_edit_refuted` (PCQ), `Edit.C211_long_refuted` (PCQ), `Edit.C211_full_refuted` (PCQ)
* **C212**: `Complete.C212_inside_partial` (PQ), `Complete.C212_whole` (PQ), `Complete.C212_rest_partial` (PQ), `Complete.C212_backward_refuted` (PQ), `Complete.C212_empty_refuted` (PQ)
* **C213**: `Debug.C213_here` (PQ), `Debug.C213_stop_partial` (PQ), `Debug.C213_go` (P), `Debug.C213_hits` (PCQ), `Debug.C213_temporary` (PCQ), `Debug.C213_numbers` (PQ), `Debug.C213_loop_refuted` (PCQ)
* **C214**: `Vfs.C214_some` (PQ), `Vfs.C214_mount_partial` (PCQ), `Vfs.C214_nested_refuted` (PQ)
* **C215**: `Vfs.C215_inside_partial` (PCQ), `Vfs.C215_read_partial` (PCQ), `Vfs.C215_line_partial` (PQ), `Vfs.C215_getc` (PQ), `Vfs.C215_size_refuted` (PCQ), `Vfs.C215_seek_refuted` (PQ)
* **C216**: `Vfs.C216_dirs_partial` (PCQ), `Vfs.C216_order_refuted` (PCQ)
* **C217**: `Vfs.C217_cut_partial` (PCQ), `Vfs.C217_list_partial` (PCQ), `Vfs.C217_once_partial` (PCQ), `Vfs.C217_long_refuted` (PCQ), `Vfs.C217_mounted_partial` (PCQ)
