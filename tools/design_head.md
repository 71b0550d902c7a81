# Formal model of pcmacdon/jsish in Lean 4 — design

This file is put together by `tools/design.py` from `tools/design_head.md` (written by hand), `properties.jsonl`,
`MANIFEST.json` and the axiom report `tools/axioms.txt`.

## Method

* `lean/Verif/<Area>/Model.lean` (and further files where noted) — the C functions as total Lean functions, one definition
  per C function or loop, each with a comment naming file and lines in `/repo`.  C integers have fixed width
  (`UInt8/UInt32/UInt64/BitVec`) where wrap-around matters, and are `Nat`/`Int` where the code's own checks keep
  values in range (stated at the definition).  Where C has undefined behaviour (an access outside an object, use of freed
  memory, a read of an uninitialised byte, a loop that does not end) or an assertion fails, the model has a distinct outcome
  (`none` or a constructor of its own), never a silently defined value.
* `lean/Verif/<Area>/Spec.lean` — the specification (RFC/FIPS text, finite maps, sequences, languages, source
  semantics), which does not mention the helpers of the model.  For small areas it stands in `Props.lean`.
* `lean/Verif/<Area>/Props.lean` (and files named for the topic) — the theorems `Cnn_...`, examples beside them that
  show that the hypotheses can be met, and, where the code does **not** have the property, the refutation
  `Cnn_..._refuted`: the modelled code violates the statement on a concrete input, or (where noted) on every input of a
  class.  Then the strongest restricted theorem is proved too, with the suffix `_partial`.
* Status in `MANIFEST.json`: `proved` if the statement in `properties.jsonl` is a theorem for all it ranges over;
  `partial` if a restriction is needed, which is either because the full statement is refuted (most cases; the note says so)
  or because a part of the code is outside the model.

## Trusted base

* The Lean 4.33.0 kernel.  The axioms used are at most `propext`, `Classical.choice` and `Quot.sound`; the exact set for each
  theorem of the manifest is in the table at the end.  No axioms of our own, no compiled evaluation.  `decide +kernel` is
  used for closed facts only (the kernel evaluates them).
* The correspondence between the C text and the Lean definitions: made by hand, function by function.  The code was not
  run.  Compiler, libc (`strtod`, `qsort`, `regexec`, `malloc` which is taken not to fail, `printf`) and the operating
  system are outside; where they matter they are parameters of the model over which the theorems quantify.
* The machine is 64-bit, little endian, with two's complement arithmetic; `JSI__UTF8` on, `Assert` off, as in the default
  configuration.

## What is modelled, and what is not

| area (directory) | code modelled | left out, simplified |
|---|---|---|
| Base64, Crc, Hex, Uri | src/jsiCmds.c 1176-1258, 4196-4348, 4437-4456; src/jsiUtils.c 2504-2545 | conversion of arguments to strings; locales other than C |
| Crypto | src/jsiCrypto.c 13-935 (MD5, SHA-1, SHA-256, SHA-3, btea), jsi_CryptoHash, Util.encrypt/decrypt, hashcash | file input of the digests, lengths of 2^61 bytes and more; timing |
| Utf8 | src/jsiUtf8.c, substr/charAt/charCodeAt | `int` overflow of lengths |
| Str | string methods without regular expressions (src/jsiString.c), Jsi_SplitStr, searches of src/jsiChar.c | size limits, regular expressions, conversion of arguments |
| Lex | src/jsiLexer.c reading from a string | columns, messages; `strtod` and Jsi_RegExpNew are parameters |
| Obj | objects, properties, array elements, variables and the values they share: src/jsiObj.c, src/jsiValue.c (subscripts, assignment), src/jsiEval.c (assignment, ++, delete), src/jsiProto.c (create, assign, merge, freeze, setPrototypeOf, values, apply), src/jsiArray.c (filter, callbacks) | accessors, functions as values, wrapped primitives, fractions, `readonly`/`dontdel` values; `strtod`, the size check of arrays, `callee`/`constructor` are parameters |
| Interp | src/jsiInterp.c new Interp, Interp.conf, Interp.source, Jsi_InterpAccess; src/jsiOptions.c Jsi_OptionsProcess, Jsi_OptionsFind, jsi_SetOption_; src/jsiEval.c the opening of a main script; src/jsiCmds.c the check in exec | threads, privKeys, sub-options, custom parsers (parameter), deletion of interpreters |
| Dict | Jsi_DictionaryCompare | nothing |
| Glob | Jsi_GlobMatch, JsiCharsetMatch | locales other than C |
| Opt | Jsi_GetIndex | flags that only change the text of messages |
| Hash | src/jsiHash.c: create, find, delete, rebuild, search, clear | lock/free callbacks, allocation failure |
| Tree | src/jsiTree.c: insert, delete, find, searches | lock/free callbacks, Jsi_TreeClear; parent pointers are represented by a zipper, so their agreement with child pointers is assumed |
| DString, Stack, LList | Jsi_DString, Jsi_Stack, Jsi_List with explicit storage | allocation failure, aliasing of arguments with the string itself |
| Array | array part of Jsi_Obj, methods of src/jsiArray.c, C interface | reference counts (see Ref), arrays with entries in the property tree, `modifying`; callbacks that throw |
| Json | jsiValueGetString in JSON mode, src/jsmn.c, Jsi_JSONParse | numbers with fraction or exponent, functions, user objects, holes |
| Value | Jsi_ValueCmp, Jsi_ValueIsEqual, jsiLogicLess | `strtod` and the printing of numbers are parameters |
| Ref | reference counts: values, objects, copy/move/replace/reset, arrays, properties, pushed variables | prototypes, functions, iterators, user objects; memory is never used again, so use after free is visible |
| Vm | parser.y actions and src/jsiCode.c (code emission), src/jsiEval.c main loop (control flow, operand stack, try list) | values and primitive operations are parameters; `with`, `eval`, debugger, limits, a stale `this` slot; parsing itself |
| Path | Jsi_NormalPath, NormalizeUnixPath, Jsi_InterpAccess, Jsi_Open, File.mkdir/remove | strings beyond PATH_MAX, virtual file systems, Windows |
| Fmt | Jsi_FormatString (src/jsiFormat.c), behind format and printf | C's printf for integers is modelled in Fmt/CPrintf.lean (trusted), for doubles a parameter; `isdigit` beyond 255 taken as false |
| Queue | the message queues between threads: InterpCallCmd, InterpEvalCmd_, jsi_AliasInvoke, SubInterpEvalCallback (src/jsiInterp.c) | sequentially consistent memory; the bodies of messages are opaque; addresses are not given out again |
| Web | the web server (src/jsiWebSocket.c): the file for a URL, server side includes, headers, parameters, password | libwebsockets; redirects, callbacks, directory listings, sending; files without symbolic links |
| File | path name functions, File.remove, File.mkdir, File.copy, File.write, File.read (src/jsiFileCmds.c) | native file system on Unix, no other processes; no hard links in trees, no symbolic links on the disk of C109; open modes, virtual and compressed files |
| Pkg | versions, provide, require and the search for package files (src/jsiCmds.c 620-1130) | main interpreter only; what else scripts do, the options of packages, isMain; an extension already loaded; Jsish from /zvfs |
| Call | function calls: parameters, checks, results, call, apply, bind, forEach (src/jsiFunc.c 82-384, 619-660; src/jsiProto.c 109-487; src/jsiPstate.c 75-121) | functions of the language only; reference counts, tracing, maxDepth, static checks while parsing; `this` of arrow functions; frozen arrays |
| Opt | option records: find, set, get, process, dump, free; enumerations, bit sets, sub-options (src/jsiOptions.c 176-1058, 1354-1434, 1437-1775) | time types, DSTRING, VAR, USEROBJ, REGEXP, float and long double, bit fields, C arrays, ENUM_SPEC; reference counts; noCheck |
| Regex | String.replace, match, search with regular expressions, RegExp.exec, test, constructor (src/jsiString.c 258-275, 643-930, src/jsiRegexp.c 31-354) | regcomp and regexec (a parameter; Lang.lean gives engines without groups); limits on array sizes; reference counts |
| Scope | scopes of the parser, scope chains, calls, closures, var and function statements, catch, order of operands, on trees (src/jsiPstate.c 69-172, src/parser.y 194-221, 345-365, 487-511, 586, 635-644, 928-939, src/jsiFunc.c 490-632, src/jsiEval.c 207-227, 811-935, 1253-1302, 1384-1388, 1959-2008, src/jsiProto.c 113-225) | the grammar itself, opcodes (Vm), eval, with, this, properties, types and default values of parameters, all values but numbers and functions |
| Limit | the loop of the interpreter: cap on instructions, exit, interruption, depth, with arbitrary instructions (src/jsiEval.c 347-393, 1112-1220, 1261-1265, 2121-2138, 2195-2246, src/jsiCmds.c 518-547) | what the instructions do (a parameter), the debugger, busyCallback, deletion of interpreters |
| Chan | Channel objects on ordinary files (src/jsiFilesys.c 166-229, 702-1012) with fopen, fread, fgets, fwrite, fseek, feof of stdio as specified by C | buffering between stdio and the file (truncate sees what was written), failing writes, other processes, compressed and zip files, stdin, safe interpreters (C34) |
| Sort | Array.sort (src/jsiArray.c 933-1128, src/jsiValue.c 895-961, src/jsiChar.c 135-140) | qsort itself (any function with its specification; glibc's merge sort is shown to be one), comparison functions with side effects on the array |
| Number | number to text and back, toFixed, toPrecision, toString(radix), parseInt, isInteger and companions (src/jsiNumber.c 6-75, 123-213, src/jsiValue.c 508-528, 571-628, src/jsiCmds.c 550-588) | printf and strtod are modelled as exact (glibc), with the default dblPrec; texts with blanks, hexadecimal floats and other spellings of infinity; toExponential |
| Arith | and, or, xor, not, shifts, %, ++, --, Math.min, max, floor, ceil, round (src/jsiEval.c 229-238, 1424-1430, 1532-1543, 1590-1617, 1705-1742, src/jsiMath.c 8-80, 110-124) | the conversion of operands that are not numbers; the other functions of Math |
| Date | Date.strftime, Date.strptime (src/jsiCmds.c 1945-2245) | strftime, strptime, sscanf, gmtime of glibc are modelled for the conversions %Y %m %d %H %M %S %F %T, mktime by its contract; fractions of a millisecond; formats longer than 8 KB; points and exponents behind a fraction; Windows |
| Option paths | Jsi_OptionsGet, Jsi_OptionsSet with dotted names (src/jsiOptions.c 581-645, 813-879), -I (src/jsiInterp.c 1280-1312) | C arrays of options (a[3]): no built-in table has one; -I traceCall; Jsi_GetDouble is a parameter |
| User objects | Jsi_UserObjRegister, New, Free, Delete, Unregister, ToName, FromName, Dump (src/jsiUserObj.c), Info.named | hash tables are lists; every type has a freefun; Jsi_UserObjGetData; what a freefun does; objects that move between interpreters |
| Query output 2 | modes json, json2, list, column, line of SqliteQueryCmd, dbEvalSetColumnJSON (src/jsiSqlite.c), Jsi_JSONQuote (src/jsiJSON.c) | floating point columns; the width option is a list of positive numbers; the rows come from SQLite |
| Query output 3 | mode list of SqliteQueryCmd (src/jsiSqlite.c) | as Query output 2 |
| Import | dbLocalGetline, SqliteImportCmd (src/jsiSqlite.c) | Lines as lists of bytes; SQLite itself as the list of rows bound |
| File.glob | FileGlobCmd, SubGlobsDirectory (src/jsiFileCmds.c) | The file system as sorted listings and stat; matching of names a parameter (module Glob); callbacks without effects; no retInfo |
| Aliases | jsi_AliasInvoke, InterpAliasCmd, jsi_AliasFree, jsi_AliasCreateCmd, Jsi_CleanValue (src/jsiInterp.c), Jsi_FunctionInvoke, Jsi_ValueArrayConcat | One thread; names without a dot; whole numbers in copied values |
| Names of values | Jsi_NameLookup, FindEndB, Jsi_GetInt (src/jsiUtils.c) | Jsi_VarLookup and jsi_ValueSubscript are parameters; numbers of digits only |
| System.matchObj | SysMatchObjCmd, jsi_sysTypeGet (src/jsiCmds.c), jsi_ValueTypeName (src/jsiFunc.c) | The order of keys is that of module Obj |
| verConvert | SysVerConvertCmd (src/jsiCmds.c) | Doubles are rationals with an arbitrary rounding, as in C111 |
| Signals | src/jsiSignal.c but alarm and kill; the signals of Jsi_EventProcess (src/jsiCmds.c) | Numbers of Linux; the table of callbacks does not change while a callback is looked for |
| The interactive shell | jsi_StrIsBalanced, the loop of Jsi_Interactive (src/jsiUtils.c) | Lines are given; evaluating is an event; no onEval, no history file, no completion |
| SQL from objects | Jsi_SqlObjBinds (src/jsiUtils.c), its use in query (src/jsiSqlite.c) | The object is a list of fields; the text of a number and the JSON of an object are given |
| Getters and setters | jsi_ValueLookupBase, jsi_GetterCall, jsi_SetterCall, jsi_ObjValInsert (src/jsiValue.c), OP_SUBSCRIPT, OP_ASSIGN, OP_INC, OP_DEC (src/jsiEval.c) | Functions are arbitrary; ++ on objects that are not frozen; no special keys |
| isPrototypeOf | ObjectIsPrototypeOfCmd (src/jsiProto.c) | The graph of prototypes is given |
| The line editor | the keys of linenoiseEdit on its buffer (src/linenoise.c) | Drawing, completion and the keys of the history are not modelled |
| The history of the line editor | linenoiseHistoryAdd, linenoiseHistorySetMaxLen, linenoiseHistorySave, linenoiseHistoryLoad, linenoiseEditHistoryNext (src/linenoise.c) | The array is a list; failing allocations are not modelled |
| The range of Info.completions | InfoCompletionsCmd to the text it completes (src/jsiCmds.c) | The search in the tables is not modelled |
| Breakpoints | jsi_InterpDebugHook (src/jsiInterp.c), Debug.add, remove, enable (src/jsiCmds.c) | Stops for errors and signals are not modelled; the table is a list in the order of its search |
| Vfs | VfsLookupMount and the channel operations (src/jsiVfs.c 50-129, 337-390) | Mounting, the callback and Zvfs are not modelled |
| Vfs directories | the file list of a mount (src/jsiVfs.c 640-680) | Callbacks of a mount are not modelled |
| Vfs listing | Jav_FSScandirProc (src/jsiVfs.c 218-268) | Types of entries, filter and sorting are not modelled |
| Sql | the SQLite binding (src/jsiSqlite.c): transactions, the cache of compiled statements, parameters, output modes csv, insert and html | SQLite itself is an environment with the documented meaning; numbers to text; other output modes, cdata, user functions, backup |
| Timer | setTimeout/Interval, clearInterval, event processing, update | signal and always events, handlers in C, counter wrap-around |

Not modelled at all: the LALR grammar (Lex ends with tokens, Vm starts from syntax trees), sockets, websockets,
SQLite and MySQL bindings, zip and virtual file systems, linenoise, CData, the debugger, signals, chroot, dynamic loading,
options processing beyond Jsi_GetIndex — except where a property below says otherwise.

## Main findings (all are theorems `Cnn_..._refuted` or general theorems beside them)

* C04 `Util.hexStr` decodes wrongly and overruns its buffer; C05 a percent sign is not encoded; C07, C57 the last or first
  character beyond ASCII is damaged; C11 SHA-3 uses stale bytes and the wrong variant; C13 short texts are not encrypted.
* C15, C43 hash tables with shared string keys lose keys after the table grows, clearing keeps the size; C16, C18, C44-C46
  trees: wrong deletion for struct keys, keys confused beyond `int`, attributes left behind, endless pre-order search.
* C20 lists: pop of the head; C22 the dictionary order has a cycle; C24 `?` reads behind an empty string.
* C25, C26, C54, C55 arrays: holes, limits, ends beyond the length, writes outside the vector.
* C27, C50-C52 JSON: unescaped keys, surrogates, reading past the last token.
* C29-C33 evaluation: late reading of variables, finally skipped by return, exceptions replaced.
* C34, C35 safe interpreters: File.mkdir/remove with `..`; C36, C37 timers: early by up to a second, use after free in callbacks.
* C38, C39, C47-C49 comparisons; C40 reference counts: copies of uncounted values and overwriting by own parts.
* C58-C60 string methods depart from ECMAScript; C61 messages and full names.
* C79, C80: `in` sees no inherited properties, Object.keys does; for-in goes in byte order and skips named properties of
  arrays.
* C75-C83 objects: `++` on an inherited property changes the prototype; Object.assign, merge, create, filter, Object.values
  share values, so changes in place show elsewhere; string indices of arrays; frozen arrays can be changed; prototype
  cycles crash; parameters of forEach/map callbacks and apply are the elements; Object.assign skips values that came
  through a parameter.
* C69-C74 safe interpreters: ways out by `new Interp({lockDown:...})`, `sub.source`, the first `Interp.source`, the live
  arrays `Interp.conf` gives out, `Interp.conf({lockDown:"."})` and exec with a newline, `load` when locked down; some
  locked options are not inherited.
* C63-C68 lexer: a newline behind a sign is lost, bytes from 0x80 on end the script silently, wrong line numbers.
* C84, C85 format: `%2000000000.147483647d` and long runs of flags overrun stack buffers; `%-05s` puts zeros at the right;
  `%.3q` starts with a NUL; `%c` of 128-255 is not a character.
* C88-C90 queues: a body that makes its own thread empty the queue again runs twice and its record is used after free;
  lockTimeout passes a relative time to pthread_mutex_timedlock, so a contended lock fails at once and the message is
  carried out again; deleting an interpreter frees records that threads wait on; texts overtake calls; `// c` hides the
  next text. Seen but not modelled: the error returns in jsi_AliasInvoke and InterpCallCmd keep QMutex locked.
* C92-C96 web server: urlPrefix is compared without regard to names, so a URL without `..` can leave the root directory;
  an alias behind such a prefix skips one character too many; #echo and #set act in parts that are left out; `#include fil"`
  uses what an earlier directive left in the buffer; an included empty file is an error; the second parameter of a form is
  never found by name. Seen but not modelled: the bound on the number of headers is compared with the wrong number.
* C98-C104 SQLite: `db.transaction` inside the script's own BEGIN ends that transaction; a query whose text is that of a query
  running further out crashes, as do blanks behind the last statement; the mode `insert` takes from the first row which columns
  are NULL and loses the values of the others, and falls into the code of `tabs`; the type of a parameter applies to the
  ones behind it. Seen but not modelled: type names of parameters longer than 49 bytes overflow a buffer; the per-query option
  `mapundef` is ignored; mode `line` joins the columns of the first row; mode `json2` gives an empty text for no rows.
* C105-C110 files: `File.remove("~/d", true)` lists one directory and removes from another; it reports success when the directory
  cannot be listed or removed; "//" and "/." are not protected as "/" is; `File.copy` with force onto a hard link of the source
  can empty it, and takes a read error for the end of the file. Seen but not modelled: FileCopy leaks the source handle when the
  destination cannot be opened; `File.link` is not refused in lockdown; files called stdin, stdout or stderr cannot be opened;
  `File.mknod` uses its second argument as device number too.
* C111-C116 packages: a package whose file throws after `provide` is returned by the next `require`; with options given the
  requested version is not compared; packages that require each other and provide themselves last fail after maxIncDepth
  evaluations. Seen but not modelled: `*poptsPtr` is set after a `return` in Jsi_PkgRequireEx; `evalFlags` is not restored when
  a file does not parse.
* C117-C122 calls: `f.apply(t, a)` uses the caller's array as the scope of the call, so assigning to a parameter changes `a`, the
  parameters stay behind as properties of `a`, and two calls with the same array share their local variables; a bound function
  remembers what its body assigned to a bound argument; `forEach` lets the callback change the elements by assigning to its
  parameter; `f.bind(o)` handed to `apply`, `forEach` or `setTimeout` fails; `a=void` is shown as `a:void=undefined`, and `...` is not
  shown. Seen but not modelled: `this` of an arrow function is that of the caller at the time of the call; jsi_SharedArgs releases
  whatever is in `args` at the end, so that changing `arguments` in the body unbalances reference counts.
* C123-C132 options: `conf({subOpts:null})` resets the options of the group that may only be set at creation, so a script can clear
  `subOpts.blacklist`; the object form of a bit set writes one byte, so `conf({traceCall:{before:true}})` and `conf({log:{parse:true}})`
  are accepted and do nothing; `null` for a group with a bit set crashes, with an enumeration fails; a bool reset by `null` gets an
  uninitialized variable; NaN is stored and then refused; a failing conf keeps the members before; required options are not
  checked when `null` is given; fractions and NaN are accepted for integers, -1 for unsigned 64 bit ones.
* C133-C140 regular expressions: `"abc".replace(/x*/g,"-")` is "-abc"; a `$` at the end of a template adds a NUL; `/(a)b/.exec("abxab")` returns
  both matches in one array and with flag g sets lastIndex inside the string; groups equal to the match are left out of match and exec,
  groups behind an unused one too; `re.lastIndex = -1` makes exec read before the string; all RegExp objects of the same text share
  the position of exec; `while (m = /x*/g.exec(s))` never ends; `new RegExp("")` fails.
* C141-C144 scope: `(a,b) => { var x = 2; }` sets x of the function around it; `() => …` and a getter leave a scope behind, so that variables declared
  before them in the same function become global; a setter has its own undefined copies of all variables declared before it; the name
  of a function expression is not bound; functions cannot be called above their statement; `var x;` resets x; `x + (x = 5)` reads x late.
* C149: maxUserObjs N lets N+1 objects be made (src/jsiEval.c 1262).
* C150: read(0) returns up to 8192 bytes (src/jsiFilesys.c 850-860).
* C151: gets splits lines of more than 8190 bytes without a way to tell, and cuts a line at NUL (src/jsiFilesys.c 793-813).
* C152: puts cuts its argument at NUL (src/jsiFilesys.c 985).
* C153: seek, tell, eof, truncate, flush, stat, lstat and mode of a closed channel use freed memory (src/jsiFilesys.c 702-711).
* C154: open returns true whether the file could be opened or not (src/jsiFilesys.c 735-782).
* C158: sort() puts missing elements first, and gives up the order if undefined is in the array (src/jsiArray.c 996-1007, src/jsiValue.c 920-923).
* C159: the number returned by a comparison function is cut to an int: (a,b)=>a-b does not sort 1.5 and 1.25, nor numbers more than 2^31 apart; exceptions are ignored (src/jsiArray.c 985-992).
* C160: sort with unique leaves pointers behind the end of the array; the next push frees an element (src/jsiArray.c 1091-1114).
* C161: a number prints with 15 digits, so 0.1+0.2 prints as 0.3 and reads back as another number; a subnormal number prints as "undefined" (src/jsiValue.c 515-527, src/jsiNumber.c 62-75).
* C162: toString(radix) knows 8, 10 and 16 only; other bases print decimal; negative numbers print as 64-bit two's complement; base 10 drops fractions (src/jsiNumber.c 205-209).
* C163: without a base parseInt("-5") and parseInt(" 5") are NaN and parseInt("016") is 14; with a base a text without digits is 0; 2^63 and more, 1e20 and Infinity give -2^63 (src/jsiCmds.c 560-586, src/jsiValue.c 611-614).
* C164: isInteger(2^70) is false (src/jsiNumber.c 25), and such numbers print with 15 digits only.
* C165: toPrecision cuts the text of %.*f instead of rounding: 1.7890625 with 2 digits is 1.7, 12345.5 is 123; toFixed cuts at 100 characters (src/jsiNumber.c 134, 153-158).
* C166: &, | and ^ convert to 64 unsigned bits and back to a double: -1|0 is 18446744073709551616; 2147483648|0 is not negative (src/jsiEval.c 229-238).
* C167: an operand outside 32 bits becomes -2^31 (src/jsiEval.c 1596-1617; jsi_ValueToOInt32 does not reduce).
* C168: the value of x++ is computed as (x+1)-1, which is not x for 0.1 or 2^53 (src/jsiEval.c 1705-1742).
* C169: Math.max(NaN,1) is 1 and Math.max(1,NaN) is NaN; Math.round(-2.5) is -3; Math.pow overflows to NaN (src/jsiMath.c 33, 38-80, 119).
* C170: strftime cuts milliseconds before 1970 towards 1970, so -1 shows as 1970-01-01 00:00:00; with utc an empty format has no seconds (src/jsiCmds.c 2067-2075).
* C171: the second before 1970 reads as NaN; UTC times that the local clocks skip come back an hour off, as UTC is computed with mktime (src/jsiCmds.c 2033, 2045, 2048).
* C172: milliseconds before 1970 show as ".-001"; strptime replaces %f by ":%S.", so it cannot read what strftime wrote with %f (src/jsiCmds.c 2008, 2106).
* C173: a format that fails leaves its fields set: "10:20:30" is read with the year 10; 2023-02-31 is the third of March; with an empty format, as used for options, the seconds of "2024-02-29 12:34:56" are lost (src/jsiCmds.c 2013-2019).
* C174: without utc an offset in the text is added to the local one; .5 is ignored and .1234 adds 1234 ms (src/jsiCmds.c 2026-2046).
* C175: ss[3] is overrun by three or more signs behind a date (src/jsiCmds.c 2032, 2035).
* C177: Jsi_OptionsSet does not look at the flags of the option: -I sets read-only options (src/jsiOptions.c 642-645, src/jsiInterp.c 1308).  Also, the index of a C array, a[99999], is not compared with the size of the array (src/jsiOptions.c 631, 861; not modelled).
* C178: -I name=c:x is split at the colon; the words t, fal, TRUE, null cannot be given as texts (src/jsiInterp.c 1281-1307).
* C180: Jsi_UserObjUnregister reads the hash entry it has deleted and frees the registration that the table's free procedure has freed (src/jsiUserObj.c 14-18); reached when a module is unloaded.
* C182: Info.named("#x_1"), and a channel named so, crash: the entry that is not found is dereferenced (src/jsiUserObj.c 191-193); atoi takes "#File_1junk" and "#File_4294967297" for #File_1 (190).
* C183: Jsi_JSONQuote counts characters where the length counts bytes (src/jsiJSON.c 411), so a blob with n letters of two bytes is followed in the output by up to n bytes behind it in memory.
* C184, C185: without rows mode json with headers leaves out the names, and mode json2 gives an empty string (src/jsiSqlite.c 2689, 2762).
* C186: mode line writes no line feed in the first row (src/jsiSqlite.c 2962).
* C187: mode column writes the names also without headers, on the line of the first row (src/jsiSqlite.c 2815-2834).
* C188: mode list quotes nothing (src/jsiSqlite.c 2767-2790).
* C189: after a quoted value at the end of a record the pointer is left on its last byte, not behind it (src/jsiSqlite.c 2289-2314): every such file is refused, or read behind the end of the line.
* C189: azCol has nCol+1 entries, `azCol[++i]` is not bounded in records with quotes (src/jsiSqlite.c 2219, 2270-2311).
* C189: a record that ends inside quotes closes the file twice, and what was read before is committed (src/jsiSqlite.c 2265-2268).
* C192: without dir the names are cut by the length of the current directory's path (src/jsiFileCmds.c 1134-1138 with 1251).
* C193: without dir, File.glob('*/x') looks under / (src/jsiFileCmds.c 1022).
* C194: after the search for a regular expression the search goes on with dir as the pattern (src/jsiFileCmds.c 1283, 1291-1307); without dir it reads freed memory (1249-1254, 1283).
* C195: goto dumpit passes over the pattern and the search of the directory (src/jsiFileCmds.c 1045-1046) and leaks sStr; continue passes over the check of maxDiscard (1122).
* C197: interp->nullFuncArg is the scope of every call without arguments (src/jsiFunc.c 764-770; called from src/jsiSqlite.c 1199, 1243, 3447 and src/jsiCmds.c 4162), and the array given with an alias that of a call of it without arguments (src/jsiInterp.c 292-293).
* C198: Jsi_HashEntryNew comes before the checks of the arguments (src/jsiInterp.c 483-489); `ac->dinterp` is read before `if (!ac)` (281-287).
* C199: iskey is set to 1, so the length of the string is lost (src/jsiInterp.c 239-245); when the result cannot be copied this is ignored (362).
* src/jsiInterp.c 317-320: QMutex stays locked when the arguments cannot be written.
* C200: `o[1]` is looked up with the variable named 1 unless o is an array (src/jsiUtils.c 456-468); the loop ends after 1000 steps with the value it has (427); the index is an int (2466-2476); the quotes are removed but escapes stay (437-441).
* C201: `if (arg3 && Jsi_GetBoolFromValue(interp, arg4, ...))` tests the wrong argument (src/jsiCmds.c 4067), noerror is not initialized (4040); a trailing space makes `*ep++ = *tp++` copy the NUL and go on (4074-4077).
* C202: the loop of verConvert goes on to the middle part when the last one was not zero (src/jsiCmds.c 3994-3999): "1.0.5" becomes "1".
* C203: find_signal_by_name looks for "sig" at `name`, not behind the - (src/jsiSignal.c 104-110); "unknown signal" is compared without its first three letters (122).
* C204: the results of sigaction are not looked at (src/jsiSignal.c 204-220).
* C205: the bit of a signal is cleared at the first callback for it, and before `busy` is looked at (src/jsiCmds.c 264-286); sigloc is not volatile and is changed with |= in the handler and &= outside (src/jsiSignal.c 25-31, 129-132).
* C206: jsi_StrIsBalanced counts brackets and quotes wherever they stand (src/jsiUtils.c 940-962), and lines are joined with a space (1232); get_inputline leaves the end of the line in without readline, so the comparison with a backslash at 1218 fails.
* C207: the rc of query is still JSI_OK when Jsi_SqlObjBinds fails (src/jsiSqlite.c 2629-2632); noDefaults is never read (src/jsiUtils.c 542-543); texts go into SQL between quotes as they are (620-625), the name in CHECK(typeof(..)) without brackets (642-646); numbers with %g (606).
* C208: interp->hPtrGet is written in jsi_GetterCall only (src/jsiValue.c 1396) and never cleared, and OP_SUBSCRIPT takes it each time (src/jsiEval.c 1290): `a.x; b.y++` calls the setter of a.x, also when a is freed. `this` of that setter is whatever is below on the stack, or the number (1737). A setter of a prototype is not looked for (src/jsiValue.c 1410). An error of a getter is turned into `undefined` (1005).
* C209: ObjectIsPrototypeOfCmd looks for the prototype of `this`, not for `this` (src/jsiProto.c 604-611).
* C210: the keys of the editor work on bytes: Backspace after a character of two bytes leaves half of it (src/linenoise.c 734-742).
* C211: with a full history every edit session drops the oldest line, since the empty entry for the present line counts (src/linenoise.c 792, 1119-1123); `linenoiseEditHistoryNext` cuts a full line by one byte, since `buflen` has been decremented already (715-716); edits of older entries stay in the history (704-705).
* C212: `Info.completions("foo.bar",5,2)` writes a NUL before its buffer, `Info.completions("",0)` reads before the text (src/jsiCmds.c 3650-3684).
* C213: `lastLine` is not updated by lines the debugger is not told of, so a loop back to the line of the last stop counts as the same line: the breakpoint there is missed (src/jsiInterp.c 1008-1013).
* C214: VfsLookupMount takes the shortest mount, not the longest (src/jsiVfs.c 60). C215: the `size` of a fileList entry is trusted, so File.read reads past the data (337-348); SEEK_CUR subtracts the offset (110).
* C216: a directory of the fileList that comes after a file in it is refused as a duplicate (src/jsiVfs.c 657-680).
* C217: names are cut to 255 bytes, so a listing gives names that do not exist, or one twice (src/jsiVfs.c 246-247).

