STATUS={
'C01':('proved','Full statement, all byte strings; also decodes unwrapped RFC text and any line wrapping between groups.'),
'C02':('proved','Full statement; includes absence of out-of-bounds reads.'),
'C03':('proved','Both halves, all inputs and all starting values.'),
'C04':('partial','Digest printer half proved; hexStr half is false of the code: refuted, with general failure and buffer overflow theorems.'),
'C05':('partial','Full claim refuted (percent sign, plus sign); proved for all strings without those characters.'),
'C19':('partial','Full claim refuted (reservation on empty string leaves no NUL; DSPrintf loses text with >=8192 spare bytes); proved for all other histories.'),
'C20':('partial','Full claim refuted (pop of head, delete of only entry, clear); forward order proved for all valid histories but the deletion of the only entry; reverse order for histories that keep the first entry.'),
'C21':('proved','Full statement over all histories, including growth and absence of undefined behaviour.'),
 'C06':('proved','encoder equals Lean core String.utf8EncodeChar for every Char; decoder round-trips with exact length, is in-bounds and makes progress on every nonempty byte string'),
 'C07':('partial','refuted as stated (C07_refuted, C07_charAt_refuted: a multi-byte first character drags extra bytes); proved for ASCII first char / range reaching the end, to-end substr, negative start, charCodeAt'),
 'C08':('proved','every message below 2^61 bytes, any uninitialised buffer; specification is FIPS 180-4 written out separately'),
 'C09':('proved','every message below 2^61 bytes; specification is FIPS 180-4'),
 'C10':('proved','every message below 2^61 bytes; specification is RFC 1321'),
 'C11':('partial','full claim refuted three ways (variant selection swapped, stale bytes in the last block of multi-block messages, 64 bytes always returned); exact behaviour characterised and FIPS 202 agreement proved when the stale bytes are zero, in particular for all messages shorter than a block'),
 'C12':('proved','every string and key (lengths below 2^31); plus injectivity and exact length'),
 'C13':('partial','refuted: texts of 2..4 bytes are not encrypted at all; what remains true (permutation) is proved'),
 'C41':('proved','every byte string and key'),
 'C42':('proved','every hash function, message, strength up to the digest size; instance for SHA-256'),
 'C29':('partial','the emitted code is proved to compute the structured semantics of jsish for every expression, placement, stack and state (C29_expr_code); agreement with the ECMAScript reading is proved for expressions without a side effect between a variable operand and its use and refuted in general (x + (x = 5))'),
 'C30':('partial','machine result iff source result (including non-termination), stack balance, no internal inconsistency, for every program whose break/continue have a destination and do not leave a for-in/switch through a finally; refuted for the others'),
 'C31':('partial','proved for leaving normally, by exception, break, continue, for every placement; refuted for return and for a throw statement in a catch block at the outermost level'),
 'C32':('partial','proved for finally blocks without try statements (and calls that handle no exceptions); refuted in general and for thrown undefined'),
 'C33':('proved','depth as stated, for any code whatever; in addition the contents, for programs within okS, and a refutation of the contents in general'),
 'C14':('proved','all histories of create/set/unset on word, string and struct keyed tables, any value type; no crash, lookup, search exactly once, size; counters within int range below 805306368 operations; bucket indexes in bounds'),
 'C15':('partial','refuted: removing a present key crashes when the two placements differ, and after 48 keys stored keys are lost (general theorem); proved for histories without removal and with at most 47 keys; exact crash condition proved'),
 'C43':('partial','refuted: the size is not reset; what holds (nothing found, nothing visited) is proved for tables that were never rebuilt'),
 'C16':('partial','proved for word, interned-string and string keyed trees with any total key order, for every history; struct keyed trees refuted (deletion of a node with two children); string keyed trees, which are ordered by the dictionary comparison, refuted in general (12 finds 1,2) and proved for keys without commas and the characters between Z and a'),
 'C17':('proved','red-black invariant and height at most 2 log2(n+1) after every history on word, interned-string and string keyed trees (struct keyed trees do not survive deletion, see C16)'),
 'C18':('partial','refuted for keys whose difference does not fit an int; proved: exactly which keys are confused, and order for keys less than 2^31 apart'),
 'C44':('partial','proved for string keyed trees; refuted for word and interned-string keys (deletion swaps key and value between nodes)'),
 'C45':('partial','proved for string keyed trees; refuted for word and interned-string keys, the kind used for object properties (flags are not swapped with key and value)'),
 'C46':('partial','in order and post order proved for all trees; pre order refuted (never ends); level order proved below 199 entries and refuted beyond (NULL dereference)'),
 'C34':('partial','proved: every existing file opened (any text, links included) lies in a listed directory (or is argv[0]/the executable, for reading), the check is exact for existing files, new files in a file system without links, mkdir/remove of absolute paths without dots; refuted: File.mkdir with .., writing through a dangling link, removing a link that points inside, ~ with a different $HOME'),
 'C35':('partial','File.normalize: same location and idempotence proved; removal of .. refuted (never removed), // becomes empty, leading/trailing . stays; NormalizeUnixPath: clean result, no overflow, same location when every .. closes a component below the first; refuted otherwise'),
 'C38':('partial','refuted: a number and a numeric string at distance 1/2 or less are always ==, and infinity is not == to a string denoting it; proved for whole numbers and for distances of 1 or more'),
 'C39':('partial','the relation is proved to be symmetric, transitive and reflexive except on NaN, for all values; the operator with type checking (the default) is refuted: undefined === 1 is an error, 1 === undefined is false'),
 'C47':('partial','refuted: every object that is not a wrapper is == null and == undefined, null == 0, null == false; exact characterisation of == undefined proved'),
 'C48':('partial','proved for numbers and for strings without NUL bytes; refuted for a number and a numeric string (10 < "9")'),
 'C49':('partial','proved for strings without NUL bytes; refuted for others (what follows a NUL is not compared)'),
 'C22':('partial','reflexivity and antisymmetry proved for all strings; transitivity refuted (Z > a > _ > Z), zero only for equal strings refuted (1,2 and 12); on strings without commas and the characters between Z and a the comparison is proved to be exactly the dictionary order, hence total and transitive'),
 'C27':('partial','proved for values without undefined, with basic-plane UTF-8 strings and keys that need no escape, within the depth and array limits; refuted for keys with quotes, characters beyond U+FFFF, byte strings that are not UTF-8, undefined members, and values deeper than maxDepth'),
 'C28':('proved','all byte strings; in addition a refutation for property keys, which are written without escapes'),
 'C50':('partial','proved for texts without solidus escapes, surrogate pairs and escaped keys, within the array limit; each exclusion refuted, and true/false/null followed by white space refuted; in any text a repeated member keeps its last value and each key appears once'),
 'C51':('partial','completeness proved for arrays, objects and strings; refuted for scalars; soundness refuted; what holds: in an accepted text the brackets outside strings and words match'),
 'C52':('partial','refuted: an object with an odd number of children makes the reader run one token past the end, and a lone comma without strict mode has no token; proved for every text in which objects have an even number of children'),
 'C25':('partial','proved for every history on arrays within the size limit, without holes for shift, at least one argument for unshift; refuted: shift with a leading hole, unshift without arguments, push beyond the limit'),
 'C26':('partial','proved for every history with whole arguments in range, sizes within the limit; refuted: end beyond the length, start before the beginning, splice with an out of range start, chains of concat reaching the limit with empty arrays, splice that fails after removing'),
 'C53':('proved','all histories of the twelve operations, any size limit; callbacks see C54'),
 'C54':('partial','proved for callbacks that leave the array and its elements alone (any state, any results): calls made, their order, result, for every array with holes; every needs an element, reduce without initial value no leading hole, indexOf a start not before the array, lastIndexOf no start, flat depth 1-1000 and no undefined; each exclusion refuted; refuted: find with a callback that pops (NULL dereference), callbacks that assign to their parameter change the array, filter shares elements, forEach visits appended elements'),
 'C55':('partial','push, pop (last element not a hole) and shift (room behind the last element) proved; refuted: shift on a full vector writes outside it, push at the limit too, unshift drops the wrong element, shift leaves a stale cell'),
 'C23':('partial','proved for all strings and separators without NUL bytes: split then join is the identity, join then split gives the pieces back when no piece makes the separator appear early (one-byte separators: when no piece contains it), split fills exactly the vector it allocated; refuted: overlapping separators, join without argument, holes, NUL bytes, split without argument'),
 'C56':('partial','proved for all byte strings and all ASCII character sets; refuted for character sets beyond ASCII (bytes of a character are removed)'),
 'C57':('partial','proved for all texts whose last character is ASCII; refuted: a last character beyond ASCII is lost (for every text), letters beyond ASCII keep their case'),
 'C58':('partial','proved for all strings without NUL: first occurrence (byte offset), found in a text exactly when it occurs as characters, last occurrence without start; refuted: offsets count bytes, lastIndexOf searches from the start upwards, empty substrings at the end'),
 'C59':('partial','proved: one argument, end at or beyond the end, slice from 0; refuted for all ASCII texts: substring includes the end, slice takes the end as a length, slice beyond the end gives the last character, swapped and negative arguments of substring'),
 'C60':('partial','replace with a string, repeat of non-empty strings, concat, map (leftmost, first pair) proved; refuted: function gets the whole string, repeat of the empty string, NUL in concat, empty source in map'),
 'C24':('partial','proved for all texts and all patterns of literals, ?, * and plain sets and ranges: matches iff in the language, no read beyond either string; memory safety for arbitrary bytes unless the string is empty; refuted: a leading ? on the empty string reads behind it, negated sets are not negated, escapes in sets'),
 'C36':('partial','transition system of the event table with arbitrary scripts, nested update calls and clocks: never early unless due on a whole second, identifiers fresh, one-shot at most once, cleared never again; no use after free when timers are cleared and update is called outside callbacks only; refuted: due on a whole second fires at once, clearing a timer in its own callback or another in the same bucket, and nested update, use freed memory'),
 'C37':('partial','proved: not early within the same second, never more than a second early, ends once the time is over; refuted: returns up to a second early as soon as the second changes'),
 'C61':('partial','proved for all tables and words: unique words accepted in all modes, exact mode exactly right, answers sound; refuted: messages duplicate/unknown swapped in exact mode, full name rejected after a longer entry'),
 'C40':('partial','heap of values and objects with copy, move, replace, reset, push of variables, arrays and properties; for every history that keeps the rules (what is passed stays reachable without what is overwritten, sources of copies are counted): counts equal references, nothing referenced is freed, the unreferenced is freed, calls are safe and end, no leak without a cycle; refuted without the rules: copy of an uncounted value, overwriting by an own element, copy over a cycle, cycles leak'),
 'C62':('proved','on the heap model of C40, for every call that returns, without any rules for the caller'),
 'C63':('partial','proved for all sequences of tokens whose neighbours stay apart when a newline between them is lost, names and numbers below 1020 characters, regular expressions below 8000 and only where jsish allows them; refuted: a newline behind a sign is lost (names are glued together, a newline at the beginning of a string vanishes, an empty // comment swallows the next line), 0e5, 0x1E-2, regular expression behind return, form feed, names of 1020 characters'),
 'C64':('partial','proved for all tokens of the grammar of C63 in front of any text; regular expressions at the beginning of the script only'),
 'C65':('partial','proved for all literals of plain bytes other than 0xFF, the escapes jsish knows and \\u except surrogates; quoting round trip for all byte strings without 0xFF; refuted: 0xFF, line continuation, \\x, \\v, surrogate pairs'),
 'C66':('proved','all texts; strtod and the compilation of regular expressions are parameters'),
 'C67':('partial','proved for ASCII texts; refuted: a byte from 0x80 on outside strings and comments ends the script silently, the byte 0x80 is skipped'),
 'C68':('partial','for the texts of C63: exact if a space or tab follows each token, never too small otherwise; refuted without the space'),
 'C69':('proved','all histories; /etc/jsish.conf, if present, is assumed well formed and silent on these options; threads and privKeys outside the model; for the other locked options (noAutoLoad, noCheck, noError, noInput, maxDumpStack, maxDumpArgs, historyFile) inheritance is refuted'),
 'C70':('partial','proved for histories without the lockDown option, without changes to the arrays Interp.conf gives out and with Interp.source only where safeMode is off; refuted: new Interp({lockDown:dir}), sub.source, the first Interp.source, Interp.conf("safeReadDirs").push, Interp.conf({lockDown:"."}) followed by exec, load in a locked down interpreter'),
 'C71':('proved','the parsers of custom options (enumerations, bit sets, sub-options) are a parameter'),
 'C72':('proved','for all strings and the actual table of options'),
 'C73':('proved','as C69'),
 'C74':('partial','proved: nothing without pattern or lockDown, what is run matches and has none of the eight characters; refuted: a newline starts a second command'),
 'C75':('partial','proved for all histories of two kinds: sharing by assign/merge/create/filter without changes in place, or changes in place, own ++ and calls without sharing; refuted in general'),
 'C76':('partial','proved for the histories of C75; refuted after Object.assign, merge, Object.create with properties, filter, Object.values and for ++ of an inherited property'),
 'C77':('partial','proved for all arrays, positions and histories of the second kind of C75; refuted: string indices are written elsewhere, 1abc/01/0x1/1.5 alias elements, delete of an element, length'),
 'C78':('partial','proved for plain objects: keys unless something is unfrozen; values unless Object.values or apply is used; refuted: arrays, Object.values, unfreezing an object that shares values, the flag travels with a value read'),
 'C81':('partial','proved for all histories without setPrototypeOf; refuted: setPrototypeOf makes cycles, an empty object is not taken as prototype'),
 'C82':('partial','proved for all histories without callbacks of array methods and apply; refuted for these'),
 'C83':('partial','proved for the first kind of histories of C75; refuted: values that came through a parameter, arrays as sources'),
 'C79':('partial','what the variable holds when a body begins: proved without callbacks and apply; each name and position at most once and in order: proved for all states and bodies; ends, reaches every name: proved without setPrototypeOf (and delete in the body); the names are the readable properties: proved after the histories of C75; refuted: order of insertion, named properties of arrays, prototype circles'),
 'C80':('partial','proved after the histories of C75: hasOwnProperty for ordinary keys, in for own properties and positions, Object.keys of arrays and of objects that inherit nothing; refuted: in and inherited properties, in and named properties of arrays, own property this, Object.keys lists inherited properties'),
 'C84':('partial','proved for all formats made of characters and directives with at most 70 flags, widths and precisions to 10^9; refuted: zero and minus flags together on strings, precision of q, S with NUL, width counted in bytes, c above 127; the text of integers is a model of C printf (CPrintf.lean), that of floating point numbers a parameter'),
 'C85':('partial','proved for formats with at most 53 flags and 9 digits in a row and stars to 10^9; refuted: long runs of flags, sizes beyond int'),
 'C86':('proved','for all byte strings and all arguments'),
 'C87':('proved','for widths and precisions up to 10^9, on the model of C printf in CPrintf.lean'),
 'C88':('partial','proved for all schedules without nested callbacks, failing locks and deletion of the interpreter; with a nested callback or a failing lock a message is carried out twice and freed memory is used (refuted)'),
 'C89':('partial','proved for all schedules without nested callbacks, failing locks and deletion of the interpreter; deleting the interpreter frees what the waiting thread reads (refuted)'),
 'C90':('partial','proved for all schedules without nested callbacks, failing locks and deletion of the interpreter; refuted: an asynchronous text overtakes an earlier call of the same thread; a comment at the end of a text hides the next text'),
 'C91':('partial','proved for all schedules without nested callbacks, failing locks and deletion of the interpreter; that every call ends is proved as possibility from every state, not for every fair schedule'),
 'C92':('partial','proved for URLs without a name ".." (lexically, no symbolic links), a urlPrefix that ends at the end of a name, absolute or relative roots; refuted: ".." is kept; urlPrefix "/a" and "/a../x"; urlPrefix "/a/" with an alias and "/a/lib/x../y"; the root check of included files compares characters, so "/srv/www" admits "/srv/www2"'),
 'C93':('partial','proved for well formed pages without #echo and #set in left out parts and with conditions that have a truth value; refuted: #echo and #set act in parts that are left out, conditions there can end the page, #elif behind #else shows two parts, the mark @ has no effect behind the part that is shown'),
 'C94':('partial','proved unless a file has one of four misspelt include directives; refuted for those'),
 'C95':('proved','names and looked-up names without "="; the array for 100 headers is not bounded by the code and not bounded in the model'),
 'C96':('partial','proved for parameters at even places; refuted: the second parameter is never found by its name'),
 'C97':('proved','for useridPass without onAuth, GET requests; POST requests return before the check and are not modelled'),
 'C98':('partial','proved for scripts that do not use BEGIN, COMMIT, ROLLBACK, savepoints or OR ROLLBACK themselves, on the documented meaning of SQLite; refuted: inside a BEGIN of the script the call ends the script\'s own transaction; a statement with OR ROLLBACK caught inside makes the rest durable although the call fails'),
 'C99':('partial','proved for scripts that do not change stmtCacheMax, without bindWarn; the two ways to crash are part of the statement; refuted: the text of a running query inside its callback, blanks or a comment behind the last statement, and a smaller stmtCacheMax inside a callback crash; with bindWarn a parameter without a value keeps that of an earlier query'),
 'C100':('partial','proved for queries one after another; refuted for queries inside others and after db.conf'),
 'C101':('partial','proved for separators of one byte and names of columns that need no quotes, text without NUL; refuted: separators of two bytes, names with a separator; NULL is written as an empty text'),
 'C102':('partial','proved where the same columns are NULL in all rows, and no limit cuts; refuted: a column NULL in the first row is NULL in all, a NULL in a later row becomes an empty text, a limit adds a row in another format, quotes in the table name'),
 'C103':('partial','proved for all results; text is cut at NUL, NULL is shown as an empty text; rows of headers: only that no name can be markup'),
 'C104':('partial','proved where none or all of the parameters name a type, without casts; refuted: a type stays in force for later parameters, a cast changes the script\'s variable, type bool refuses true, text with NUL comes back cut'),
 'C105':('partial','proved for every path but "..": dirname("..") is "..", one level too high'),
 'C106':('partial','proved for every path that does not begin with "~", with any links, permissions, listing orders, descriptors and lengths of paths; refuted for "~/d" if there is a directory called "~"'),
 'C107':('partial','proved where everything is permitted, the paths fit in PATH_MAX, the path does not go through the tree itself nor end in "." or "..", and there are descriptors for the depth; refuted: success although nothing, or not all, was removed ("~/d", no permission, no descriptors, "d/."), the root is protected as "/" but not as "//"'),
 'C108':('partial','proved for every path that does not begin with "~"; that the call succeeds is proved for paths without "." and ".."; refuted for "~": checked in the home directory, made in the working directory; a call that fails can leave new directories'),
 'C109':('partial','proved where nothing fails; refuted: onto a second name of the source in a directory where nothing may be removed the contents are lost; read errors and errors of closing are not noticed, a failed copy has removed the old destination, a copy onto itself loses the permissions'),
 'C110':('partial','proved where nothing fails, and with short writes; refuted: an error of closing is not noticed'),
 'C111':('partial', 'proved for texts with one to three parts below 100, for any rounding with relative error 2^-50, and for numbers up to 99.9999; refuted: "1.2.3.4.5" and "2..9" are accepted, 4294967297 is taken for 1, 99.99999 is shown as 100.0.0, which is refused'),
 'C112':('partial', 'proved for require(name) and require(name, version); refuted: with a third argument, or with noError set, the version is not compared'),
 'C113':('partial', 'proved for every session; refuted: a second provide by the same file with another version is accepted and ignored'),
 'C114':('proved', 'for the main interpreter and absolute directories'),
 'C115':('partial', 'proved for the first require, and that a file which provides last and does not require or catch is not taken for loaded; refuted: if the file throws after provide the second require returns the package'),
 'C116':('partial', 'depth and end proved for every session; once proved if every file begins with provide; refuted otherwise: packages that provide themselves last are evaluated until the limit is reached and then fail'),
 'C117':('proved', 'for functions of the language, called by any means; parameters and local variables with different names (else the parser refuses, unless noCheck)'),
 'C118':('partial', 'proved for direct calls and call; refuted: apply shares the cells of the array with the parameters, and all calls with the same array share one scope; bound arguments and the elements forEach passes are shared too'),
 'C119':('proved', 'for functions of the language; refuted beside it: the documentation says untyped functions are unchecked and that checking ends at typeWarnMax'),
 'C120':('proved', 'for functions of the language, with checking on when the body returns'),
 'C121':('partial', 'proved for every set of types and every parameter but those with default void; refuted for void, which is shown as undefined'),
 'C122':('partial', 'proved for call, apply and bound functions that are called directly; refuted: a bound function that is called by apply, forEach or a timer before it was ever called directly throws "bind failure"'),
 'C123':('partial', 'proved for whole numbers and all types of up to 32 bits, and for signed 64 bits in range; refuted: fractions are cut off silently, unsigned 64 bit options take -1 and show 2^64, 64 bit options turn NaN and huge numbers into -2^63'),
 'C124':('proved', 'for all types modelled and all depths; options of a table must not overlap and string buffers must have room for their end'),
 'C125':('partial', 'proved for the options of the table, and at every depth when no value is null; refuted: conf({subOpts:null}) resets the locked options of the group, among them the list of packages that may not be loaded'),
 'C126':('partial', 'proved for all types but floating numbers and groups; refuted: NaN is refused after it has been stored; increment of a bool is refused after it has been set'),
 'C127':('partial', 'proved: the members before the one refused stay set, those after it are not looked at; refuted as stated'),
 'C128':('partial', 'proved for objects; refuted: null in place of the object is accepted'),
 'C129':('partial', 'proved for lists that fit in the field; refuted: a negative value is shown as the first name. ENUM_SPEC is not modelled'),
 'C130':('partial', 'proved for 32 bit fields (the size used by all tables of the program): strings, arrays, reading; objects only for lists of at most eight names: refuted for longer ones (traceCall "before", log "parse"); null inside a group that is reset follows a null pointer; narrower fields show bits of the next field'),
 'C131':('partial', 'proved for tables of open options without bit sets and groups, with values that can be written; refuted for bit sets (an array only adds) and for tables with a read-only option'),
 'C132':('partial', 'proved: unique beginnings, full names with at most one longer name before them, unknown and ambiguous words; refuted: a full name after two longer ones is ambiguous'),
 'C133':('partial', 'proved for every engine, string and template without NUL whose last byte is not a lone $; refuted for that: a NUL byte is added'),
 'C134':('partial', 'proved for expressions that match no empty text, without ^ under flag m, up to ten million bytes, templates without $`; refuted: empty matches end the replacing, ^ with flag m behind a match, $` is only the text since the last match, more than 10000001 matches fail. The expressions of Lang.lean have no groups; C134_replace_each is about every engine, with groups'),
 'C135':('partial', 'as C134; refuted: no call for an empty match'),
 'C136':('partial', 'g: proved for expressions as in C134; without g: proved when all groups took part, none is empty at the beginning and none has the extent of the one before; refuted otherwise: [] for an empty match, groups left out'),
 'C137':('partial', 'proved for expressions without groups and without ^ that match no empty text; refuted: ^ matches wherever the search goes on, an empty match is found forever, groups make exec return several matches and spoil lastIndex, a negative lastIndex reads before the string, objects made from the same text share the position'),
 'C138':('partial', 'proved for all expressions and strings without NUL, with the index in bytes; refuted: characters'),
 'C139':('partial', 'proved for all texts but the empty one and flags without a slash; refuted for those'),
 'C140':('partial', 'proved for replace and match, and exec with a lastIndex that is not negative; refuted for a negative one (C137_negative_index_refuted)'),
 'C141':('partial', 'proved for programs whose functions are written with the word function and without a name of their own in expressions, or are arrow functions with parameters and no declarations, nested less than 4096 deep; refuted for the others: arrow functions with declarations or with (), getters, setters, named function expressions'),
 'C142':('partial', 'proved for the same programs, if no parameter is declared again in the body; refuted for that and for setters'),
 'C143':('partial', 'proved for programs in which var x; comes first and function statements next; refuted in general'),
 'C144':('partial', 'proved for programs in which a variable used as an operand cannot be changed by the operands behind it; refuted in general'),
 'C145':('proved', 'each interpreter has its own count: what its sub-interpreters execute is not counted (C69, C73 limit those)'),
 'C146':('proved', ''),
 'C147':('proved', 'under the condition on native functions in the statement; the example deaf shows what happens without it'),
 'C148':('proved', ''),
 'C149':('partial', 'proved for N+1; refuted for N: one more object than the limit is made'),
 'C150':('partial', 'proved for contents and sizes below 2^31; refuted for read(0), which returns the next 8192 bytes'),
 'C151':('partial', 'proved for lines of at most 8190 bytes without NUL; refuted for a line of 8191 bytes and for a line with NUL'),
 'C152':('partial', 'write proved; lines for at most 8190 bytes without NUL; refuted: puts cuts its argument at NUL'),
 'C153':('partial', 'proved for read, gets, write, puts, close; refuted for seek, tell, eof, truncate, flush: they use memory that has been freed'),
 'C154':('partial', 'the constructor and successful open proved; refuted: open returns true if the file cannot be opened'),
 'C155':('proved', ''),
 'C156':('proved', ''),
 'C157':('proved', "for every qsort that keeps the elements, as glibc's does also for inconsistent comparisons"),
 'C158':('partial', 'proved for arrays of numbers without NaN, of strings without NUL, of whole numbers below 2^30 mixed with truth values, for dict of plain strings (C22); refuted for arrays with undefined, for missing elements (they come first) and for strings with NUL'),
 'C159':('partial', 'proved for whole numbers below 2^31; refuted for fractions ((a,b)=>a-b leaves 1.5 before 1.25), for large numbers, and for exceptions (ignored)'),
 'C160':('partial', 'proved for the contents of arrays of numbers; refuted: missing elements stay, and the next push frees a value that is in the array'),
 'C161':('partial', 'proved for whole numbers below 2^63, for NaN and the infinities, and for every number written with at most 15 significant digits in the normal range (binary rounding against decimal rounding, any exponent); refuted for numbers that need 16 or 17 digits (0.1+0.2) and for subnormal numbers (text "undefined")'),
 'C162':('partial', 'proved for 0 to 2^53 in base 8, 10, 16 and for negative numbers in base 10; refuted for negative numbers in base 8 and 16, for all other bases and for fractions with base 10'),
 'C163':('partial', 'proved with a base: blanks, sign, digits, value up to 2^53; without a base for digits that begin with 1 to 9; refuted without a base for a sign, a blank or a leading 0, with a base for texts without digits, and for numbers from 2^63 on (the result is negative)'),
 'C164':('partial', 'proved for isNaN, isFinite, isSafeInteger, and isInteger below 2^63; refuted for isInteger(2^70)'),
 'C165':('partial', 'proved for toFixed when the text has at most 100 characters; refuted for larger numbers and for toPrecision'),
 'C166':('partial', 'proved for & unless both operands are negative, for | when none is, for ^ when the signs agree, in the range of 32 bits; refuted otherwise: the work is done on 64 unsigned bits, -1|0 is 2^64 and 2^31|0 stays 2^31'),
 'C167':('partial', 'proved for operands in the range of 32 bits and whole counts up to 2^53; refuted outside: 4294967295>>>0 is 2147483648'),
 'C168':('partial', 'proved for whole numbers below 2^53; refuted for x++ on 0.1 and 2^53, whose value is (x+1)-1'),
 'C169':('partial', 'proved for % by a number that is not 0, min and max without NaN, floor, ceil, and round except negative halves; refuted for min and max with NaN (depends on the order), Math.round(-2.5), and Math.pow, whose overflow is NaN'),
 'C170':('partial', 'proved for years 1000 to 9999 in every time zone; refuted for times before 1970 that have a fraction of a second (cut towards 1970) and for an empty format, which drops the seconds with utc'),
 'C171':('partial', 'proved for years 1000 to 9999 with and without utc, for every time zone whose clocks show the time once; refuted for the second before 1970 (taken for an error of mktime) and, with utc, for times that the local clocks skip'),
 'C172':('partial', 'proved from 1970 on; refuted before 1970 (".-001") and for the format %FT%T.%f, which shows but does not read'),
 'C173':('partial', 'proved for the five forms; refuted for times of day alone, for dates that do not exist and texts with something behind, and for an empty format (seconds lost)'),
 'C174':('partial', 'proved with utc for offsets +-HH:MM and fractions of three digits; refuted without utc and for other fractions'),
 'C175':('partial', 'proved for texts without three signs side by side; refuted for others: sscanf("%[+-]") overruns ss[3]'),
 'C176':('partial', 'proved for all options and sub-options; refuted for a member of an object that is the value of an option'),
 'C177':('partial', 'proved for options that are open; refuted for read-only options, which the path sets and the object does not'),
 'C178':('partial', 'proved for names up to 49 bytes and, with =, for values without a colon; refuted for values with a colon behind = and for file names that are beginnings of true or false'),
 'C179':('partial', 'proved for up to 2^31-1 objects of a type, where the counter overflows'),
 'C180':('partial', 'proved for all histories of register, new, release and deletion; refuted for the withdrawal of a type before the end of the interpreter (use after free, double free)'),
 'C181':('proved', 'all histories'),
 'C182':('partial', 'proved that what is found exists and has that type and number; refuted: a text with an unknown type follows a null pointer, and texts with junk, blanks or a number that is too large are accepted'),
 'C183':('partial', 'proved for UTF-8 texts without NUL up to U+FFFF, whole numbers, NULL and printable blobs, and JSON.parse back for plain column names; floating point numbers are not modelled; refuted: blobs with letters beyond ASCII are followed by memory behind them, other column names do not come back, U+1F600 becomes U+F600'),
 'C184':('partial', 'as C183, with JSON.parse back for all names; refuted for results without rows, where the names are missing'),
 'C185':('partial', 'as C184; refuted for results without rows: the empty string'),
 'C186':('partial', 'proved for queries with one column; refuted for more columns: the first row is on one line'),
 'C187':('partial', 'proved for the rows; refuted for the names: written without headers too, run together if as wide as their columns, and letters are cut in two'),
 'C188':('partial', 'proved for separators of one character and values without it and without line feeds; refuted for values with the separator, which are not quoted, and for results without rows, where the names are missing'),
 'C189':('partial', 'proved for files whose records have the right number of values, the last of them not quoted, for files read without csv, and for records without quotes that have a wrong number of values; for any file every row has the right number of columns; refuted for quoted last values (nothing of the file is imported, or, with a quote inside, the reading goes on behind the line), for records with too many values (written behind the array) and for a quote that is not closed (the file is closed twice, what was read stays). Not modelled: the options headers and limit, errors of SQL constraints, a transaction that is open already'),
 'C190':('partial', 'proved when the last column has only texts that need no quotes; refuted for a last value with a blank'),
 'C191':('partial', 'proved without types d, noTypes and tails, with maxDepth at most maxIncDepth. Not modelled: retInfo, directories that begin with ~, callbacks with effects, paths longer than PATH_MAX, maxArrayList reached with limit below 0'),
 'C192':('partial', 'proved when dir is given, is not / and has no star; refuted without dir (a name as long as the path of the current directory is cut by its length: in /tmp hello.c becomes o.c) and for dir / (. is listed instead, the first letter is cut)'),
 'C193':('partial', 'proved when dir is given, every subdirectory can be read and there is no limit; refuted: the limit is not looked at between the subdirectories; without dir the subdirectories are looked for under /, which is an error'),
 'C194':('partial', "proved for a dir that is a single name and matches nothing in it; refuted: for dir x/y a second search with dir as the pattern fails; with recurse a dir with a slash is always an error; without dir memory is read that is no longer the program's"),
 'C195':('partial', 'proved for types and noTypes without recurse, and that after maxDiscard refusals the next file accepted is the last; refuted: with recurse and types d the pattern is ignored and the directories are not searched; noTypes leaves no directory and no link; maxDiscard is not looked at when something is discarded'),
 'C196':('proved', 'in one thread; the copy of the arguments is a parameter (C199)'),
 'C197':('partial', 'proved for alias calls with at least one argument, and that a call without arguments starts with fresh parameters; refuted: calls without arguments share one array, which holds their variables; without arguments the array given with the alias is used itself'),
 'C198':('partial', 'calls, function and arguments proved for every history; the list, and the answers for other names, if no call was refused; deletion for aliases made by another interpreter. Refuted: a refused call leaves a name without an alias; the command of an alias an interpreter gave itself stays when it is deleted, and calling it reads through a NULL pointer. Names with a dot and threads are not modelled'),
 'C199':('partial', 'proved for scalars, strings without a NUL, and arrays and objects of such values without undefined, with keys that need no escape; refuted: strings are cut at a NUL, undefined in an array (as arguments are) becomes null, characters beyond U+FFFF become others'),
 'C200':('partial', 'proved for paths of at most 1000 steps with names and keys without special characters and numbers in the brackets of arrays; refuted: o[1] looks for a variable 1 if o is not an array; after 1000 steps the value of the part before is given; an index is cut to 32 bits; escapes in quoted keys are not undone. Variables and subscripts are parameters'),
 'C201':('partial', 'proved for keys without signs of the format and types that exist. Refuted: matchObj(o, s, true) is an error, as the fourth argument is read if the third is there; without arguments noerror is not set; a space at the end of s makes it read and write behind the text; with partial the types need only begin alike; keys with commas and colons. The flags are booleans or missing'),
 'C202':('partial', 'proved for every rounding of doubles; refuted: verConvert(n, 2) of a version a.0.c with c from 1 to 9 is "a". Numbers are not negative'),
 'C203':('partial', 'proved; refuted: "-SIGINT" is unknown, "SIGCHLD" too, "9x" is 9 and "nown signal" 16'),
 'C204':('partial', 'proved for every signal the system lets a process change; refuted: SIGKILL is listed as handled though it is not; after an error the names before the unknown one are set. Other users of sigaction in the process are not modelled'),
 'C205':('partial', 'that there are not more calls than arrivals is proved for every history; that there is a call if the signal has one callback, events are not processed inside it and bits are cleared at once. Refuted: of two callbacks one is called; an arrival while the callback runs is lost when events are processed in it; another signal that arrives while a bit is cleared is lost. Signals that arrive several times before events are processed count once'),
 'C206':('partial', 'proved for texts in whose strings there are no brackets and no other quotes: they are complete if and only if no bracket and no string is open, and lines that are complete with the last are evaluated once, joined by spaces, when it is there. Refuted: brackets and quotes in strings count, so f("it\'s") is never complete; lines are joined with spaces, so // makes all that follow a comment; without readline the backslash does not take lines back. onEval and history files are not modelled'),
 'C207':('partial', 'proved for every object and every query whose first word is one of the three and that has a %v; read back for names without ] and texts without a quote. Refuted: a quote in a text is not doubled, so a value can end the statement; a space before the first word, REPLACE and %v after a newline; noDefaults does nothing; errors are not given to the caller of query; with no field the text is not SQL; with defaultNull a text has no type. Numbers are given as %g prints them (six digits)'),
 'C208':('partial', 'reads and assignments of own accessors, and of properties without, are proved for all functions; ++ calls the setter with the number, and changes only its property in every history of a script without setters. Refuted: after a read of a property with both, ++ on any property of any object calls that setter; the setter is called by ++ with a wrong this; a getter of a prototype gets the prototype as this, its setter is never called; the exception of a getter is lost'),
 'C209':('partial', 'an object of the chain that has a prototype itself is found, for chains that end; true is right when no other object has the same prototype value and v is not a. Refuted: any two objects with the same prototype are prototypes of each other and of themselves ({}.isPrototypeOf({})); Object.prototype is never found. Chains with a cycle do not end (see C81)'),
 'C210':('partial', 'proved for bytes, left, right, Home, End, Delete, Backspace, Ctrl-W, Ctrl-T, Ctrl-U and Ctrl-K, with a buffer of any size; a text that fits and is typed is the line. Refuted as a claim about characters: keys work on bytes (Backspace after é leaves half of it), and a key that does not fit is dropped. Not modelled: drawing, completion, the keys of the history, Ctrl-C, escapes that are not known'),
 'C211':('partial', 'the history is exact for all lines and limits; save and load for plain lines shorter than 4095 bytes; the walk and Enter for lines shorter than the buffer, a history that is not full and whose newest line is not empty. Refuted: an older line that is edited and left is changed in the history; a line that fills the buffer loses its last byte when one looks at the history; with a full history any Enter forgets the oldest line; a line of 4095 bytes loads as itself and an empty one'),
 'C212':('partial', 'proved without a range, with start <= end inside the text, and with no end or one outside. Refuted: if end + 1 < start the rest of the text is copied and a byte before the copy is written (a store outside the buffer, from a script); for the empty text any start reads the byte before it. Numbers beyond an int are not modelled'),
 'C213':('partial', 'hits, temporary breakpoints, numbers, and no stop elsewhere are proved for all histories; the stop is proved unless the line is the one the debugger was last told of. Refuted: who stopped at a line by stepping, sets a breakpoint there and continues, is never stopped there again though the line is done any number of times, other lines between. Stops for errors and signals, and a callback that fails, are not modelled'),
 'C214':('partial', 'exact for having a mount; the mount itself if no mount lies in another. Refuted: a mount inside another is never found, the outermost one is taken, so its files do not exist'),
 'C215':('partial', 'proved when the size the file was listed with is not more than its data. Refuted: with a larger size (which a script gives) memory behind the data is read; a seek from the present position goes the other way. getc and gets give the next byte and line in order, but at the end getc gives 0'),
 'C216':('partial', 'exact if the list is accepted. Refuted: a directory listed after a file in it makes the whole mount fail as a duplicate file, though before the file it is accepted. Size, data and type of an entry are not in this part of the model'),
 'C217':('partial', 'exact for every accepted file list. Refuted: names of 256 bytes and more are cut to 255, so two can be listed as one name twice. Missing: the type of an entry; the filter and order of the caller'),
}
