{"id": "C01", "title": "Base64 decode inverts encode", "statement": "For every byte string b, Jsi_Base64(decode) applied to the output of Jsi_Base64(encode) on b returns exactly b (including embedded NULs and any length mod 3, and across the line breaks the encoder inserts every 72 characters).", "quantifier": "every byte string of any length", "why_tests_cant": "infinitely many lengths and contents; line wrapping interacts with group boundaries only at particular lengths", "anchors": ["src/jsiCmds.c:B64EncodeDStr", "src/jsiCmds.c:B64DecodeDStr", "src/jsiCmds.c:b64getidx", "src/jsiCmds.c:Jsi_Base64"]}
{"id": "C02", "title": "Base64 encode output is RFC 4648 text", "statement": "Removing the newlines from the encoder's output gives the RFC 4648 base64 text of the input (padding included), and a newline appears after exactly every 72nd output character.", "quantifier": "every byte string", "why_tests_cant": "all lengths and contents", "anchors": ["src/jsiCmds.c:B64EncodeDStr"]}
{"id": "C03", "title": "CRC-32 equals the reflected polynomial 0xEDB88320 definition and can be computed incrementally", "statement": "Jsi_Crc32(c,data) equals the bit-serial reflected CRC-32 and Jsi_Crc32(Jsi_Crc32(c,a),b) = Jsi_Crc32(c,a++b).", "quantifier": "every seed and every pair of byte strings", "why_tests_cant": "2^32 seeds and unbounded inputs", "anchors": ["src/jsiCmds.c:Jsi_Crc32"]}
{"id": "C04", "title": "Hexadecimal conversion round trip", "statement": "Every byte string converted to hex by the digest printer can be read back to the same bytes, and Util.hexStr(s) / Util.hexStr(s,true) encode and decode as documented.", "quantifier": "every byte string", "why_tests_cant": "unbounded inputs", "anchors": ["src/jsiUtils.c:jsi_ToHexStr", "src/jsiUtils.c:jsi_FromHexStr", "src/jsiUtils.c:Jsi_HexStr", "src/jsiCmds.c:SysHexStrCmd"]}
{"id": "C05", "title": "URI component decoding inverts encoding", "statement": "decodeURIComponent(encodeURIComponent(s)) == s and decodeURI(encodeURI(s)) == s for every string s.", "quantifier": "every NUL-free byte string", "why_tests_cant": "unbounded inputs", "anchors": ["src/jsiCmds.c:url_encode", "src/jsiCmds.c:url_decode"]}
{"id": "C06", "title": "UTF-8 encode/decode of one character round-trips", "statement": "Encoding a Unicode scalar value and decoding the bytes yields the same value and consumes exactly the bytes written; decoding always makes progress and never reads past the NUL terminator.", "quantifier": "every code point and every byte string", "why_tests_cant": "1.1M code points and unbounded byte strings", "anchors": ["src/jsiUtf8.c:Jsi_UniCharToUtf", "src/jsiUtf8.c:Jsi_UtfToUniChar"]}
{"id": "C07", "title": "Character-indexed substring of UTF-8 text", "statement": "Taking n characters from character index i of a string returns exactly those characters for every well-formed UTF-8 string.", "quantifier": "every well-formed UTF-8 string, index and count", "why_tests_cant": "unbounded strings", "anchors": ["src/jsiUtf8.c:Jsi_UtfSubstr", "src/jsiUtf8.c:Jsi_UtfAtIndex", "src/jsiUtf8.c:Jsi_NumUtfChars"]}
{"id": "C08", "title": "SHA-256 digest equals FIPS 180-4", "statement": "The digest returned for a message equals the FIPS 180-4 SHA-256 of that message, for every message (padding, block boundaries and length encoding included).", "quantifier": "every message of representable length", "why_tests_cant": "unbounded messages, all residues mod 64", "anchors": ["src/jsiCrypto.c:sha256_update", "src/jsiCrypto.c:sha256_final", "src/jsiCrypto.c:sha256_transform", "src/jsiCrypto.c:jsi_Sha256Digest"]}
{"id": "C09", "title": "SHA-1 digest equals FIPS 180-4", "statement": "The digest returned for a message equals the FIPS 180-4 SHA-1 of that message.", "quantifier": "every message", "why_tests_cant": "unbounded messages", "anchors": ["src/jsiCrypto.c:sha1_update", "src/jsiCrypto.c:sha1_final", "src/jsiCrypto.c:sha1_transform"]}
{"id": "C10", "title": "MD5 digest equals RFC 1321", "statement": "The digest returned for a message equals the RFC 1321 MD5 of that message.", "quantifier": "every message shorter than 2^32 bytes", "why_tests_cant": "unbounded messages", "anchors": ["src/jsiCrypto.c:jsi_MD5Update", "src/jsiCrypto.c:MD5Final", "src/jsiCrypto.c:jsi_MD5Transform"]}
{"id": "C11", "title": "SHA-3 digest equals FIPS 202", "statement": "The digest returned for a message and a requested SHA-3 variant is the FIPS 202 digest of that variant: the final block is the remaining bytes followed by pad10*1, the rate and digest length are those of the requested variant.", "quantifier": "every message and variant", "why_tests_cant": "unbounded messages", "anchors": ["src/jsiCrypto.c:SHA3_Init", "src/jsiCrypto.c:SHA3_Update", "src/jsiCrypto.c:SHA3_Final", "src/jsiCrypto.c:jsi_Sha3Digest", "src/jsiCrypto.c:jsi_CryptoHash"]}
{"id": "C12", "title": "Decryption inverts encryption", "statement": "Util.decrypt(Util.encrypt(s,k),k) == s for every string s of at least two bytes and every key k, and encryption of shorter input fails without output.", "quantifier": "every plaintext and key", "why_tests_cant": "unbounded plaintexts, 2^256 keys", "anchors": ["src/jsiCrypto.c:jsi_btea", "src/jsiCrypto.c:Jsi_Encrypt", "src/jsiCmds.c:SysEncryptCmd_"]}
{"id": "C13", "title": "Encryption hides the plaintext", "statement": "The ciphertext of a string never contains the plaintext verbatim; in particular, changing the key changes the ciphertext.", "quantifier": "every plaintext and key", "why_tests_cant": "must hold for each length", "anchors": ["src/jsiCrypto.c:jsi_btea", "src/jsiCrypto.c:Jsi_Encrypt"]}
{"id": "C14", "title": "Hash table behaves as a finite map", "statement": "After any sequence of create / set / delete / rebuild operations on a hash table, looking up a key returns the value most recently set for it and not deleted since, the reported size is the number of distinct live keys, and one full search visits every live key exactly once.", "quantifier": "every operation history on word, string and struct keyed tables", "why_tests_cant": "unbounded histories, growth at particular sizes, all collision patterns", "anchors": ["src/jsiHash.c:Jsi_HashEntryNew", "src/jsiHash.c:Jsi_HashEntryFind", "src/jsiHash.c:Jsi_HashEntryDelete", "src/jsiHash.c:RebuildTable", "src/jsiHash.c:Jsi_HashSearchNext"]}
{"id": "C15", "title": "Hash table with shared string keys behaves as a finite map", "statement": "Same as above for tables created with JSI_KEYS_STRINGKEY.", "quantifier": "every operation history", "why_tests_cant": "unbounded histories", "anchors": ["src/jsiHash.c:RebuildTable", "src/jsiHash.c:Jsi_HashEntryDelete"]}
{"id": "C16", "title": "Ordered tree behaves as a sorted finite map", "statement": "After any sequence of insert / set / delete operations on a tree with a total-order key comparison, lookup returns the last value set, the walk visits live keys exactly once in ascending order, and the size is the number of live keys.", "quantifier": "every operation history", "why_tests_cant": "unbounded histories and all rebalancing cases", "anchors": ["src/jsiTree.c:Jsi_TreeEntryNew", "src/jsiTree.c:Jsi_TreeEntryDelete", "src/jsiTree.c:Jsi_TreeEntryFind", "src/jsiTree.c:Jsi_TreeWalk"]}
{"id": "C17", "title": "Ordered tree stays balanced", "statement": "After any history of insertions and deletions the tree is a red-black tree: root black, no red node has a red child, every path to a leaf has the same number of black nodes; so its height is at most 2*log2(n+1).", "quantifier": "every operation history", "why_tests_cant": "unbounded histories", "anchors": ["src/jsiTree.c:insert_case1", "src/jsiTree.c:delete_case1"]}
{"id": "C18", "title": "Word-keyed trees distinguish every key", "statement": "Two different word keys are two different entries of a JSI_KEYS_ONEWORD tree.", "quantifier": "every pair of 64-bit keys", "why_tests_cant": "2^128 pairs", "anchors": ["src/jsiTree.c:OneWordCompare"]}
{"id": "C19", "title": "Dynamic string is concatenation of what was appended", "statement": "After any sequence of appends, sets, set-length and free calls the value of a Jsi_DString is the concatenation of the appended pieces (truncated as asked), its length is right, it is NUL terminated within its allocation, and no write leaves the allocation.", "quantifier": "every operation history and every piece length", "why_tests_cant": "static-to-heap switch and growth thresholds", "anchors": ["src/jsiDString.c:Jsi_DSAppendLen", "src/jsiDString.c:Jsi_DSAppend", "src/jsiDString.c:Jsi_DSSetLength", "src/jsiDString.c:Jsi_DSSet"]}
{"id": "C20", "title": "List is a doubly linked sequence", "statement": "After any history of push (at end or before an entry), pop and clear on a Jsi_List, forward traversal lists the live entries in order, backward links are the reverse, size is their number and no link leads to a removed entry.", "quantifier": "every operation history", "why_tests_cant": "unbounded histories", "anchors": ["src/jsiUtils.c:Jsi_ListPush", "src/jsiUtils.c:Jsi_ListPop", "src/jsiUtils.c:Jsi_ListClear", "src/jsiUtils.c:Jsi_ListEntryDelete"]}
{"id": "C21", "title": "Stack is LIFO", "statement": "After any history of push, pop, unshift and peek a Jsi_Stack behaves as a sequence; pop on empty returns nothing, growth loses nothing.", "quantifier": "every operation history", "why_tests_cant": "growth thresholds", "anchors": ["src/jsiUtils.c:Jsi_StackPush", "src/jsiUtils.c:Jsi_StackPop", "src/jsiUtils.c:Jsi_StackUnshift"]}
{"id": "C22", "title": "Dictionary comparison is a consistent order", "statement": "The comparison used for sorting and for string-keyed trees is a total order: reflexive, antisymmetric in sign, transitive, and zero only for equal strings.", "quantifier": "every triple of strings", "why_tests_cant": "triples of unbounded strings", "anchors": ["src/jsiChar.c:Jsi_DictionaryCompare", "src/jsiTree.c:StringCompare"]}
{"id": "C23", "title": "Splitting then joining gives the string back", "statement": "Splitting a string on a non-empty separator and joining the pieces with that separator gives back the string, and no piece contains the separator.", "quantifier": "every string and separator", "why_tests_cant": "unbounded strings", "anchors": ["src/jsiUtils.c:Jsi_SplitStr", "src/jsiValue.c:Jsi_StringSplit", "src/jsiArray.c:ArrayJoinCmd"]}
{"id": "C24", "title": "Glob matching agrees with the pattern language", "statement": "Jsi_GlobMatch answers true exactly when the string belongs to the language denoted by the pattern (literal, ?, *, character sets, escapes), and never reads past the end of either argument.", "quantifier": "every pattern and string", "why_tests_cant": "unbounded inputs with backtracking", "anchors": ["src/jsiUtils.c:Jsi_GlobMatch", "src/jsiUtils.c:JsiCharsetMatch"]}
{"id": "C25", "title": "Array stack and queue operations", "statement": "push, pop, shift and unshift act on the array as on a sequence: they return the documented element or length and leave the other elements in order.", "quantifier": "every array and history", "why_tests_cant": "unbounded arrays", "anchors": ["src/jsiArray.c:ArrayPushCmd", "src/jsiArray.c:ArrayPopCmd", "src/jsiArray.c:ArrayShiftCmd", "src/jsiArray.c:ArrayUnshiftCmd"]}
{"id": "C26", "title": "Array slice, splice, concat, reverse, fill", "statement": "Each of these returns and leaves the sequences the JavaScript documentation describes, for every start/end/count including negative and out of range ones.", "quantifier": "every array and index arguments", "why_tests_cant": "unbounded arrays, all index signs", "anchors": ["src/jsiArray.c:ArraySliceCmd", "src/jsiArray.c:ArraySpliceCmd", "src/jsiArray.c:ArrayConcatCmd", "src/jsiArray.c:ArrayReverseCmd", "src/jsiArray.c:ArrayFillCmd"]}
{"id": "C27", "title": "JSON parse inverts JSON stringify", "statement": "JSON.parse(JSON.stringify(v)) reproduces v for every value built from null, booleans, integers, strings, arrays and objects.", "quantifier": "every finite value of any depth", "why_tests_cant": "unbounded depth, arbitrary string contents", "anchors": ["src/jsiUtils.c:jsiValueGetString", "src/jsiUtils.c:jsi_ValueToJSON", "src/jsmn.c:jsmn_parse", "src/jsiJSON.c:jsonNewDString"]}
{"id": "C28", "title": "JSON string escaping is safe", "statement": "A stringified string contains no raw control character and no unescaped quote, so it ends exactly at its closing quote whatever follows.", "quantifier": "every byte string", "why_tests_cant": "unbounded strings", "anchors": ["src/jsiUtils.c:Jsi_DSAppendLen escaping in jsiValueGetString"]}
{"id": "C29", "title": "Compiled expressions compute the source value", "statement": "Running the opcodes the parser emits for an expression pushes exactly the value the expression denotes (short-circuit operators evaluate the right operand only when needed, conditional operator evaluates one branch, assignment operators read and write the variable once) and leaves the rest of the stack unchanged.", "quantifier": "every expression, state and stack", "why_tests_cant": "unbounded expression nesting", "anchors": ["src/parser.y:expr", "src/jsiCode.c", "src/jsiEval.c:jsiEvalCodeSub"]}
{"id": "C30", "title": "Compiled statements execute as written", "statement": "Running the opcodes emitted for if, while, do, for, for-in, switch, blocks, labelled break and continue performs exactly the source-level execution, including non-termination, and is stack balanced.", "quantifier": "every statement and state", "why_tests_cant": "unbounded nesting, loops", "anchors": ["src/parser.y:statement", "src/jsiCode.c:code_reserved_replace", "src/jsiEval.c:OP_JMP"]}
{"id": "C31", "title": "finally blocks always run", "statement": "When a try block with a finally is left normally, by throw, break, continue or return, the finally block runs exactly once before control continues.", "quantifier": "every program and way of leaving", "why_tests_cant": "unbounded nesting of try, loops and functions", "anchors": ["src/jsiEval.c:OP_JMP", "src/jsiEval.c:OP_RET", "src/jsiEval.c:jsiDoThrow", "src/jsiEval.c:OP_EFINAL"]}
{"id": "C32", "title": "An uncaught exception keeps its value through finally", "statement": "An exception thrown in a try without catch reaches the enclosing catch with the thrown value, whatever the finally block did that completed normally.", "quantifier": "every program", "why_tests_cant": "unbounded nesting", "anchors": ["src/jsiEval.c:OP_SCATCH", "src/jsiEval.c:OP_EFINAL", "src/jsiEval.c:jsiDoThrow"]}
{"id": "C33", "title": "The operand stack is restored when an exception is caught", "statement": "When control reaches a catch block the operand stack has the depth it had on entry to the try.", "quantifier": "every program", "why_tests_cant": "unbounded nesting and stack depth", "anchors": ["src/jsiEval.c:jsiDoThrow", "src/jsiEval.c:OP_STRY"]}
{"id": "C34", "title": "Safe interpreter only reaches listed directories", "statement": "In a safe interpreter a file access is allowed only if the file's real location is one of the listed entries or lies inside one of them at a path component boundary.", "quantifier": "every path, directory list and file system state", "why_tests_cant": "all path strings and file system contents", "anchors": ["src/jsiInterp.c:Jsi_InterpAccess", "src/jsiFilesys.c:Jsi_FileRealpathStr", "src/jsiFilesys.c:NormalizeUnixPath"]}
{"id": "C35", "title": "Lexical path normalisation", "statement": "Normalising an absolute path removes every '.', '//' and resolvable '..' component, is idempotent and names the same location (in a tree without symbolic links).", "quantifier": "every path string", "why_tests_cant": "unbounded paths", "anchors": ["src/jsiFilesys.c:Jsi_NormalPath", "src/jsiFilesys.c:NormalizeUnixPath"]}
{"id": "C36", "title": "Timers never fire early", "statement": "A timer set for ms milliseconds from now is not run by event processing before that time, one-shot timers run at most once, and a cleared timer never runs again.", "quantifier": "every clock value, delay and event history", "why_tests_cant": "all clock phases", "anchors": ["src/jsiCmds.c:intervalTimer", "src/jsiCmds.c:Jsi_EventProcess", "src/jsiCmds.c:clearIntervalCmd"]}
{"id": "C37", "title": "update(ms) processes events for at least ms", "statement": "Event.update(ms) keeps processing until at least ms milliseconds elapsed since its start.", "quantifier": "every start time and duration", "why_tests_cant": "all clock phases", "anchors": ["src/jsiCmds.c:SysUpdateCmd"]}
{"id": "C38", "title": "Loose equality agrees with numeric equality", "statement": "Comparing a number with a numeric string using == is true exactly when the string denotes that number.", "quantifier": "every number and numeric string", "why_tests_cant": "unbounded values", "anchors": ["src/jsiValue.c:Jsi_ValueCmp"]}
{"id": "C39", "title": "Strict equality is an equivalence", "statement": "=== is symmetric and transitive, and reflexive except on NaN.", "quantifier": "every triple of values", "why_tests_cant": "all triples", "anchors": ["src/jsiValue.c:Jsi_ValueIsEqual"]}
{"id": "C40", "title": "Reference counts equal the number of references", "statement": "After any history of value creation, copy, move, replace, reset, increment and decrement, each live value's count is the number of references to it, no freed value is referenced and values whose count reaches zero are freed.", "quantifier": "every operation history", "why_tests_cant": "unbounded histories and chains", "anchors": ["src/jsiValue.c:Jsi_DecrRefCount", "src/jsiValue.c:jsi_ValueCopyMove", "src/jsiValue.c:Jsi_ValueReplace", "src/jsiValue.c:Jsi_ValueReset"]}
{"id": "C41", "title": "Decryption of arbitrary data is safe", "statement": "Util.decrypt of any byte string with any key either reports an error or returns a string at least one byte shorter than its input, and the result depends only on the input and the key.", "quantifier": "every byte string and key, including data not produced by encrypt", "why_tests_cant": "adversarial inputs of every length and pad byte", "anchors": ["src/jsiCrypto.c:Jsi_Encrypt", "src/jsiCmds.c:SysEncryptCmd_"]}
{"id": "C42", "title": "Proof-of-work hashes have the requested zero bits", "statement": "When Util.hash(msg,{hashcash:n}) returns, the digest is the hash of msg followed by ':' and eight hex digits and starts with at least n zero bits; and the search does not skip a nonce that qualifies.", "quantifier": "every message, strength up to the digest size, hash type and nonce sequence", "why_tests_cant": "unbounded search over messages and nonces", "anchors": ["src/jsiCrypto.c:Jsi_CryptoHash"]}
{"id": "C43", "title": "Clearing a hash table empties it", "statement": "After Jsi_HashClear a table has size 0, finds no key and visits no entry, and can be used again.", "quantifier": "every table reachable by a history of operations", "why_tests_cant": "tables of any size, before and after growth", "anchors": ["src/jsiHash.c:Jsi_HashClear", "src/jsiHash.c:Jsi_HashSize"]}
{"id": "C44", "title": "An entry handle keeps designating its key", "statement": "A Jsi_TreeEntry obtained for a key stays the entry of that key (same key, same value slot) until that key itself is deleted, whatever other keys are inserted or deleted.", "quantifier": "every history of insertions and deletions and every key", "why_tests_cant": "depends on the shape of the tree at every deletion; deletions of nodes with two children are rare in small samples", "anchors": ["src/jsiTree.c:Jsi_TreeEntryDelete", "src/jsiTree.c:Jsi_TreeEntryNew"]}
{"id": "C45", "title": "Property attributes stay with their property", "statement": "The readonly, dontenum and dontdelete attributes of a property are not changed by deleting another property of the same object.", "quantifier": "every history of property creations, attribute changes and deletions", "why_tests_cant": "only specific tree shapes move entries", "anchors": ["src/jsiTree.c:Jsi_TreeEntryDelete"]}
{"id": "C46", "title": "Tree iteration visits every entry exactly once", "statement": "A search of a tree in any of the four orders (in, pre, post, level) returns every entry exactly once and then ends; in-order returns them sorted by key.", "quantifier": "every tree reachable by insertions and deletions, every order", "why_tests_cant": "trees of any size and shape", "anchors": ["src/jsiTree.c:Jsi_TreeSearchFirst", "src/jsiTree.c:Jsi_TreeSearchNext", "src/jsiTree.c:searchAdd"]}
{"id": "C47", "title": "Only undefined and null equal null and undefined", "statement": "v == undefined and v == null are true exactly when v is undefined or null.", "quantifier": "every value", "why_tests_cant": "all values, including every kind of object", "anchors": ["src/jsiValue.c:Jsi_ValueCmp", "src/jsiValue.c:jsi_ValueToPrimitiveRes"]}
{"id": "C48", "title": "Relational operators are a total order", "statement": "<, >, <=, >= on two numbers (not NaN) are the numeric order, on two strings the lexicographic order of the bytes, exactly one of <, ==, > holds; a number and a numeric string are compared as numbers.", "quantifier": "every pair of numbers, of strings, and of a number and a numeric string", "why_tests_cant": "all pairs", "anchors": ["src/jsiEval.c:jsiLogicLess", "src/jsiValue.c:Jsi_ValueCmp"]}
{"id": "C49", "title": "Strict equality of strings means same content", "statement": "s === t for strings is true exactly when s and t have the same bytes.", "quantifier": "every pair of strings, including those with NUL bytes", "why_tests_cant": "unbounded strings", "anchors": ["src/jsiValue.c:Jsi_ValueIsEqual"]}
{"id": "C50", "title": "JSON.parse reads JSON texts", "statement": "JSON.parse of a text that follows RFC 8259 returns the value the text stands for, whatever the nesting, layout and contents.", "quantifier": "every JSON text (integers only), strict mode or not", "why_tests_cant": "unbounded texts", "anchors": ["src/jsmn.c:Jsi_JsonParse", "src/jsiJSON.c:Jsi_JSONParse", "src/jsiJSON.c:jsonNewDString"]}
{"id": "C51", "title": "JSON.check accepts exactly the JSON texts", "statement": "JSON.check(text) is true if and only if text is a JSON text.", "quantifier": "every text", "why_tests_cant": "unbounded texts", "anchors": ["src/jsiJSON.c:JSONCheckCmd", "src/jsmn.c:Jsi_JsonParse"]}
{"id": "C52", "title": "JSON.parse looks only at tokens it made", "statement": "Whatever the text, JSON.parse ends with a value or an error and never reads a token entry that was not written.", "quantifier": "every text, strict mode or not", "why_tests_cant": "memory safety over all inputs", "anchors": ["src/jsiJSON.c:jsonGen1Value", "src/jsiJSON.c:jsonGenObject", "src/jsiJSON.c:jsonGenArray"]}
{"id": "C53", "title": "Array methods never touch memory outside the array", "statement": "Whatever sequence of array operations a script performs (creating arrays, assigning elements and length, push, pop, shift, unshift, slice, splice, concat, reverse, fill, on any arrays with any arguments), no operation reads or writes outside the storage of an array.", "quantifier": "every sequence of operations, every array size limit", "why_tests_cant": "memory safety over all histories", "anchors": ["src/jsiArray.c:jsi_ArrayPushCmd", "src/jsiArray.c:jsi_ArraySpliceCmd", "src/jsiObj.c:Jsi_ObjArraySizer", "src/jsiArray.c:jsi_ArrayShiftCmd"]}
{"id": "C54", "title": "Array methods with callbacks and searches", "statement": "forEach, map, filter, find, findIndex, some, every, reduce, reduceRight, indexOf, lastIndexOf, includes and flat visit the elements in order, skip holes, call the function once per element up to the deciding one, leave the array alone and return what ECMAScript says.", "quantifier": "every array (holes included), every callback", "why_tests_cant": "all arrays, all callbacks", "anchors": ["src/jsiArray.c:jsi_ArrayForeachCmd", "src/jsiArray.c:jsi_ArrayMapCmd", "src/jsiArray.c:jsi_ArrayFilterCmd", "src/jsiArray.c:jsi_ArrayFindSubCmd", "src/jsiArray.c:jsi_ArrayReduceSubCmd", "src/jsiArray.c:jsi_ArrayIndexSubCmd", "src/jsiArray.c:jsi_ArrayFlatSub"]}
{"id": "C55", "title": "C interface to arrays", "statement": "Jsi_ValueArrayPush appends a value, Jsi_ValueArrayPop removes and returns the last, Jsi_ValueArrayShift removes the first, Jsi_ValueArrayUnshift removes and returns the first; none touches memory outside the array.", "quantifier": "every array", "why_tests_cant": "all arrays and sizes, memory safety", "anchors": ["src/jsiArray.c:Jsi_ValueArrayPush", "src/jsiArray.c:Jsi_ValueArrayPop", "src/jsiArray.c:Jsi_ValueArrayShift", "src/jsiArray.c:Jsi_ValueArrayUnshift"]}
{"id": "C56", "title": "trim removes exactly the white space at the ends", "statement": "trim, trimLeft and trimRight return the string without the longest run of the given characters (blank, tab, newline, return by default) at the chosen ends; nothing else changes.", "quantifier": "every string and every set of characters", "why_tests_cant": "all strings of all lengths", "anchors": ["src/jsiString.c:_StringTrimCmd", "src/jsiString.c:StringTrimCmd"]}
{"id": "C57", "title": "Case conversion changes only the case of letters", "statement": "toUpperCase, toLowerCase and toTitle return the text with the case of its letters changed and everything else, including every other character, kept.", "quantifier": "every UTF-8 text", "why_tests_cant": "all strings of all lengths", "anchors": ["src/jsiString.c:jsi_utf_tocase"]}
{"id": "C58", "title": "String searches return the position of the first or last occurrence", "statement": "indexOf(sub, start) and search(sub) return the position of the first occurrence at start or later, lastIndexOf(sub, start) that of the last one at start or before, -1 when there is none.", "quantifier": "every string, substring and start", "why_tests_cant": "all strings of all lengths", "anchors": ["src/jsiString.c:StringIndexOfCmd", "src/jsiString.c:StringLastIndexOfCmd", "src/jsiChar.c:Jsi_Strpos", "src/jsiChar.c:Jsi_Strrpos"]}
{"id": "C59", "title": "substring and slice return the characters ECMAScript says", "statement": "substring(start, end) returns the characters from start up to but not including end (exchanged if out of order, negative is 0); slice(start, end) likewise with negative positions counted from the end.", "quantifier": "every text and all positions", "why_tests_cant": "all strings of all lengths", "anchors": ["src/jsiString.c:StringSubstringCmd", "src/jsiString.c:StringSliceCmd", "src/jsiUtf8.c:Jsi_UtfSubstr"]}
{"id": "C60", "title": "replace, repeat, concat and map", "statement": "replace(sub, r) replaces the first occurrence of sub and nothing else (a function gets the text found); repeat(n) is n copies; concat puts its arguments after the string; map(pairs) replaces, reading from the left, the first pair that matches at each position and never looks at inserted text.", "quantifier": "every string and all arguments", "why_tests_cant": "all strings of all lengths", "anchors": ["src/jsiString.c:StringReplaceCmd", "src/jsiString.c:StringRepeatCmd", "src/jsiString.c:StringConcatCmd", "src/jsiString.c:StringMapCmd"]}
{"id": "C61", "title": "Names of options and subcommands are looked up correctly", "statement": "A word given for an option or subcommand selects an entry of the table exactly when it stands for exactly one of them (its full name, or in abbreviating mode a beginning of exactly one name); a full name always selects its entry; other words are rejected with a message that says why.", "quantifier": "every table of names, every word, all modes", "why_tests_cant": "all tables and words", "anchors": ["src/jsiUtils.c:Jsi_GetIndex"]}
{"id": "C62", "title": "Storing calls store what they say and change nothing else", "statement": "Whenever a value copy, move, reset, number/object/variable store, array store, array append or property insert returns, the target (if alive) holds exactly what was to be stored, an object has exactly one property of the inserted name, a moved source is undefined, and every other value or object that is still alive has the content it had.", "quantifier": "every heap, every call that returns, every history of calls", "why_tests_cant": "heaps of any shape with sharing and cycles, and any chain of releases", "anchors": ["src/jsiValue.c:jsi_ValueCopyMove", "src/jsiValue.c:Jsi_ValueReset", "src/jsiValue.c:jsi_ObjValInsert", "src/jsiObj.c:Jsi_ObjArraySet", "src/jsiObj.c:Jsi_ObjArrayAdd"]}
{"id": "C63", "title": "A script is split into the tokens it is written with", "statement": "A script that is a sequence of JavaScript tokens (names, reserved words, numbers, strings, regular expressions, operators, punctuation) with blanks and comments between them reaches the parser as exactly these tokens with their values, then the end.", "quantifier": "every text made of tokens, blanks and comments", "why_tests_cant": "all texts of all lengths and all neighbours of each token", "anchors": ["src/jsiLexer.c:yylex", "src/jsiLexer.c:jsi_yylex", "src/jsiLexer.c:jsi_do_sign"]}
{"id": "C64", "title": "Each token is read to its end", "statement": "The first token of a text is the longest token the text begins with (a name is the longest run of name characters, an operator the longest operator), has the value it is written with and the line it is on, whatever text follows.", "quantifier": "every token, every text behind it that does not go on with it", "why_tests_cant": "the text behind the token is arbitrary", "anchors": ["src/jsiLexer.c:jsi_yylex", "src/jsiLexer.c:jsi_do_sign"]}
{"id": "C65", "title": "A string literal means what it says", "statement": "A string between quotes is the bytes it stands for: each character itself, each escape its meaning; and every text written in quotes, with quotes, backslashes and NUL escaped, is read back unchanged.", "quantifier": "all string literals, all byte strings, any text behind them", "why_tests_cant": "all strings of all lengths", "anchors": ["src/jsiLexer.c:jsi_do_string", "src/jsiUtf8.c:Jsi_UtfDecode"]}
{"id": "C66", "title": "The lexer is safe on any text", "statement": "Whatever the text of a script is, reading its tokens uses nothing outside its buffers, comes to an end, and gives at most as many tokens before the end as the text has bytes.", "quantifier": "every byte string without NUL", "why_tests_cant": "all texts, including damaged ones", "anchors": ["src/jsiLexer.c:lexer_getchar", "src/jsiLexer.c:lexer_ungetc", "src/jsiLexer.c:jsi_do_string", "src/jsiLexer.c:jsi_do_regex"]}
{"id": "C67", "title": "No part of a script is ignored", "statement": "When the parser is told that the script has come to its end, all of its text has been read; otherwise there was an error.", "quantifier": "every byte string", "why_tests_cant": "all texts", "anchors": ["src/jsiLexer.c:jsi_yylex", "src/jsiLexer.c:yylex"]}
{"id": "C68", "title": "Tokens are reported on the line they are on", "statement": "The line of a token, as used in messages and by the debugger, is one more than the number of newlines before it.", "quantifier": "every script, every token of it", "why_tests_cant": "all positions of newlines", "anchors": ["src/jsiLexer.c:lexer_getchar", "src/jsiLexer.c:lexer_ungetc", "src/jsiLexer.c:jsi_do_sign"]}
{"id": "C69", "title": "Everything below a safe interpreter is safe and has its limits", "statement": "In every interpreter created, directly or not, by a safe interpreter, and in the safe interpreter itself, isSafe stays on; maxDepth is at most, and maxArrayList, maxIncDepth, maxInterpDepth, maxUserObjs, maxOpCnt and memLeakCnt are exactly, those of the safe interpreter; and noLoad, noNetwork, noStderr and noSubInterps are on if they are on there, whatever options scripts pass to new Interp and Interp.conf.", "quantifier": "every history of new Interp, conf, source and changes to option arrays by scripts in any interpreter, every machine whose /etc/jsish.conf leaves these options alone", "why_tests_cant": "all option objects, abbreviations and nestings of interpreters, in any order", "anchors": ["src/jsiInterp.c:jsi_InterpNew", "src/jsiInterp.c:InterpConfCmd", "src/jsiOptions.c:Jsi_OptionsProcess"]}
{"id": "C70", "title": "A safe interpreter cannot get at more files or programs by creating interpreters", "statement": "No interpreter below a safe interpreter, nor that interpreter itself, may read, write, load or execute anything that the safe interpreter could not when it was started.", "quantifier": "every history of new Interp, conf, source and changes to option arrays by scripts in it and below it", "why_tests_cant": "all histories", "anchors": ["src/jsiInterp.c:jsi_InterpNew", "src/jsiInterp.c:Jsi_InterpAccess", "src/jsiEval.c:jsi_evalStrFile", "src/jsiOptions.c:jsi_GetOption"]}
{"id": "C71", "title": "Interp.conf respects fixed and locked options", "statement": "Interp.conf and sub.conf never change an option marked as fixed at creation or read-only, nor in a safe interpreter one marked as locked; they change no option that is not named; entries are applied in order up to the first one refused, the last entry naming an option counts, and the call fails exactly if an entry is refused.", "quantifier": "every interpreter state, every object of options", "why_tests_cant": "all objects of options and states", "anchors": ["src/jsiOptions.c:Jsi_OptionsProcess", "src/jsiOptions.c:jsi_SetOption_", "src/jsiInterp.c:InterpOptions"]}
{"id": "C72", "title": "Option names may be abbreviated unambiguously", "statement": "A key in an object of interpreter options stands for the option with that full name, else for the only option beginning with it; it is rejected if there is none or more than one.", "quantifier": "every string", "why_tests_cant": "all strings", "anchors": ["src/jsiOptions.c:Jsi_OptionsFind", "src/jsiInterp.c:InterpOptions"]}
{"id": "C73", "title": "Interpreters below a safe one nest to a fixed depth", "statement": "No interpreter is created more than maxInterpDepth - interpDepth levels below a safe interpreter, with these two taken from that interpreter.", "quantifier": "every history of creations and conf calls", "why_tests_cant": "all histories and nestings", "anchors": ["src/jsiInterp.c:jsi_InterpNew"]}
{"id": "C74", "title": "exec in a safe interpreter is confined to what the pattern allows", "statement": "In a safe interpreter, exec runs nothing unless the command matches safeExecPattern (or, locked down to \".\", begins with \"fossil \"), and what it gives to the shell is that one command: no redirection, pipe, list or substitution.", "quantifier": "every command text, every interpreter state", "why_tests_cant": "all texts", "anchors": ["src/jsiCmds.c:jsi_SysExecCmd"]}
{"id": "C75", "title": "Scripts see objects as ECMAScript describes them", "statement": "After any sequence of property reads, assignments, ++, delete, object and array literals, Object.create, Object.assign, merge, filter, calls and returns, every variable has the value ECMAScript gives it, and the same steps fail.", "quantifier": "every history of such steps on any number of variables and objects", "why_tests_cant": "all histories; the differences come from values shared between places", "anchors": ["src/jsiObj.c:Jsi_ObjInsert", "src/jsiValue.c:jsi_ValueSubscript", "src/jsiEval.c:jsiEvalSubscript", "src/jsiProto.c:ObjectAssignCmd"]}
{"id": "C76", "title": "Assignment and ++ change only the place they name", "statement": "o[k] = v and o[k]++ change the property k of o and nothing else: no property of another object, no element of another array, no variable.", "quantifier": "every history before, every object, key and value", "why_tests_cant": "all histories; two places may share one value", "anchors": ["src/jsiEval.c:jsiValueAssign", "src/jsiEval.c:jsiEvalCodeSub", "src/jsiObj.c:Jsi_ObjInsert"]}
{"id": "C77", "title": "Array elements are found under their index and only there", "statement": "a[i] = v makes a[i] read v, leaves every other element as it was, makes the length at least i+1; a[\"i\"] is a[i]; other strings name no element; delete removes an element; setting length truncates.", "quantifier": "every array, index, key, value and history", "why_tests_cant": "all keys and histories", "anchors": ["src/jsiEval.c:jsi_ValueObjKeyAssign", "src/jsiObj.c:jsi_ObjArrayLookup", "src/jsiEval.c:jsiValueAssign"]}
{"id": "C78", "title": "A frozen object does not change", "statement": "After Object.freeze(o) no step of a script adds, removes or changes a property or element of o, until o is unfrozen.", "quantifier": "every history before and after freezing", "why_tests_cant": "all histories", "anchors": ["src/jsiProto.c:ObjectFreezeCmd", "src/jsiObj.c:Jsi_ObjInsert", "src/jsiValue.c:Jsi_ValueCopy"]}
{"id": "C79", "title": "for-in visits every property once", "statement": "for (x in o) runs its body once for every enumerable property of o, own or inherited, that was there at the beginning and has not been deleted; for (x in a) and for (x of a) take the elements of an array in ascending order; the loop ends whatever the body does.", "quantifier": "every object, every history before, every body", "why_tests_cant": "all bodies, which may change the object while the loop runs", "anchors": ["src/jsiEval.c:OP_NEXT", "src/jsiValue.c:jsi_ValueObjGetKeys", "src/jsiValue.c:Jsi_IterGetKeys", "src/jsiValue.c:Jsi_ValueKeyPresent"]}
{"id": "C80", "title": "in, hasOwnProperty and Object.keys tell which properties there are", "statement": "k in o is true exactly if o has a property k, own or inherited; o.hasOwnProperty(k) exactly if it is its own; Object.keys(o) lists exactly the own enumerable properties, each once.", "quantifier": "every object, key and history", "why_tests_cant": "all objects and histories", "anchors": ["src/jsiEval.c:OP_IN", "src/jsiProto.c:jsi_HasOwnPropertyCmd", "src/jsiValue.c:Jsi_ValueGetKeys"]}
{"id": "C81", "title": "Property lookup through prototypes ends", "statement": "Reading any property of any object ends, in every state a script can make; after setPrototypeOf(o, p) the properties of p are those o inherits.", "quantifier": "every history of object operations", "why_tests_cant": "all histories and chains of prototypes", "anchors": ["src/jsiValue.c:Jsi_ValueObjLookup", "src/jsiValue.c:jsi_ValueLookupBase", "src/jsiProto.c:jsi_SetPrototypeOfCmd"]}
{"id": "C82", "title": "Variables are separate", "statement": "An assignment to a variable or a parameter changes no other variable and no property or element.", "quantifier": "every history, every variable", "why_tests_cant": "all histories; a variable is a pointer to a value that could be shared", "anchors": ["src/jsiEval.c:jsiValueAssign", "src/jsiFunc.c:jsi_FunctionInvoke", "src/jsiArray.c:ArrayForeachCmd"]}
{"id": "C83", "title": "Object.assign copies every property", "statement": "Object.assign(o, p) gives o every own property of p with its value, keeps the others of o, and changes no other object.", "quantifier": "every pair of objects after every history", "why_tests_cant": "all objects and histories", "anchors": ["src/jsiProto.c:ObjectAssignCmd", "src/jsiObj.c:Jsi_ObjInsert"]}
{"id": "C84", "title": "format prints what C's printf would", "statement": "format(fmt, ...) and printf give the text of fmt in which every directive %[flags][width][.precision][modifier]conversion is replaced by its argument as C's printf would print it; * takes a width or precision from the arguments; too few arguments or one of the wrong type give an error.", "quantifier": "every sequence of literal characters and directives, every list of arguments", "why_tests_cant": "all formats and all arguments", "anchors": ["src/jsiFormat.c:Jsi_FormatString"]}
{"id": "C85", "title": "format never writes outside its buffers", "statement": "Whatever the format and the arguments, format gives a string or an error and never writes outside the memory it owns.", "quantifier": "every format of whole characters, every list of arguments", "why_tests_cant": "all strings; the overruns need long inputs", "anchors": ["src/jsiFormat.c:Jsi_FormatString"]}
{"id": "C86", "title": "format ends, and extra arguments change nothing", "statement": "For every byte string as format the call ends; it never uses an argument that is not there; if it succeeds, it gives the same text with more arguments appended.", "quantifier": "every byte string as format, every list of arguments", "why_tests_cant": "all byte strings, also malformed formats", "anchors": ["src/jsiFormat.c:Jsi_FormatString"]}
{"id": "C87", "title": "Formatted integers can be read back", "statement": "The text that %d, %i, %u, %o, %x or %X with any flags, width and precision gives for a number reads back, in the base of the conversion, as its 64-bit value; so %d gives different texts for different values.", "quantifier": "every directive, every number", "why_tests_cant": "all 64-bit values and all combinations of flags", "anchors": ["src/jsiFormat.c:Jsi_FormatString"]}
{"id": "C88", "title": "Messages to another thread are carried out once each and in order", "statement": "Messages that threads send to an interpreter of another thread (sub.call, sub.eval, alias calls) are carried out one at a time, each at most once, those of one thread in the order in which it sent them; what is in the queue when the owner begins to empty it is done when it has ended; and no thread ever touches a freed message.", "quantifier": "every number of threads, every list of messages, every interleaving of the statements", "why_tests_cant": "all interleavings", "anchors": ["src/jsiInterp.c:SubInterpEvalCallback", "src/jsiInterp.c:InterpCallCmd", "src/jsiInterp.c:InterpEvalCmd_", "src/jsiInterp.c:jsi_AliasInvoke", "src/jsiUtils.c:Jsi_MutexLock"]}
{"id": "C89", "title": "A waiting thread gets the result of its own message", "statement": "A thread that calls sub.eval(js) on an interpreter of another thread gets back the result of this js, also while other threads send messages.", "quantifier": "every interleaving of any number of threads", "why_tests_cant": "all interleavings", "anchors": ["src/jsiInterp.c:SubInterpEvalCallback", "src/jsiInterp.c:InterpCallCmd", "src/jsiInterp.c:InterpEvalCmd_", "src/jsiInterp.c:jsi_AliasInvoke", "src/jsiUtils.c:Jsi_MutexLock"]}
{"id": "C90", "title": "Texts sent with asynchronous eval are evaluated once each, in order", "statement": "The texts sent with sub.eval(js, true) are evaluated in the order in which they came, each once, those that came together joined with semicolons; those that are there when the owner begins are evaluated when it has ended.", "quantifier": "every interleaving, all texts", "why_tests_cant": "all interleavings", "anchors": ["src/jsiInterp.c:SubInterpEvalCallback", "src/jsiInterp.c:InterpCallCmd", "src/jsiInterp.c:InterpEvalCmd_", "src/jsiInterp.c:jsi_AliasInvoke", "src/jsiUtils.c:Jsi_MutexLock"]}
{"id": "C91", "title": "Threads that exchange messages are never stuck", "statement": "A thread that cannot go on waits for a lock whose holder can go on and gives it back; the owner empties its queue in a number of statements bounded by the number of messages; every call of a thread can be brought to its end.", "quantifier": "every reachable state of every interleaving", "why_tests_cant": "all interleavings and all states", "anchors": ["src/jsiInterp.c:SubInterpEvalCallback", "src/jsiInterp.c:InterpCallCmd", "src/jsiInterp.c:InterpEvalCmd_", "src/jsiInterp.c:jsi_AliasInvoke", "src/jsiUtils.c:Jsi_MutexLock"]}
{"id": "C92", "title": "The web server hands out files below its root directory only", "statement": "For a URL without a name '..' the web server takes the file whose name is the root directory followed by the names of the URL; with pathAliases and urlPrefix the file is below the root directory, the directory of an alias or that of the package; and included files are read only below the root directory.", "quantifier": "every URL, every root directory, prefix and set of aliases", "why_tests_cant": "all URLs", "anchors": ["src/jsiWebSocket.c:jsi_wsHttp", "src/jsiWebSocket.c:jsi_wsPathAlias", "src/jsiWebSocket.c:jsi_wsFileRead", "src/jsiFilesys.c:Jsi_NormalPath"]}
{"id": "C93", "title": "A page with server side includes shows what it says", "statement": "What a visitor gets of an .shtml page is its text with every #include replaced by what the included page shows, exactly the chosen parts of each #if/#elif/#else/#endif, also nested ones, #echo by its text and the values of its variable, and #set changes the data from there on.", "quantifier": "every page (any texts, any nesting to depth 10), every set of pages, all data and queries", "why_tests_cant": "all pages and their includes, by induction", "anchors": ["src/jsiWebSocket.c:jsi_wsEvalSSI", "src/jsiWebSocket.c:jsi_wsFileRead", "src/jsiWebSocket.c:jsi_wsIsSSIExt", "src/jsiUtils.c:Jsi_GetBool"]}
{"id": "C94", "title": "Evaluating a page ends and uses only the page", "statement": "Whatever the files contain, the evaluation of a page ends, also when pages include each other, and never uses text that is not part of the directive it is working on.", "quantifier": "all contents of all files", "why_tests_cant": "all contents", "anchors": ["src/jsiWebSocket.c:jsi_wsEvalSSI"]}
{"id": "C95", "title": "A script sees the headers of a request as they were sent", "statement": "ws.header() gives all headers of a request with their values, whatever characters are in the values; looking up a header by name, upper or lower case, gives the value of the first header with that name.", "quantifier": "all lists of headers", "why_tests_cant": "all lists of headers", "anchors": ["src/jsiWebSocket.c:jsi_wsGetHeaders", "src/jsiWebSocket.c:jsi_wsHeader", "src/jsiWebSocket.c:jsi_wsDumpHeaders"]}
{"id": "C96", "title": "A parameter of a form is found by its name", "statement": "ws.query(id, name) gives the value of the parameter with that name, and nothing if there is none.", "quantifier": "all lists of parameters", "why_tests_cant": "all lists of parameters", "anchors": ["src/jsiWebSocket.c:jsi_wsDumpQuery"]}
{"id": "C97", "title": "The password protects the pages", "statement": "With useridPass set, a request is served if it carries this user and password in its authorization header, and only then.", "quantifier": "all requests, all passwords", "why_tests_cant": "all requests", "anchors": ["src/jsiWebSocket.c:jsi_wsHttp", "src/jsiWebSocket.c:jsi_wsHeader", "src/jsiCmds.c:Jsi_Base64"]}
{"id": "C98", "title": "A transaction of the database is all or nothing", "statement": "db.transaction(func) called by a script that leaves BEGIN, COMMIT and ROLLBACK to it: if the function throws, or the database refuses to begin or to commit, the contents are those before the call, otherwise those the function left; nested calls likewise; a crash at any point leaves all of the outermost transaction or nothing.", "quantifier": "every script, any nesting of transactions, any answers of busy, every crash point", "why_tests_cant": "all programs, nestings and crash points", "anchors": ["src/jsiSqlite.c:SqliteTransactionCmd", "src/jsiSqlite.c:dbTransPostCmd"]}
{"id": "C99", "title": "The cache of compiled statements changes nothing", "statement": "A script that queries, also inside the callbacks of its queries and with any size of the cache, gets the same rows, errors and contents as if every statement were compiled for its query and its parameters were all bound anew.", "quantifier": "every script, every size of the cache, every database", "why_tests_cant": "all histories of queries and evictions", "anchors": ["src/jsiSqlite.c:dbPrepareStmt", "src/jsiSqlite.c:dbReleaseStmt", "src/jsiSqlite.c:dbPrepStmtFree", "src/jsiSqlite.c:dbPrepStmtLimit", "src/jsiSqlite.c:dbEvalStep", "src/jsiSqlite.c:dbEvalFinalize"]}
{"id": "C100", "title": "The cache of statements stays within its limit", "statement": "At most stmtCacheMax compiled statements are kept, and stmtCacheCnt is at most that when no query is running.", "quantifier": "every sequence of queries, with any failures", "why_tests_cant": "all histories", "anchors": ["src/jsiSqlite.c:dbReleaseStmt", "src/jsiSqlite.c:dbPrepStmtLimit", "src/jsiSqlite.c:dbPrepareStmt"]}
{"id": "C101", "title": "CSV output reads back", "statement": "The text that db.query with mode 'csv' returns is read by a reader of CSV as exactly the rows of the result, whatever is in the columns.", "quantifier": "every result, every separator, header option and limit", "why_tests_cant": "all contents of all columns", "anchors": ["src/jsiSqlite.c:dbOutputCsv", "src/jsiSqlite.c:needCsvQuote", "src/jsiSqlite.c:SqliteQueryCmd"]}
{"id": "C102", "title": "INSERT output puts the rows back", "statement": "The statements that db.query with mode 'insert' returns insert exactly the rows of the result: each text, blob, number and NULL as it was.", "quantifier": "every result, every table name and limit", "why_tests_cant": "all contents of all columns", "anchors": ["src/jsiSqlite.c:dbOutputQuotedString", "src/jsiSqlite.c:dbOutputHexBlob", "src/jsiSqlite.c:SqliteQueryCmd", "src/jsiSqlite.c:dbEvalRowInfo"]}
{"id": "C103", "title": "HTML output shows the rows and nothing else", "statement": "The rows of HTML that db.query with mode 'html' returns show exactly the texts of the result; no text in the database can become markup.", "quantifier": "every result and limit", "why_tests_cant": "all contents of all columns", "anchors": ["src/jsiSqlite.c:dbOutputHtmlString", "src/jsiSqlite.c:SqliteQueryCmd"]}
{"id": "C104", "title": "Each parameter of a query gets the value of its variable", "statement": "A parameter is bound by its own variable and type alone: a number as itself, a text byte for byte, null as NULL; values read back are the ones bound; binding changes no variable.", "quantifier": "every list of parameters, all values and options", "why_tests_cant": "all lists of parameters", "anchors": ["src/jsiSqlite.c:dbBindStmt", "src/jsiSqlite.c:dbEvalSetColumnValue", "src/jsiSqlite.c:dbTypeNameHashInit"]}
{"id": "C105", "title": "The parts of a path name the path", "statement": "File.dirname and File.tail split a path at its last slash and put together name the same place; File.rootname followed by File.extension is the path; the extension is the part of the tail from its last dot.", "quantifier": "every path", "why_tests_cant": "all texts", "anchors": ["src/jsiFileCmds.c:FileDirnameCmd", "src/jsiFileCmds.c:FileTailCmd", "src/jsiFileCmds.c:FileRootnameCmd", "src/jsiFileCmds.c:FileExtensionCmd"]}
{"id": "C106", "title": "File.remove removes nothing outside", "statement": "File.remove removes only the object the path names and what lies in the directory it leads to; symbolic links inside are not followed; without force a directory that is not empty is left alone and the call fails.", "quantifier": "every tree with links, every path, all permissions and limits of the system", "why_tests_cant": "all trees, all patterns of failures", "anchors": ["src/jsiFileCmds.c:FileRemoveCmd", "src/jsiFileCmds.c:RmdirAll"]}
{"id": "C107", "title": "File.remove with force removes the whole tree", "statement": "If the system permits it, File.remove(path, true) removes the directory with all it contains and nothing else, and success means that it is gone.", "quantifier": "every tree, every order in which directories are listed", "why_tests_cant": "all trees and orders", "anchors": ["src/jsiFileCmds.c:FileRemoveCmd", "src/jsiFileCmds.c:RmdirAll"]}
{"id": "C108", "title": "File.mkdir with force makes the whole way", "statement": "If the places on the way are directories or free, File.mkdir(path, true) makes the missing ones and touches nothing else; success means that the path leads to a directory; in no case is an object changed or removed.", "quantifier": "every tree with links, every path, all permissions", "why_tests_cant": "all trees and paths", "anchors": ["src/jsiFileCmds.c:FileMkdirCmd", "src/jsiFileCmds.c:mkdir_all"]}
{"id": "C109", "title": "File.copy makes an equal file", "statement": "After File.copy the destination has the contents and permissions the source had, and no other file is touched; without force an existing destination is left alone; success means that the copy is complete.", "quantifier": "files of every length, names of the same file, all faults of the system", "why_tests_cant": "all contents and faults", "anchors": ["src/jsiFileCmds.c:FileCopyCmd", "src/jsiFileCmds.c:FileCopy"]}
{"id": "C110", "title": "What File.write stores File.read returns", "statement": "File.read returns byte for byte the text File.write stored, whatever bytes it has; the number File.write returns is the number of bytes the file holds.", "quantifier": "every text, all short writes and faults", "why_tests_cant": "all texts and faults", "anchors": ["src/jsiFileCmds.c:FileWriteCmd", "src/jsiFileCmds.c:FileReadCmd"]}
{"id": "C111", "title": "Version numbers keep their meaning", "statement": "A version text a.b.c with parts below 100 given to provide or require is shown again as a.b.c, comparing two versions compares the parts in order, and only such texts are accepted.", "quantifier": "every version text and number, every rounding mode of the arithmetic", "why_tests_cant": "a million versions and their pairs; the arithmetic is on doubles", "anchors": ["src/jsiCmds.c:jsi_GetVerFromVal", "src/jsiCmds.c:jsi_VersionNormalize"]}
{"id": "C112", "title": "require returns a package that is recent enough", "statement": "require(name, version) returns only if the package is provided afterwards in at least that version, and throws otherwise; a package that is there is returned without evaluating anything.", "quantifier": "every state, every tree of package files", "why_tests_cant": "all histories of provide and require", "anchors": ["src/jsiCmds.c:SysRequireCmd", "src/jsiCmds.c:Jsi_PkgRequireEx"]}
{"id": "C113", "title": "A provided package stays as it is", "statement": "Once provided, a package keeps its version whatever is evaluated later, and is not loaded again; a second provide is refused.", "quantifier": "every session: any sequence of scripts that provide, require, throw and catch", "why_tests_cant": "all histories", "anchors": ["src/jsiCmds.c:Jsi_PkgProvideEx", "src/jsiCmds.c:SysProvideCmdInt"]}
{"id": "C114", "title": "A package is loaded from the first place in the search order", "statement": "require evaluates the first readable file among name.so, name/name.so, name.jsi, name/name.jsi in the directories of pkgDirs, then of the executable, then of the script; if there is none it throws and does nothing.", "quantifier": "every list of directories, every set of files", "why_tests_cant": "all sets of files and directories", "anchors": ["src/jsiCmds.c:jsi_PkgLoad", "src/jsiCmds.c:jsi_PkgLoadOne"]}
{"id": "C115", "title": "A package that failed to load is not taken for loaded", "statement": "require returns a package only if the file that provides it was evaluated to its end without an exception.", "quantifier": "every package file, every point at which it throws, every later require", "why_tests_cant": "all points of failure and histories", "anchors": ["src/jsiCmds.c:jsi_PkgLoadOne", "src/jsiCmds.c:Jsi_PkgRequireEx"]}
{"id": "C116", "title": "Packages that require each other load", "statement": "However packages require each other, loading ends, at most maxIncDepth+1 files are being evaluated at any time, and no package file is evaluated twice.", "quantifier": "every graph of packages", "why_tests_cant": "all graphs, sizes and depths", "anchors": ["src/jsiCmds.c:Jsi_PkgRequireEx", "src/jsiCmds.c:pkgReqDepth"]}
{"id": "C117", "title": "Parameters get their arguments or defaults", "statement": "When a function is called, each parameter has the value of the argument at its place, or its default when there is none, or undefined; local variables are undefined; the array of arguments keeps its elements.", "quantifier": "every signature, every list of arguments, every way of calling", "why_tests_cant": "all signatures and argument lists", "anchors": ["src/jsiProto.c:jsi_SharedArgs", "src/jsiFunc.c:jsi_InitLocalVar"]}
{"id": "C118", "title": "Calls are by value", "statement": "Whatever a function assigns to its parameters and local variables changes no variable and no array element of its caller or of any other call.", "quantifier": "every function, every sequence of assignments, every way of calling", "why_tests_cant": "all bodies and callers; the harm shows only later", "anchors": ["src/jsiProto.c:jsi_FuncCallSub", "src/jsiEval.c:jsiEvalFunction", "src/jsiObj.c:Jsi_ObjNewArray"]}
{"id": "C119", "title": "Arguments are checked before the body runs", "statement": "With checking on, a call runs the body exactly when the number of arguments is right and every argument is of a declared type (or that of the default); otherwise it throws and the body is not run. With noCheck or noError every call runs.", "quantifier": "every signature, every list of arguments, every state of the checks", "why_tests_cant": "all combinations of types and values", "anchors": ["src/jsiFunc.c:jsi_ArgTypeCheck", "src/jsiFunc.c:jsi_RunFuncCallCheck"]}
{"id": "C120", "title": "A result is of the declared type", "statement": "A function with a return type gives its caller only values of that type, undefined counting as void; otherwise it throws.", "quantifier": "every set of types, every body", "why_tests_cant": "all bodies and values", "anchors": ["src/jsiFunc.c:jsi_ArgTypeCheck", "src/jsiProto.c:jsi_FuncCallSub"]}
{"id": "C121", "title": "Types shown are the types", "statement": "The text shown for a set of types names exactly that set, and a signature shown with its types and read again checks its arguments in the same way.", "quantifier": "every set of types, every parameter", "why_tests_cant": "all sets and texts", "anchors": ["src/jsiFunc.c:jsi_typeName", "src/jsiFunc.c:jsi_typeGet", "src/jsiFunc.c:jsi_FuncArgsToString"]}
{"id": "C122", "title": "call, apply and bind pass this and the arguments", "statement": "f.call(t, x...), f.apply(t, [x...]) and f.bind(t, x...)(y...) call f with exactly these arguments in order, and t as this.", "quantifier": "every function, every list of arguments, every use of a bound function", "why_tests_cant": "all lists and all ways a bound function can be called", "anchors": ["src/jsiProto.c:Jsi_FunctionCall", "src/jsiProto.c:Jsi_FunctionApply", "src/jsiProto.c:jsi_FuncBindCall"]}
{"id": "C123", "title": "Integer options hold the number given", "statement": "An option of an integer type accepts exactly the whole numbers its C type can hold, shows the number it was given, and refuses everything else without changing.", "quantifier": "every integer type, every number, every other value", "why_tests_cant": "all numbers and all types", "anchors": ["src/jsiOptions.c:jsi_SetOption_", "src/jsiOptions.c:jsi_GetOption"]}
{"id": "C124", "title": "Setting options touches nothing else", "statement": "conf() and the options of a command write only the fields of the options that the object names: no other option and nothing outside the table, whether the call succeeds or fails.", "quantifier": "every table, every object at every depth of sub-options, every record", "why_tests_cant": "all objects and layouts; damage shows elsewhere", "anchors": ["src/jsiOptions.c:Jsi_OptionsProcess", "src/jsiOptions.c:jsi_SetOption_", "src/jsiOptions.c:Jsi_OptionsFree"]}
{"id": "C125", "title": "Locked options stay as they are", "statement": "conf() changes no option that is read-only, that may only be given at creation, or, in a safe interpreter, that is locked for safe interpreters; a call that names one fails.", "quantifier": "every table, every object at every depth", "why_tests_cant": "all objects; security depends on it", "anchors": ["src/jsiOptions.c:Jsi_OptionsProcess", "src/jsiOptions.c:jsi_ValueToSubopt"]}
{"id": "C126", "title": "A refused value leaves the option as it was", "statement": "When an option refuses a value, it keeps the one it had.", "quantifier": "every type of option, every value", "why_tests_cant": "all types and values", "anchors": ["src/jsiOptions.c:jsi_SetOption_", "src/jsiOptions.c:jsi_ValueToBitset", "src/jsiOptions.c:jsi_ValueToEnum"]}
{"id": "C127", "title": "A refused conf changes nothing", "statement": "When conf() fails, the options are as they were before.", "quantifier": "every table, every object", "why_tests_cant": "all objects and failing members", "anchors": ["src/jsiOptions.c:Jsi_OptionsProcess"]}
{"id": "C128", "title": "Required options must be given", "statement": "A command or constructor that has required options fails unless they are all given.", "quantifier": "every table, every object", "why_tests_cant": "all objects", "anchors": ["src/jsiOptions.c:Jsi_OptionsProcess"]}
{"id": "C129", "title": "Enumerated options take and show names", "statement": "An enumerated option accepts exactly the words that stand for one of its names, and then shows that name; a value that is no name is not shown as one.", "quantifier": "every list of names, every size, every word", "why_tests_cant": "all words and lists", "anchors": ["src/jsiOptions.c:jsi_ValueToEnum", "src/jsiOptions.c:jsi_EnumToValue"]}
{"id": "C130", "title": "Bit sets are changed by name", "statement": "A bit set given as a string, an array or an object sets and clears exactly the bits named, in order, all others staying (or cleared with =), and shows exactly the names of the bits that are set.", "quantifier": "every list of names, every sequence of words, every former value", "why_tests_cant": "all lists and sequences", "anchors": ["src/jsiOptions.c:jsi_ValueToBitset", "src/jsiOptions.c:jsi_BitsetToValue"]}
{"id": "C131", "title": "conf() can be saved and restored", "statement": "The object conf() returns, given to conf() later or elsewhere, is accepted and brings every option to the value it had.", "quantifier": "every table, every record, every later state", "why_tests_cant": "all states", "anchors": ["src/jsiOptions.c:Jsi_OptionsDump", "src/jsiOptions.c:Jsi_OptionsConf", "src/jsiOptions.c:Jsi_OptionsProcess"]}
{"id": "C132", "title": "Options are found by name or unique abbreviation", "statement": "A member of an object of options selects the option of that name, or the only one whose name begins so; any other member makes the call fail.", "quantifier": "every table, every word", "why_tests_cant": "all tables and words", "anchors": ["src/jsiOptions.c:Jsi_OptionsFind", "src/jsiOptions.c:Jsi_OptionsProcess"]}
{"id": "C133", "title": "replace without g changes the first match only", "statement": "s.replace(re, text) without the flag g puts what the template means ($$, $&, $0-$9, $', $`) in place of the first match and changes nothing else; without a match the result is s.", "quantifier": "every regular expression engine, string and template", "why_tests_cant": "all strings, templates and match positions", "anchors": ["src/jsiString.c:StringReplaceCmd"]}
{"id": "C134", "title": "replace with g changes every match", "statement": "With the flag g every successive leftmost match is replaced by what the template means and everything between the matches is kept, empty matches included.", "quantifier": "every regular expression, string and template", "why_tests_cant": "all strings and expressions, any number of matches", "anchors": ["src/jsiString.c:StringReplaceCmd"]}
{"id": "C135", "title": "A function given to replace is called for every match", "statement": "The function is called once for each match, in order, with the text of the match, of its groups, the offset and the string; what it returns takes the place of the match and an error ends the call.", "quantifier": "every regular expression, string, function and state of the script", "why_tests_cant": "all strings and functions, any number of calls", "anchors": ["src/jsiString.c:StringReplaceCmd"]}
{"id": "C136", "title": "match returns the matches", "statement": "s.match(re) is the array of all successive matches with the flag g, the first match followed by its groups without it, and null if there is none.", "quantifier": "every regular expression and string", "why_tests_cant": "all strings and expressions", "anchors": ["src/jsiString.c:StringMatchCmd", "src/jsiRegexp.c:jsi_RegExpMatches"]}
{"id": "C137", "title": "exec walks through the matches", "statement": "re.exec(s) returns the first match that begins at lastIndex or later and sets lastIndex to its end; the loop while (m = re.exec(s)) sees each match once and ends; objects are independent of each other.", "quantifier": "every regular expression, string, position and sequence of calls", "why_tests_cant": "all strings and histories of calls", "anchors": ["src/jsiRegexp.c:RegexpExecCmd", "src/jsiRegexp.c:jsi_RegExpMatches"]}
{"id": "C138", "title": "test and search agree with the pattern", "statement": "re.test(s) says whether the pattern matches somewhere in s; s.search(re) is the index of the first match, or -1.", "quantifier": "every regular expression and string", "why_tests_cant": "all strings and expressions", "anchors": ["src/jsiString.c:StringSearchCmd", "src/jsiRegexp.c:RegexpTestCmd", "src/jsiRegexp.c:Jsi_RegExpMatch"]}
{"id": "C139", "title": "new RegExp compiles the text given", "statement": "new RegExp(text, flags) compiles exactly the given text with exactly the given flags.", "quantifier": "every text and every string of flags", "why_tests_cant": "all texts", "anchors": ["src/jsiRegexp.c:RegExp_constructor", "src/jsiRegexp.c:Jsi_RegExpNew"]}
{"id": "C140", "title": "Matching stays inside the string and ends", "statement": "replace, match and exec read no memory outside the string and end, whatever the pattern, the string and the replacement.", "quantifier": "every engine that keeps to the conventions of regexec, every string (NUL included), template, function and lastIndex", "why_tests_cant": "memory errors and endless loops depend on the input", "anchors": ["src/jsiString.c:StringReplaceCmd", "src/jsiRegexp.c:jsi_RegExpMatches", "src/jsiRegexp.c:RegexpExecCmd"]}
{"id": "C141", "title": "Variables have lexical scope", "statement": "A name belongs to the innermost function around it that has it as a parameter or declares it with var or a function statement, or else is global; a function keeps the variables of the place where it was made, each call has its own variables, and catch has its own variable; whatever the program does, it ends with the global variables this rule gives.", "quantifier": "every program of variables, functions, calls, loops and exceptions, every number of steps", "why_tests_cant": "all programs and all histories of calls and closures", "anchors": ["src/jsiPstate.c:jsi_PstatePush", "src/jsiPstate.c:jsi_PstateAddVar", "src/jsiEval.c:jsiPushVar", "src/jsiFunc.c:jsi_InitLocalVar", "src/jsiProto.c:jsi_SharedArgs"]}
{"id": "C142", "title": "Every well-formed function is accepted", "statement": "A program is accepted just when in each of its functions the parameters are distinct.", "quantifier": "every program", "why_tests_cant": "all programs, any depth of functions", "anchors": ["src/jsiFunc.c:jsi_FuncMake", "src/jsiPstate.c:jsi_ScopeGetVarlist"]}
{"id": "C143", "title": "Declarations take effect on entry", "statement": "Function statements take effect when the function or program that contains them is entered, and var x without a value does nothing when it is reached.", "quantifier": "every program of variables, functions, calls, loops and exceptions", "why_tests_cant": "all programs", "anchors": ["src/parser.y:func_prefix", "src/parser.y:vardec"]}
{"id": "C144", "title": "Operands are read from left to right", "statement": "Operands of + and the function and arguments of a call are evaluated from left to right, each with the value it has at that moment; together with C141 and C143 a program does what ECMAScript says.", "quantifier": "every program of variables, functions, calls, loops and exceptions", "why_tests_cant": "all programs", "anchors": ["src/jsiEval.c:jsiVarDeref", "src/jsiEval.c:jsiEvalFunction"]}
{"id": "C145", "title": "A cap on instructions is kept", "statement": "With maxOpCnt N a script executes at most N instructions and ends, whatever it catches and whatever native functions do between the instructions.", "quantifier": "every script, native function and cap", "why_tests_cant": "all programs; a script that avoids the cap is found only by looking for it", "anchors": ["src/jsiEval.c:jsiEvalCodeSub", "src/jsiEval.c:jsi_evalcode"]}
{"id": "C146", "title": "exit cannot be caught", "statement": "After exit(), or when the cap is reached, no further instruction of the script is executed, neither catch nor finally, and the evaluation fails.", "quantifier": "every script, every place of the call", "why_tests_cant": "all programs", "anchors": ["src/jsiEval.c:jsiEvalCodeSub", "src/jsiEval.c:jsiDoThrow", "src/jsiCmds.c:SysExitCmd"]}
{"id": "C147", "title": "An interruption cannot be caught", "statement": "After an interruption from the keyboard no further instruction of the script is executed, whatever try blocks it is in, if native functions hand errors of their callbacks on.", "quantifier": "every script, every time of the interruption", "why_tests_cant": "all programs and all points in time", "anchors": ["src/jsiEval.c:jsiEvalCodeSub", "src/jsiEval.c:jsiDoThrow"]}
{"id": "C148", "title": "Calls nest to a fixed depth", "statement": "With maxDepth D no instruction is executed at a depth of more than D nested calls, through native functions or not.", "quantifier": "every script and native function", "why_tests_cant": "all programs", "anchors": ["src/jsiEval.c:jsiEvalCodeSub", "src/jsiEval.c:jsi_evalcode"]}
{"id": "C149", "title": "The number of objects is limited", "statement": "With maxUserObjs N at most N objects of native classes are made with new.", "quantifier": "every number of attempts", "why_tests_cant": "all histories", "anchors": ["src/jsiEval.c:jsiEvalCodeSub", "src/jsiUserObj.c:Jsi_UserObjNew"]}
{"id": "C150", "title": "Channel.read returns the bytes of the file", "statement": "read(n) returns the next n bytes, or those that are left, or undefined at the end; read() returns all that is left; in whatever pieces a file is read, nothing is lost, repeated or moved.", "quantifier": "every contents, position and series of sizes", "why_tests_cant": "all contents and series of calls; losses occur at multiples of the buffer only", "anchors": ["src/jsiFilesys.c:FilesysReadCmd"]}
{"id": "C151", "title": "Channel.gets returns the lines of the file", "statement": "Calling gets until it returns undefined gives the lines of the file, each once, in order and complete.", "quantifier": "every contents and position", "why_tests_cant": "all contents; long lines and bytes NUL are the exceptions", "anchors": ["src/jsiFilesys.c:FilesysGetsCmd"]}
{"id": "C152", "title": "Channel.write and puts change what they should", "statement": "write puts its argument at the position (with mode a at the end), leaves the rest, returns the number of bytes and moves the position; what was written is read back; lines written with puts are those gets returns.", "quantifier": "every contents, position and argument", "why_tests_cant": "all contents and arguments", "anchors": ["src/jsiFilesys.c:FilesysWriteCmd", "src/jsiFilesys.c:FilesysPutsCmd"]}
{"id": "C153", "title": "A closed channel is harmless", "statement": "After close, every method of a Channel reports a failure or undefined, and the channel stays closed.", "quantifier": "every series of calls", "why_tests_cant": "all histories", "anchors": ["src/jsiFilesys.c:fileObjErase", "src/jsiFilesys.c:FilesysCloseCmd", "src/jsiFilesys.c:FilesysTellCmd"]}
{"id": "C154", "title": "Opening a channel tells the truth", "statement": "new Channel fails exactly if the file cannot be opened; open returns true exactly if it was opened, and the channel is then as new.", "quantifier": "every mode and state of the file", "why_tests_cant": "all modes and states", "anchors": ["src/jsiFilesys.c:try_open_file", "src/jsiFilesys.c:FilesysOpenCmd", "src/jsiFilesys.c:FilesysConstructor"]}
{"id": "C155", "title": "seek, tell and eof agree", "statement": "After seek(p,'set') tell is p; seeking from the position or the end adds to it, a place before the beginning is refused and changes nothing; eof is true exactly after reading met the end.", "quantifier": "every contents, position and offset", "why_tests_cant": "all positions", "anchors": ["src/jsiFilesys.c:FilesysSeekCmd", "src/jsiFilesys.c:FilesysTellCmd", "src/jsiFilesys.c:FilesysEofCmd"]}
{"id": "C156", "title": "A channel opened for reading leaves the file", "statement": "Whatever methods of a channel opened with mode r are called, in whatever order, the file does not change, and write, puts and truncate report that nothing was written.", "quantifier": "every series of calls", "why_tests_cant": "all histories", "anchors": ["src/jsiFilesys.c:FilesysWriteCmd", "src/jsiFilesys.c:FilesysTruncateCmd"]}
{"id": "C157", "title": "sort keeps the elements", "statement": "After sort the array has the elements it had, each as often as before, whatever the mode and whatever a comparison function answers; with unique none is new.", "quantifier": "every array, mode and comparison function", "why_tests_cant": "all arrays and functions, also inconsistent ones", "anchors": ["src/jsiArray.c:jsi_ArraySortCmd", "src/jsiArray.c:SortSubCmd"]}
{"id": "C158", "title": "sort orders", "statement": "sort() puts numbers in ascending order and strings in the order of their characters; mode desc reverses it, nocase ignores case, dict compares numbers inside strings by value; missing elements come last.", "quantifier": "every array and mode", "why_tests_cant": "all arrays", "anchors": ["src/jsiArray.c:SortSubCmd", "src/jsiValue.c:Jsi_ValueCmp"]}
{"id": "C159", "title": "sort follows a comparison function", "statement": "With a comparison function that is an order the result is in that order, whatever numbers it returns; an exception in the function ends the sorting.", "quantifier": "every array and comparison function", "why_tests_cant": "all functions; only the sign may matter", "anchors": ["src/jsiArray.c:SortSubCmd"]}
{"id": "C160", "title": "sort with unique removes duplicates", "statement": "With unique each value is in the result once, and the array can then be used as any other.", "quantifier": "every array and later calls", "why_tests_cant": "all arrays and histories", "anchors": ["src/jsiArray.c:jsi_ArraySortCmd"]}
{"id": "C161", "title": "numbers survive their text", "statement": "A number made into a string and back with Number() is the same number; a number written with at most fifteen significant digits prints as it was written.", "quantifier": "every number", "why_tests_cant": "all 2^64 numbers; decimal and binary rounding interact", "anchors": ["src/jsiValue.c:Jsi_ValueToString", "src/jsiNumber.c:Jsi_NumberDtoA", "src/jsiValue.c:Jsi_ValueToNumberInt"]}
{"id": "C162", "title": "toString(radix) and parseInt undo each other", "statement": "parseInt(n.toString(b), b) is n for every whole number n and base b from 2 to 36.", "quantifier": "every whole number and base", "why_tests_cant": "all numbers and bases", "anchors": ["src/jsiNumber.c:NumberToStringCmd", "src/jsiCmds.c:parseIntCmd"]}
{"id": "C163", "title": "parseInt reads whole numbers", "statement": "parseInt skips blanks, takes a sign and the digits of the base (10 unless told otherwise) up to the first character that is none, and is NaN if there are none.", "quantifier": "every text and base", "why_tests_cant": "all texts", "anchors": ["src/jsiCmds.c:parseIntCmd", "src/jsiValue.c:Jsi_ValueToNumberInt"]}
{"id": "C164", "title": "isInteger, isSafeInteger, isFinite and isNaN are right", "statement": "Each accepts exactly the numbers its name says.", "quantifier": "every number", "why_tests_cant": "all 2^64 numbers", "anchors": ["src/jsiNumber.c:Jsi_NumberIsInteger", "src/jsiNumber.c:Jsi_NumberIsSafeInteger", "src/jsiNumber.c:Jsi_NumberIsFinite", "src/jsiNumber.c:Jsi_NumberIsNaN"]}
{"id": "C165", "title": "toFixed and toPrecision round to the nearest", "statement": "toFixed(p) prints exactly p digits after the point and toPrecision(p) p significant digits, of the decimal nearest to the number.", "quantifier": "every number and precision", "why_tests_cant": "all numbers and precisions", "anchors": ["src/jsiNumber.c:NumberToFixedCmd", "src/jsiNumber.c:NumberToPrecisionCmd"]}
{"id": "C166", "title": "&, | and ^ work on 32 bits", "statement": "The operators give the 32-bit two's complement number whose bits are the and, or, exclusive or of the operands' bits.", "quantifier": "every two numbers", "why_tests_cant": "all pairs of 2^32 bit patterns", "anchors": ["src/jsiEval.c:common_bitwise_opr"]}
{"id": "C167", "title": "~ and the shifts work on 32 bits", "statement": "~ turns every bit; << multiplies by a power of two in 32 bits, >> divides rounding down, >>> divides the unsigned pattern; the count is taken modulo 32.", "quantifier": "every number and count", "why_tests_cant": "all numbers and counts", "anchors": ["src/jsiEval.c:OP_SHF", "src/jsiEval.c:OP_BNOT", "src/jsiValue.c:jsi_ValueToOInt32"]}
{"id": "C168", "title": "++ and -- step by one and know before from after", "statement": "x++ adds one and has the old value, ++x the new one; likewise --.", "quantifier": "every number", "why_tests_cant": "all numbers; rounding", "anchors": ["src/jsiEval.c:OP_INC", "src/jsiEval.c:OP_DEC"]}
{"id": "C169", "title": "%, Math.min, max, floor, ceil and round are exact", "statement": "% leaves an exact remainder smaller than the divisor with the sign of the dividend; min and max give one of their arguments that none passes, NaN if one is NaN; floor, ceil and round give the nearest whole number below, above, or either side.", "quantifier": "every number", "why_tests_cant": "all numbers and argument lists", "anchors": ["src/jsiMath.c:MathMinCmd", "src/jsiMath.c:MathMaxCmd", "src/jsiMath.c:MathRoundCmd", "src/jsiMath.c:MathFloorCmd", "src/jsiEval.c:fmod"]}
{"id": "C170", "title": "Date.strftime shows the date", "statement": "Date.strftime(ms) shows the date and time of the Gregorian calendar that belong to the time, in UTC with {utc:true} and as the clocks show it without.", "quantifier": "every time, every time zone", "why_tests_cant": "all times; leap years, time zones", "anchors": ["src/jsiCmds.c:Jsi_DatetimeFormat", "src/jsiCmds.c:DateStrftimeCmd"]}
{"id": "C171", "title": "Date.strptime undoes Date.strftime", "statement": "A time in whole seconds, shown and read back, is the same, whatever the time zone of the computer.", "quantifier": "every time, every time zone", "why_tests_cant": "all times and zones, changes of the clocks", "anchors": ["src/jsiCmds.c:Jsi_DatetimeFormat", "src/jsiCmds.c:DateStrftimeCmd", "src/jsiCmds.c:Jsi_DatetimeParse", "src/jsiCmds.c:DateStrptimeCmd"]}
{"id": "C172", "title": "milliseconds survive", "statement": "With {iso:true} the milliseconds are shown, and reading the text gives the same number.", "quantifier": "every time", "why_tests_cant": "all times", "anchors": ["src/jsiCmds.c:Jsi_DatetimeFormat", "src/jsiCmds.c:DateStrftimeCmd", "src/jsiCmds.c:Jsi_DatetimeParse", "src/jsiCmds.c:DateStrptimeCmd"]}
{"id": "C173", "title": "the usual ways to write a date are understood", "statement": "Without a format, Date.strptime reads YYYY-MM-DD with or without HH:MM or HH:MM:SS behind a blank or T as the time meant, and gives NaN for texts that are no date.", "quantifier": "every date and time", "why_tests_cant": "all dates and texts", "anchors": ["src/jsiCmds.c:Jsi_DatetimeParse", "src/jsiCmds.c:DateStrptimeCmd"]}
{"id": "C174", "title": "offsets and fractions in the text count", "statement": "An offset such as +02:00 behind the time is taken into account, and so is a fraction of a second.", "quantifier": "every date, offset and fraction", "why_tests_cant": "all texts", "anchors": ["src/jsiCmds.c:Jsi_DatetimeParse", "src/jsiCmds.c:DateStrptimeCmd"]}
{"id": "C175", "title": "reading a date is safe", "statement": "Date.strptime writes to no memory but its own, whatever the text.", "quantifier": "every text and format", "why_tests_cant": "all texts", "anchors": ["src/jsiCmds.c:Jsi_DatetimeParse", "src/jsiCmds.c:DateStrptimeCmd"]}
{"id": "C176", "title": "conf(path) shows what conf() shows", "statement": "conf(\"a.b.c\") is the member conf().a.b.c; a path whose words are not the names, or unambiguous beginnings of the names, of options inside options is refused.", "quantifier": "every table of options, record and path", "why_tests_cant": "all tables, nesting depths, values and paths", "anchors": ["src/jsiOptions.c:Jsi_OptionsGet", "src/jsiOptions.c:Jsi_OptionsConf", "src/jsiOptions.c:Jsi_OptionsFind"]}
{"id": "C177", "title": "an option set by its path", "statement": "Setting an option by its path (-I a.b:v, or an object tied to a C record) does what the object {a:{b:v}} does, changes nothing but that option, and a path that names no option is refused.", "quantifier": "every table of options, record, path and value", "why_tests_cant": "all tables, nesting depths, values and paths", "anchors": ["src/jsiOptions.c:Jsi_OptionsSet", "src/jsiOptions.c:jsi_SetOption"]}
{"id": "C178", "title": "-I path:value", "statement": "jsish -I path:value (or path=value) gives the option the value the text stands for: a boolean, null, a number or else the text; -I path alone sets it to true.", "quantifier": "every table, path and text", "why_tests_cant": "all texts", "anchors": ["src/jsiInterp.c:jsi_InterpNew", "src/jsiUtils.c:Jsi_GetBool", "src/jsiOptions.c:Jsi_OptionsSet", "src/jsiOptions.c:jsi_SetOption"]}
{"id": "C179", "title": "the name of an object leads to it", "statement": "Objects with C data (files, databases, sockets, interpreters) have as their text a name such as #File_3; no two objects ever made have the same name, and Info.named(String(x)) is x as long as x exists.", "quantifier": "every history of objects made, released and types registered", "why_tests_cant": "all histories; names after objects have gone", "anchors": ["src/jsiUserObj.c:jsi_UserObjToName", "src/jsiUserObj.c:jsi_UserObjFromName", "src/jsiUserObj.c:Jsi_UserObjNew", "src/jsiCmds.c:InfoNamedCmd"]}
{"id": "C180", "title": "the data of an object is released exactly once", "statement": "The C data of an object is released once: when the last reference to the object goes or when the interpreter is deleted, never while the object is in use, and nothing is left in the end.", "quantifier": "every history, including the end of the interpreter and the withdrawal of a type", "why_tests_cant": "all histories; double frees and leaks", "anchors": ["src/jsiUserObj.c:jsi_UserObjFree", "src/jsiUserObj.c:jsi_UserObjDelete", "src/jsiUserObj.c:Jsi_UserObjUnregister", "src/jsiInterp.c:freeUserdataTbl"]}
{"id": "C181", "title": "Info.named lists the objects", "statement": "Info.named(type) lists exactly the objects of that type that exist, each once, and Info.named() the types; other types are refused.", "quantifier": "every history and type", "why_tests_cant": "all histories", "anchors": ["src/jsiUserObj.c:jsi_UserObjDump", "src/jsiCmds.c:InfoNamedCmd"]}
{"id": "C182", "title": "texts that name no object are refused", "statement": "A text that is not the name of an existing object is refused where an object is looked up by name.", "quantifier": "every history and text", "why_tests_cant": "all texts", "anchors": ["src/jsiUserObj.c:jsi_UserObjFromName", "src/jsiFilesys.c:Jsi_FSNameToChannel"]}
{"id": "C183", "title": "query results as JSON objects", "statement": "db.query with mode json gives a JSON text; its value is the array of the result's rows, each row an object from column name to value, so that JSON.parse gives the rows back. Nothing but the result is in it.", "quantifier": "every result: number of rows and columns, names, whole numbers, texts, NULLs, blobs, limit", "why_tests_cant": "all texts in names and values; what lies behind a value in memory", "anchors": ["src/jsiSqlite.c:dbEvalSetColumnJSON", "src/jsiSqlite.c:SqliteQueryCmd", "src/jsiJSON.c:Jsi_JSONQuote"]}
{"id": "C184", "title": "query results as JSON arrays", "statement": "db.query with mode json and headers gives a JSON text of an array: first the column names, then the rows.", "quantifier": "every result and limit", "why_tests_cant": "all results", "anchors": ["src/jsiSqlite.c:dbEvalSetColumnJSON", "src/jsiSqlite.c:SqliteQueryCmd", "src/jsiJSON.c:Jsi_JSONQuote"]}
{"id": "C185", "title": "query results as names and values", "statement": "db.query with mode json2 gives a JSON text of an object with the column names under names and the rows under values.", "quantifier": "every result and limit", "why_tests_cant": "all results, also the empty one", "anchors": ["src/jsiSqlite.c:dbEvalSetColumnJSON", "src/jsiSqlite.c:SqliteQueryCmd"]}
{"id": "C186", "title": "query results by lines", "statement": "db.query with mode line writes each column of each row on a line of its own, as name = value.", "quantifier": "every result and limit", "why_tests_cant": "all results", "anchors": ["src/jsiSqlite.c:SqliteQueryCmd"]}
{"id": "C187", "title": "query results in columns", "statement": "db.query with mode column writes each row on a line of its own in columns of fixed width, the names above their columns if headers are asked for.", "quantifier": "every result, width, separator and limit", "why_tests_cant": "all results", "anchors": ["src/jsiSqlite.c:SqliteQueryCmd"]}
{"id": "C188", "title": "query results as lists", "statement": "db.query with mode list gives one line for each row, the values with the separator between them, after a line of names if headers are asked for; the values can be got back by cutting at line feeds and separators.", "quantifier": "every result, separator and limit", "why_tests_cant": "all results", "anchors": ["src/jsiSqlite.c:SqliteQueryCmd", "src/jsiSqlite.c:dbEvalSetColumn"]}
{"id": "C189", "title": "db.import reads CSV files", "statement": "db.import puts the records of a CSV file into a table: one row for each record, the values between quotes with doubled quotes made single, separators and line feeds between quotes belonging to the value; a record with another number of values than the table has columns is an error and leaves the table as it was.", "quantifier": "every file, separator and text for NULL", "why_tests_cant": "records of any length, any number of them, quoted values over any number of lines", "anchors": ["src/jsiSqlite.c:SqliteImportCmd", "src/jsiSqlite.c:dbLocalGetline"]}
{"id": "C190", "title": "what db.query writes as CSV db.import reads", "statement": "The text db.query gives in mode csv, written to a file, is read by db.import into another table with the same columns as the same rows.", "quantifier": "every result and separator of one character", "why_tests_cant": "all results", "anchors": ["src/jsiSqlite.c:SqliteImportCmd", "src/jsiSqlite.c:SqliteQueryCmd", "src/jsiSqlite.c:dbLocalGetline"]}
{"id": "C191", "title": "File.glob with recurse", "statement": "File.glob(pattern, {dir, recurse:true}) returns every file and directory under dir whose name matches the pattern and whose type and name the options types and filter accept, as a path relative to dir, each once; through at most maxDepth directories and not through directories dirFilter refuses; with limit n the first n of them, with retCount their number.", "quantifier": "every directory tree, pattern and set of options", "why_tests_cant": "trees of any size and depth, every combination of options", "anchors": ["src/jsiFileCmds.c:FileGlobCmd", "src/jsiFileCmds.c:SubGlobsDirectory"]}
{"id": "C192", "title": "File.glob in one directory", "statement": "File.glob(pattern) returns the names in the directory that match the pattern and that types and filter accept, each once; with limit n the first n.", "quantifier": "every directory and pattern without a slash", "why_tests_cant": "directories of any size", "anchors": ["src/jsiFileCmds.c:FileGlobCmd", "src/jsiFileCmds.c:SubGlobsDirectory"]}
{"id": "C193", "title": "File.glob with a star in a directory", "statement": "File.glob('x*/b') returns the paths a/b' where a is a directory whose name matches x* and b' matches b; with limit n the first n.", "quantifier": "every tree and pattern with one directory part that has a star", "why_tests_cant": "trees of any size", "anchors": ["src/jsiFileCmds.c:FileGlobCmd", "src/jsiFileCmds.c:SubGlobsDirectory"]}
{"id": "C194", "title": "File.glob with a regular expression", "statement": "File.glob(regexp, options) returns the names in the directory (with recurse: under it) that match the regular expression.", "quantifier": "every directory and regular expression", "why_tests_cant": "every directory the caller can give", "anchors": ["src/jsiFileCmds.c:FileGlobCmd", "src/jsiFileCmds.c:SubGlobsDirectory"]}
{"id": "C195", "title": "types and maxDiscard of File.glob", "statement": "With types:'d' File.glob returns directories that match the pattern, with recurse at every depth; with maxDiscard n the search ends when filter has refused n files.", "quantifier": "every tree, pattern and filter", "why_tests_cant": "trees of any size, filters of any kind", "anchors": ["src/jsiFileCmds.c:FileGlobCmd", "src/jsiFileCmds.c:SubGlobsDirectory"]}
{"id": "C196", "title": "An alias calls its function with its own arguments and those of the call", "statement": "After Interp.alias(name, f, [a, b]) a call name(c, d) calls f with a, b, c, d; from another interpreter with copies of c and d, and if they cannot be copied f is not called.", "quantifier": "every function, array of arguments and call", "why_tests_cant": "every function, number of arguments and state of the memory", "anchors": ["src/jsiInterp.c:jsi_AliasInvoke", "src/jsiArray.c:Jsi_ValueArrayConcat", "src/jsiFunc.c:Jsi_FunctionInvoke"]}
{"id": "C197", "title": "Each call of an alias has its own variables", "statement": "A call of an alias, and a call the program makes without arguments (db.transaction, onCommit, onRollback, Info.times), starts with its parameters and local variables fresh; what it assigns to them changes no variable of another call and not the arguments given with the alias.", "quantifier": "every function, history of calls and nesting of calls", "why_tests_cant": "every history and nesting of calls", "anchors": ["src/jsiInterp.c:jsi_AliasInvoke", "src/jsiFunc.c:Jsi_FunctionInvoke", "src/jsiArray.c:Jsi_ValueArrayConcat"]}
{"id": "C198", "title": "The aliases of an interpreter", "statement": "After any history of interp.alias calls the command n calls the function, with the arguments, the last call for n that was accepted gave; alias(n) is that function, alias(n, null) those arguments; alias() lists the names of the aliases; alias(n, null, null) deletes the alias and the command.", "quantifier": "every history of uses of alias, accepted or refused, of any names by any interpreter", "why_tests_cant": "histories of any length", "anchors": ["src/jsiInterp.c:InterpAliasCmd", "src/jsiInterp.c:jsi_AliasFree", "src/jsiInterp.c:jsi_AliasCreateCmd", "src/jsiCmds.c:Jsi_CommandDelete"]}
{"id": "C199", "title": "Values passed between interpreters are copied", "statement": "A value passed to a function of another interpreter through an alias, and its result, arrive as an equal value.", "quantifier": "every value", "why_tests_cant": "values of any size and nesting", "anchors": ["src/jsiInterp.c:Jsi_CleanValue", "src/jsiUtils.c:jsi_ObjectGetFmt"]}
{"id": "C200", "title": "Info.lookup gives the value of a path", "statement": "Info.lookup(\"x.a[0]['b'][k]\") is the value of that expression, and undefined if a part of it does not exist.", "quantifier": "every path, of any length, and every state of the variables", "why_tests_cant": "paths of any length, objects of any depth", "anchors": ["src/jsiUtils.c:Jsi_NameLookup", "src/jsiUtils.c:FindEndB", "src/jsiCmds.c:InfoLookupCmd"]}
{"id": "C201", "title": "System.matchObj compares keys and types", "statement": "matchObj(o) is a text that two objects share only if they have the same keys with the same types; matchObj(o, s) is true if and only if s is that text (spaces do not count); matchObj(o, s, true, n) if the keys and types of o stand in s in this order; where it is not true it is false, or an error if asserts are on and n is not true.", "quantifier": "every object and every format", "why_tests_cant": "objects and formats of any size", "anchors": ["src/jsiCmds.c:SysMatchObjCmd", "src/jsiCmds.c:jsi_sysTypeGet", "src/jsiFunc.c:jsi_ValueTypeName"]}
{"id": "C202", "title": "verConvert between texts and numbers of versions", "statement": "System.verConvert(s) of a version text is a number, from which verConvert(n, t) makes the text again, without up to t parts that are zero at its end; a text that is no version gives null, and t outside 0 to 2 is an error.", "quantifier": "every version with parts below 100, every text, every t, every rounding mode", "why_tests_cant": "every version and every way doubles are rounded", "anchors": ["src/jsiCmds.c:SysVerConvertCmd", "src/jsiCmds.c:jsi_VersionNormalize", "src/jsiCmds.c:jsi_GetVerFromVal"]}
{"id": "C203", "title": "Names of signals", "statement": "The functions of Signal take each name of Signal.names(), in letters of any case, with or without SIG, also after a -, or its number; what they take is the signal the text names, other texts are errors.", "quantifier": "every text", "why_tests_cant": "texts of any length and any case", "anchors": ["src/jsiSignal.c:find_signal_by_name", "src/jsiSignal.c:Jsi_SignalName", "src/jsiSignal.c:Jsi_SignalId"]}
{"id": "C204", "title": "What is done on a signal", "statement": "After any history of Signal.handle, ignore, reset and callback the process does on a signal what the last of them that named it said, after reset what it did at first; handle(), ignore() and reset() list the signals for which they came last.", "quantifier": "every history of these calls, every signal", "why_tests_cant": "histories of any length", "anchors": ["src/jsiSignal.c:SignalSub", "src/jsiSignal.c:jsi_SignalSet", "src/jsiSignal.c:SignalCallbackCmd"]}
{"id": "C205", "title": "A signal that arrives is followed by a call of its callback", "statement": "After a signal arrives each of its callbacks is called the next time events are processed, and it is called no more often than the signal arrives.", "quantifier": "every interleaving of arrivals, processing of events and callbacks that return", "why_tests_cant": "every schedule", "anchors": ["src/jsiCmds.c:Jsi_EventProcess", "src/jsiSignal.c:signal_handler", "src/jsiSignal.c:jsi_SignalClear", "src/jsiSignal.c:jsi_SignalIsSet"]}
{"id": "C206", "title": "The interactive shell evaluates a text when it is complete", "statement": "In the interactive shell lines are collected until all brackets and strings opened in them are closed; then the lines are evaluated once, as they were typed; a line with only a backslash takes back the lines not yet evaluated.", "quantifier": "every sequence of lines", "why_tests_cant": "texts of any nesting, any number of lines", "anchors": ["src/jsiUtils.c:Jsi_Interactive", "src/jsiUtils.c:jsi_StrIsBalanced", "src/jsiUtils.c:get_inputline"]}
{"id": "C207", "title": "SQL filled in from an object", "statement": "With the name of an object, query replaces %v: an INSERT names each field, without rowid and those to skip, once, and then their values in the same order; an UPDATE sets each; a CREATE declares a column for each, with its type and its value as default; with an error nothing is run and the caller is told.", "quantifier": "every object, every name, every text of SQL", "why_tests_cant": "objects of any size, texts of any length", "anchors": ["src/jsiUtils.c:Jsi_SqlObjBinds", "src/jsiUtils.c:jsi_StrInArray", "src/jsiSqlite.c:Jsi_SqlObjBinds"]}
{"id": "C208", "title": "Getters and setters stand for the property", "statement": "Reading a property with a getter calls it once with the object as this and gives its value, or its exception; assigning calls the setter once with the value; ++ does one and then the other; other properties are read and assigned without calling anything; both are inherited.", "quantifier": "every object, every getter and setter function, every history of reads, assignments and ++", "why_tests_cant": "functions can do anything, histories of any length", "anchors": ["src/jsiValue.c:jsi_GetterCall", "src/jsiValue.c:jsi_SetterCall", "src/jsiValue.c:jsi_ObjValInsert", "src/jsiValue.c:jsi_ValueLookupBase", "src/jsiEval.c:OP_SUBSCRIPT", "src/jsiEval.c:OP_INC"]}
{"id": "C209", "title": "isPrototypeOf", "statement": "a.isPrototypeOf(v) is true if and only if a is the prototype of v, or the prototype of that, and so on.", "quantifier": "every object a and v, every graph of prototypes", "why_tests_cant": "graphs of any size, chains of any length", "anchors": ["src/jsiProto.c:ObjectIsPrototypeOfCmd"]}
{"id": "C210", "title": "The line editor keeps the line", "statement": "After any sequence of keys in the interactive editor, the line that Enter gives is the one an editor with a text before the cursor and a text after it would have; the cursor is between the two, and nothing outside the buffer is read or written.", "quantifier": "every sequence of keys, every size of the buffer and everything that was in it before", "why_tests_cant": "sequences of keys of any length", "anchors": ["src/linenoise.c:linenoiseEdit", "src/linenoise.c:linenoiseEditInsert", "src/linenoise.c:linenoiseEditDelete", "src/linenoise.c:linenoiseEditBackspace", "src/linenoise.c:linenoiseEditDeletePrevWord"]}
{"id": "C211", "title": "The history of the line editor", "statement": "After any lines the history is the newest of them, without immediate repeats; it survives save and load; older and newer walk through it and through the line being typed, each text as one left it; Enter leaves the history as it was.", "quantifier": "every sequence of lines, every limit, every sequence of keys in a session", "why_tests_cant": "histories and sessions of any length", "anchors": ["src/linenoise.c:linenoiseHistoryAdd", "src/linenoise.c:linenoiseHistorySetMaxLen", "src/linenoise.c:linenoiseHistorySave", "src/linenoise.c:linenoiseHistoryLoad", "src/linenoise.c:linenoiseEditHistoryNext", "src/linenoise.c:linenoiseEdit"]}
{"id": "C212", "title": "The range of Info.completions", "statement": "Info.completions(str,start,end) completes the bytes of str from start to end, or to its end, and touches no memory outside str.", "quantifier": "every text and every pair of numbers", "why_tests_cant": "texts of any length and all numbers of an int", "anchors": ["src/jsiCmds.c:InfoCompletionsCmd", "src/jsiDString.c:Jsi_DSAppendLen"]}
{"id": "C213", "title": "Breakpoints", "statement": "The debugger is told where an enabled breakpoint is, and while it continues nowhere else; the hits of a breakpoint are the stops at it; a temporary one stops once; numbers are not given twice.", "quantifier": "every sequence of instructions and debugger commands, every set of breakpoints", "why_tests_cant": "executions and command histories of any length", "anchors": ["src/jsiInterp.c:jsi_InterpDebugHook", "src/jsiCmds.c:DebugAddCmd", "src/jsiCmds.c:DebugRemoveCmd_", "src/jsiCmds.c:DebugEnableCmd"]}
{"id": "C214", "title": "A path is found in its mount", "statement": "A path belongs to a Vfs mount exactly if it is the mount or lies in it; with mounts inside mounts, to the innermost.", "quantifier": "every set of mounts and every path, every order of the table", "why_tests_cant": "paths and tables of any size", "anchors": ["src/jsiVfs.c:VfsLookupMount"]}
{"id": "C215", "title": "A file of a Vfs reads as its data", "statement": "Whatever is read, sought and put back on an open Vfs file, only its bytes are read; reads give its bytes in order up to its size.", "quantifier": "every file, every sequence of operations", "why_tests_cant": "sequences of any length, files of any size", "anchors": ["src/jsiVfs.c:jsi_VfsSeek", "src/jsiVfs.c:Jav_FSReadProc", "src/jsiVfs.c:Jav_FSGetcProc", "src/jsiVfs.c:Jav_FSUngetcProc", "src/jsiVfs.c:Jav_FSGetsProc"]}
{"id": "C216", "title": "The directories above the files of a Vfs", "statement": "After a mount with a list of files, every file of it and every directory between the mount and a file exists, and nothing else.", "quantifier": "every mount point and every list of files, in any order", "why_tests_cant": "lists and paths of any length", "anchors": ["src/jsiVfs.c:VfsVmountCmd"]}
{"id": "C217", "title": "Listing a directory of a Vfs", "statement": "Listing a directory of a mounted Vfs gives each file and directory directly in it once, and nothing else.", "quantifier": "every mount, every list of files, every directory in the mount", "why_tests_cant": "tables, lists and paths of any size", "anchors": ["src/jsiVfs.c:Jav_FSScandirProc", "src/jsiVfs.c:VfsVmountCmd"]}
