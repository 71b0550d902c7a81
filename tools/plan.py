PLAN={
'C01':('B64EncodeDStr, B64DecodeDStr, b64getidx','induction on 3-byte groups with a column counter'),
'C02':('B64EncodeDStr','comparison with RFC 4648 digits group by group'),
'C03':('Jsi_Crc32 nibble table loop','nibble step = 4 bit steps (closed kernel check), induction on input'),
'C04':('jsi_ToHexStr, jsi_FromHexStr, Jsi_HexStr','per byte round trip, induction; refutation'),
'C05':('url_encode, url_decode','induction on bytes; refutation'),
'C06':('Jsi_UtfToUniChar, Jsi_UniCharToUtf','case analysis on lengths, bit arithmetic, agreement with Lean core'),
'C07':('Jsi_UtfSubstr and callers','induction on characters; refutation'),
'C08':('sha256 init/update/final/transform','buffer invariant (state = fold over blocks, buffer = rest), padding lemma'),
'C09':('sha1','same invariant as C08'),
'C10':('MD5','buffer invariant, padding'),
'C11':('SHA3_*','Keccak rounds equal FIPS 202; stale bytes made explicit; refutations'),
'C12':('jsi_btea, Jsi_Encrypt, Jsi_Decrypt','each round step inverted; induction over words and rounds'),
'C13':('jsi_btea','refutation; permutation'),
'C14':('jsiHash.c buckets with chains, RANDOM_INDEX, RebuildTable','invariant: every chain member is in its bucket; refinement to a finite map'),
'C15':('string keyed tables with lookup in a second table','refutation; partial refinement'),
'C16':('jsiTree.c insert/delete/find','refinement to a sorted association list'),
'C17':('same','red-black invariant through every fix-up case'),
'C18':('TreeCompareWords','arithmetic on int truncation'),
'C19':('jsiDString.c with capacity and buffer','invariant and concatenation'),
'C20':('Jsi_List as heap of nodes','path predicates; refutations'),
'C21':('Jsi_Stack','refinement to a list'),
'C22':('Jsi_DictionaryCompare','equality with lexicographic order on tokens; refutations'),
'C23':('Jsi_SplitStr, Array.join','induction on occurrences'),
'C24':('Jsi_GlobMatch','denotational language of patterns; out-of-bounds outcome explicit'),
'C25':('push/pop/shift/unshift','refinement to lists with holes'),
'C26':('slice/splice/concat/reverse/fill','refinement to lists'),
'C27':('stringify, jsmn, Jsi_JSONParse','mutual induction on values, token stream in between'),
'C28':('jsonNewDString and quoting','induction on bytes'),
'C29':('code of expressions, machine','simulation between big-step semantics and machine steps'),
'C30':('code of statements, machine','simulation, by induction on fuel and syntax; jump targets resolved'),
'C31':('try/finally code','corollaries of the simulation; refutations'),
'C32':('exception register','corollaries; refutations'),
'C33':('try list and stack','machine invariant for arbitrary code'),
'C34':('Jsi_InterpAccess, Jsi_Open, File commands on a file tree with links','resolution lemmas; refutations'),
'C35':('Jsi_NormalPath, NormalizeUnixPath','induction on components; refutations'),
'C36':('event table and clock as a transition system','invariants over all runs; refutations'),
'C37':('update loop','invariants; refutation'),
'C38':('Jsi_ValueCmp','case analysis, rounding of the difference'),
'C39':('Jsi_ValueIsEqual','case analysis'),
'C40':('values and objects on an explicit heap with release work list','inductive invariant with pending work; reachability; refutations'),
'C41':('jsi_btea on any buffer','bounds in every access'),
'C42':('hashcash search','induction on attempts'),
'C43':('Jsi_HashClear','computation on the model'),
'C44':('tree entries as handles','identity carried through SwapNodes'),
'C45':('entry flags','same'),
'C46':('Jsi_TreeSearch orders','queue/stack invariants; refutations'),
'C47':('Jsi_ValueCmp','case analysis'),
'C48':('jsiLogicLess','order of integers and of byte lists'),
'C49':('Jsi_ValueIsEqual','strcmp on C strings'),
'C50':('jsmn and Jsi_JSONParse','induction on concrete syntax trees'),
'C51':('jsmn in strict mode','bracket invariant of the token stack'),
'C52':('Jsi_JSONParse','token count invariant'),
'C53':('array methods','bounds invariant'),
'C54':('callback loops and searches','induction on the index with arbitrary callback state'),
'C55':('C interface','refinement; refutations'),
'C56':('trim','dropWhile characterisation'),
'C57':('case conversion','induction on characters'),
'C58':('indexOf, lastIndexOf, search','first/last occurrence characterised with the prefix relation'),
'C59':('substring, slice','ECMAScript definition on character lists'),
'C60':('replace, repeat, concat, map','leftmost occurrence'),
'C61':('Jsi_GetIndex','two-pass loop invariants'),
'C62':('heap model of C40','frame lemma for the release of cells, then per call'),
'C63':('the lexer on a string, with its pushed back characters','scanning lemmas per kind of token in terms of the text that is left; a script minus one newline near its beginning is still a script; induction over the tokens'),
'C64':('same','dispatch on the first character, then the scanning lemma; longest match for operators from a finite check of the table'),
'C65':('same','induction over the elements of the literal'),
'C66':('same','invariant on the pushed back characters (at most 3, no newline, what precedes them), decreasing size, independence of fuel'),
'C67':('same','all characters seen are characters of the text; end only when nothing is left'),
'C68':('same','invariant line + newlines left = constant, with the lost newline accounted for'),
'C69':('interpreters as records of options, new Interp, conf, source, edits of option arrays as steps of a world of interpreters','invariant over histories and descendants'),
'C70':('same, with Jsi_InterpAccess of the Path area and exec','invariant over ordinary histories; counterexamples for the others'),
'C71':('Jsi_OptionsProcess over the table of interpreter options','induction on the options'),
'C72':('Jsi_OptionsFind over the table of interpreter options','the loop computes the list of fitting names'),
'C73':('as C69','depth is one more than that of the creator, bounded by the inherited limit'),
'C74':('the check in front of the shell; the regular expression match is a parameter','case analysis; counterexample'),
'C75':('cells of values shared by properties, elements and variables; trees, array parts, prototypes, calls as frames of cells; ECMAScript as a separate specification on maps','simulation relation kept by every step; counterexamples'),
'C76':('as C75','the relation of C75 in the state before and after one step; counterexamples'),
'C77':('as C75, index strings as strtol reads them','as C76'),
'C78':('flags of objects and of cells','every step is a sequence of small changes, invariant over these; counterexamples'),
'C81':('as C75','prototypes are older than the objects they are given to: invariant over all histories; counterexamples'),
'C82':('as C75','cells of variables are no cells of properties and all different: invariant; counterexamples'),
'C83':('as C75','as C76'),
'C79':('collection of names through the prototypes, the loop with an arbitrary body given as a function of the state','induction on the names; invariants over the steps of the body; counterexamples'),
'C80':('OP_IN, hasOwnProperty, Jsi_ValueGetKeys on the objects of C75','the relation of C75; counterexamples'),
'C84':('Jsi_FormatString step by step on bytes, with the 100-byte buffer for the directive and the number buffer; C printf of integers is defined in Fmt/CPrintf.lean, of doubles a parameter','induction on the pieces of the format, against a renderer that consumes arguments (Fmt/Spec.lean); counterexamples'),
'C85':('as C84; every write is checked against the size of its buffer','invariant of the loop: the rest is a suffix of the characters; counterexamples'),
'C86':('as C84','the rest gets shorter in every round; the index stays below the number of arguments'),
'C87':('as C84','C84, and a proof that the digits read back (strtol in Fmt/Props.lean)'),
'C88':('the queues of an interpreter as a machine whose steps are single statements: any number of posting threads (InterpCallCmd, InterpEvalCmd_, jsi_AliasInvoke) and the owner (SubInterpEvalCallback), with the linked list in memory, the lock, isExec and rc','invariant over all schedules (Queue/Inv.lean): the list holds what is posted and not finished; explicit schedules for the counterexamples'),
'C89':('as C88','the same invariant: one outstanding message per waiting thread, results in step with what was returned'),
'C90':('as C88, with the string interpEvalQ','invariant: the texts are split into the groups evaluated and those pending'),
'C91':('as C88','a measure on the owner that decreases with each statement; the holder of the lock walks along a finite list'),
'C92':('jsi_wsHttp from the URL to the name of the file, jsi_wsPathAlias, the root check of jsi_wsFileRead, on the model of Jsi_NormalPath','the location of a concatenation of paths; explicit URLs for the counterexamples'),
'C93':('jsi_wsEvalSSI: the loop over directives, the stack of conditionals, includes','a tree grammar of pages with a meaning (Web/SsiSpec.lean); mutual induction over pages and the alternatives of conditionals, in continuation style'),
'C94':('as C93, with a fault for text behind the directive','every fault comes from a short include directive that occurs in a file, by induction over levels and steps'),
'C95':('the buffer of headers with its array of lengths','induction over the headers'),
'C96':('the loop over the parameters','induction two steps at a time'),
'C97':('the check of the authorization header on top of the models of headers and base64','the lookup theorem C95 and the round trip C01'),
'C98':('SqliteTransactionCmd and dbTransPostCmd over a small machine for the transaction statements of SQLite; scripts as programs','simulation of an ideal semantics by induction over the script; the log of durable contents for crashes'),
'C99':('the hash table, list, counts and use of compiled statements, on the pointer model of Jsi_List; SQLite as an arbitrary environment','an invariant of the cache (which records are cached, which in use), simulation of the cacheless meaning by induction over the script'),
'C100':('as C99','an invariant that relates stmtCacheCnt, the list and the limit'),
'C101':('dbOutputCsv and the loop of the mode','a reader of CSV as a state machine; induction over cells and rows'),
'C102':('dbOutputQuotedString, dbOutputHexBlob, the loop of the mode and the loop it falls into','a reader of INSERT statements; induction over cells and rows'),
'C103':('dbOutputHtmlString and the loop of the mode','a reader of rows of HTML; induction'),
'C104':('the loop of dbBindStmt with its variables kept between turns, and dbEvalSetColumnValue','induction over the parameters; explicit lists for the counterexamples'),
'C105':('FileDirnameCmd, FileTailCmd, FileRootnameCmd, FileExtensionCmd on byte lists, with strrchr and jsi_SubstrDup','induction over the text; location of a path from the specification of C35'),
'C106':('FileRemoveCmd and RmdirAll on tables of locations with the POSIX resolution of C34; permissions, descriptors and PATH_MAX as parameters','resolution in a smaller tree agrees with that in a greater one; induction over the depth and the list of entries'),
'C107':('as C106','induction over the depth with the invariant that the tree is the old one without the subtrees done'),
'C108':('FileMkdirCmd and mkdir_all with the errors of mkdir','induction over the path text'),
'C109':('FileCopyCmd and FileCopy on a disk of files with several names; short reads, writes and closes as parameters','induction over the contents; explicit disks for the counterexamples'),
'C110':('FileWriteCmd, FileReadCmd and their loops','induction over the contents'),
 'C111':('jsi_GetVerFromVal and jsi_VersionNormalize on rationals with an arbitrary rounding of bounded relative error; sscanf on byte lists', 'error bounds by linear arithmetic'),
 'C112':('SysRequireCmd, Jsi_PkgRequireEx; scripts as programs of provide, require, effects, throw and try', 'case analysis'),
 'C113':('as C112, with Jsi_PkgProvideEx', 'induction over the depth and the script with a relation every step respects'),
 'C114':('jsi_PkgLoad, jsi_PkgLoadOne as loops', 'the loops equal a search in the list of places'),
 'C115':('as C114', 'case analysis; explicit package for the counterexample'),
 'C116':('as C114, requires nested as deep as maxIncDepth allows', 'induction over the depth left and the script'),
 'C117':('jsi_SharedArgs and jsi_InitLocalVar over a memory of cells and array objects with names', 'what a step leaves alone, by induction over the parameters'),
 'C118':('as C117; assignment writes into a cell', 'all variables of the callee live in new cells; explicit programs for the counterexamples'),
 'C119':('jsi_ArgTypeCheck, jsi_RunFuncCallCheck, jsi_argInsert with the state of the checks', 'the row of tests equals a table of types; induction over the parameters'),
 'C120':('the end of jsi_FuncCallSub', 'case analysis'),
 'C121':('jsi_typeName and jsi_typeGet on byte lists, jsi_FuncArgsToString per parameter', 'joining and splitting at bars are inverse'),
 'C122':('Jsi_FunctionCall, Jsi_FunctionApply, bind and jsi_FuncBindCall', 'the array handed on holds the values'),
 'C123':('the integer cases of jsi_SetOption_ and jsi_GetOption on little endian bytes; numbers as in C21', 'casts are the identity exactly on the range of the type'),
 'C124':('jsi_SetOption_, Jsi_OptionsProcess, Jsi_OptionsFree over a memory; tables nest', 'mutual induction over values and members, with the set of places a call may touch'),
 'C125':('as C124 with the flags', 'a place in a locked field is not among the places touched'),
 'C126':('jsi_SetOption_ for every type', 'case analysis'),
 'C127':('the loop of Jsi_OptionsProcess', 'splitting at the first member that fails'),
 'C128':('the required flags and the marks of options given', 'every mark comes from a member'),
 'C129':('jsi_ValueToEnum, jsi_EnumToValue on top of C61', 'load after store'),
 'C130':('jsi_ValueToBitset, jsi_BitsetToValue bit by bit', 'testBit of the folded masks'),
 'C131':('Jsi_OptionsDump and Jsi_OptionsProcess', 'reading depends only on the field; induction over the table'),
 'C132':('Jsi_OptionsFind', 'induction over the table'),
 'C133':('StringReplaceCmd, one turn of the loop, templates; regexec is a parameter', 'case analysis over the pieces of a template'),
 'C134':('the loop of StringReplaceCmd; a language of regular expressions with POSIX meaning and an engine for it', 'induction on what is left of the string; matching in the rest is matching in the string'),
 'C135':('as C134, with an arbitrary function on an arbitrary state', 'induction along the matches'),
 'C136':('jsi_RegExpMatches as called by match', 'induction on what is left of the string'),
 'C137':('RegexpExecCmd with the property lastIndex and the position shared by equal texts', 'one call by cases, the loop by induction over the matches'),
 'C138':('StringSearchCmd, Jsi_RegExpMatch', 'specification of the engine'),
 'C139':('RegExp_constructor, Jsi_RegExpNew up to regcomp', 'induction over the text and the flags'),
 'C140':('all of these; reads outside the string are an explicit result', 'induction on what is left of the string'),
 'C141':('the scopes of the parser, the scope chain and jsiPushVar of the interpreter, on a tree language', 'the parser by induction over trees; simulation of the interpreter by a big-step semantics with environments, by induction on the depth of evaluation'),
 'C142':('jsi_FuncMake', 'induction over trees'),
 'C143':('the semantics with and without hoisting', 'simulation: the states agree but for declarations not yet reached'),
 'C144':('the semantics with late and immediate reading of variables', 'invariant: names never assigned keep their values; pure operands change nothing'),
 'C145':('the loop of jsiEvalCodeSub and jsi_evalcode over arbitrary instructions, which are finite trees of calls', 'invariant over the trace; measure: instructions left'),
 'C146':('as C145, jsiDoThrow', 'invariant over the trace'),
 'C147':('as C145 with tryDepth', 'invariant: an interruption is pending, or everything has failed'),
 'C148':('as C145', 'invariant: level is the depth'),
 'C149':('OP_NEWFCALL, Jsi_UserObjNew', 'induction over the attempts'),
 'C150':('fread on a file that does not change, the loop of FilesysReadCmd', 'induction over the turns of the loop'),
 'C151':('fgets with a buffer of 8192 bytes, strlen', 'induction over the lines'),
 'C152':('fwrite, fprintf of %s', 'byte by byte against a specification of overwriting; round trip with C151'),
 'C153':('object open or closed, the other methods without a check', 'cases; invariant over the calls'),
 'C154':('fopen by mode and existence', 'cases'),
 'C155':('fseek, ftell, feof', 'cases'),
 'C156':('all methods but open', 'invariant over the calls'),
 'C157':('jsi_ArraySortCmd with qsort as a parameter that has the properties C demands', 'qsort permutes; unique gives a sublist'),
 'C158':('SortSubCmd, Jsi_ValueCmp on binary64 numbers and bytes', 'the comparison is consistent, so qsort orders'),
 'C159':('SortSubCmd with an arbitrary function', 'as C158; counterexamples by computation'),
 'C160':('the loop of unique, on contents and on slots with reference counts', 'induction over the loop; counterexample by computation'),
 'C161':('binary64 numbers as multiples of 2^-1074, %.15g and strtod with exact rounding to nearest even', 'error analysis over the rationals: half a unit of 53 bits is less than half a unit of 15 digits; induction over the digits for the layout'),
 'C162':('NumberToStringCmd, parseIntCmd, strtoll', 'digits and their reading are inverse, by induction; counterexamples by computation'),
 'C163':('parseIntCmd with strtoll (blanks, sign, prefix, saturation)', 'induction over the digits; counterexamples by computation'),
 'C164':('the classification functions on all binary64 numbers', 'case analysis; rounding is exact below 2^53'),
 'C165':('%.*f with exact rounding, the buffers of 101 and 200 bytes', 'the rounded quotient is nearest; reading the text gives it back'),
 'C166':('common_bitwise_opr with the conversions of doubles to 64 unsigned bits', 'bit by bit: the upper 33 bits of the patterns are copies of the sign'),
 'C167':('OP_BNOT, OP_SHF and jsi_ValueToOInt32', 'integer division by powers of two'),
 'C168':('OP_INC and OP_DEC', 'sums below 2^53 are exact; counterexamples by computation'),
 'C169':('fmod, the loops of min and max, round, floor, ceil', 'division with remainder; induction over the arguments'),
 'C170':('Jsi_DatetimeFormat, DateStrftimeCmd; strftime and gmtime on the conversions used, an arbitrary zone', 'the calendar count is injective and gmtime inverts it (integer arithmetic); the day count is checked against counting day by day'),
 'C171':('the same with Jsi_DatetimeParse; mktime by its contract', 'what each conversion writes it reads back; counterexamples by computation'),
 'C172':('the same with %f', 'digits'),
 'C173':('the list of formats tried in turn on the same fields', 'follows each format to the character where it fails'),
 'C174':('the tail of Jsi_DatetimeParse with sscanf', 'digits; counterexamples by computation'),
 'C175':('the bytes that sscanf stores', 'what is left of the text is an end of it'),
 'C176':('Jsi_OptionsGet on the tables and records of C123-C132', 'the walk along the path and the dump visit the same options (induction on the path)'),
 'C177':('Jsi_OptionsSet; Jsi_OptionsProcess of C124', 'induction on the path, with the frame theorem of C124'),
 'C178':('the -I branch of jsi_InterpNew, Jsi_GetBool; Jsi_GetDouble as a parameter', 'case analysis of the text'),
 'C179':('the tables of types and objects under any history of calls', 'an invariant of the tables; the name is split again at its last _; numbers only grow'),
 'C180':('the same, with the list of data released; the blocks that Jsi_UserObjUnregister touches', 'the invariant: data is held by one object or released once'),
 'C181':('the same', 'the table of a type and the objects of the type are the same set (invariant)'),
 'C182':('jsi_UserObjFromName with strrchr and atoi', 'what is found is in the table; counterexamples for every unknown type and by computation'),
 'C183':('the loop, the value of a column and Jsi_JSONQuote on a memory with what lies behind a blob', 'the output is the text of a tree of the grammar of C27, whose value is the rows; then C50'),
 'C184':('the same', 'the same'),
 'C185':('the same', 'the same'),
 'C186':('the loop with its line feeds', 'induction over the rows; the output cut into lines; counterexample by computation'),
 'C187':('the loop, widths and fields', 'induction over the rows; counterexamples by computation'),
 'C188':('the loop of the mode list', 'induction over the rows; the output cut into lines and at separators'),
 'C189':('the lines of the file, the lines put together while the number of quotes is odd, the columns of a record, the loop over the records', 'induction over the lines, the values of a record and the records; the parity of the quotes'),
 'C190':('the same with the output of mode csv (C98)', 'the output shown to be the text of records (C189)'),
 'C191':('SubGlobsDirectory with listings as a function of the path; the counts and the list', 'induction over the depth and the listings: the search equals a walk of the tree cut off at the limit; the walk equals the inductive set of found paths'),
 'C192':('the same, and the cutting of pattern and path', 'the walk of depth 0'),
 'C193':('the same, and mid', 'induction over the subdirectories'),
 'C194':('the two searches of FileGlobCmd for regular expressions', 'the second search shown to find nothing'),
 'C195':('the loop with types and maxDiscard', 'induction over the listing'),
 'C196':('jsi_AliasInvoke and Jsi_ValueArrayConcat over the memory of module Call', 'the array the function gets is shown to hold the arguments'),
 'C197':('the same, with the array of calls without arguments', 'the cells of the new array are fresh'),
 'C198':('aliasHash as a list of entries that may be NULL, and the commands', 'an invariant along the history: entry and command agree with the last accepted call'),
 'C199':('the output of JSON that is not strict, and the reader of module Json', 'the proofs of C27 with keys that may be names without quotes'),
 'C200':('Jsi_NameLookup over an environment that gives variables, elements and subscripts', 'each step of the text is one step of the loop; induction over the path'),
 'C201':('SysMatchObjCmd on the list of keys and names of types', 'a text has one reading if the keys are plain; the search finds the first place of each entry, so it finds all if and only if it is a sublist'),
 'C202':('SysVerConvertCmd over the versions of module Pkg', 'the theorems of C111 for the numbers; the loop looks at the last two and the two bytes before'),
 'C203':('find_signal_by_name with the table of Linux', 'the search depends on lower case letters only, then the table'),
 'C204':('the tables signal_handling and saOld, and sigaction with signals that cannot be changed', 'an invariant over the list of settings'),
 'C205':('the bits, the flag busy and the visits of the loop of Jsi_EventProcess as events', 'a set bit stays until a visit; counting'),
 'C206':('jsi_StrIsBalanced, the loop of Jsi_Interactive over lines', 'texts as lists of tokens with a stack of brackets; the count is the height of the stack'),
 'C207':('the loop over fields with its two texts and the comma; the search for %v', 'a fold is a list with commas; readers of quoted texts and names in brackets'),
 'C208':('lookup along prototypes, interp->hPtrGet, assignment and ++; the functions are arbitrary', 'each operation is a call of the function; an invariant for scripts without setters'),
 'C209':('the loop along __proto__, which compares pointers to values', 'induction over the chain'),
 'C210':('the buffer with its stores and moves, key by key, and a flag for an access outside', 'simulation: a relation between the buffer and a pair of texts, kept by each key'),
 'C211':('add, limit, save, load and the keys up and down on the list of lines, newest first', 'induction over the lines; an invariant of the session: with the present line put back, the texts are those of the specification'),
 'C212':('the range, Jsi_DSAppendLen and the store of the NUL, with none for an access outside', 'arithmetic of the clamps and of list ranges'),
 'C213':('the hook with the state of debugOpts, and the commands on the table, as steps of a history', 'induction over the history; counting of enabled breakpoints with a number'),
 'C214':('the loop over the table of mounts', 'an invariant of the loop; two mounts of a path lie one in the other'),
 'C215':('the operations on the position, with none for a byte outside', 'the position stays in the file, by induction over the operations; reads concatenate'),
 'C216':('the loop over the file list, with the loop that adds the directories above an entry', 'the table is closed under parent inside the mount; induction over the list and over the length of a path'),
 'C217':('the loop over the table of files', 'a name is listed exactly if directory, slash and name is a key; keys are not repeated; with C216 this speaks of the file list'),
}
