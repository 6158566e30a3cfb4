{"id": "C01", "title": "DIV and MOD are floored division", "statement": "For all integers x and y of a given machine width with y # 0 whose quotient is representable, x DIV y is the floor of the exact quotient and x MOD y has the sign of y, |x MOD y| < |y| and x = (x DIV y)*y + x MOD y. The run time functions reach that result without an intermediate value leaving the 64-bit range.", "quantifier": "all 64-bit operand pairs, including both extremes of the range", "why_tests_cant": "2^128 operand pairs; the sign cases and the corners at the minimum integer interact", "anchors": ["src/runtime/SYSTEM.c: SYSTEM_DIV, SYSTEM_MOD", "src/runtime/SYSTEM.h: __DIV, __DIVF, __MOD, __MODF"]}
{"id": "C02", "title": "Index and range checks trap exactly outside the range", "statement": "The emitted index check lets an index through exactly when 0 <= index < length, and returns it unchanged; the SHORT, CHR and range checks let a value through exactly when it is representable in the target, and return it unchanged. No out-of-range value gets past a check because of signed/unsigned conversion.", "quantifier": "all index values and lengths, all values and target sizes", "why_tests_cant": "the check is one unsigned comparison on a value that was signed; the interesting values are the huge range of negatives", "anchors": ["src/runtime/SYSTEM.h: __X, __XF, __R, __RF, __SHORT, __SHORTF, __CHR, __CHRF"]}
{"id": "C03", "title": "String comparison is a total lexicographic order", "statement": "Comparing two zero-terminated character arrays yields the lexicographic order of the contents up to the terminator, characters compared as unsigned: it is reflexive, antisymmetric, transitive and total, and depends on nothing after the terminator.", "quantifier": "all pairs (and triples) of zero-terminated byte arrays of any length", "why_tests_cant": "order laws quantify over triples of strings of unbounded length", "anchors": ["src/runtime/SYSTEM.h: __str_cmp, __STRCMP"]}
{"id": "C04", "title": "COPY truncates but always terminates", "statement": "COPY(src, dst) leaves in dst the longest prefix of the source string that fits in LEN(dst)-1 characters followed by 0X, writes nothing outside dst, and leaves the characters of dst after the terminator unchanged.", "quantifier": "all source strings and all destination arrays of length >= 1", "why_tests_cant": "unbounded lengths, with the boundary at the destination length", "anchors": ["src/runtime/SYSTEM.h: __COPY"]}
{"id": "C05", "title": "ASH, LSH, ROT, bit and set operations have their mathematical meaning", "statement": "ASH(x,n) is floor(x*2^n) when representable; LSH and ROT act on the bit pattern of the given width and ROT by n followed by ROT by -n is the identity; set construction, ranges, IN, INCL and EXCL agree with finite sets of integers in 0..width-1.", "quantifier": "all values, widths and shift counts for which the operation is defined", "why_tests_cant": "all bit patterns times all shift counts", "anchors": ["src/runtime/SYSTEM.h: __ASH, __ASHL, __ASHR, __LSH, __ROT, __SETOF, __SETRNG, __IN, __BIT, __ODD"]}
{"id": "C06", "title": "Integer literals are scanned exactly", "statement": "A decimal literal is accepted exactly when its value is at most MAX(INT64), and then yields that value; a hexadecimal literal of at most 16 significant digits yields the 64-bit two's complement value of its digits; no intermediate value overflows; leading zeros never matter; anything longer is rejected.", "quantifier": "all digit strings of any length", "why_tests_cant": "unbounded digit strings; overflow guards sit at exact boundaries", "anchors": ["src/compiler/OPS.Mod: Number"]}
{"id": "C07", "title": "Nested comments", "statement": "Scanning a comment consumes exactly the text up to the matching close bracket for any nesting depth, and an unterminated comment is always reported rather than looping or being accepted.", "quantifier": "all source texts, all nesting depths", "why_tests_cant": "unbounded nesting and length", "anchors": ["src/compiler/OPS.Mod: Get, Comment"]}
{"id": "C08", "title": "Identifiers and reserved words", "statement": "An identifier token is the longest run of letters and digits; it is classified as a reserved word exactly when it is spelled like one of the reserved words; otherwise its spelling is delivered unchanged.", "quantifier": "all identifier-like character sequences", "why_tests_cant": "infinitely many spellings, prefix and case collisions", "anchors": ["src/compiler/OPS.Mod: Identifier, Get"]}
{"id": "C09", "title": "Constant folding is exact or reported", "statement": "Folding +, -, *, DIV, MOD, comparison, unary minus and ABS on integer constants either reports an error or yields the mathematical result, which fits in 64 bits; no folded operation silently overflows.", "quantifier": "all pairs of 64-bit constants", "why_tests_cant": "2^128 operand pairs per operator, overflow guards at exact boundaries", "anchors": ["src/compiler/OPB.Mod: ConstOp, MOp, Op"]}
{"id": "C10", "title": "Strength reduction preserves values", "statement": "Replacing multiplication by 2^k with a left shift, DIV by 2^k with an arithmetic right shift, and MOD by 2^k with a bit mask, and the algebraic identities for 0, 1 and -1, never changes the value of an expression.", "quantifier": "all operand values, all powers of two below the width", "why_tests_cant": "all 64-bit values times all exponents, negative operands included", "anchors": ["src/compiler/OPB.Mod: Op, log", "src/runtime/SYSTEM.h: __ASHL, __ASHR, __MASK"]}
{"id": "C11", "title": "Emitted C integer literals denote the constant", "statement": "The text emitted for an integer constant is a C constant expression, free of overflow, whose value is that constant, for every 64-bit value including the minima of each width.", "quantifier": "all 64-bit integers", "why_tests_cant": "2^64 values, exceptional cases at each width's minimum", "anchors": ["src/compiler/OPM.Mod: WriteInt, WriteHex", "src/compiler/OPC.Mod: IntLiteral"]}
{"id": "C12", "title": "Emitted C string and character literals denote the constant", "statement": "Reading the emitted string literal by the rules of C gives back exactly the bytes of the Oberon string, for every byte sequence: quotes, backslashes, question marks (trigraphs), control and high characters followed by digits included; the same for character constants and set constants.", "quantifier": "all byte strings, all characters, all 64-bit sets", "why_tests_cant": "unbounded strings, escape sequences interact with the characters that follow", "anchors": ["src/compiler/OPC.Mod: CharacterLiteral, StringLiteral, Constant"]}
{"id": "C13", "title": "Record layout", "statement": "For every record type, each field's offset is a multiple of its alignment, fields do not overlap each other or the base record's fields, all lie inside the record's size, and the size is a multiple of the alignment of every field.", "quantifier": "all record declarations, all nesting and extension depths", "why_tests_cant": "infinitely many type declarations", "anchors": ["src/compiler/OPT.Mod: TypSize, Align, BaseAlignment, SizeAlignment"]}
{"id": "C14", "title": "The emitted C struct has the layout the compiler computed", "statement": "Under C's layout rules, each field of the struct emitted for a record type lies at exactly the offset the compiler assigned to it, also when private fields of an imported record are hidden behind filler members.", "quantifier": "all field lists, all choices of hidden fields", "why_tests_cant": "infinitely many field lists and visibility patterns", "anchors": ["src/compiler/OPC.Mod: FieldList, FillGap", "src/compiler/OPT.Mod: TypSize"]}
{"id": "C15", "title": "Scope lookup", "statement": "Looking up a name yields the declaration in the innermost enclosing scope that declares it; inserting a declaration makes it visible, leaves every other name's meaning unchanged, and reports a duplicate exactly when the name is already declared in the same scope; a field name resolves to the record's own field before an inherited one.", "quantifier": "all sequences of declarations and all nestings of scopes", "why_tests_cant": "unbounded insertion histories and scope depths", "anchors": ["src/compiler/OPT.Mod: Find, Insert, FindField, FindImport, OpenScope, CloseScope"]}
{"id": "C16", "title": "Interface fingerprints change whenever one hashed word changes", "statement": "Feeding a sequence of words to the fingerprint computation, changing exactly one of the words always changes the resulting fingerprint, whatever precedes and follows it.", "quantifier": "all word sequences and positions", "why_tests_cant": "a hash property over unbounded sequences", "anchors": ["src/compiler/OPM.Mod: FPrint, FingerprintBytes, FPrintSet"]}
{"id": "C17", "title": "Compact number encoding round-trips", "statement": "Reading back what WriteNum wrote yields the number and consumes exactly the bytes written, whatever bytes follow; the encoding is prefix free and shortest.", "quantifier": "all 64-bit integers and all following byte streams", "why_tests_cant": "2^64 values and arbitrary continuations", "anchors": ["src/runtime/Files.Mod: WriteNum, ReadNum"]}
{"id": "C18", "title": "Fixed width values and strings round-trip through files", "statement": "ReadInt, ReadLInt, ReadSet and ReadString return what WriteInt, WriteLInt, WriteSet and WriteString wrote, and leave the rider just after it.", "quantifier": "all values and all zero-free strings, all following data", "why_tests_cant": "all values and unbounded strings", "anchors": ["src/runtime/Files.Mod: ReadInt, ReadLInt, ReadSet, ReadString, WriteInt, WriteLInt, WriteSet, WriteString, FlipBytes"]}
{"id": "C19", "title": "Symbol file round trip", "statement": "Importing the symbol file a module exports yields the module's interface: the same module name and link names, the same constants, variables, types and procedures with the same names, access rights, parameter lists and result types, and the same graph of types, cyclic references included.", "quantifier": "all exportable interfaces and type graphs", "why_tests_cant": "all interfaces: unbounded names, parameter lists and type graphs with cycles", "anchors": ["src/compiler/OPT.Mod: OutName, InName, OutMod, InMod, OutConstant, InConstant, OutSign, InSign, OutStr, InStruct, OutObj, InObj, Export, Import", "src/compiler/OPM.Mod: SymRInt, SymRInt64, SymWInt"]}
{"id": "C20", "title": "Allocated blocks never overlap", "statement": "After any sequence of allocations and collections, live blocks and free blocks are pairwise disjoint, lie inside the heap chunks and together cover them; a block returned by NEW is at least as large as requested, is disjoint from every live block and is all zero.", "quantifier": "all histories of allocation and collection", "why_tests_cant": "unbounded histories; free list, splitting and coalescing interact", "anchors": ["src/runtime/Heap.Mod: NEWREC, NEWBLK, Scan, ExtendHeap, NewChunk"]}
{"id": "C21", "title": "Marking finds exactly the reachable objects and restores the heap", "statement": "After the mark phase from a root, the marked objects are exactly those that were marked before or are reachable from the root, and every pointer field and type tag has its original value.", "quantifier": "all object graphs, cyclic and shared ones included", "why_tests_cant": "all finite graphs; the algorithm temporarily reverses pointers", "anchors": ["src/runtime/Heap.Mod: Mark"]}
{"id": "C22", "title": "Sweeping frees exactly the unmarked blocks", "statement": "The sweep phase returns to the free lists exactly the storage of blocks that were free or unmarked, merges adjacent free storage, clears every mark, and never touches a marked block's contents.", "quantifier": "all heap contents and mark patterns", "why_tests_cant": "unbounded heaps and patterns", "anchors": ["src/runtime/Heap.Mod: Scan"]}
{"id": "C23", "title": "Conservative stack candidates", "statement": "A candidate address from the stack keeps a block alive exactly when it points to the start of an object (or its data) in the heap; the candidate search neither misses a valid candidate nor marks anything for an invalid one, for candidates in any order.", "quantifier": "all candidate sets and heap layouts", "why_tests_cant": "unbounded sets, merge-scan over sorted arrays", "anchors": ["src/runtime/Heap.Mod: HeapSort, Sift, MarkCandidates, MarkStack"]}
{"id": "C24", "title": "A finalizer runs exactly once, after its object is unreachable", "statement": "A registered finalizer is called at most once, never while the object is marked reachable, and is called when the object is found unreachable or at the program's end.", "quantifier": "all histories of registration and collection", "why_tests_cant": "unbounded histories", "anchors": ["src/runtime/Heap.Mod: RegisterFinalizer, CheckFin, Finalize, FINALL"]}
{"id": "C25", "title": "Module registry and unloading", "statement": "A module is unloaded only when no module imports it; its exported commands can be found by name exactly while it is registered; unloading one module leaves the others findable.", "quantifier": "all histories of registration, import and unloading", "why_tests_cant": "unbounded histories", "anchors": ["src/runtime/Heap.Mod: REGMOD, REGCMD, INCREF, FreeModule", "src/runtime/Modules.Mod: ThisMod, ThisCommand, Free"]}
{"id": "C26", "title": "Files behave as byte arrays", "statement": "Whatever the sequence of Set, Read, Write, ReadBytes, WriteBytes and Close on any number of riders on a file, the results equal those on a plain growable byte array: the internal buffers are invisible.", "quantifier": "all operation sequences, all riders, all file lengths", "why_tests_cant": "unbounded histories; buffer replacement interacts with several riders", "anchors": ["src/runtime/Files.Mod: Set, Read, Write, ReadBytes, WriteBytes, Flush, Pos, Length"]}
{"id": "C27", "title": "File names are replaced only on Register", "statement": "A new file's contents become visible under its name only at Register; until then the old contents stay visible under the name.", "quantifier": "all histories of New, Register, Old, Delete and Rename", "why_tests_cant": "unbounded histories over a shared name space", "anchors": ["src/runtime/Files.Mod: New, Register, Old, Delete, Rename, Create, Deregister"]}
{"id": "C28", "title": "Texts behave as sequences of attributed characters", "statement": "Insert, Delete, Save, Copy, Append and ChangeLooks on texts and buffers have exactly the effect of the corresponding list operations on the sequence of characters with their attributes, whatever the internal piece structure.", "quantifier": "all editing histories", "why_tests_cant": "unbounded histories; pieces are split, merged and shared", "anchors": ["src/runtime/Texts.Mod: Find, Split, Splice, Merge, Insert, Delete, Save, Copy, Append, ChangeLooks"]}
{"id": "C29", "title": "Integers are printed exactly and can be read back", "statement": "Out.Int prints the decimal representation of every 64-bit integer right-aligned in the field width; the reader turns the printed text back into the same integer.", "quantifier": "all 64-bit integers and field widths", "why_tests_cant": "2^64 values", "anchors": ["src/runtime/Out.Mod: Int, Hex", "src/runtime/In.Mod: HugeInt", "src/runtime/Texts.Mod: WriteInt, WriteHex"]}
{"id": "C30", "title": "Output buffering is transparent", "statement": "The bytes delivered to the console by any sequence of output calls followed by Flush are exactly the bytes written, in order.", "quantifier": "all output histories", "why_tests_cant": "unbounded histories around a fixed buffer", "anchors": ["src/runtime/Out.Mod: Char, String, Flush, Ln"]}
{"id": "C31", "title": "String library operations have their documented effect", "statement": "Length, Append, Insert, Delete, Replace, Extract, Pos and Cap act on the string contents as documented and truncate at the capacity of the destination without writing outside it.", "quantifier": "all strings, positions, counts and destination capacities", "why_tests_cant": "unbounded strings and capacities, boundary cases at the capacity", "anchors": ["src/runtime/Strings.Mod: Length, Append, Insert, Delete, Replace, Extract, Pos, Cap"]}
{"id": "C32", "title": "Wildcard matching", "statement": "Match(string, pattern) is TRUE exactly when the string is obtained from the pattern by replacing each * by some character sequence.", "quantifier": "all strings and patterns", "why_tests_cant": "unbounded strings and patterns, exponentially many splits", "anchors": ["src/runtime/Strings.Mod: Match"]}
{"id": "C33", "title": "CASE label overlap is always detected", "statement": "A label range is reported as duplicate exactly when it shares a value with an earlier range of the same CASE, in whatever order the ranges are written; the smallest and largest labels are computed exactly.", "quantifier": "all sequences of label ranges", "why_tests_cant": "unbounded sequences, all orders", "anchors": ["src/compiler/OPP.Mod: CaseLabelList, CasePart"]}
{"id": "C34", "title": "FOR statements run the documented number of times", "statement": "The loop generated for FOR v := a TO b BY c executes its body for exactly the values a, a+c, ... that do not pass b, provided that b + c is representable.", "quantifier": "all bounds and nonzero steps of any integer size", "why_tests_cant": "all 64-bit bounds and steps", "anchors": ["src/compiler/OPP.Mod: StatSeq (FOR)", "src/compiler/OPV.Mod: stat (Nwhile)"]}
{"id": "C35", "title": "Removing constant IF branches preserves behaviour", "statement": "Dropping branches with constant conditions leaves the effect of every IF statement unchanged.", "quantifier": "all IF/ELSIF/ELSE chains and all states", "why_tests_cant": "unbounded chains", "anchors": ["src/compiler/OPB.Mod: OptIf"]}
{"id": "C36", "title": "Dynamic type tests decide type extension", "statement": "The run time type test, which looks up one entry of the base-type table, is TRUE exactly when the dynamic type is the tested type or an extension of it.", "quantifier": "all type hierarchies (up to the table's depth)", "why_tests_cant": "infinitely many hierarchies", "anchors": ["src/runtime/SYSTEM.h: __IS, __ISP, __INITYP", "src/runtime/SYSTEM.c: SYSTEM_INHERIT", "src/compiler/OPB.Mod: TypTest"]}
{"id": "C37", "title": "Method dispatch", "statement": "A method call dispatches to the most specific redefinition for the dynamic type: a redefined method keeps the base method's number, distinct methods of a type have distinct numbers, and numbers fill 0..n-1.", "quantifier": "all class hierarchies and declaration orders", "why_tests_cant": "infinitely many hierarchies", "anchors": ["src/compiler/OPV.Mod: GetTProcNum, TraverseRecord", "src/compiler/OPC.Mod: BaseTProc, InitTProcs", "src/runtime/SYSTEM.h: __INITBP, __SEND"]}
{"id": "C38", "title": "Multi-dimensional open array indexing", "statement": "The linear index computed for an element of a multi-dimensional open array is within the array, and distinct index tuples give distinct elements.", "quantifier": "all dimension counts, lengths and index tuples", "why_tests_cant": "unbounded dimensions and lengths", "anchors": ["src/compiler/OPV.Mod: design (Nindex)"]}
{"id": "C39", "title": "Pointer tables are complete", "statement": "The pointer offsets emitted for a type are exactly the offsets of its garbage collected pointers, one for each, and their number equals the number used to size the table.", "quantifier": "all types", "why_tests_cant": "infinitely many types", "anchors": ["src/compiler/OPC.Mod: NofPtrs, PutPtrOffsets"]}
{"id": "C40", "title": "Array allocation", "statement": "NEW on an open array allocates enough room for the header and all the elements, aligned as required, and registers as pointers only addresses inside the element area, one for each pointer of each element.", "quantifier": "all element types and dimension lengths", "why_tests_cant": "unbounded lengths", "anchors": ["src/runtime/SYSTEM.c: SYSTEM_NEWARR"]}
{"id": "C41", "title": "Operator precedence survives translation", "statement": "The C text emitted for an expression, read by C's precedence and associativity rules, has the same structure as the Oberon expression.", "quantifier": "all expression trees", "why_tests_cant": "infinitely many trees; a missing parenthesis shows up only in particular nestings", "anchors": ["src/compiler/OPV.Mod: Precedence, expr"]}
{"id": "C42", "title": "Integer types of constants", "statement": "The type given to an integer constant is the smallest signed integer type that holds it, and assignment of an integer expression is accepted exactly when the target type includes the source type.", "quantifier": "all 64-bit constants and all pairs of integer types", "why_tests_cant": "2^64 values, boundaries at every width", "anchors": ["src/compiler/OPT.Mod: IntSize, IntType", "src/compiler/OPB.Mod: SetIntType, CheckAssign", "src/compiler/OPM.Mod: SignedMaximum, SignedMinimum"]}
{"id": "C43", "title": "The token stream of a text", "statement": "Any sequence of tokens, each written in any of its spellings (reserved words, operators, identifiers, decimal and hexadecimal integers, character constants, strings in either kind of quote), separated by white space and complete comments, is delivered by the scanner unchanged and without an error; an unterminated string is reported.", "quantifier": "all token sequences, spellings and separators", "why_tests_cant": "unbounded texts", "anchors": ["src/compiler/OPS.Mod: Get, Str, Identifier, Number"]}
{"id": "C44", "title": "A changed object changes its fingerprint", "statement": "The fingerprint by which importing modules detect a changed interface differs when an exported constant's value, an exported name or a parameter's type changes and everything else stays the same.", "quantifier": "all constants, names and signatures", "why_tests_cant": "2^64 values and unbounded names", "anchors": ["src/compiler/OPT.Mod: FPrintName, FPrintSign, FPrintObj", "src/compiler/OPM.Mod: FPrint, FPrintSet, FPrintLReal"]}
{"id": "C45", "title": "Names in the emitted C code", "statement": "Different variables, types, procedures, type-bound procedures, array lengths and type descriptors get different C names, and no emitted name is a C keyword or the name of a C type the compiler itself uses.", "quantifier": "all identifiers and modules", "why_tests_cant": "unbounded set of names; hash collisions", "anchors": ["src/compiler/OPC.Mod: Ident, PerfectHash, InitKeywords, Len"]}
{"id": "C46", "title": "Modules are initialized once, after the modules they import", "statement": "When a program starts, the bodies of exactly the modules it needs are executed, each exactly once, and each after the bodies of all modules it imports, whatever the shape of the import graph. Afterwards each module and its commands can be found by name, and a module can be unloaded exactly if no other module imports it.", "quantifier": "all programs with acyclic imports", "why_tests_cant": "all import graphs", "anchors": ["src/compiler/OPC.Mod: EnterBody, InitImports, RegCmds, ExitBody", "src/runtime/SYSTEM.h: __DEFMOD, __REGMOD, __MODULE_IMPORT, __ENDMOD, __INIT, __REGMAIN", "src/runtime/Modules.Mod: Init"]}
{"id": "C47", "title": "Console input is read in order, one line at a time", "statement": "For every input, the results of any sequence of input calls (characters, lines, quoted strings, integers) are those of reading the input from its begin to its end: no character is lost or read twice. At most one character is requested from the terminal beyond those read, and none beyond a line end that was read by Char or Line; before any character is requested, all output written so far has been delivered.", "quantifier": "all inputs and all sequences of input and output calls", "why_tests_cant": "unbounded inputs and interleavings", "anchors": ["src/runtime/In.Mod: ReadChar, StartRead, StartAndSkip, Char, HugeInt, Line, String"]}
{"id": "C48", "title": "Generated control flow", "statement": "The C statements generated for a statement sequence (IF, CASE, WHILE, REPEAT, FOR, LOOP with EXIT at any depth, WITH, RETURN) execute the same actions in the same order and end in the same way: normally, by RETURN, or with the same trap; or both do not end. Labels in a C function are different and every jump has its label.", "quantifier": "all statement sequences, nested in any way, and all initial states", "why_tests_cant": "unbounded nesting; EXIT out of a CASE or an inner loop needs a label only in particular nestings", "anchors": ["src/compiler/OPP.Mod: StatSeq, CasePart, CaseLabelList", "src/compiler/OPB.Mod: OptIf", "src/compiler/OPV.Mod: stat, IfStat, CaseStat"]}
{"id": "C49", "title": "Generated expressions have the value of the expression", "statement": "For every expression of whole numbers, characters, truth values, sets, pointers, fields, array elements, lengths, type guards and calls, the generated C text, read by the grammar of C and with the macros of the runtime header expanded, evaluates to the value the language gives the expression, after the same calls with the same arguments in the same order; or it stops the program with the same code.", "quantifier": "all expressions of any size, all declarations, all values of variables and results of calls, all checking options", "why_tests_cant": "unbounded expressions and values; macros that evaluate an operand twice, C integer promotions and unsigned arithmetic differ only for some operand types and values", "anchors": ["src/compiler/OPV.Mod: expr, design, ActualPar, Convert, Entier, SizeCast, Index, Len", "src/runtime/SYSTEM.h: __X, __XF, __R, __RF, __SHORT, __SHORTF, __CHR, __DIV, __MOD, __MASK, __ASH, __LSH, __ROT, __SETOF, __SETRNG, __IN, __ABS, __CAP, __ODD, __GUARDP"]}
{"id": "C50", "title": "Texts accepted are those of the grammar", "statement": "The compiler reports no syntax error for a text exactly when the text begins with a module of the language's grammar, with the extensions it documents, and it then works on the one syntax tree the grammar gives the text: operators group by precedence and from left to right, ELSE, BY, marks and parameters belong where the grammar puts them. No text has two trees.", "quantifier": "all sequences of symbols of any length, nesting and order, all answers of the symbol table on which parsing depends (module name or not, type guard or call), all spellings, blanks and comments", "why_tests_cant": "the language is infinite and nested without bound; acceptance of wrong texts and wrong grouping show only on particular combinations of constructs", "anchors": ["src/compiler/OPP.Mod: Module, Block, ProcedureDeclaration, StatSeq, Expression, SimpleExpression, Term, Factor, selector, TypeDecl, ArrayType, RecordType, FormalParameters, CaseLabelList, CasePart", "src/compiler/OPS.Mod: Get"]}
{"id": "C51", "title": "The compiler comes to an end on every text", "statement": "On every text, however wrong, reading the module ends: error recovery never loops without reading on, and procedures of the parser are nested no deeper than in proportion to the number of symbols.", "quantifier": "all sequences of symbols, all answers of the symbol table", "why_tests_cant": "endless recovery loops occur for single combinations of a wrong symbol and a place, of which there are infinitely many contexts", "anchors": ["src/compiler/OPP.Mod: Module, Block, StatSeq, TypeDecl, RecordType, FormalParameters, ActualParameters, Factor"]}
{"id": "C52", "title": "Nested procedures use the variables of the right activation", "statement": "A procedure declared inside another uses, through any levels of nesting and recursion, the variables and parameters of the activation of the enclosing procedure in which it was called, reads and changes them there, and hands them on as VAR parameters correctly; results of functions are not disturbed by leaving a scope. The generated program, which knows only functions and global pointers, does the same as the program with lexical environments.", "quantifier": "all programs with nested procedures, recursion, value and VAR parameters, procedure variables and RETURN; all contents of variables; all lengths of execution", "why_tests_cant": "the pointers to scopes are global and saved and restored by hand: errors show only for particular orders of recursive calls and returns between levels", "anchors": ["src/compiler/OPC.Mod: DefineInter, NeedsRetval, EnterProc, ExitProc, CompleteIdent", "src/compiler/OPV.Mod: Traverse, design, stat (Nenter, Nreturn), ImplicitReturn", "src/compiler/OPP.Mod: qualident"]}
{"id": "C53", "title": "Assignments and parameters are accepted exactly if the types allow it", "statement": "The compiler accepts x := e, and e as actual parameter, exactly if the language report calls the types assignment compatible, array compatible or (VAR) the same or extended, together with the documented extensions (sets and byte types by size, SYSTEM.PTR, shorter arrays). Procedures fit procedure types exactly if results and parameter lists match.", "quantifier": "all tables of types the declarations can build, all expressions and all variables or formal parameters", "why_tests_cant": "the rules recur through records, pointers, open arrays and procedure types of any depth; one wrongly accepted pair of types is a hole in type safety that shows only when a program uses it", "anchors": ["src/compiler/OPB.Mod: CheckAssign, CheckProc, CheckParameters, DynArrParCheck, Param, NotVar", "src/compiler/OPT.Mod: StrDesc, Init", "src/compiler/OPP.Mod: RecordType, ArrayType, PointerType, TypeDecl"]}
{"id": "C54", "title": "Accepted programs are type safe", "statement": "A program without SYSTEM that the compiler accepts never follows a pointer that does not point to a record and never touches a field that the record at hand does not have, whatever it does with extensions, type guards, type tests, WITH, VAR parameters, record assignment and NEW; it can only stop with a trap. Every pointer variable and every pointer in a record is NIL or points to a record of its declared type or an extension.", "quantifier": "all programs with pointers, records and procedures, all tables of types, all lengths of execution", "why_tests_cant": "a hole opens only for a particular combination of aliasing, narrowing by WITH and assignment, and then shows as corrupted memory far from its cause", "anchors": ["src/compiler/OPB.Mod: TypTest, DeRef, Field, Assign, Param", "src/compiler/OPT.Mod: FindField", "src/compiler/OPP.Mod: selector, StatSeq (WITH), qualident", "src/compiler/OPV.Mod: design, stat", "src/compiler/OPC.Mod: IdentList", "src/runtime/SYSTEM.h: __IS, __ISP, __GUARDP, __GUARDR, __GUARDEQR, __GUARDEQP"]}
{"id": "C55", "title": "Checksums are those of the standards", "statement": "Adler32 continues a checksum as RFC 1950 defines it. CRC32 gives the remainder of the message divided by the CRC-32 polynomial, can be computed piece by piece, and tells apart any two messages of the same length that differ only within 32 consecutive bits.", "quantifier": "all messages, offsets, lengths and checksums to continue", "why_tests_cant": "tests try some messages; the sums must not overflow for any bytes, and the detection of errors is a statement about all pairs of messages", "anchors": ["src/library/s3/ethZlib.Mod: Adler32, InitCRCTable, CRC32"]}
{"id": "C56", "title": "Text survives the conversion to UTF-8 and back", "statement": "UCStoUTF8 writes the bytes of RFC 2279 for a character or, if they do not fit, nothing; UTF8toUCS reads them back. A text converted with UCS4toUTF8 and UTF8toUCS4 is unchanged.", "quantifier": "all characters below 2^31, all texts, positions and array sizes", "why_tests_cant": "there are two thousand million characters and every array size around the end of a text is another case", "anchors": ["src/library/s3/ethUnicode.Mod: UCStoUTF8, UTF8toUCS, UCS4toUTF8, UCS2toUTF8, UTF8toUCS4, UTF8toASCII"]}
{"id": "C57", "title": "Dates follow the calendar", "statement": "NumberOfDays and NumberOfDaysToDate number the days of the Gregorian calendar from the 1st of January 1901, DayOfWeek is the day of the week, AddDay, AddMonth, AddYear and AddTime give the date that far away, and times of the day wrap around the clock.", "quantifier": "all days, all numbers of days, months, years and seconds to add", "why_tests_cant": "errors of calendars show on single days, often in years to come", "anchors": ["src/library/s3/ethDates.Mod: IsLeapYear, LastDay, NumberOfDays, NumberOfDaysToDate, ToDate, ToYMD, ToTime, ToHMS, DayOfWeek, DaysOfMonth, AddYear, AddMonth, AddDay, AddHour, AddMinute, AddSecond, AddTime"]}
{"id": "C58", "title": "Arithmetic on long integers is exact", "statement": "MultDigit, AddDigit and DivDigit multiply, add to and divide a number of many digits exactly if the first element of its array is zero, TenPower and BPower scale it by powers of ten and of the base, and division gives the remainder; no digit is lost while the result leaves the first element zero.", "quantifier": "all numbers of any length, all digits and powers", "why_tests_cant": "carries run through any number of digits, and a lost one shows only for rare operands", "anchors": ["src/library/ooc/oocLongInts.Mod: MinDigit, MultDigit, AddDigit, DivDigit, TenPower, BPower"]}
{"id": "C59", "title": "Random numbers come from the minimal standard generator", "statement": "From any seed the numbers are those of the generator of Park and Miller, 16807 z modulo 2^31-1, with no overflow; the generator takes every state before it repeats one. RND(range) is from 0 to range-1, Random from 0 up to but not 1, and Uniform strictly between 0 and 1.", "quantifier": "all seeds, ranges and numbers of calls", "why_tests_cant": "the period is two thousand million calls, and the states that go wrong are few", "anchors": ["src/library/ooc/oocRandomNumbers.Mod: PutSeed, NextRND, RND, Random", "src/library/s3/ethRandomNumbers.Mod: Uniform, InitSeed"]}
{"id": "C60", "title": "A stored text is the same when it is loaded", "statement": "A text that was closed or stored and then opened or loaded has the same characters, elements, fonts, colours and offsets, its length is the same, and the rider stands after it; it can be stored again.", "quantifier": "all texts of pieces and elements, wherever in a file they are stored, whatever modules for elements exist", "why_tests_cant": "every combination of runs, fonts and kinds of elements makes another header, and the tables are built while it is written and read", "anchors": ["src/runtime/Texts.Mod: Store, Load0, Load, Open, Close"]}
{"id": "C61", "title": "Scanning a text finds what was written", "statement": "Scanning a text of integers (other than MIN(LONGINT), up to 32 digits), real numbers (found as REAL or LONGREAL, their value aside), names and strings (up to 63 characters) and other ASCII characters, separated by blanks, tabulators and ends of lines, finds them one per call and in order, with their values; it counts the lines, and at the end it finds the end. A hexadecimal number has the value of its last 32 bits. Integers of LONGINT other than the smallest that were written with the writer, in any width, are found again.", "quantifier": "all texts of such tokens, of any length; all hexadecimal numbers; all lists of integers and widths", "why_tests_cant": "there are infinitely many texts, and the limits of numbers and names depend on the exact characters", "anchors": ["src/runtime/Texts.Mod: Scan, OpenScanner, WriteInt"]}
{"id": "C62", "title": "Operators are accepted exactly where the report allows them", "statement": "The compiler accepts an expression with an operator without an error exactly where the tables of the language report allow it for the types of the operands (with the documented additions), and the expression then has the type the report gives: the smallest type that includes both numbers, REAL or LONGREAL for a quotient, BOOLEAN for a relation. Pointers are compared only with NIL or where one type extends the other. Division by a constant zero is reported. Where the compiler drops an operand, the other one has the value of the expression.", "quantifier": "all tables of types, operators, operands and values of constants", "why_tests_cant": "the operators times the pairs of types of a program with its own records, pointers and arrays are unboundedly many", "anchors": ["src/compiler/OPB.Mod: Op, ConstOp, MOp, In, SetElem, SetRange, CheckPtr"]}
{"id": "C63", "title": "Calls of predeclared procedures are accepted exactly where the report allows them", "statement": "The compiler accepts a call of ABS, ODD, CAP, ORD, CHR, SHORT, LONG, ENTIER, MAX, MIN, SIZE, LEN, ASH, INC, DEC, INCL, EXCL, COPY, NEW, ASSERT and HALT without an error exactly where the tables of the language report allow it for the number and the types of its arguments, and the call then has the type the report gives. What is changed must be a variable that is not read-only; constants must lie in the ranges stated.", "quantifier": "all tables of types, predeclared procedures and lists of arguments", "why_tests_cant": "the procedures times the lists of arguments over a program's own types are unboundedly many", "anchors": ["src/compiler/OPB.Mod: StPar0, StPar1, StParN, StFct, Convert", "src/compiler/OPT.Mod: ShorterOrLongerType"]}
{"id": "C64", "title": "Declared types are what their declarations say", "statement": "When the declarations of a block are accepted, every declared type is what its declaration says: names in it stand for what is visible there, pointers may be to types declared later in the section, arrays have the stated positive length, records the stated base type and fields, procedure types the stated parameters and result. No type contains itself. All variables of a list have the declared type, which is no open array. No name is declared twice in the scope, nor among the fields of a record and of those it extends, no array is longer than the compiler allows, and types declared before are unchanged.", "quantifier": "all blocks of declarations, nested type expressions and forward references, in every scope", "why_tests_cant": "declarations nest and refer to each other in unboundedly many ways", "anchors": ["src/compiler/OPP.Mod: TypeDecl, RecordType, ArrayType, PointerType, FormalParameters, Block", "src/compiler/OPT.Mod: Find, FindField, Insert, NewStr"]}
{"id": "C65", "title": "Declarations in the C text declare what the program declares", "statement": "The C text written for variables, parameters and procedures is read, by the rules of C for declarations, as declaring just the same names in the same order, each with the C type that stands for its type: arrays as arrays, pointers as pointers (to a structure with lengths and elements if they are to open arrays), procedure types as pointers to functions, variable parameters and open arrays as pointers, with lengths and type tags handed over after them.", "quantifier": "all legal types however nested, all lists of variables and all parameter lists", "why_tests_cant": "declarators nest without bound and their parentheses depend on what they stand in", "anchors": ["src/compiler/OPC.Mod: Stars, DeclareObj, DeclareBase, LenList, IdentList, AnsiParamList, ProcHeader"]}
{"id": "C66", "title": "Types are defined in the C text before they are used", "statement": "For every module the language allows, the compiler ends, and in the C text it writes for the types and variables each type name is defined before it is used, each structure before its size is needed, and nothing is defined twice; so the C compiler accepts the order whatever the order and names of the declarations.", "quantifier": "all modules: all sets of types referring to each other, all alphabetical orders of their names", "why_tests_cant": "the order is found by a recursion over a graph of types, which depends on all declarations and their names", "anchors": ["src/compiler/OPC.Mod: DefineType, DeclareTProcs, DefineTProcTypes, TypeDefs, DefAnonRecs, DeclareBase, FieldList, GenBdy"]}
{"id": "C67", "title": "Declarations of procedures", "statement": "A module is accepted if and only if its procedure declarations obey the rules of the language, in every block at any depth: names are declared once, forward declarations agree with the procedure that follows and none is left without one, procedures bound to types belong to record types of the module, clash with no field, and match what they redefine. In an accepted module every procedure has exactly one body, and a procedure bound to a type can be called like every procedure of that name bound to a type it extends, in whatever order they are declared.", "quantifier": "all modules: all sequences and nestings of procedure declarations, all tables of types, all hierarchies of extension", "why_tests_cant": "acceptance depends on the whole sequence of headings and on the type hierarchy; a missed check compiles to calls with wrong arguments", "anchors": ["src/compiler/OPP.Mod: Receiver, Extends, ProcedureDeclaration", "src/compiler/OPV.Mod: GetTProcNum, Traverse", "src/compiler/OPT.Mod: Find, FindField, Insert"]}
{"id": "C68", "title": "Arrays as parameters", "statement": "When a procedure is called, an array that is a value parameter is a copy of the actual parameter: it has its value, and nothing the procedure writes to it is seen elsewhere, nor the other way round. A VAR parameter is the actual parameter itself. LEN of an open array parameter, in every dimension, and the limits used in checking indices, are the lengths of the actual parameter, which may be a variable, a row of an array, a dynamic array or itself an open array parameter; for VAR ARRAY OF BYTE it is the size in bytes. Procedures nested in the one called see the same arrays and lengths.", "quantifier": "all lists of formal and actual parameters, all types, numbers of dimensions and lengths, all contents of memory", "why_tests_cant": "lengths are passed beside the arrays and copied again in the callee and in the records for nested procedures; a wrong one shows only for some combination of dimensions and nesting", "anchors": ["src/compiler/OPV.Mod: ActualPar, Len", "src/compiler/OPC.Mod: EnterProc, AnsiParamList, LenList, Len, CompleteIdent", "src/runtime/SYSTEM.h: __DUP, __DUPARR"]}
{"id": "C69", "title": "An interface changes only with permission", "statement": "When a module is compiled again without options, it is accepted only if it exports exactly what its symbol file says, with the same fingerprints, and the file stays as it is; so modules that import it need not be compiled again. With -e it may export more, but all that was exported before is exported as before. With -s or -F, or when there is no symbol file, any change is accepted. After a compilation that succeeds the symbol file exports exactly what the module exports. This holds for every history of compilations: a change that is refused stays refused.", "quantifier": "all modules, all old symbol files, all options, all histories of compilations", "why_tests_cant": "the comparison is spread over reading the old file, merging it into the scopes and writing the new file; a change that is missed shows only as a mismatch in a client that was not compiled again", "anchors": ["src/compiler/OPT.Mod: InsertImport, FPrintErr, InObj, InStruct, Import, OutStr, OutObj, Export", "src/compiler/OPM.Mod: OldSym, NewSym, DeleteSym, RegisterNewSym", "src/compiler/Compiler.Mod: Module"]}
{"id": "C70", "title": "Command line of the compiler", "statement": "The files named on the command line are compiled in order. Options before the first file count for all files, options after a file only for that one; every option is on by default or off as the usage text says, and each time it is given it is toggled; -M implies -m; the size model, address size and alignment are the last ones given. The C text is compiled, or compiled and linked, as -S, -c, -m and -M say. The exit status is 0 exactly if all files have been compiled and the C compiler has succeeded for each; otherwise it is that of the C compiler (or the signal that ended it), and no further file is compiled.", "quantifier": "all command lines: any number of files and options, any characters after the hyphen; all outcomes of compilations", "why_tests_cant": "options are toggled, accumulated and restored for each file, so an error shows only for some combination of files and repeated options", "anchors": ["src/compiler/OPM.Mod: ScanOptions, OpenPar, InitOptions, Init", "src/compiler/Compiler.Mod: Translate", "src/compiler/extTools.Mod: execute"]}
{"id": "C71", "title": "Names in the C text", "statement": "Whatever names a module uses for its variables, parameters, types and procedures, in any nesting, the C text made from it declares no name twice and hides none: names outside of functions are different from each other and from those in functions, and names in a function or in the record of its variables are different from each other, including those that the compiler adds (lengths, type tags, copies, loop variables, scope records). No name is a keyword of C or the name of a basic type in the C text.", "quantifier": "all modules: all identifiers, all nestings of procedures and types, any number of imports", "why_tests_cant": "names are made by adding prefixes, suffixes and numbers; two of them can coincide only for certain combinations of identifiers, and the table of keywords is found by hashing", "anchors": ["src/compiler/OPC.Mod: Ident, PerfectHash, InitKeywords, Andent, LenList, DeclareParams, DefineTProcMacros, IdentList, AnsiParamList, DefineInter, EnterProc", "src/compiler/OPV.Mod: Stamp, Traverse"]}
{"id": "C72", "title": "Assignments", "statement": "For every assignment that the compiler accepts, whatever the values in memory, the variable has the value of the right side afterwards and no other memory changes: of an extended record only the fields of the variable's type are taken, a shorter array or string leaves the elements behind it, integers and sets keep their value in a larger variable. A variable parameter or dereferenced record which has another type than declared when the program runs is not overwritten: the program stops with trap 6. INC and DEC add and subtract, INCL and EXCL change exactly one element, SYSTEM.MOVE copies.", "quantifier": "all types (arrays and records of any depth and size, extensions of any number of levels), all values and states of memory, all addresses", "why_tests_cant": "sizes, padding shared by base type and extension, and the memory next to the variable range over unbounded sets", "anchors": ["src/compiler/OPB.Mod: CheckAssign, CharToString, Assign, StPar1", "src/compiler/OPV.Mod: stat, design", "src/runtime/SYSTEM.h: __MOVE, __GUARDEQR, __GUARDEQP, __SETOF"]}
{"id": "C73", "title": "Lines of error messages", "statement": "For every source text and every sequence of errors and warnings, in any order of positions, the message shows the line with the position: its number, its text, and an arrow under the position. The compilation counts as faulty exactly if there was an error; if there was one, at least one is shown, and an error is left out only if another shown error lies at most 9 positions before it.", "quantifier": "all texts (any line ends, any lengths of lines), all sequences of reports at any positions", "why_tests_cant": "the search starts from the line found last, so the result depends on all earlier reports; the ends of lines have several forms", "anchors": ["src/compiler/OPM.Mod: FindLine, ShowLine, Mark, Init"]}
{"id": "C74", "title": "Imported interfaces are consistent with each other", "statement": "When a module is compiled, the symbol files it imports may mention types of modules that other imported files describe too, in different versions. The compiler reports no error while importing exactly if no imported file belongs to or mentions the module being compiled and all versions of each named type have the same public fingerprint. Error 154 is reported exactly in the first case, error 249 only in the second. A type of another module that has versions with different private parts cannot be exported without error 249. Reading the imports ends normally exactly if at most 64 modules are involved.", "quantifier": "all lists of well-formed symbol files, of any length, with any references to any modules and any fingerprints, in any order of import", "why_tests_cant": "the combinations of versions of interfaces are unbounded, and inconsistencies appear only with old symbol files lying around", "anchors": ["src/compiler/OPT.Mod: InMod, InStruct, Import, InLinks, OutStr, FPrintErr"]}
{"id": "C75", "title": "Files are looked up along the search path", "statement": "Files.Old with a name without a directory returns the first file of this name that can be opened in the directories of the search path, in their order, and NIL if there is none; the directories are the parts between semicolons, without blanks around them, ~ and ~user replaced. Without a search path the current directory is used. A name with a directory is looked up as it is, whatever the search path is.", "quantifier": "all search paths, home directories, names and states of the disk (any answer of the operating system to each attempt)", "why_tests_cant": "the path comes from the environment and may have any form; the scanner of the path, the composition of names and the search interact", "anchors": ["src/runtime/Files.Mod: MakeFileName, ScanPath, HasDir, Old, SetSearchPath"]}
{"id": "C76", "title": "Message digests are those of RFC 1321", "statement": "For every message of less than 2^29 bytes, however it is divided into calls of Write and WriteBytes of ethMD5, the digest is the MD5 digest of RFC 1321. For all messages the digest depends only on the bytes. ToString writes each byte of the digest as two hexadecimal digits.", "quantifier": "all messages of any length and all divisions into calls, any former content of the context's array", "why_tests_cant": "block boundaries, padding and the division into calls combine without bound; known digests test only a few messages", "anchors": ["src/library/s3/ethMD5.Mod: New, Write, WriteBytes, Close, Transform, ByteReverse, ToString"]}
{"id": "C77", "title": "How a program ends: finalizers, status and output", "statement": "Whatever ends a program (the end of its main module, HALT, a failed check or assertion, an access to NIL), and however often this happens in finalizers that run meanwhile: every finalizer registered runs exactly once, last registered first; the process ends if only finitely many finalizers register others; its status is that of the event that ended it last, and the text written before is followed by the message that belongs to this event. Signals may arrive between any two steps: no finalizer runs twice and, if the handlers do not end the program, none is left out.", "quantifier": "all programs, finalizers and handlers (any sequence of actions), all schedules of signals", "why_tests_cant": "finalizers may register others and end the program themselves, and signals may arrive between any two assignments of the procedures that change the list", "anchors": ["src/runtime/Modules.Mod: Halt, AssertFail, DisplayHaltCode, errint", "src/runtime/Heap.Mod: FINALL, RegisterFinalizer", "src/runtime/SYSTEM.c: signalHandler, SystemSetHandler, segfaultHandler", "src/runtime/SYSTEM.h: __INIT, __FINI, __HALT, __ASSERT", "src/runtime/Out.Mod: Char, Flush"]}
{"id": "C78", "title": "What a compilation leaves behind", "statement": "Whatever compilations of a module are tried in a directory, with whatever errors and options, each of them interrupted after any number of calls of the operating system or not: if there is an object file, it was made from the C file and the header file beside it, all three are the translation of one of the texts, and the symbol file is that of this text or is missing; if it is linked, the symbol file is that of this text. A text with errors changes neither the C file nor the header file. A compilation without errors leaves the complete translation. After a crash each file is as it was, missing, or a beginning of the new one, and large files are complete.", "quantifier": "all sequences of compilations with all errors, options, texts and sizes of files, all points at which each is interrupted", "why_tests_cant": "a crash may happen between any two calls of the operating system in any of a sequence of compilations", "anchors": ["src/compiler/Compiler.Mod: Module, FindLocalObjectFiles, Translate", "src/compiler/OPT.Mod: Export, Import", "src/compiler/OPM.Mod: OpenFiles, CloseFiles, RegisterNewSym, DeleteSym, DeleteObj, OldSym", "src/runtime/Files.Mod: Register, Create, Deregister, Delete, Rename"]}
{"id": "C79", "title": "The C files of a program fit together", "statement": "In every program of separately compiled modules, whatever the C file of a module uses - its own variables and procedures and those exported by modules it imports, all types that its statements may involve even if declared in modules it does not import, their descriptors and bound procedures - is declared in this file or in the header files it includes, has one linkage there, and is defined in exactly one C file, so that linking finds it. Every header file can be included on its own. The header file declares exactly the exported variables and procedures, and exactly these are visible to the linker. Procedures that are no longer there leave no trace.", "quantifier": "all programs with any number of modules, types, variables and procedures, any graph of imports, any use that the rules of the language allow", "why_tests_cant": "whether a declaration is included depends on chains of imports, extensions and element types through any number of modules", "anchors": ["src/compiler/OPC.Mod: Ident, DeclareBase, DeclareTProcs, DefineType, FieldList, IdentList, ProcPredefs, IncludeImports, GenDynTypes, GenHdr, GenHdrIncludes, GenBdy, EnterBody, EnterProc", "src/compiler/OPT.Mod: OutStr, OutObj, InObj", "src/runtime/SYSTEM.h: import, export"]}
{"id": "C80", "title": "B-trees are maps in every history", "statement": "After any sequence of insertions, deletions, searches, enumerations and requests for the first and last key on a new B-tree (of numbers or of strings), each call returns what it would for a map: a key that was inserted is found with the number last given for it, insertion tells whether the key was there, deletion removes this key and no other, enumeration calls the procedure for the keys within the bounds in ascending order until it wants no more. Pages never hold more than their size, all but the first are at least half full, and the number of pages that a search reads grows with the logarithm of the number of keys only.", "quantifier": "all sequences of calls of any length, all keys and numbers, all sizes of pages, all procedures given to enumerations", "why_tests_cant": "splitting, moving entries between neighbours and merging pages depend on the whole history; trees of any depth", "anchors": ["src/library/s3/ethBTrees.Mod: SearchLInt, InsertLInt, DeleteLInt, EnumLInt, MinLIntKey, MaxLIntKey, SearchStr, InsertStr, DeleteStr, EnumStr, insertLInt, underflowLInt, deleteLInt, enumerateLInt"]}
{"id": "C81", "title": "The make tool lists modules in an order in which they can be compiled", "statement": "For any files of well-formed modules, given in any order, vmake prints every name exactly as often as it was given, and every module after all those of the given modules that it imports (directly or under another name). It finds such an order whenever one exists, that is, unless some module imports itself through others.", "quantifier": "all lists of files of any length, with names given once or more often, all import lists, all orders in which the names are given", "why_tests_cant": "the number of import graphs is unbounded, and whether the references are counted and released properly shows only in certain graphs and orders", "anchors": ["src/tools/vmake/vmake.Mod: Order, ReadModuleList, Find, FindTop, FindImports, Print"]}
{"id": "C82", "title": "Where a program is, and what its arguments are", "statement": "The directory that a program reports as its own is one in which the first existing file among the names under which a shell looks for it (the name itself if it has a slash, otherwise the name in each directory of PATH) is found, as an absolute path that is right from everywhere; it is empty if there is none. Removing redundant slashes and dots from a path never changes which file it names, whatever links there are. The compiler's installation is the first of the directory next to its program, the one above it and the configured one that holds the library. An argument that is a number gives this number, otherwise the variable keeps its value, and the position of an argument is the first place where it stands.", "quantifier": "all file systems with any links, all working directories, search paths, program names and argument lists", "why_tests_cant": "file systems, search paths and spellings of paths are unbounded; a wrong directory shows only for certain layouts", "anchors": ["src/runtime/Modules.Mod: FindBinaryDir, Trim, Canonify, IsAbsolute, ExtractPart, AppendPart, GetArg, GetIntArg, ArgPos, BinaryDir", "src/compiler/OPM.Mod: FindInstallDir, IsProbablyInstallDir"]}
{"id": "C83", "title": "Type descriptors are ready before they are used", "statement": "When a module starts, before its first statement, the descriptor of every record type declared in it (also of records without a name, and of those declared in procedures) is initialised exactly once, and after that of the record it extends. No descriptor is used that is not initialised, and from then on a type test on any record of the program answers whether its type is an extension of the type of the test.", "quantifier": "all modules: all sequences of blocks with any declarations the compiler accepts, records nested in fields, arrays, pointers and parameter lists to any depth, and all imported types", "why_tests_cant": "the order of initialisation depends on how declarations are nested; a wrong order crashes a program at its start or gives wrong type tests only for certain nestings", "anchors": ["src/compiler/OPP.Mod: TypeDecl, RecordType, PointerType, Block, TDinit", "src/compiler/OPB.Mod: Inittd", "src/compiler/OPV.Mod: InitTDescs", "src/compiler/OPC.Mod: InitTDesc", "src/runtime/SYSTEM.h: __INITYP, __TDESC, __IS"]}
{"id": "C84", "title": "The string procedures of the ooc library do what their descriptions say, within the arrays", "statement": "Length, Assign, Extract, Delete, Insert, Replace, Append, Concat, the Can\u2026All predicates, Compare, Equal, FindNext, FindPrev, FindDiff and Capitalize give the results described for the character sequences held by their arrays: the new sequence, cut at the capacity of the destination, with a terminator; no element outside an array is accessed; Can\u2026All answers whether nothing would be cut; Compare orders lexically; the searches find the first (last) position.", "quantifier": "all arrays and strings, all non-negative positions and lengths, all capacities", "why_tests_cant": "the interesting cases are combinations of position, lengths and capacity (moving text within an array, cutting, positions behind the end); tests sample a few of them", "anchors": ["src/library/ooc/oocStrings.Mod: Length, Assign, Extract, Delete, Insert, Replace, Append, Concat, CanAssignAll, CanExtractAll, CanDeleteAll, CanInsertAll, CanReplaceAll, CanAppendAll, CanConcatAll, Compare, Equal, FindNext, FindPrev, FindDiff, Capitalize", "src/runtime/SYSTEM.h: __CAP"]}
{"id": "C85", "title": "Whole numbers convert to strings and back", "statement": "StrToInt converts exactly the strings that are whole numbers of type LONGINT (white space, an optional sign, digits), gives their value, and leaves the variable alone otherwise, with a result that says why; no arithmetic overflows. IntToStr gives the decimal representation, cut at the capacity, LengthInt its length, and converting a number to a string and back gives the number.", "quantifier": "all strings in terminated arrays, all LONGINTs including the smallest, all array lengths", "why_tests_cant": "the boundary depends on the sign and on arithmetic without overflow for strings of any length", "anchors": ["src/library/ooc/oocIntStr.Mod: StrToInt, IntToStr", "src/library/ooc/oocIntConv.Mod: ScanInt, FormatInt, ValueInt, LengthInt", "src/library/ooc/oocCharClass.Mod: IsNumeric, IsWhiteSpace"]}
{"id": "C86", "title": "Sets of numbers in arrays", "statement": "For sets represented by arrays of SETs, Incl, Excl and In add, remove and find a number and change nothing else, and trap for numbers the array has no room for. Unite, Differ and Intersect form union, difference and intersection of the sets as they were before the call, also when arrays are passed several times; Includes, Equal, Different and Empty decide inclusion, equality, disjointness and emptiness; Elements counts the elements and finds the largest.", "quantifier": "all arrays of any lengths, all numbers including negative ones, all combinations of parameters (the same array twice), SETs of any size", "why_tests_cant": "the number of sets is astronomical, and the operations must be right for each bit, and for arrays passed twice", "anchors": ["src/library/v4/Sets.Mod: Clear, Fill, Incl, Excl, In, Includes, Elements, Empty, Equal, Different, Unite, Differ, Intersect", "src/library/s3/ethSets.Mod: the same procedures"]}
{"id": "C87", "title": "Decompression does not depend on the sizes of the buffers", "statement": "For every compressed stream and every sequence of calls of the decompressor, with output buffers of any sizes and the input cut anywhere, the bytes delivered are the beginning of the text the stream stands for (RFC 1951), and all of it when the end of the stream is reported; no call writes more than there is room for. A client that goes on calling with room for a byte reaches the end. Distances to before the beginning of the text are rejected; of a dictionary that is too long the end is used.", "quantifier": "all streams of compressed and stored blocks, all dictionaries, all sequences of calls with any rooms and any cuts of the input", "why_tests_cant": "the window wraps around after 32768 bytes at a place that depends on the sizes of all buffers so far; the sequences of sizes cannot be enumerated", "anchors": ["src/library/s3/ethZlibInflate.Mod: Inflate, SetDictionary, Uncompress, Reset, InflateBlocks, InflateCodes, InflateFast, Flush, NeedOut", "src/library/s3/ethZlibBuffers.Mod: ReadBytes, WriteBytes"]}
{"id": "C88", "title": "Programs that use files at the same time do not mix their files", "statement": "For every set of processes that use the module Files with one disk, in any interleaving of their calls, and with processes that begin and are stopped at any time: a file registered by a process has the bytes that process wrote; nothing a process writes to a file that is not registered is visible to others; no call of one process changes the bytes on the disk of a file another process has open, or the name it is found under; a process that is stopped changes nothing that is visible.", "quantifier": "all disks, all sets of processes with different numbers, all interleavings of their calls and of the events that begin or stop a process", "why_tests_cant": "the interleavings cannot be enumerated, and whether two processes choose the same name for their temporary files depends on their numbers", "anchors": ["src/runtime/Files.Mod: GetTempName, Create, Deregister, Register, Delete, Rename, Old, New, Close", "src/runtime/Platformunix.Mod: PID, getpid"]}
{"id": "C89", "title": "A program is linked with the object files it needs", "statement": "For every history of compilations in a directory: when a main program is compiled, the command given to the C compiler names the object file of each module compiled in this directory that the program needs, directly or through other modules, names no other object file, and names none twice; the modules that are not in this directory come from the library. The words of the command, as the shell finds them, are the compiler, the include directory, these files, CFLAGS, the C file, the name of the program, and the library, also when the directories have blanks in their names.", "quantifier": "all histories of compilations, all sources and their imports, all names, all directories and options, programs with any number of modules", "why_tests_cant": "the list of modules is kept in symbol files, which are replaced only sometimes; whether it is complete depends on the whole history, and whether the command fits in its array depends on the number of modules", "anchors": ["src/compiler/OPT.Mod: Init, InLinks, Import, OutLinks, Export", "src/compiler/Compiler.Mod: Module, FindLocalObjectFiles, Translate", "src/compiler/extTools.Mod: execute, InitialiseCompilerCommand, Assemble, LinkMain", "src/runtime/Strings.Mod: Append"]}
{"id": "C90", "title": "The parts of real numbers", "statement": "For every number x of type REAL or LONGREAL: x = scale(fraction(x), exponent(x)), with a fraction whose absolute value is at least 1 and less than 2; scale(x, n) is x times 2 to the power n if there is such a number, and the largest number of the same sign if it would be too large; sign is 1 or -1; ulp(x) is the value of the last place of x; succ(x) is the next greater number and pred(x) the next smaller number of the type; intpart(x) is x cut off to a whole number and fractpart(x) the rest; trunc(x, n) is x cut off to n significant places, and round(x, n) is a number with n places next to x.", "quantifier": "all bit patterns of finite numbers, all n, REAL and LONGREAL (every size of significand and exponent), every machine arithmetic that gives a representable result exactly", "why_tests_cant": "a REAL has 2^32 and a LONGREAL 2^64 bit patterns; whether no number lies between x and succ(x) is a statement about all numbers", "anchors": ["src/runtime/Math.Mod: fraction, exponent, sign, scale, ulp, succ, pred", "src/runtime/MathL.Mod: fraction, exponent, sign, scale, ulp, succ, pred", "src/library/ooc/oocLowReal.Mod: intpart, fractpart, trunc, round, synthesize"]}
{"id": "C91", "title": "The text of a definition says exactly what a module exports", "statement": "The text that showdef writes for a module determines its interface: reading the text of a type, a variable, a procedure or a constant again gives its name, its mark for read-only, its complete type with the exported fields and methods (and no others), the parameters with their kinds, the result, the code of a code procedure, and the value of a constant. Two lists of declarations with the same text export the same. The text of a whole definition, read again, gives the name of the module, its imports, and its sections.", "quantifier": "all types of every depth (records with base types, fields and methods, arrays, pointers, procedure types), all parameter lists, all names, all lists of declarations, all values of constants of type BOOLEAN, CHAR, integer, SET, string and NIL", "why_tests_cant": "types are nested without bound, and whether no two interfaces have the same text is a statement about all pairs of interfaces", "anchors": ["src/tools/browser/BrowserCmd.Mod: Wtype, Wstruct, Wsign, Wmthd, Objects, Wh, Indent, WModule", "src/runtime/Texts.Mod: WriteInt"]}
{"id": "C92", "title": "Control sequences for terminals", "statement": "Each procedure of VT100 writes exactly the control sequence of its name: ESC, [, its parameters in decimal with semicolons between them, and its final letter. IntToStr gives every LONGINT, also the smallest, in decimal, cut off at the end of the array. No parameter leads to an index out of range.", "quantifier": "all parameters of type INTEGER, all values of uninitialised arrays, LONGINT of 32 and of 64 bits, all capacities of the array", "why_tests_cant": "the parameters have 2^32 values each, pairs of them 2^64; whether the internal arrays are long enough depends on the number of digits; uninitialised arrays have arbitrary values", "anchors": ["src/runtime/VT100.Mod: IntToStr, Reverse0, EscSeq0, EscSeq, EscSeq2, Reset, CUU, CUD, CUF, CUB, CNL, CPL, CHA, CUP, ED, EL, SU, SD, HVP, SGR, SGR2, DSR, SCP, RCP, DECTCEMl, DECTCEMh, SetAttr"]}
{"id": "C93", "title": "Exponent fields, digits and hexadecimal form of real numbers", "statement": "Expo and ExpoL give the exponent field of a REAL and of a LONGREAL; SetExpo replaces the exponent field and changes nothing else; Convert and ConvertL write the n lowest decimal digits of the whole part of the number and nothing behind them; ConvertH and ConvertHL write two hexadecimal digits for each byte, from which the number can be read again. This holds for each size of INTEGER and LONGINT.", "quantifier": "all bit patterns, all new exponents, all bytes behind the number in memory, all numbers of digits, all arrays, INTEGER of 16 and 32 bits, LONGINT of 32 and 64 bits", "why_tests_cant": "there are 2^64 bit patterns; reading an INTEGER of 32 bits takes bytes behind the number, which can have any value", "anchors": ["src/runtime/Reals.Mod: Expo, SetExpo, ExpoL, ConvertL, Convert, ConvertH, ConvertHL, BytesToHex, ToHex"]}
{"id": "C94", "title": "Arithmetic with points in time is exact", "statement": "The records for points in time and intervals of module Time stand for numbers of milliseconds: making one from days and milliseconds (also negative ones), adding, subtracting and taking differences give the exact number, with less than a day of milliseconds, whenever the number of days fits into LONGINT; comparing gives the order of the numbers; equal numbers have equal records; and a point in time plus the difference to another one is the other one, always.", "quantifier": "all pairs of records, all numbers of days and milliseconds, both sizes of LONGINT", "why_tests_cant": "the carry between milliseconds and days and the wrap-around of the days are at few of 2^128 pairs of records", "anchors": ["src/library/ooc/oocTime.Mod: InitTimeStamp, InitInterval, GetTime, Add, Sub, Delta, Cmp"]}
{"id": "C95", "title": "ocat shows files completely", "statement": "For every list of names, ocat writes the texts of the files one behind the other, with a line feed for each end of a line, two blanks for each tabulator (or the tabulator, with the option -t), all other characters that can be shown and no control characters, and a message for each name without a file: nothing is lost, repeated or mixed at the limits of its buffers or between files, and there is no trap. If the shown text ends with the end of a line, all of it is given to the operating system.", "quantifier": "all lists of names of up to 127 characters, all files of all lengths, all values in the buffer at the beginning", "why_tests_cant": "losses at the limits of the two buffers show only for certain lengths of lines and files in combination", "anchors": ["src/tools/ocat/OCatCmd.Mod: Cat, ConsoleChar", "src/library/v4/Console.Mod: Flush, Char, String", "src/runtime/Modules.Mod: GetArg"]}
{"id": "C96", "title": "showdef takes the directory and the module from the path it is given", "statement": "For directory/file, showdef looks for symbol files in the directory, which is everything before the last slash, and shows the module whose name is the part of the file name before its first dot; dots in the directory have no effect. For a name without a slash the search path is not changed. There is no trap, and what is in memory behind the name has no effect.", "quantifier": "all directories and file names that fit into the argument, with any number of slashes and dots, all values of the arrays behind the names", "why_tests_cant": "the positions of slashes and dots combine without bound, and the contents of the arrays behind the end of the strings differ from run to run", "anchors": ["src/tools/browser/BrowserCmd.Mod: Ident"]}
{"id": "C97", "title": "Lists of module Listen are values", "statement": "Concat, Head, Tail, Append, IsElement and Find compute on finite lists of every length what their names say: Append gives the same elements with one more at the end, IsElement whether an element is equal, Find the first that is equal or NIL. No list that was made before is ever changed, even if it shares records with the argument. Head and Tail trap exactly for the empty list.", "quantifier": "all heaps, all finite lists with any sharing between them, all elements, all comparison procedures without side effects", "why_tests_cant": "that no other list changes is a statement about all lists on the heap, and sharing between lists is without bound", "anchors": ["src/library/misc/Listen.Mod: Concat, Head, Tail, Append, IsElement, Find"]}
