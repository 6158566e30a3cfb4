# Formal model of vishaps/voc in Lean 4 — design

The project is the Vishap Oberon Compiler: an Oberon-2 compiler written in Oberon
that emits C (`src/compiler`), its run time (`src/runtime`, part C, part Oberon)
and its libraries (`src/library`).  The model is a set of total, executable Lean
functions that follow the source function by function.  Each definition cites the file and
lines it models.  Each property of `properties.jsonl` is a theorem about those functions.

## Layout

* `lean/Verif/<Area>/Model*.lean` – the model: transcriptions of the code, with citations.
* `lean/Verif/<Area>/Spec*.lean` – the small, independent specification the theorems refer to
  (mathematical integers, lists, sets of naturals, C lexical rules ...).  Where the
  specification is a standard Lean/Mathlib notion (`Int.fdiv`, `List.take` ...) there is no file.
* `lean/Verif/<Area>/Lemmas*.lean` – helper lemmas and proof machinery.
* `lean/Verif/<Area>/Props*.lean` – the property theorems, each with `example`s next to it that show
  a concrete case meeting its hypotheses, and witnesses (`..._counterexample`, `not_...`) where the
  code does not satisfy the property.
* `seeded/LOG.jsonl` – log of the mutation experiments.
* `MANIFEST.json` – property → theorem names.

## Conventions

* **Integers.** Oberon/C integers are modelled as `Int`; where overflow matters the machine
  operation is a partial function (`Option`, `none` = C undefined behaviour or a trap) or an
  explicit range condition, or `BitVec`.
* **Traps.** A failed run time check (`__HALT`) is a distinct outcome of the model function
  (`Res.halt code`/`none`), never an arbitrary value.
* **Characters** are `Nat` below 256 or `UInt8`; **arrays** are `List`s, zero-terminated strings are read
  through a specification function that takes the part before the first 0.
* **Pointers/heap** (Heap, Texts, Files): addresses are naturals, memory is a function or an association
  list, and linked structures are either transcribed with explicit addresses (Heap) or abstracted
  to lists where the code only follows `next` links; each simplification is stated at the definition.
* **Loops** are structural recursions on lists or on a fuel/measure that the theorem shows to be
  sufficient.
* **Disagreements.** Where the code violates the stated property, the theorem with the full
  statement is refuted by a witness theorem, the true part is proved under the suffix `_partial`, and the
  disagreement is listed under "Findings".

## Trusted base

* Lean 4.33.0's kernel, and the elaborator insofar as it produces the statements that the kernel checks.
* Axioms: at most `propext`, `Classical.choice` and `Quot.sound` (Lean's own) for every theorem.
  No axioms are added, there is no `sorry`, no `native_decide`, no `bv_decide`.
* The faithfulness of the transcription of the Oberon and C sources into Lean definitions: this is
  by reading, not by proof.  The definition's comment says which lines it models and what is
  simplified.
* The C compiler and the C semantics used (two's complement, arithmetic right shift of negative
  numbers, truncating division), the operating system, and the hardware.

## Plan per property

| id | what is modelled | how it is proved |
|----|------------------|------------------|
| C01 | `SYSTEM_DIV`/`SYSTEM_MOD` and the fast-path macros over `Int` with C's truncating `/`, `%`, every intermediate value checked against the INT64 range | case split on signs, agreement with `Int.fdiv`/`Int.fmod`, exact characterisation of the operands for which an intermediate overflows |
| C02 | the check macros on C values with their signed/unsigned conversions | decision logic; negation with witness where a signed comparison lets negatives through |
| C03 | `__str_cmp` on byte arrays | induction; agreement of the sign with lexicographic comparison of the prefixes |
| C04 | `__COPY` as a loop over destination and source | induction on the loop; closed form |
| C05 | shift/rotate/set macros on bit patterns | bit extensionality |
| C06 | `OPS.Number` digit collection and evaluation | loop invariant on the partial value; exact overflow guard |
| C07 | `OPS.Get.Comment` as a recursive scanner | refinement to a nesting-depth specification; strong induction on the text |
| C08 | `OPS.Identifier` and the keyword table of `Get` | closed form of the longest prefix; case analysis over the table for *every* spelling |
| C09 | `ConstOp`, `MOp` on integer constants | arithmetic; exact guard characterisation; counterexamples for `*` and `DIV` |
| C10 | `OPB.log`, the rewriting in `Op` | arithmetic of floored division and bit masks; expressions with effects by induction |
| C11 | `OPM.WriteInt` text | C-literal evaluator as specification; digit induction |
| C12 | `OPC.StringLiteral`, `CharacterLiteral`, set constants | a C string-literal reader as specification; induction over the bytes |
| C13 | `TypSize` on record types | induction over field lists and base chain |
| C14 | `FieldList`/`FillGap` as a list of C members | C struct layout function as specification |
| C15 | `Insert`/`Find`/`FindField` on trees and scope stacks | search-tree invariant, refinement to finite maps |
| C16 | `FPrint`, `FingerprintBytes` | bijectivity of each step on 32-bit words |
| C17 | `WriteNum`/`ReadNum` on byte lists | induction on the magnitude |
| C18 | fixed-width writers/readers | base-256 digits |
| C19 | symbol-file writers/readers on byte streams, with the numbering of types | round trip by simultaneous induction over the type graph; counterexample for wide constants |
| C20, C22 | heap as memory with chunks, free lists, `NEWREC`, `NEWBLK`, `Scan` | tiling invariant over all operations |
| C21 | `Mark` with explicit pointer reversal | Schorr–Waite invariant |
| C23 | `HeapSort`, `MarkCandidates` | sortedness + permutation; scan invariant |
| C24 | finalizer list operations, with finalizers that call back | invariant over histories |
| C25 | module registry on linked records | refinement over histories |
| C26 | `Files` riders, buffers, swapper and operating system file | refinement to byte lists over histories |
| C27 | `Files` name handling over a disk of names | refinement to a name→contents map over histories; counterexamples |
| C28 | rings of pieces at heap addresses, with `Find`'s cache; readers and writers | refinement to lists of characters over histories |
| C29 | `Out.Int`, `Out.Hex`, `In.HugeInt`, `Texts.WriteInt`, `Texts.WriteHex` | digit induction |
| C30, C47 | `Out` buffer, `In` state, terminal | refinement over histories |
| C31 | `Strings` procedures on character arrays | loop closed forms; counterexamples |
| C32 | `Strings.Match` | induction; equivalence with an inductive matching relation |
| C33 | case table insertion | sorted-disjoint invariant |
| C34, C35, C48 | statements, their trees, `OptIf`, and the C statements of `OPV.stat` with gotos | big-step semantics on both sides; simulation |
| C36 | type descriptors built by `__INITYP`, type tests | induction on the hierarchy |
| C37 | `GetTProcNum`, inheritance across modules, method tables | induction on the hierarchy |
| C38 | Horner index as emitted by `OPV.Index`/`design` | mixed-radix injectivity |
| C39 | `NofPtrs`/`PutPtrOffsets`, hidden fields of symbol files, `GenEnumPtrs` | induction over types |
| C40 | `SYSTEM_NEWARR` on the model of the heap | arithmetic, list of pointer offsets, heap invariant |
| C41 | `OPV.expr`/`design`/`Precedence` as token lists | a C expression parser as specification, induction over trees |
| C42 | `IntSize`, assignment rule | arithmetic |
| C43 | `OPS.Get` as a whole | token by token, induction over the list of tokens |
| C49 | typed expressions, the tests of `OPV.expr`, macros of SYSTEM.h expanded in the tree of C | evaluators of both languages; simulation by induction over expressions; counterexamples |
| C50 | all of OPP.Mod as a parser of symbols into trees, with error recovery; the symbol table's answers are input | a grammar as the symbols of a tree; soundness by induction over steps, completeness by induction over trees with follow sets |
| C51 | the same | a measure of length and rank for every procedure; outcomes independent of the number of steps |
| C52 | a language of nested procedures with environments; scope records and pointers of OPC.Mod/OPV.Mod and the C they give | simulation, by induction over steps, with an invariant that links environments to pointers |
| C53 | tables of types; the report's relations between them as inductive predicates; the checks of OPB.Mod | equivalence of checks and relations, by induction over steps and open dimensions; a table for which the check does not end |
| C54 | a language of pointers, records, procedures, guards and WITH; the checks of OPB.Mod and OPP.Mod; the generated C with addresses, tags and `wild` accesses | invariant: every variable, also while WITH narrows it, and every field fits its type; variables WITH can narrow have one name; programs that break it for what is left out |
| C55 | the loops of `Adler32` with overflow as an outcome; the table and loop of `CRC32` on 32-bit words; polynomials over the field of two elements | sums in closed form and their bounds; the register is a polynomial, one step multiplies by X modulo the generator; the generator has no factor X |
| C56 | both conversions with their arrays and positions; the table of RFC 2279 | case by number of bytes; induction over texts |
| C57 | all procedures on numbers; the calendar as a function from one day to the next | the closed form of the number of a day grows by one; case by month and leap years |
| C58 | arrays of digits as lists, the loops as recursion from the right and from the left; the value of a list of digits | induction over the digits, with the bound on the carry as invariant |
| C59 | both generators with overflow as an outcome; the generator on exact integers | bounds on the two products; the order of 16807 modulo the prime 2^31-1 from the factors of 2^31-2 |
| C60 | the bytes `Store` writes, with the slots it corrects and the tables of fonts and kinds; `Load0` on a file with anything before and behind; elements by what their handlers store | induction over the runs: both sides keep the same tables |
| C61 | `Scan` on the characters a reader delivers; a specification of texts as tokens and blanks | induction over the loops for names, strings and digits, then over the tokens; composed with C29 for what `WriteInt` writes |
| C62 | `Op`, `ConstOp`, `MOp`, `In`, `SetElem`, `SetRange` over the tables of types of C53; the report's table of operators as an inductive relation | both directions by cases over the operators, from lemmas about how the two types are brought together |
| C63 | `StPar0`, `StPar1`, `StParN`, `StFct` over the tables of types of C53; the report's table of predeclared procedures as an inductive relation | both directions by cases over the procedures and the number of arguments |
| C64 | `TypeDecl` with all it calls and the sections of `Block` over numbered structures, objects and scopes, with the forward pointers and their completion; `Describes` says by recursion over the type expression what a type is | mutual induction over type expressions with frames (what a step leaves as it was) and invariants for structures under construction; then induction over the declarations |
| C65 | `Stars`, `DeclareObj`, `DeclareBase`, `IdentList`, `AnsiParamList`, `ProcHeader` as token writers over type trees; the specification is a reader for declarations after the grammar of ISO C (specifiers, pointers, direct declarators, suffixes, parameters, abstract declarators) and a map from types of Oberon to types of C | what is written is shown to be the text of a declarator tree with parentheses where they are needed, by induction over types with the open clause as parameter; reading such a text by induction over the tree; both joined by mutual induction over types and parameter lists |
| C66 | `DefineType` with marks over a graph of types, what `DeclareBase`, `DeclareObj` and `FieldList` mention, `DefAnonRecs`, `TypeDefs`; the specification says what a text of definitions mentions and what C demands of the order | induction over a rank of the types with an invariant (marks agree with the text, what is defined has all it needs, nothing being processed has a lower rank); the endless recursion by induction over the depth |
| C67 | `Receiver`, `Extends`, `ProcedureDeclaration` with `TProcDecl`, `GetParams`, `Body`, and the checks 119 and 129 of `OPV`, over scopes and members of records; the specification states the rules of the report heading by heading, for each block | induction over nested declarations with an invariant of the scope and of the members of records (each object comes from a heading, its bits say which headings there were); redefinition by induction over the level of extension |
| C68 | `ActualPar`, `Len` (of `OPV` and `OPC`), `AnsiParamList`, `LenList` and the statements `EnterProc` writes, run over a memory of objects where a copy outside an object is undefined; the specification gives the lengths of what a designator designates | induction over designators and types for lengths; over the list of parameters, with an invariant on which parts of memory are still to be copied, for the copies |
| C69 | reading the old symbol file into the scope (`InObj`, `InStruct`, with the `history` of each object), the walk that writes the new one and reports differences (`OutStr`, `OutObj`, `FPrintErr`), `Export`, and what `Compiler.Module` does with the file; fingerprints are given | invariants over the entries read and over the walk; the specification speaks of what files export and describe and what a module mentions |
| C70 | `ScanOptions`, `OpenPar`, `InitOptions`, `Translate` and `execute` over lists of arguments, with the outcome of each compilation given; the specification is the usage text: how often an option is given decides | induction over the items of an argument, the arguments and the files |
| C71 | `Ident` with its table of keywords, `Stamp` and `Traverse` over trees of declarations, giving for each place in the C text the names declared there; the macros of bound procedures | a name is decoded from its parts between underscores, so that its origin is unique; induction over the tree with the interval of numbers used |
| C72 | `CheckAssign`, `Assign` and the assignment part of `stat` giving a C statement over a memory of bytes with undefined and illegal outcomes; layouts are those of C13 | the value of a variable is the list of its basic components; components of a copied area are read back by address arithmetic; an extension begins with the components of its base and is not smaller; bits of numbers for INCL |
| C73 | `FindLine` with the saved line, `ShowLine` and `Mark` over lists of bytes | the saved line is a line of the text with its number (invariant over all reports); each step of the loop finds the next beginning of a line, defined by the bytes before and at a position |
| C74 | Symbol files as lists of type entries with references to modules by number or name; InMod with the table GlbMod, the part of InStruct that compares versions, Import over several files, and the check in OutStr. Fingerprints are given with the entries (C16, C44 model them). | An invariant ties the table of modules and types to the mentions read so far; induction over entries and files. Capacity by counting duplicate-free lists. Circular imports: induction over the steps of the initialization model of C46. |
| C75 | ScanPath over the rest of the path with the array of 256 characters, MakeFileName, HasDir and the loop of Old against any operating system; names are compared as the system resolves them | the path is split at semicolons (specification) and read from the front (model): induction over the path; then induction over the directories left, for every number of steps that suffices |
| C76 | The whole module over 32-bit words; the 64 calls of STEP1 to STEP4 are a table taken from the source, with the variables they pass | The specification is the loop over 64 steps with its index formulas; the table of calls agrees with it entry by entry, then induction over steps with the registers seen in rotated order. Invariant over all calls: the state is that of the whole blocks so far, the array holds the rest. |
| C77 | a machine with a stack of steps: actions of the program, the single assignments of RegisterFinalizer and FINALL, exit; signals push the steps of their handler or are blocked; Halt replaces the stack | two invariants over every schedule: the last step is the exit that belongs to the history and the text is written or in the buffer; the finalizers registered are a permutation of those in the list, being started, started and lost, by the shape of the stack. Termination by the number of finalizers that may still register, registrations left, length of the list and of the script |
| C78 | a directory as a function from files to contents, the object file by what it was made from; a compilation is the list of calls it makes, a crash a prefix of it | every list of calls is calls that only remove the symbol file followed by one that removes the object file and others; induction over histories |
| C79 | modules as tables of types, variables and procedures with resolved type expressions; inductive relations for what the language lets a module use and for what the files mention, include, declare and define | induction over the chain by which a type is reached: every type on it is of the module itself or written to the symbol file of its module whose header file is included; case analysis for linkage |
| C80 | pages with arrays as functions, the loops that move entries step by step, pages nested in the pages that refer to them; any linear order for keys and any page size | every loop as an operation on lists of entries; splitting, moving and merging keep the list of all keys in order; induction over the depth that balance and order are kept and that the list changes as the map does; induction over the history |
| C81 | the scanner's loop over signs, the list with places for pointers, counters of references, the recursive printing | the scanner by induction over the import list; the counter of each module left is the number of references from modules left; induction over the number of modules left; a counter of zero exists because following references backwards raises the rank |
| C82 | strings as lists, each loop as a recursion; a file system is any function from directories and names to nodes | walking along the parts of a path is a fold, and each step of the loop that trims keeps its value; the loop over the search path by induction, element by element |
| C83 | the declarations of C64 with the list of nodes that the parser appends to; descriptors as tables of entries, with a NULL pointer and an entry out of bounds as outcomes | mutual induction over type expressions: what a name other than the one being declared stands for is complete; then induction over the list with the invariant that the entries of all initialised descriptors are the types extended, by level |
| C84 | the loops over arrays, with an access outside the array as a distinct outcome | loop invariants that describe each element of the array (moved, copied, or as before), and induction over the loops for comparisons and searches |
| C85 | the scanner as a state machine over character classes; arithmetic with an overflow as a distinct outcome; the scratch array of IntToStr with bounds | the machine is in its digit state exactly behind white space and sign; invariant: the value so far is the value of the digits read and in range; digits in reverse order and the reversal loop by pointwise invariants |
| C86 | arrays with names, so that parameters can be the same array; a failed index check as a distinct outcome; INTEGER of 16 bits for the limit of Elements | loop invariants by element of the array, then by bit |
| C87 | the window as a function, the indices, the output; the calls with a room and a list of tokens of input (one for each symbol, header and stored byte, with the condition for the fast path); failed checks and overlapping memcpy as a flag | invariant: the window holds the last 32768 bytes of the text, read and write are positions of the text modulo 32768; block moves equal bytewise copies; progress by the number of bytes delivered |
| C88 | the disk and the variables of Files for each process; a call is a step of the model of C27; events that begin and stop processes | the refinement relation of C27 for each process; frame lemma: a call changes only the names it is given and temporary names with its own number; names with different numbers are different |
| C89 | the directory: symbol files with their lists, object files; compile and link as functions on it; texts in arrays of bounded length; the words of a command as in a shell | invariant over histories: the list of a module includes the lists its imports have, if these were not compiled again since; induction on the path of imports (complete) and on the time of the compilation (no others); lemmas on words and blanks for the command |
| C90 | numbers as bit patterns with their IEEE 754 values as rationals; sets as bit operations; machine arithmetic as a parameter that is exact where the result is representable | bit operations become arithmetic on the fields (bit by bit); the value is a strictly increasing function of the bits without sign, with step 2^(exponent field - 1), so the next bit pattern is the next number; multiples of powers of two with places bits are representable (induction) |
| C91 | the imported interface as mutually inductive types; the procedures that write as functions to lists of characters; sets as the increasing list of their elements | a reader for definitions is the specification; mutual structural induction over types shows that it gives back the visible part for every text that follows; equality of texts then gives equality of interfaces by induction over the list of declarations |
| C92 | arrays as lists with index checks; strings in local arrays as texts with the capacity of the array (compared with the model of Strings.Append in C31) | invariants of the loop for digits and of the loop that reverses them (induction over the number of rounds, the middle of the array shrinks from both ends); lengths of decimal numbers from Mathlib's Nat.digits |
| C93 | numbers as their bytes in memory; arrays as lists with index checks; ENTIER of quotients as parameters | linear arithmetic over the bytes, with an unknown multiple of 65536 for the bytes behind; induction over the rounds of the loops |
| C94 | records of two integers; the size of LONGINT as a parameter; sums wrap around | the specification is the number of milliseconds; linear arithmetic, and the congruence of the wrap-around for the differences that do not fit |
| C95 | the buffer as an array with index checks, and the line of the Console; files as a function from names | an invariant of the buffer and the Console: written text, kept line and buffered characters together are what was shown so far; induction over the text and the names |
| C96 | arrays as lists with index checks; the call of SetSearchPath as a result | induction over the parts of the path for each of the three loops |
| C97 | a heap of records in the order of their creation; pointers as positions; recursion with a bound on its depth | a relation says which list a pointer stands for; it is monotone when the heap grows; induction over the list |
| C44 | fingerprints of objects | bijectivity of the steps of C16 |
| C45 | `OPC.Ident` and the keyword table | injectivity of the naming scheme |
| C46 | the generated module initialization code | induction on the import graph |

## What is modelled, file by file

`src/compiler`

* **OPS.Mod** – `Get` with `Identifier`, `Number`, `Str`, `CheckString`, comments and all tokens (C06–C08, C43).  Not: real literals' values.
* **OPM.Mod** – `WriteInt`, `WriteHex`, size models, `SignedMaximum`/`Minimum`, symbol file primitives (C11, C17, C42), options (C70), the lines of error messages (C73), files that a compilation writes and removes (C78), the installation's directory (C82).  Not: `WriteReal`, the texts of error messages.
* **OPT.Mod** – `TypSize`, `Insert`, `Find`, `FindField`, `FindImport`, `InSym…`/`OutSym…` (`Import`, `Export`), fingerprints (C13, C15, C16, C19, C44), the replacement of symbol files (C69), `InMod` and the comparison of type versions on import (C74; not: groups of mutually recursive types compared together, missing files), the lists of modules to link (C89).
* **OPB.Mod** – constant operations, `MOp`, `Op` rewriting, `OptIf`, `CheckAssign` for integers, `Convert`, set constructors (C05, C09, C10, C35, C42), `CheckAssign`, `CheckProc`, `CheckParameters`, `DynArrParCheck` and `Param` for all types (C53), `TypTest`, `DeRef`, `Field` and `Assign` for records and pointers (C54), the types of operators (C62), the predeclared procedures (C63).  Not: SYSTEM.VAL and the other procedures of SYSTEM.
* **OPP.Mod** – the syntax of every construct with error recovery (C50, C51), without the calls of OPB and OPT on the way; CASE labels, FOR, WITH and statement sequences as trees (C33, C34, C48); the types of designators and WITH (C54); the declarations of types and variables (C64), the list of descriptors to initialise (C83).  Not: the meaning of declarations of procedures.
* **OPV.Mod** – `Precedence`, `expr`, `design`, `ActualPar`, `IfStat`, `CaseStat`, `stat` (C38, C41, C48), the tests on types in `expr` (C49), entering, leaving and RETURN (C52), guards and record assignment (C54), assignments (C72), calls that initialise descriptors (C83).
* **OPC.Mod** – identifiers, literals, `FieldList`/`FillGap`, pointer tables, type descriptors, module bodies (C11, C12, C14, C39, C45, C46), scope records and access to variables of enclosing procedures (C52), declarations of variables, parameters and procedures (C65, C67), order of type definitions (C66), arrays as parameters (C68), names in the C text (C71), what header files and C files include, declare and define (C79).
* **Compiler.Mod**, **extTools.Mod** – the command line (C70), the files a compilation writes (C78), the commands that compile and link (C89).  Not: the progress messages.

`src/runtime`

* **SYSTEM.h**, **SYSTEM.c** – arithmetic, checks, strings, sets, type descriptors, `SYSTEM_ENUMP`/`ENUMR`, `SYSTEM_NEWARR` (C01–C05, C36, C40, C49), the end of a program (C77), initialisation of descriptors (C83).  Not: signal handlers.
* **Heap.Mod** – all of allocation, marking, sweeping, stack candidates, finalizers, module registry (C20–C25, C40).  Not: `Lock`/`Unlock` and interrupts.
* **Files.Mod** – all procedures (C17, C18, C26, C27), the search path (C75), several processes at once (C88).
* **Texts.Mod** – runs, buffers, texts, readers, writers, `WriteInt`, `WriteHex` (C28, C29), `Store`, `Load`, `Open`, `Close` (C60), `Scan` without the values of reals (C61).  Not: reals, documents of System 3.
* **Out.Mod**, **In.Mod** – all except reals (C29, C30, C47).
* **Strings.Mod** – all except reals (C31, C32).
* **Modules.Mod** – `ThisMod`, `ThisCommand`, `Free` (C25), the end of a program (C77), arguments and the program's directory (C82).  Not: error output.
* **VT100.Mod** – all except `EscSeqSwapped`, which is not used (C92).
* **Reals.Mod** – all except `Ten` and `TenL` (C93).
* **Math.Mod**, **MathL.Mod** – `fraction`, `exponent`, `sign`, `scale`, `ulp`, `succ`, `pred` (C90).  Not: the functions.
* **Platform**, **Oberon** – not modelled.

`src/library`

* **s3/ethZlib.Mod** – all (C55).
* **s3/ethUnicode.Mod** – conversions of characters and of arrays of LONGINT, `UCS2toUTF8`, `UTF8toASCII` (C56).  Not: `UTF8toUCS2`, `ASCIItoUTF8`, `UpperCh` and the string procedures.
* **s3/ethDates.Mod** – all except `TimeDiff` (C57).
* **ooc/oocLongInts.Mod** – all (C58).
* **ooc/oocRandomNumbers.Mod**, **s3/ethRandomNumbers.Mod** – all except `Exp` and the start value from the clock; of the REAL results the exact quotients and whether the nearest REAL is 1 (C59).
* **s3/ethMD5.Mod** – all, with LONGINT of 32 bits (C76).
* **s3/ethBTrees.Mod** – insertion, deletion, search and enumeration, 194-562; 590-1050 are the same text for strings (C80).
* **s3/ethZlibInflate.Mod** – the window, `Flush`, `NeedOut`, copies, stored blocks, order of blocks (C87).  Not: the bits, Huffman tables, check sums, header.
* **v4/Sets.Mod** – all except `Print`; **s3/ethSets.Mod** is the same (C86).
* **ooc/oocStrings.Mod** – all, without the overflow of INTEGER positions (C84).
* **ooc/oocIntStr.Mod**, **ooc/oocIntConv.Mod** – all, with oocCharClass.Mod 47-51, 77-83 (C85).
* **ooc/oocLowReal.Mod** – `exponent` to `synthesize` (C90).  Not: `exponent10`, `IsInfinity`, `IsNaN`.
* **ooc/oocTime.Mod** – all except `Scale` and `Fraction` (C94).
* **misc/Listen.Mod** – all (C97).
* The other library modules are not modelled.

`src/tools`

* **vmake/vmake.Mod** – the order of modules, 55-124 (C81).
* **browser/BrowserCmd.Mod** – `Wh`, `Indent`, `Wsign`, `Objects`, `Wmthd`, `Wstruct`, `Wtype`, `HasForm`, `WModule` with `Header` and `CheckHeader`, without the option x and real constants (C91); `Ident` (C96).  Not: `ShowDef`.
* **ocat/OCatCmd.Mod** – all, with library/v4/Console.Mod 7-28 (C95).
* The other tools are not modelled.

Not expressible in this model: the accuracy of floating point text conversion (`RealP`, `StrToReal`, libm), timing, and the
behaviour of the operating system behind `Platform`, which is a parameter (what a write takes, what a name refers to).

## Findings

Where the code does not do what the property says.  Each is a theorem about the model with a concrete witness.

* `C01_div_counterexample` (Verif/Arith/PropsDivMod.lean): C01 fails at the extremes of the 64-bit range: `MAX(INT64) DIV -2` is representable, but the code overflows, and on a wrapping machine the result has the wrong sign.
* `C01_mod_counterexample` (Verif/Arith/PropsDivMod.lean): `MIN(INT64) MOD -3` is representable (it is -2), but the code overflows.
* `C01_zero_by_zero` (Verif/Arith/PropsDivMod.lean): Division by zero is not always a trap: `0 DIV 0` and `0 MOD 0` are 0.
* `C02_access_counterexample` (Verif/Arith/PropsChecks.lean): C02 fails for element accesses: `a[i]` with `i = -1` in a variable accesses element -1.
* `C02_chr_counterexample` (Verif/Arith/PropsChecks.lean): C02 fails for `CHR(x)`: with range checks on, `CHR(-1)` is 0FFX and no trap.
* `C02_shortF_undefined` (Verif/Arith/PropsChecks.lean): The C sum in `__SHORTF` is undefined for `SHORT(f())` with `f() = MAX(LONGINT)` (32 bits).
* `C02_x_negative_passes` (Verif/Arith/PropsChecks.lean): C02 fails for `__X`: *every* negative index passes the check, for every array.
* `C05_in_undefined` (Verif/Arith/PropsBits.lean): C05 fails for IN with a 64-bit element: `2^32 IN s` shifts by 2^32, which is undefined.
* `C05_rot_zero_undefined` (Verif/Arith/PropsBits.lean): C05 fails for a rotation by 0 of a 32- or 64-bit word: the C expression shifts by the word size, which is undefined.
* `C08_counterexample` (Verif/Scanner/PropsTokens.lean): C08 fails beyond ASCII: the byte 0C1X, no letter or digit, continues an identifier.
* `C09_ash_wrong` (Verif/Const/PropsFold.lean): Missing from `C09_ash_partial`: `ASH(MIN(INT64), 0)` is undefined behaviour in the compiler, and `ASH(-2, 62)`, which is representable, is rejected.
* `C09_div_wrong` (Verif/Const/PropsFold.lean): C09 fails for DIV: `MIN(INT64) DIV -1` is not representable, and is not reported; a wrapping machine folds `MIN(INT64) DIV 3` to a positive number.
* `C09_times_mixed_rejected` (Verif/Const/PropsFold.lean): C09 fails for × with operands of opposite sign, on a machine that wraps around: such a product is rejected with error 204 ("product too large") however small it is, unless the positive operand is 1.
* `C09_times_mixed_undefined` (Verif/Const/PropsFold.lean): C09 fails for × with operands of opposite sign: the guard computes `MIN(INT64) DIV x`, which overflows inside the compiler, for every such pair of operands.
* `C10_zero_drops_call` (Verif/Const/PropsRewrite.lean): C10 fails for products with a constant 0: `f() * 0` is replaced with 0, and the call is dropped.
* `C13_dense_packing` (Verif/Layout/PropsLayout.lean): The fields of an extension may lie in the padding of the base type: copying a base record of 24 bytes over an extended one would overwrite the field at 20.
* `C13_overflow` (Verif/Layout/PropsLayout.lean): The size of an array that exceeds the compiler's LONGINT overflows.
* `C14_hidden_alignment` (Verif/Layout/PropsStruct.lean): C14 fails when the field that determines the alignment is hidden and the filler has no room for an aligned member: for `RECORD a*: CHAR; b: HUGEINT; c*: LONGINT END` the compiler computes size 24 and alignment 8, but the struct in the header file has size 20 and alignment 4. A client that puts such a record into a record of its own gets the wrong offset: the compiler assigns 8, C assigns 4.
* `C15_double_definition` (Verif/Scope/Props.lean): After a double definition, which is reported, other names may be lost: `left` is not reset, so the new object may replace a subtree. Here 3 is declared twice and the name 1 disappears.
* `C18_checked_halts` (Verif/FileNum/PropsFixed.lean): C18 fails with range checks on (option `r`): writing any INTEGER above 255 halts.
* `C18_large_negative` (Verif/FileNum/PropsFixed.lean): C18 fails in the large size models for negative numbers: they come back as positive ones, because the bytes are added up without sign and the variable is wider than the bytes.
* `C18_set_high_dropped` (Verif/FileNum/PropsFixed.lean): C18, SET, the rest: with 64-bit sets the elements above 31 are dropped, as documented in the source ("Reads 32 bits as a SET value").
* `C19_int_const_truncated` (Verif/SymFile/PropsRoundtrip.lean): C19 fails for integer constants that need more than 32 bits: the value is written with 64 bits and read back into 32.
* `C20_lost` (Verif/Heap/PropsAlloc.lean): A deviation: when the rest of a divided block has nine units, 288 bytes, it gets lost: the block is put in a list from which nothing is ever taken. Here the program has allocated one record of 255712 bytes from a heap of 256000 bytes: all the lists are empty, so that the next allocation makes the collector run. (The collector gets the block back.)
* `C20_newBlk` (Verif/Heap/PropsAlloc.lean): C20: in every history, SYSTEM.NEW terminates, with a new object that has room for `size` bytes, shares no word with an object the program holds and is cleared; nothing else the program sees is changed. If the operating system refuses a region in which the object would fit, however, it stores through NIL (`none`).
* `C24_twice` (Verif/Fin/Props.lean): The negation of C24 in general: a finalizer that makes the collector run (for this it suffices that it allocates an object) can cause another finalizer to be called twice. Three finalizers are registered; the collector finds the object of the last one reachable, those of the two others unreachable.
* `C25_long_names` (Verif/Registry/Props.lean): A module whose name has twenty characters or more is not found under its name: the name is cut in the registry.
* `C25_never_released` (Verif/Registry/Props.lean): Counts of imports are never taken back: module 1 stays after its only client, module 2, has been unloaded.
* `C26_eof_kept` (Verif/Files/Props.lean): C26, deviation. After a `Read` that returned a byte, `eof` may be TRUE or FALSE: it is kept from an earlier read at the end, unless the buffer of the rider was used for another block in between. The two histories differ only in the number of bytes another rider appends.
* `C26_short_write` (Verif/Files/Props.lean): C26, deviation. When the disk is full the operating system writes a part of a buffer and reports how much; `Platform.Write` does not look at it. `Close` returns as if all was well, and bytes are missing on the disk.
* `C27_delete_res` (Verif/Names/Props.lean): Deleting a file that is open removes it, but an error is reported.
* `C27_inode_truncated` (Verif/Names/Props.lean): Only the last 32 bits of the number of a file are kept: opening `b` gives the file `a`, if their numbers differ by 2^32.
* `C27_register_not_atomic` (Verif/Names/Props.lean): `Register` is not atomic: between the two steps of `Flush` (the file is created, its bytes are written) the file is visible under its name, without its bytes. `create` is the first step.
* `C27_rename_stale` (Verif/Names/Props.lean): An open file is renamed, and another file gets its old name; deleting the file under its new name makes the other file disappear, not the one renamed: `Rename` does not change the name kept with the open file.
* `C27_temp_wrap` (Verif/Names/Props.lean): The counter for temporary names has 16 bits and the numbers below 1 are not written: from a count of -32768 on all names are the same. So two files being written at the same time share one name, and the first is lost: what becomes visible under the name `a` are the bytes written to `b`.
* `C28_copy_self` (Verif/Texts/Props.lean): `Copy` of a buffer of one run to itself does not end, after however many rounds: each copy becomes the next run to be copied.
* `C28_crlf` (Verif/Texts/Props.lean): A line end CR LF counts as two characters; when an insertion comes between them, readers miss what was inserted and the end.
* `C28_empty_save` (Verif/Texts/Props.lean): `Save` of an empty stretch within a piece puts a piece of length zero into the buffer. A reader that gets there does not leave it: after the only character of the text it delivers characters from elsewhere, and never the end.
* `C28_no_font` (Verif/Texts/Props.lean): A run without a font (`NIL`) makes `Merge` and `Write` fail.
* `C28_pos_after_readElem` (Verif/Texts/Props.lean): When there is no element, `ReadElem` leaves the reader at a position behind the end of the text.
* `C28_writer_buffer` (Verif/Texts/Props.lean): `Write` extends the last piece of the buffer if it is in the file of the writer, wherever in the file it is: after saving the first character of a text into the buffer of the writer, writing "Z" appends the second character of that text.
* `C29_hex_ambiguous` (Verif/Console/Props.lean): Without the `H`, a hexadecimal number is read as a decimal one if it has no letter.
* `C29_hex_undefined` (Verif/Console/Props.lean): 16 digits: the rotation by 0 shifts by 64, which is undefined in C.
* `C29_int_truncates` (Verif/Console/Props.lean): A number that does not fit is cut without a sign to the program: `Done` is TRUE and 100000 becomes -31072.
* `C29_read_undefined` (Verif/Console/Props.lean): Without wrapping, the reading of a number of 17 digits is undefined in C although the number fits: the hexadecimal value, which is not used, overflows.
* `C29_write_int_min` (Verif/Console/Props.lean): `Texts.WriteInt` ignores the width for the smallest number and writes a space that is not asked for.
* `C30_lost_at_end` (Verif/Console/Props.lean): C30 fails at the end of a program: neither the bodies of the modules nor Heap.FINALL nor Platform.Exit call Flush (SYSTEM.c, Modules.Mod 311, Heap.Mod FINALL), so what is pending is lost: `Out.String("hi")` at the end writes nothing.
* `C30_short_write` (Verif/Console/Props.lean): C30 fails when the operating system takes only a part of the bytes (a pipe, a terminal): the rest is lost, although Write reported no error.
* `C31_append_unterminated` (Verif/Str/Props.lean): C31 (deviation). The documentation promises that the destination is always terminated. It is not, when the result has at least as many characters as the destination.
* `C31_extract_trap` (Verif/Str/Props.lean): C31 (deviation). The documentation says that a result too long for the destination is truncated. The program is stopped by the index check instead.
* `C31_insert_trap` (Verif/Str/Props.lean): C31 (deviation). A source that does not fit behind the position is not cut: the program is stopped by the index check.
* `C31_pos_empty` (Verif/Str/Props.lean): C31 (deviation). The empty pattern is found at 0, wherever the search starts.
* `C31_replace_wrong` (Verif/Str/Props.lean): C31 (deviation). For all other positions Replace differs from the documentation: replacing "cd" in "abcdefgh" by "xy" also removes "ef".
* `C33_large_labels` (Verif/Control/Props.lean): Labels outside 32 bits are cut off: 0 and 2^32 are reported as duplicates; `2^32: …` alone is accepted, and gets no C label; the branch is never executed.
* `C33_large_limit` (Verif/Control/Props.lean): A range with a limit outside 32 bits becomes another range: `0 .. 4294967301` becomes `0 .. 5`, without an error.
* `C33_second_duplicate` (Verif/Control/Props.lean): After a first duplicate a second one can go unnoticed: 8..9 is in 1..10, and only 3..4 is reported.
* `C33_span` (Verif/Control/Props.lean): The span is computed with 32 bits: labels more than 2^31 apart are not reported.
* `C34_never_ends` (Verif/Control/Props.lean): Without the proviso: `FOR v := 0 TO MAX(INT8)` never ends.
* `C36_too_deep` (Verif/Dispatch/Props.lean): C36 fails for deep hierarchies: the compiler does not limit the depth of extension, and `__INITYP` for a type at level 17 overwrites the size word of its own descriptor, so that the program halts with -15 while its module is initialised.
* `C37_hidden_introduction` (Verif/Dispatch/Props.lean): C37 fails where the introduction is hidden: module 1 can name method 0 of type 1, which is exported, but `BaseTProc` returns no object for the call, because the declaration that introduced the method is not exported. The compiler then dereferences NIL.
* `C38_negative_index` (Verif/Horner/Props.lean): C38 fails for negative indices: `__X`, used for an index without function call, compares only with the length, so that `a[1][-1]` selects, without a halt, the element `a[0][3]` of an array of lengths 3 and 4.
* `C39_hidden_base` (Verif/Ptrs/Props.lean): C39 fails for imported types: a field that is not exported and whose type is an extension loses the pointers of the base type. A module that imports `T` and extends it lists the pointer at 16 but not the one at 8, so that the collector reclaims objects reachable only through it.
* `C39_hidden_untraced` (Verif/Ptrs/Props.lean): C39 fails for imported types also for untraced pointers: in a module that imports `T` the field counts as traced, so that the collector follows whatever address it contains.
* `C40_overflow` (Verif/Heap/PropsArr.lean): A deviation: nothing checks that the number of elements can be represented: here NEW of an array of 2^32 by 2^32 characters, and of 2^61 long integers.
* `C40_pointer_table` (Verif/Heap/PropsArr.lean): A deviation: for an array of pointers, the table has the offsets 8 to 8n, whatever the number of open dimensions: they are those of the elements of an array with one open dimension only. With none, `POINTER TO ARRAY n OF P`, the pointer in the first element is missing: the collector does not see it, and the word behind the last element is taken for a pointer. With two or more, the lengths from the second on are taken for pointers, and the last elements are missing.
* `C41_guard_outer` (Verif/Expr/Props.lean): C41, a deviation. A checked type guard on a VAR parameter of an enclosing procedure names the scope of that procedure `s__curr`; every other use of the parameter names it `s_s`, and only this name is declared.
* `C42_ash_type` (Verif/Const/PropsFold.lean): C42 fails for ASH of constants: the result keeps the type LONGINT (4 bytes), which need not contain it: src/compiler/OPB.Mod 1183-1184 do not call `SetIntType`.
* `C44_const_collision` (Verif/FPrint/Props.lean): C44 fails for constants of opposite sign: an exported constant `x` can be changed to `-1-x` (for instance 0 to -1, or TRUE's 1 to -2) without changing its fingerprint, so such a change of an interface is not detected.
* `C45_counterexamples` (Verif/Emit/PropsIdent.lean): C45 fails for the names `UINT32` and `UINT8`: they are in the table of names to be avoided, but the hash table loses them, so that a variable or field of that name is emitted under the name of the C type. It also fails for the C99 keywords, and for the object `t` of a module `size`.
* `C47_string_full` (Verif/Console/Props.lean): A string in quotes of LEN(array) - 1 characters, for which the array has place, is rejected.
* `C49_abs` (Verif/Eval/Props.lean): C49, a deviation. ABS of a call with a 64-bit result keeps 32 bits: `SYSTEM_ABS64` is declared with an `INT32` result.
* `C49_chr` (Verif/Eval/Props.lean): C49, a deviation. CHR of a negative number, not a call, passes the range check.
* `C49_difference` (Verif/Eval/Props.lean): C49, a deviation. For a set of 64 elements, `S - {31}` removes all elements above 31: the constant is an `unsigned int` in C, and so is its complement.
* `C49_guard_twice` (Verif/Eval/Props.lean): C49, a deviation. For the type guard `a[f()](T)` the function is called twice.
* `C49_in_skipped` (Verif/Eval/Props.lean): C49, a deviation. For `x IN g()` the function is not called if `x` is no possible element.
* `C49_in_twice` (Verif/Eval/Props.lean): C49, a deviation. For `f() IN s` the function is called twice: the macro `__IN` evaluates the element twice.
* `C49_in_untrapped` (Verif/Eval/Props.lean): C49, a deviation. For the same reason `x IN b[x]` does not stop the program though the index is out of range.
* `C49_lsh_twice` (Verif/Eval/Props.lean): C49, a deviation. For `SYSTEM.LSH(x, f())` the function is called twice.
* `C49_negative` (Verif/Eval/Props.lean): C49, a deviation. A negative index, not a call, is not detected, see C38; what lies before the array is taken.
* `C49_open_twice` (Verif/Eval/Props.lean): C49, a deviation. In `a[f()]^[x]`, with an array without declared length, the function is called again for the length of the array.
* `C49_rot_twice` (Verif/Eval/Props.lean): C49, a deviation. For `SYSTEM.ROT(f(), 1)` the function is called twice.
* `C49_short` (Verif/Eval/Props.lean): C49, a deviation. The range check of SHORT on a call overflows in C for values at the upper end, where it should stop the program.
* `C52_guard_name` (Verif/Nest/Props.lean): C52, an exception: a type guard on a VAR record parameter of an enclosing procedure (with type checks on) does not name the pointer that was declared, whatever the procedure is called. The C compiler rejects the program.
* `C53_endless` (Verif/Types/Props.lean): C53, deviation: the check of a procedure against a procedure type need not end. With `TYPE A = PROCEDURE (x: A); B = PROCEDURE (x: B)`, a variable `a` of type `A` and a procedure `P (x: B)`, no number of steps is enough for `a := P`.
* `C54_array_guard` (Verif/Safe/Props.lean): C54, deviation: a guard or test for a pointer to an array is accepted if the elements are of the type pointed to: `p IS PA` with `p: POINTER TO R` and `PA = POINTER TO ARRAY 3 OF R`.
* `C54_endless_guard` (Verif/Safe/Props.lean): C54, deviation: for `PB = POINTER TO ARRAY 3 OF PB` the compiler does not end the check of `p IS PB`.
* `C54_local_record` (Verif/Safe/Props.lean): C54, deviation: local variables that are records are not cleared, although local pointers are. `PROCEDURE P; VAR r: R; BEGIN r.next.n := 1 END P` follows whatever is in memory.
* `C54_sysptr` (Verif/Safe/Props.lean): C54, deviation (SYSTEM): any pointer variable can be handed to a VAR parameter of type SYSTEM.PTR, and the procedure can assign any pointer to it. `PROCEDURE Set (VAR x: SYSTEM.PTR; y: SYSTEM.PTR); BEGIN x := y END Set`, then `NEW(a); Set(b, a); b.ext := b` with `a: POINTER TO R`, `b: POINTER TO R1` writes a field the record does not have.
* `C55_adler_overflow` (Verif/Sums/Props.lean): The sums overflow for one full block of bytes 0FFX: the constant `nmax` is that for sums without sign.
* `C56_ascii_trap` (Verif/Utf/Props.lean): A text that begins with an incomplete character makes `UTF8toASCII` trap.
* `C56_invalid` (Verif/Utf/Props.lean): Sequences that encode nothing are taken: an overlong one, and one that is broken off by another character.
* `C56_lossy` (Verif/Utf/Props.lean): `UTF8toASCII` never sets `lossy`, even if it replaces characters.
* `C56_overflow` (Verif/Utf/Props.lean): Six continuation bytes after 0FEX overflow.
* `C56_ucs2_high` (Verif/Utf/Props.lean): Characters from 8000H on are negative INTEGERs: `UCS2toUTF8` writes a single byte for them.
* `C57_date_2100` (Verif/Dates/Props.lean): The day after the 28th of February 2100 is the 1st of March, but the module gives a date that does not exist.
* `C57_number_2101` (Verif/Dates/Props.lean): The 1st of January 2101 is the day after number 73048, but `NumberOfDays` skips a number.
* `C58_guard` (Verif/LongInts/Props.lean): If the first element is not zero while the second is, the procedures overlook it.
* `C58_overflow` (Verif/LongInts/Props.lean): A carry beyond the first element is lost.
* `C59_negative` (Verif/Random/Props.lean): A negative seed can overflow.
* `C59_one` (Verif/Random/Props.lean): The largest states give numbers so near to 1 that the REAL nearest to them is 1: `Uniform` and `Random` can return 1, which they exclude. For each of the last 30 states this holds of the quotient and of anything within 2⁻²⁶ of it.
* `C59_one_reached` (Verif/Random/Props.lean): Such a state is reached from every seed.
* `C59_stuck` (Verif/Random/Props.lean): The seed 0 or 2³¹ − 1 given to `ethRandomNumbers.InitSeed` makes every number 1: the state stays at 2³¹ − 1.
* `C60_crlf` (Verif/TextFiles/Props.lean): Lines that end with CR LF are one character each in the text and two in the file.
* `C60_first_byte` (Verif/TextFiles/Props.lean): Any file that begins with 0F0X is taken for a stored text. UTF-8 text that begins with a character beyond 0FFFFH does.
* `C60_fonts` (Verif/TextFiles/Props.lean): 31 fonts are too many as soon as another run follows.
* `C60_large` (Verif/TextFiles/Props.lean): In the large size models the length of an element, a negative number, is read as a positive one: the element is lost, and the rest of the header is misread.
* `C60_no_store` (Verif/TextFiles/Props.lean): In every case: no loaded text with a character can be stored.
* `C60_reload` (Verif/TextFiles/Props.lean): Fonts are not restored, and so a text that was loaded cannot be stored: `Store` uses its fonts.
* `C61_exponent_wraps` (Verif/Scan/Props.lean): An exponent beyond INTEGER wraps around: 1.0E65536 is accepted, with the exponent 0, and so is 1.0E40000.
* `C61_inval` (Verif/Scan/Props.lean): A letter directly after a number can make it an invalid token.
* `C61_latin` (Verif/Scan/Props.lean): Characters beyond ASCII count as letters if their low bits are those of a letter: the first byte of `é` in UTF-8 begins a name, the second ends it.
* `C61_long_name` (Verif/Scan/Props.lean): A name of more than 63 characters is two names.
* `C61_many_digits` (Verif/Scan/Props.lean): More than 32 digits are an index out of range.
* `C61_min` (Verif/Scan/Props.lean): MIN(LONGINT), which `WriteInt` writes, cannot be read: the number overflows before it gets its sign.
* `C61_write_hex` (Verif/Scan/Props.lean): What `WriteHex` writes for 255 is an invalid token, and what it writes for -1 is a name; with an `H` after it the first is 255.
* `C62_nan` (Verif/Opers/Props.lean): Where the code departs from the claim: a quotient of the constants 0.0 and 0.0 is accepted (OPB.Mod 520-525), as a constant that is not a number.
* `C62_range` (Verif/Opers/Props.lean): Where the code departs: `{33}` is of the type of the large sets, but `{33..35}` is of type SET, also if that has but 32 elements: the type `SetSetType` gave is overwritten (OPB.Mod 824).
* `C62_times_zero` (Verif/Opers/Props.lean): Where the code departs: of `0 * f()` only the constant is left, the call is not in the tree (OPB.Mod 705-706).
* `C63_ash_min` (Verif/Predecl/Props.lean): Where the code departs: `ASH(MIN(SYSTEM.INT64), 1)` is accepted, as the absolute value of the least integer is taken to be negative; the constant is then beyond 64 bits.
* `C63_ash_range` (Verif/Predecl/Props.lean): Where the code departs from the claim: `ASH(1, 40)` is a constant of type LONGINT, also where LONGINT has 32 bits and 2^40 is not one of its values: `StPar1` gives the result no type of its own (OPB.Mod 1179-1190).
* `C63_len_type` (Verif/Predecl/Props.lean): Where the code departs from the report: LEN is accepted with the name of a type.
* `C63_short_short` (Verif/Predecl/Props.lean): Where the code departs from the report: there is no type shorter than SHORTINT, but `SHORT(i)` is accepted for a SHORTINT, as a conversion to its own type; the same for `LONG` of the largest type.
* `C64_duplicate_field` (Verif/Decls/Props.lean): A field of an extension can have the name of a field of its base type, if the extension is declared within the base type before that field: the report forbids it.
* `C64_field_hides` (Verif/Decls/Props.lean): A field hides a type of the same name in the types of the fields after it: `RECORD INTEGER, x: INTEGER END` is rejected, although by the report names of fields are valid in designators only.
* `C64_open_array` (Verif/Decls/Props.lean): Without the restriction the table need not be well-formed: `D = ARRAY OF ARRAY OF POINTER TO ARRAY OF D` is accepted, and the open array of `D` counts as many dimensions as `D` itself.
* `C65_named_open_array` (Verif/CDecl/Props.lean): Not so, open arrays with a name: with `TYPE L = ARRAY OF POINTER TO R`, `PROCEDURE P (a: L)` is declared as `void P (R *a, ADDRESS a__len)`, where the elements are records, and not pointers to them.
* `C65_open_array_of_arrays` (Verif/CDecl/Props.lean): Not so, open arrays of arrays: `PROCEDURE P (a: ARRAY OF ARRAY 5 OF CHAR)` is declared as `void P (CHAR *a[5], ADDRESS a__len)`, where `a` is an array of pointers, and not the pointer to arrays it stands for.
* `C66_endless` (Verif/CDefs/Props.lean): Not so, endless recursion: for `TYPE Tree = POINTER TO ARRAY OF RECORD sub: Tree END` the compiler never ends, whatever the depth of the recursion allowed, with or without other types.
* `C66_names_matter` (Verif/CDefs/Props.lean): Not so, names: whether `TYPE R = RECORD END; Q = RECORD r: R END; PROCEDURE (VAR r: R) Do (VAR q: Q)` is accepted depends on the order of the names. With R before Q in the alphabet it is; with Q before R an error is reported.
* `C66_pointer_to_array` (Verif/CDefs/Props.lean): Not so, pointers to arrays of themselves: for `TYPE P = POINTER TO A; A = ARRAY 3 OF P`, which is finite, an error is reported in any order.
* `C67_code_after_forward` (Verif/Procs/Props.lean): C67, deviation: a code procedure (`PROCEDURE - P "..."`) that follows a forward declaration of `P` is accepted, but `P` stays an ordinary procedure for which no statements are compiled: its calls call a C function that is defined nowhere.
* `C67_export_order` (Verif/Procs/Props.lean): C67, deviation: a procedure that redefines an exported one and is bound to an exported type need not be exported, if it is declared before the one that it redefines and there is another above. Here `A.M` is not exported, `C.M` is not, `B.M` is, in this order; `C` is exported and extends `B`.
* `C67_field_below` (Verif/Procs/Props.lean): C67, deviation: a procedure may be bound to a type though an extension of the type has a field of that name.
* `C67_missing_body` (Verif/Procs/Props.lean): C67, deviation: a procedure that redefines another and is declared forward can be missing. Here `PROCEDURE (VAR a: A) M; END M; PROCEDURE ^ (VAR b: B) M;` is accepted although `B.M` has no body.
* `C67_predeclared_name` (Verif/Procs/Props.lean): C67, deviation: in a module the predeclared names of types and constants cannot be declared as procedures, though in procedures they can, and those of predeclared procedures can everywhere.
* `C68_nested_lengths` (Verif/Arrays/Props.lean): C68, a deviation: procedures nested in the one that is called do not find the lengths of the second and further dimensions of its open array parameters: the fields of the scope record for them are never set (the statement for the first length is repeated).
* `C68_shorter` (Verif/Arrays/Props.lean): C68, a deviation: the compiler accepts a string constant or an array that is shorter than a value parameter of fixed length, but copies as many bytes as the parameter has: it reads memory beyond the actual parameter, and if that is not in the same object this is undefined.
* `C69_code_error` (Verif/SymUpdate/Props.lean): C69: so does any error in writing the C text. The old symbol file is deleted even if the interface has not changed (src/compiler/Compiler.Mod 36-38).
* `C69_refused_twice` (Verif/SymUpdate/Props.lean): C69 fails: a change that is refused is accepted when it is tried again. When an error is found after the symbol file is looked at, be it that the interface has changed without permission, the old symbol file is deleted (src/compiler/OPT.Mod 1288-1290, the file written is not yet registered). Compiled once more, with the same options, the module is accepted and gets a new symbol file.
* `C70_missing_file` (Verif/Cmdline/Props.lean): C70 fails: a file that is not there is no error. When a file is not found (or is empty), the compiler stops, the files that follow are not compiled, and the exit status is 0.
* `C71_anonymous` (Verif/CNames/Props.lean): Deviation: the second record without a name in the module has the same name in C as a type declared in a procedure, if that has the name of the module.
* `C71_c99` (Verif/CNames/Props.lean): Deviation: the keywords that C has since 1999 are not in the table; a variable called `inline` or `restrict` keeps its name.
* `C71_link` (Verif/CNames/Props.lean): Deviation: with a variable called `lnk`, the record has two members of the same name.
* `C71_long` (Verif/CNames/Props.lean): Deviation: a parameter with more than 31 characters has another name in the body of the macro.
* `C71_lost` (Verif/CNames/Props.lean): Deviation: the hash function is not perfect. `do` takes the place of `UINT32` and `size_t` that of `UINT8`; variables of these names are not changed, and hide the type in the function.
* `C71_receiver` (Verif/CNames/Props.lean): Deviation: if the receiver is called like a keyword, the name in the body of the macro is not its parameter.
* `C71_void` (Verif/CNames/Props.lean): Deviation: the parameters of the macro are not protected, so that keywords in its body, such as `void` for the result, are replaced by the argument.
* `C72_anonymous_guard` (Verif/Assign/Props.lean): `p(T)^ := y` where the record type that `T` points to has no name: accepted, the guard is dropped, and the C text is not legal.
* `C72_inc_overflow` (Verif/Assign/Props.lean): ... and for variables of 32 and 64 bits every overflow is undefined behaviour in C.
* `C72_inc_wraps` (Verif/Assign/Props.lean): INC is not checked: a SHORTINT of 8 bits with the value 127 becomes -128 ...
* `C72_incl_undefined` (Verif/Assign/Props.lean): INCL and EXCL do not check the element: one outside the set is undefined behaviour in C.
* `C72_move_overlap` (Verif/Assign/Props.lean): SYSTEM.MOVE of overlapping areas is undefined behaviour in C: it is `memcpy`.
* `C72_self` (Verif/Assign/Props.lean): `a := a` for arrays (as in `a[i] := a[j]` with `i = j` for arrays of arrays) is `memcpy` of an area onto itself: undefined in C.
* `C72_unchecked` (Verif/Assign/Props.lean): Without type checks (option `t`) `p(T)^ := y` is written without the guard and without the type `T`: the C text is not legal.
* `C72_var_guard` (Verif/Assign/Props.lean): `v(T) := y` where `v` is a VAR parameter of another type: accepted, but both the guard and the variable in the C text have the type before the guard; the C text is not legal. (The same assignment works with a WITH statement, where there is no guard.)
* `C73_depends` (Verif/ErrPos/Props.lean): The line shown for a position depends on what was shown before: 4 is in line 1 or in line 2.
* `C73_first_column` (Verif/ErrPos/Props.lean): Of an error at the first position of a line the line before is shown, for every text and every line: the number is too small by one, and the arrow stands behind the end of that line.
* `C73_line_zero` (Verif/ErrPos/Props.lean): An error at the very beginning of the text is shown in a line 0.
* `C74_cycle` (Verif/Imports/Props.lean): C74 deviation. Circular imports are not noticed: a module may import one that needs it (it is among the modules to be linked) as long as the interface does not mention its types.
* `C74_cycle_runs` (Verif/Imports/Props.lean): C74 deviation. A program with circular imports never begins to run: with modules each of which imports another one of them, the calls of their initialization functions recurse without end.
* `C74_private` (Verif/Imports/Props.lean): C74 deviation. Versions of a type whose private parts differ, in size for instance, are not noticed as long as the type is not exported again: a module that only uses the type is compiled without an error.
* `C74_too_many` (Verif/Imports/Props.lean): C74 deviation. With the 64th module imported the compiler ends with an index out of range: error 227 is reported, but the number of the module is used nevertheless.
* `C75_home` (Verif/PathSearch/Props.lean): C75 deviation. If the home directory is not known, the entry `~` ends the search: the directories after it are ignored.
* `C75_root` (Verif/PathSearch/Props.lean): C75 deviation. The root directory in a search path means the current directory: the file opened is not the one in the root.
* `C75_too_long` (Verif/PathSearch/Props.lean): C75 deviation. A directory of 256 characters in the search path stops every program that opens a file.
* `C75_truncated` (Verif/PathSearch/Props.lean): C75 deviation. Names with a directory are cut to 255 characters: another file is opened than the one named.
* `C76_length` (Verif/MD5/Props.lean): C76 deviation. For messages of 2^29 bytes and more only the low word of the length is used: what is hashed ends with other bytes than RFC 1321 requires.
* `C76_overflow` (Verif/MD5/Props.lean): C76 deviation. The program relies on arithmetic modulo 2^32: already the values that `ByteReverse` computes for bytes of 80X and more are beyond LONGINT, what the generated C leaves undefined.
* `C77_256` (Verif/Ending/Props.lean): `Modules.Halt(256)` reports success, although it writes that the program was terminated.
* `C77_killed` (Verif/Ending/Props.lean): A division by zero, or an interrupt without a handler, ends the process without running the finalizers.
* `C77_lost` (Verif/Ending/Props.lean): A signal whose handler ends the program arrives in `FINALL` after the finalizer was taken off the list: it never runs.
* `C77_never` (Verif/Ending/Props.lean): A program with a finalizer that registers itself again never ends, even after `HALT` or the end of its main module.
* `C77_nil` (Verif/Ending/Props.lean): If an access to `NIL` ends the program and a finalizer accesses `NIL` as well, the process is killed and the other finalizers do not run; after `HALT` they do.
* `C77_twice` (Verif/Ending/Props.lean): A handler that registers a finalizer while `FINALL` takes one off the list: the one runs twice, the other never.
* `C77_unwritten` (Verif/Ending/Props.lean): Text that is not followed by the end of a line is not written when the program ends.
* `C78_elsewhere` (Verif/Outputs/Props.lean): If the same symbol file is found elsewhere on the search path, no symbol file is written, and the new object file is not linked.
* `C78_mixed` (Verif/Outputs/Props.lean): After a crash a new header file may stand beside an old C file, and a new symbol file beside both old ones.
* `C78_short` (Verif/Outputs/Props.lean): A file of at most four pieces may be left incomplete under its name after a crash.
* `C78_sym_lost` (Verif/Outputs/Props.lean): A compilation that is refused because the interface has changed removes the old symbol file, so that the object file, which is still there and up to date, is not linked any more.
* `C79_alias` (Verif/Linkage/Props.lean): Deviation (C79, other names). `A` exports another name for a type of `B`, and `M` imports only `A` and uses this name. The C file of `M` mentions the type of `B`, and no header file with its declaration is included: `B` is not imported by `M`, and `A.h` mentions no name of `B`.
* `C79_hidden_base` (Verif/Linkage/Props.lean): Deviation (C79, hidden base types). `A` exports a name for a record type that is not exported itself, and `M` an extension of it. The inherited fields are written in `M.h`, with their types of `B`, but the base type is not mentioned as its own name is not exported: neither `A.h` nor `B.h` is included.
* `C79_interrupt` (Verif/Linkage/Props.lean): Deviation (C79, interrupt procedures). An exported `PROCEDURE+` can be assigned to a procedure variable by other modules, but no header file declares it.
* `C79_open_array` (Verif/Linkage/Props.lean): Deviation (C79, open arrays). `M` exports a procedure with a parameter of an open array type of `A`, whose elements are of a type of `B`. In C the parameter is written with the type of the elements, so that `M.h` mentions a type of `B`; it includes neither `B.h`, as `B` is not imported by `M`, nor `A.h`, as no name of `A` is mentioned.
* `C79_readonly_procedure` (Verif/Linkage/Props.lean): Deviation (C79, procedures marked with `-`). The compiler accepts `PROCEDURE P-`, and other modules can use it. Its declarations are `extern`, its definition is `static`: the C compiler rejects this, and nothing defines `P` for the linker.
* `C79_unexported` (Verif/Linkage/Props.lean): Deviation (C79, no longer exported). A procedure that was exported when the symbol file was written, is not any more, and is assigned to a procedure variable, has no declaration before the procedures: if it is used in one before it, the C file does not compile.
* `C80_least_key` (Verif/BTree/Props.lean): Deviation from C80: an enumeration from the least key to the least key does not give it.
* `C80_uninitialized` (Verif/BTree/Props.lean): Deviation from C80: the variable of `DeleteLInt` that tells whether a page has become too short is not initialized. Where it happens to be `TRUE`, deleting a key that is not there removes another one. Here 2 * 84 + 1 keys are inserted, and deleting 1000 loses 168.
* `C81_comment` (Verif/Vmake/Props.lean): The word `IMPORT` in a comment before the import list: what follows it up to a semicolon is taken for the import list, and the module is printed before the one that it imports.
* `C81_cycle` (Verif/Vmake/Props.lean): Two modules that import each other: the tool finds no module to begin with and dereferences `NIL`; no name is printed.
* `C81_unended` (Verif/Vmake/Props.lean): An import list without a semicolon: the loop does not end.
* `C82_backslash` (Verif/BinDir/Props.lean): A file whose name has a backslash: the name is changed, and the directory is not found.
* `C82_colon` (Verif/BinDir/Props.lean): A relative path whose second character is a colon is taken for an absolute one: the directory depends on the working directory.
* `C82_empty_element` (Verif/BinDir/Props.lean): An empty element in the search path stands for the working directory; it is skipped if it is not the first.
* `C82_not_program` (Verif/BinDir/Props.lean): Any file counts, and a directory, too: here `prog` is a directory in the first element of the search path and the program in the second.
* `C82_root` (Verif/BinDir/Props.lean): A program in the root directory: the result is the same as if it was not found.
* `C83_depth` (Verif/TDInit/Props.lean): Records of any level are accepted, but a descriptor has entries for sixteen levels only: the start of a module with a record of level 16 writes behind them.
* `C83_inner` (Verif/TDInit/Props.lean): A record can be extended within its own declaration: the declaration is accepted, but the extension is listed before the record it extends, and the start of the module uses the descriptor of that record before it is initialised.
* `C84_capitalize_space` (Verif/OocStr/Props.lean): C84 (deviation). `CAP` clears bits of every character: a space becomes a terminator, so that "ab cd" becomes "AB"; and a digit becomes a control character.
* `C85_not_a_number` (Verif/IntStr/Props.lean): C85 (deviation). For a string that begins with too large a number the result says that it is a whole number out of range, although it is not a whole number.
* `C85_not_empty` (Verif/IntStr/Props.lean): C85 (deviation). For a string that is not empty, but does not begin with a number, the result says that it is empty.
* `C86_longer` (Verif/BitSets/Props.lean): C86 (deviation). When the second array is longer, what it has beyond the first is ignored: sets that are not equal are `Equal`, and a set `Includes` one with other numbers.
* `C86_many` (Verif/BitSets/Props.lean): C86 (deviation). In an array of 1024 sets with 32 bits each there is room for exactly the numbers from 0 to MAX(INTEGER). `Elements` always finds none in it: its limit, 32768, is not an INTEGER.
* `C87_dictionary` (Verif/Inflate/Props.lean): C87, what fails: a dictionary of 32768 bytes or more is used as if it were its first 32767 bytes; the text of a stream depends on the last ones.
* `C87_lost` (Verif/Inflate/Props.lean): C87, what fails: bytes are lost when a stored block follows a compressed block that ended on the fast path. A stream with 32768 stored bytes, two literals and 999 stored bytes is given to three calls, with room for 1000, 1 and 1 bytes; the third reports the end of the stream, and 1001 of 33769 bytes are delivered.
* `C87_too_far` (Verif/Inflate/Props.lean): C87, what fails: a distance that goes back to before the beginning of the text is not rejected; the bytes delivered are what an earlier stream left in the window.
* `C87_uncompress` (Verif/Inflate/Props.lean): C87, what fails: the memory-to-memory `Uncompress` reports an error (BufError) for every stream of one compressed block with a text of more than 32768 bytes, however large the destination is.
* `C88_mixed` (Verif/Share/Props.lean): Processes with the numbers 40000 and 50000 (`Platform.PID` is negative for both, and is not written to the names of temporary files) use the same name for their temporary files: the file `a` gets the bytes of the other process, and the other process is stopped when it registers its file.
* `C89_cut` (Verif/Linking/Props.lean): C89, what fails: the list of the object files is cut after 2048 characters, within a name, and there is no message.
* `C89_shadow` (Verif/Linking/Props.lean): C89, what fails: a module of the library is changed and compiled in the current directory, with the same interface. It gets no symbol file there, and programs are linked with the old one in the library.
* `C89_stale` (Verif/Linking/Props.lean): C89, what fails: A is changed so that it imports N; its interface is as before. All is compiled in order, without errors, but the symbol file of A stays, with the old list, and a program that imports A is linked without N.
* `C90_pred_negative` (Verif/RealBits/Props.lean): C90, deviation. `pred` of a negative number is greater than the number.
* `C90_pred_power` (Verif/RealBits/Props.lean): C90, deviation. `pred` of a power of two is not the next smaller number: there is a number between them.
* `C90_scale_lost` (Verif/RealBits/Props.lean): C90, deviation. If x * 2 ^ n is less than 2 ^ `expoMin`, `scale(x, n)` is larger, although there are such numbers.
* `C90_subnormal` (Verif/RealBits/Props.lean): C90, deviation. The very small numbers, between 0 and 2 ^ `expoMin`, have an exponent less than `expoMin`, and they are not `scale(fraction(x), exponent(x))`.
* `C90_succ_negative` (Verif/RealBits/Props.lean): C90, deviation. `succ` of a negative number is the next smaller number, not the next greater one.
* `C90_succ_zero` (Verif/RealBits/Props.lean): C90, deviation. `succ(0.0)` is 2 ^ (1 - places), although there are numbers between.
* `C90_ulp_small` (Verif/RealBits/Props.lean): C90, deviation. For small numbers `ulp` is too large.
* `C91_char_letter` (Verif/ShowDef/Props.lean): Deviation: a character constant from 0A0X to 0FFX is written without the leading zero, as a text that begins with a letter: it is not a value (BrowserCmd.Mod 73).
* `C91_char_quote` (Verif/ShowDef/Props.lean): Deviation: the character constant `"` is written as three quotes, which begins with the empty string (BrowserCmd.Mod 70).
* `C91_code_quote` (Verif/ShowDef/Props.lean): Deviation: the code of a code procedure that contains a quote is written so that reading it gives other code, or nothing (BrowserCmd.Mod 112-116).
* `C91_no_imports` (Verif/ShowDef/PropsModule.lean): Deviation: for a module without imports the variables `beg` and `end` are used before they have a value (BrowserCmd.Mod 222, 241). If they happen to be 0 and the length of the first line, the first line is deleted, and the text is no definition.
* `C91_str_quote` (Verif/ShowDef/Props.lean): Deviation: a string constant that contains a quote is written so that reading it gives another string, or no value: the text up to the quote (BrowserCmd.Mod 90).
* `C92_one_digit` (Verif/VT100/Props.lean): Deviation: of a single parameter only the first character is written (VT100.Mod 134: an array of 2 characters). So the command for every number from 10 on is the command for its first digit, and for a negative number the parameter is `-`.
* `C92_two_long` (Verif/VT100/Props.lean): Deviation: of two parameters, only four characters each are written (VT100.Mod 156).
* `C93_convert_rounded` (Verif/Reals/Props.lean): Deviation: where LONGINT has 32 bits and the quotient by 10^9 was rounded up to a whole number, the low part is negative; it is replaced by 0 (Reals.Mod 88), so the digits are those of a greater number.
* `C94_wraps` (Verif/Time/Props.lean): Deviation: days that do not fit wrap around without a trap: the time after the last moment is the first (oocTime.Mod 93-101).
* `C95_empty_argument` (Verif/Ocat/Props.lean): Deviation: an empty argument ends the list of names: what follows it is not shown (OCatCmd.Mod 22).
* `C95_last_line` (Verif/Ocat/Props.lean): Deviation: what follows the last end of a line stays in the Console and is never written, for all texts of up to 128 characters that can be shown, without the end of a line (Console.Mod 17-22: nothing flushes the line when the program ends).
* `C95_only_option` (Verif/Ocat/Props.lean): Deviation: ocat with the option and no names tries to open a file with the name `-t` (OCatCmd.Mod 19: `path` keeps its value).
* `C96_root` (Verif/ShowDef/PropsIdent.lean): Deviation: for a file in the root directory the search path is not changed: the module is looked for elsewhere (BrowserCmd.Mod 259: `i > 0`).

## Theorems

The property theorems, in `lean/`; the text is the comment that stands beside each in the source.
All depend on no axioms other than `propext`, `Classical.choice` and `Quot.sound`.

* `C01_div_partial` (Verif/Arith/PropsDivMod.lean): C01 (what is true of it). For 64-bit operands and `y ≠ 0`, outside the exactly characterised operand set `DivOverflows`, the code for `x DIV y` (macro or procedure) is free of undefined behaviour and yields the floored quotient.
* `C01_full_32` (Verif/Arith/PropsDivMod.lean): C01 in full for every integer type of at most 32 bits (SHORTINT, INTEGER and LONGINT of the default size model): no exception.
* `C01_mod_partial` (Verif/Arith/PropsDivMod.lean): C01 for MOD, outside the operands that involve the minimum integer in `ModOverflows`.
* `C02_access_complete` (Verif/Arith/PropsChecks.lean): The converse: an index inside the array is never refused.
* `C02_access_in_bounds_partial` (Verif/Arith/PropsChecks.lean): C02 at the level of an element access, what is true: an access with index checks on touches only elements `0 ≤ i < len`, provided the index is a constant, or contains a procedure call, or is not negative. (`len > 0`: arrays are never empty; see C40 for NEW.)
* `C02_chrF_exact` (Verif/Arith/PropsChecks.lean): C02, CHR of an expression with a call: exact.
* `C02_chr_partial` (Verif/Arith/PropsChecks.lean): C02, CHR of an expression without a call, what is true.
* `C02_rf_exact` (Verif/Arith/PropsChecks.lean): C02, `__RF`.
* `C02_shortF_exact` (Verif/Arith/PropsChecks.lean): C02, SHORT of an expression with a call: exact, for arguments of 32 or 64 bits, provided the machine wraps; where the C sum is defined no wrapping is needed.
* `C02_short_exact` (Verif/Arith/PropsChecks.lean): C02, SHORT of an expression without a call: exact for each target size of 1, 2, 4 bytes (`ub` is `SignedMaximum(size)+1`, src/compiler/OPV.Mod 246-250).
* `C02_x_partial` (Verif/Arith/PropsChecks.lean): C02, `__X`, what is true: exact for indices that are not negative.
* `C02_xf_exact` (Verif/Arith/PropsChecks.lean): C02, `__XF` (index expressions that contain a call): exact for every 64-bit index.
* `C03_lexCmp_total_order` (Verif/CStr/Props.lean): C03, the order is a total order on strings.
* `C03_string_relations` (Verif/CStr/Props.lean): C03. For all arrays that hold strings, every relational operator between them is defined and means the lexicographic order of the strings, whatever follows the terminators.
* `C04_assign_constant` (Verif/CStr/Props.lean): Assignment of a string constant: the array holds exactly the constant.
* `C04_copy` (Verif/CStr/Props.lean): C04. For every source array that holds a string `s` and every destination of at least one element: COPY is defined, and leaves in the destination the longest prefix of `s` that fits in `LEN - 1` characters, a 0X, and after it the old contents unchanged. Nothing else is written (the result has the same length, and the source is not an output).
* `C04_copy_holds` (Verif/CStr/Props.lean): C04, corollary: the destination holds the (possibly truncated) string, and keeps its length.
* `C04_copy_then_equal` (Verif/CStr/Props.lean): COPY followed by a comparison: a string that fits is copied faithfully.
* `C05_ash` (Verif/Arith/PropsBits.lean): C05, ASH. For counts `-64 < n < 64`: multiplication by `2^n` where the result fits, floored division by `2^-n` for negative counts (independently of any overflow).
* `C05_cap_letter` (Verif/Arith/PropsBits.lean): CAP of a letter is the capital letter.
* `C05_excl` (Verif/Arith/PropsBits.lean): see the source.
* `C05_in` (Verif/Arith/PropsBits.lean): C05, IN. For every element of at most 32 bits and every set: the membership test is defined and true exactly for the members.
* `C05_incl` (Verif/Arith/PropsBits.lean): see the source.
* `C05_lsh` (Verif/Arith/PropsBits.lean): C05, LSH. For a shift count smaller than the word size, LSH is defined, its result is a value of the operand's type, and bit `k` of the result is bit `k - n` of the operand, or 0 where there is no such bit.
* `C05_odd` (Verif/Arith/PropsBits.lean): ODD: the remainder of the division by 2 is 1.
* `C05_rot_inverse` (Verif/Arith/PropsBits.lean): C05, ROT is invertible: rotating back gives the operand.
* `C05_rot_partial` (Verif/Arith/PropsBits.lean): C05, ROT, what is true. For a count of absolute value between 1 and the word size - 1 (0 included for words below 32 bits), bit `k` of the result is bit `(k - n) MOD s` of the operand.
* `C05_setOf` (Verif/Arith/PropsBits.lean): C05, set constructor `{x}`, INCL and EXCL, for an element `0 <= x < s`.
* `C05_setRng` (Verif/Arith/PropsBits.lean): C05, set constructor `{l..h}`, for `0 <= l < s` and `0 <= h < s`: the members are the numbers from `l` to `h`; the set is empty if `l > h`.
* `C05_set_ops` (Verif/Arith/PropsBits.lean): C05, `+ * - /` on sets: union, intersection, difference, symmetric difference.
* `C06_char` (Verif/Scanner/PropsNumber.lean): C06, character literals `...X`: exact up to 0FFX, error 203 above.
* `C06_decimal` (Verif/Scanner/PropsNumber.lean): C06, decimal literals. For every non-empty string of digits `ds`, of any length and with any number of leading zeros, in every context: if its value is at most MAX(INT64) it yields that value and no error; otherwise an error 203 and nothing else is reported. The literal is consumed in both cases, and no intermediate value overflows.
* `C06_decimal_upto` (Verif/Scanner/PropsNumber.lean): C06, decimal literals before an ellipsis, as in `0..9`: the same value, and the next symbol is `..` (21).
* `C06_hex` (Verif/Scanner/PropsNumber.lean): C06, hexadecimal literals `...H`: for every string of hexadecimal digits that starts with a decimal digit: if its value is below 2^64 it yields the number whose two's complement representation that is; otherwise error 203.
* `C07_comments` (Verif/Scanner/PropsComment.lean): C07. For any text (of characters other than 0X) that begins with a comment: * if the comment is closed, by the matching bracket `close` finds, then `Get` behaves exactly as it would on the text after that bracket: same symbol, same remaining text, same errors; * if it is not closed, `Get` reports error 5 (at least once, and nothing else) and delivers the end of the text. In both cases it terminates.
* `C08_identifier` (Verif/Scanner/PropsTokens.lean): C08. For every string that starts with a letter and continues with letters and digits, of at most 255 characters, followed by anything that is not a letter or digit (an ASCII character or the end of the text): the symbol is the reserved word it spells, or else an identifier with exactly that spelling; exactly these characters are consumed, and no error is reported.
* `C08_identifier_too_long` (Verif/Scanner/PropsTokens.lean): C08, over-long identifiers. 256 or more letters and digits: error 240, an identifier of the first 255 characters, and scanning resumes after the 256th.
* `C09_ash_partial` (Verif/Const/PropsFold.lean): C09 for ASH, shift counts from -62 to 62: a right shift is the floored quotient; a left shift is exact when the result lies strictly inside the 64-bit range in both directions, and error 208 otherwise. Other counts are error 208.
* `C09_div_mod_partial` (Verif/Const/PropsFold.lean): C09 for DIV and MOD: outside the operands for which the compiler's own division overflows (`C01`), the floored quotient and remainder; division by zero is reported.
* `C09_minus` (Verif/Const/PropsFold.lean): C09 for −.
* `C09_neg_abs` (Verif/Const/PropsFold.lean): C09 for monadic minus and ABS.
* `C09_odd` (Verif/Const/PropsFold.lean): C09 for ODD.
* `C09_plus` (Verif/Const/PropsFold.lean): C09 for +.
* `C09_rel` (Verif/Const/PropsFold.lean): C09 for relations.
* `C09_times_partial` (Verif/Const/PropsFold.lean): C09 for ×, operands of the same sign or one of them zero.
* `C09_times_wrap_partial` (Verif/Const/PropsFold.lean): C09 for ×, on a machine that wraps around: for operands of the same sign the result is exact or reported, and for operands of opposite sign a product that is accepted is exact.
* `C10_powers_of_two` (Verif/Const/PropsRewrite.lean): C10, powers of two, for every 64-bit operand: the shift and the mask that replace `DIV` and `MOD` by `2^k` give the floored quotient and the nonnegative remainder, and the shift that replaces a product gives the product when it fits. (`DIV` and `MOD` themselves overflow for some operands, `C01`.)
* `C10_rewrite_partial` (Verif/Const/PropsRewrite.lean): C10. The tree the compiler builds, by folding and rewriting, has the same value and the same effects as the source expression, whenever the source expression has a value; for expressions of any depth, any width of the type up to 64 bits and any opaque parts. Missing, and false: expressions with effects in which the compiler multiplies by a constant 0 (`C10_zero_drops_call`).
* `C11_buffer` (Verif/Emit/PropsInt.lean): see the source.
* `C11_intLiteral` (Verif/Emit/PropsInt.lean): C11, typed literals. For a type of `size` bytes (1, 2, 4 or 8) the text denotes the constant.
* `C11_writeInt` (Verif/Emit/PropsInt.lean): C11. The text emitted for a 64-bit integer is a C expression without overflow whose value is that integer; its type is `int` if the integer fits 32 bits, and a 64-bit type otherwise.
* `C12_character` (Verif/Emit/PropsStr.lean): C12, characters.
* `C12_set` (Verif/Emit/PropsStr.lean): C12, sets. The emitted hexadecimal constant is the bit pattern of the set.
* `C12_string` (Verif/Emit/PropsStr.lean): C12, strings. Read by C's rules - trigraphs first, then escapes - the emitted literal gives exactly the bytes of the string, and reading goes on just after the literal, whatever follows it.
* `C13_declared` (Verif/Layout/PropsLayout.lean): The placed fields are the declared ones, in order, with the sizes and alignments of their types.
* `C13_extension` (Verif/Layout/PropsLayout.lean): C13. An extension keeps the addresses of the fields of its base type.
* `C13_fields` (Verif/Layout/PropsLayout.lean): C13. In every record, including the fields it inherits: each field's address is a multiple of the alignment of its type, each field lies inside the record, fields do not overlap, and the size of the record is a multiple of the alignment of each field.
* `C13_scalars` (Verif/Layout/PropsLayout.lean): C13, in terms of memory: in every type, nested to any depth, each basic component of `s` bytes lies at a multiple of `min s al`, inside the type, and no two components overlap; this also holds of the elements of an array, since the alignment of a type divides its size.
* `C14_offsets_partial` (Verif/Layout/PropsStruct.lean): C14, part. Under C's rules, every field that is a member of the emitted struct lies at the address the compiler assigned to it, every field that is not hidden is a member, and none occurs twice — provided the C types of the visible fields have the size and alignment the compiler computed for them. Missing: that this proviso always holds; `C14_hidden_alignment` shows that it does not.
* `C14_open_fields` (Verif/Layout/PropsStruct.lean): C14 where nothing is hidden: each field of a record is a member of its struct, at the address the compiler assigned to it.
* `C14_open_type` (Verif/Layout/PropsStruct.lean): C14 where nothing is hidden: every C type has the size and alignment the compiler computed, to any depth of nesting.
* `C14_size_partial` (Verif/Layout/PropsStruct.lean): C14, part. If moreover some visible field has the alignment of the record, the struct has the size and the alignment the compiler computed.
* `C15_declare` (Verif/Scope/Props.lean): C15: declarations in a scope are accepted exactly if no name occurs twice.
* `C15_declareField` (Verif/Scope/Props.lean): C15: a field is accepted exactly if neither the record nor a base type has a field of that name.
* `C15_field` (Verif/Scope/Props.lean): C15: a field name means the record's own field, and otherwise what it means in the base type.
* `C15_find` (Verif/Scope/Props.lean): C15: looking up a name gives the declaration in the innermost scope that declares it.
* `C15_import` (Verif/Scope/Props.lean): C15: an imported name means the declaration in the module, except that private types are invisible.
* `C15_insert` (Verif/Scope/Props.lean): C15: a declaration in the innermost scope is reported exactly if that scope declares the name already; otherwise it becomes visible, and every other name keeps its meaning.
* `C16_no_merge` (Verif/FPrint/Props.lean): C16. Two starting fingerprints never merge: what is hashed afterwards cannot hide an earlier difference.
* `C16_one_value` (Verif/FPrint/Props.lean): C16, one 64-bit value. Exactly which pairs of values are confused: those for which the low word rotated by one and the high word have the same exclusive or.
* `C16_one_word` (Verif/FPrint/Props.lean): C16. Replacing exactly one word of the hashed data by a different one always changes the fingerprint, whatever comes before and after.
* `C16_small_value` (Verif/FPrint/Props.lean): Small non-negative values (modes, forms, characters, offsets, lengths) are never confused.
* `C17_bytes` (Verif/FileNum/PropsNum.lean): C17. Every byte written is a byte.
* `C17_encodes` (Verif/FileNum/PropsNum.lean): What `WriteNum` writes is an encoding of the number.
* `C17_prefix_free` (Verif/FileNum/PropsNum.lean): C17, prefix free. No encoding written is the beginning of the encoding of another number.
* `C17_roundtrip` (Verif/FileNum/PropsNum.lean): C17, round trip. Reading a number that was written, into a variable of `len` bytes that can hold it, delivers the number and consumes exactly the bytes written.
* `C17_shortest` (Verif/FileNum/PropsNum.lean): C17, shortest. No encoding of a number is shorter than the one `WriteNum` writes.
* `C18_int_partial` (Verif/FileNum/PropsFixed.lean): C18, INTEGER, default size model (16 bits). `ReadInt` delivers what `WriteInt` wrote.
* `C18_large_partial` (Verif/FileNum/PropsFixed.lean): C18 in the large size models (`-OC`, `-OV`): the values that fit in the bytes written, as unsigned numbers, come back.
* `C18_line` (Verif/FileNum/PropsFixed.lean): C18, lines. `ReadLine` on a line that ends with LF delivers the line, zero terminated; if the line does not end in CR nothing is stripped.
* `C18_line_crlf` (Verif/FileNum/PropsFixed.lean): C18, lines. CR LF line ends are stripped altogether.
* `C18_lint_partial` (Verif/FileNum/PropsFixed.lean): C18, LONGINT, default size model (32 bits).
* `C18_read_string` (Verif/FileNum/PropsFixed.lean): C18, strings, reading. A string with its 0X is read into any array that has room for it; what is beyond the 0X in the array is unchanged, and the rider stands after the 0X.
* `C18_real` (Verif/FileNum/PropsFixed.lean): C18, REAL and LONGREAL, as byte patterns: on either byte order, writing then reading is the identity, and the file contains the same bytes whatever the machine.
* `C18_set` (Verif/FileNum/PropsFixed.lean): C18, SET. In every size model `ReadSet` delivers what `WriteSet` wrote, for sets with elements in 0..31 (all sets when SET has 32 bits).
* `C18_string` (Verif/FileNum/PropsFixed.lean): C18, strings, round trip. `s ++ 0 :: t` is the array written, `x` the array read into.
* `C18_string_too_long` (Verif/FileNum/PropsFixed.lean): C18, strings too long. Reading a string that does not fit halts with an index error; no element beyond the array is assigned.
* `C18_write_string` (Verif/FileNum/PropsFixed.lean): C18, strings, writing. The bytes written are the string and one 0X, wherever the array ends.
* `C19_export_depth` (Verif/SymFile/PropsRoundtrip.lean): C19: the recursion bound of the model's exporter is never what stops it; a larger bound gives the same text or the same failure (too many types or too many modules).
* `C19_roundtrip` (Verif/SymFile/PropsRoundtrip.lean): C19. Importing an exported interface yields the same interface: there is a list `R` of type numbers, without duplicates, such that the importer's table of types holds, in the order of `R`, exactly the descriptions of those types, and the objects are the exported ones; every type an exported object mentions, and every type such a type mentions in turn, is in the table. Types are identified by their position, modules by name.
* `C20_disjoint` (Verif/Heap/PropsAlloc.lean): C20: in every history, the objects a program holds share no word with one another; each lies inside one of the regions obtained from the operating system, behind its header, and is aligned.
* `C20_lists` (Verif/Heap/PropsAlloc.lean): C20: in every history, a free block is in one of the lists from which blocks are allocated, unless its size is nine units; see `C20_lost`.
* `C20_new` (Verif/Heap/PropsAlloc.lean): C20: in every history, NEW of a record terminates. It changes no word of an object the program holds, no descriptor and no variable. Either it delivers a new object of the size the descriptor demands, which shares no word with an object the program holds and is cleared, or it delivers NIL; it delivers NIL only if the operating system, having provided the regions the heap then has, refuses one in which the object would fit.
* `C20_tiling` (Verif/Heap/PropsAlloc.lean): C20: in every history, the memory obtained from the operating system is divided completely into blocks in use and free blocks, one after the other; no two of them overlap. The objects of the program are blocks in use.
* `C21_mark` (Verif/Heap/PropsMark.lean): C21, one call of `Mark`: it terminates; the marked blocks are exactly those that were marked before or can be reached from the root through pointer fields; each tag word holds the block's tag, plus 1 if the block is marked; no other word of memory differs from what it was. The marked blocks stay closed under following pointers, so that the next call finds the same conditions.
* `C21_nil` (Verif/Heap/PropsMark.lean): `Mark(NIL)` does nothing.
* `C21_roots` (Verif/Heap/PropsMark.lean): C21, the mark phase from the global variables of the modules, starting with no block marked: exactly the blocks that can be reached from a root are marked.
* `C22_scan` (Verif/Heap/PropsScan.lean): C22: the sweep terminates; it leaves the chunks where they are (`chunks`) and the blocks tile them again; the live blocks are exactly the marked ones (`live`), with their contents as before (`contents`) and without the mark; all other storage is free, no two free blocks are adjacent (`NoAdjacentFree`), and each free block is in the list for its size, once; the count of allocated bytes is the size of the marked blocks; no word outside the blocks has changed.
* `C23_sort` (Verif/Heap/PropsStack.lean): C23: sorting neither loses nor duplicates a candidate, and puts them in ascending order.
* `C23_stack` (Verif/Heap/PropsStack.lean): C23: scanning the words of the stack, of any number and in any order, terminates; it marks exactly the blocks that can be reached from a block into which some word of the stack points (behind its tag word and before its end); nothing but marks is changed. `cap` is the length of the buffer for candidates, 10000 in the program.
* `C24_collect_partial` (Verif/Fin/Props.lean): C24, when: a collection in any history in which no finalizer makes the collector run. `xs` are the waiting nodes, whose objects are in the heap. The collection terminates. It calls the finalizer of a waiting node exactly if the object cannot be reached from the global variables and the stack, nor from the object of a node earlier in the list; the calls are in the order of the list. An object that can be reached from the program is never finalized. All the waiting objects, those finalized included, are still in the heap with the same contents. What is missing: finalizers that make the collector run, see `C24_twice`.
* `C24_finall_partial` (Verif/Fin/Props.lean): C24, at the end: if from some call on finalizers register no further finalizers, FINALL terminates after any history, and then the finalizer of every registration has been called exactly once. What is missing: finalizers that make the collector run.
* `C24_once_partial` (Verif/Fin/Props.lean): C24, at most once: in every history in which no finalizer makes the collector run, no finalizer is called twice, and none is lost: each registration, numbered from 1, is either among the calls or waiting in the list, not both. What is missing: finalizers that make the collector run, see `C24_twice`.
* `C25_freeAll` (Verif/Registry/Props.lean): Free with all = TRUE does nothing but report a failure.
* `C25_free_partial` (Verif/Registry/Props.lean): C25, unloading: Free terminates after any history. It succeeds (res = 0) exactly if a module with this name is in the registry and the last one registered has never been imported; then this module is no longer in the registry. All modules but this one stay as they were.
* `C25_others_partial` (Verif/Registry/Props.lean): Unloading one module leaves the modules with other names, and their commands, as findable as before.
* `C25_thisCommand_partial` (Verif/Registry/Props.lean): C25, commands: for a module in the registry ThisCommand delivers the command the module registered last under the name, with res = 0, or NIL with res = 2 if there is none.
* `C25_thisMod_partial` (Verif/Registry/Props.lean): C25, modules: after any history with short names, ThisMod delivers the module last registered under the name and not unloaded, with res = 0, or NIL with res = 1 if there is none. What is missing: names that do not fit, see `C25_long_names`.
* `C26_history_4096_partial` (Verif/Files/Props.lean): The sizes of the code: 4 buffers of 4096 bytes.
* `C26_history_partial` (Verif/Files/Props.lean): C26. Whatever calls a program makes, with any number of files and riders: what it sees (bytes, positions, lengths, numbers of bytes missing, the bytes on the disk after `Close`) is what it would see if files were lists of bytes, without buffers; and it is stopped only by a call that is illegal there. For every size and number of buffers. Partial: see `C26_eof_kept` for the flag `eof`, which the specification leaves open after a successful `Read`, and `C26_short_write` for disks that fill up.
* `C26_read_determined` (Verif/Files/Props.lean): The specification determines what is seen, apart from `eof` after `Read`, the disk of a file without name, and `eof`/`res` where a rider keeps them: in particular the bytes read and the bytes on the disk are determined.
* `C27_history_partial` (Verif/Names/Props.lean): C27, for fewer than 32768 operations. A program starts in the directory `cwd` with any disk on which different names stand for different files, and creates, opens, writes, closes, registers, deletes, renames and forgets files in any order; buffers are written to the disk at any time. What it and other programs see is what the specification says: in particular a file being written becomes visible under its name exactly by `Register`, with all its bytes, and never before; the file that had the name stays readable by those who have it open. What is missing: more operations (see `C27_temp_wrap`), files of which the operating system's numbers exceed 32 bits (see `C27_inode_truncated`), and renaming open files (see `C27_rename_stale`).
* `C28_texts_partial` (Verif/Texts/Props.lean): Any sequence of calls within the contract succeeds, and every call delivers what it delivers on lists of characters: the characters, looks and elements read, lengths, positions, the arguments of the notifier. Not covered: texts from files in the format of `Store`, and what is outside the contract (see below).
* `C29_hex_partial` (Verif/Console/Props.lean): C29, in part: `Out.Hex` writes for 0 ≤ x all digits, at least `n`, and for x < 0 the last `n` digits of its 64-bit pattern. What is missing: 16 digits, see `C29_hex_undefined`.
* `C29_hex_roundtrip_partial` (Verif/Console/Props.lean): C29: what `Out.Hex` writes, followed by `H`, is read back, for 0 ≤ x.
* `C29_int` (Verif/Console/Props.lean): C29: `Int` writes the decimal representation of every 64-bit number, right adjusted with spaces.
* `C29_narrow` (Verif/Console/Props.lean): C29: `In.Int` and `In.LongInt` assign the number if it fits in their `b` bytes.
* `C29_roundtrip` (Verif/Console/Props.lean): C29: what `Out.Int` writes is read back by `In.HugeInt`, for every 64-bit number and every width, whatever follows, if it does not start with a hexadecimal digit or `H`; the reading goes on behind the number. On a machine that wraps.
* `C29_write_hex` (Verif/Console/Props.lean): `Texts.WriteHex` writes a space and the last 8 hexadecimal digits of the number, for every number.
* `C29_write_int` (Verif/Console/Props.lean): C29: `Texts.WriteInt` writes the same, except for the smallest number.
* `C30_complete` (Verif/Console/Props.lean): C30: after Flush, Ln, a line end written by Char, and after every input, all that was written is delivered.
* `C30_history` (Verif/Console/Props.lean): C30: for every sequence of calls, the bytes delivered to standard output are the bytes written by the calls in order, except at most 128 of the last ones; no index is out of range and no byte is lost, doubled or moved.
* `C30_prompt` (Verif/Console/Props.lean): C30: whenever the program waits for a byte of input, all that it wrote before is delivered.
* `C31_append_partial` (Verif/Str/Props.lean): C31 (Append). The string appended is cut at the capacity of the destination; nothing else is changed; if there is room for it, a terminator is written. (If there is none, the string fills the array: see `C31_append_unterminated`.)
* `C31_cap` (Verif/Str/Props.lean): C31 (Cap). In a terminated string exactly the small letters are replaced, by the capital ones; the rest of the array does not change.
* `C31_delete` (Verif/Str/Props.lean): C31 (Delete). `n` characters from `pos` on (a negative position counts as 0) are deleted, or all there are; nothing behind the old string changes.
* `C31_delete_behind` (Verif/Str/Props.lean): C31 (Delete behind the end) changes nothing.
* `C31_extract_partial` (Verif/Str/Props.lean): C31 (Extract). The `n` characters from position `pos` on, or those there are, are copied, with a terminator, if they fit. The source must be terminated, unless less than its end is asked for.
* `C31_insert_behind` (Verif/Str/Props.lean): C31 (Insert behind the end). The documentation excludes such positions; the destination is not changed (the code tries to append, but with the arguments exchanged).
* `C31_insert_partial` (Verif/Str/Props.lean): C31 (Insert). For a position in the string (a negative one counts as 0), the source is inserted, and the result cut at the capacity of the destination; nothing else is changed, if the source itself fits behind the position. (If it does not: `C31_insert_trap`. As with Append, a result that fills the array is not terminated.)
* `C31_length_partial` (Verif/Str/Props.lean): C31 (Length). `Length` returns the number of characters before the first 0X, at most 32767, for every array.
* `C31_pos_partial` (Verif/Str/Props.lean): C31 (Pos). For a pattern that is not empty and a position that is not negative, Pos returns the first position from there on where the pattern occurs, or -1 if there is none.
* `C31_replace_partial` (Verif/Str/Props.lean): C31 (Replace). What Replace really does, for a position in the string where the source fits: `pos` characters too many are deleted. For position 0 this is what is documented.
* `C31_replace_zero_partial` (Verif/Str/Props.lean): What the documentation says of Replace: Delete(dst, pos, Length(src)), then Insert(src, pos, dst).
* `C32_match` (Verif/Str/Props.lean): C32. For all strings of at most 32767 characters, Match terminates and returns TRUE exactly if the string is the pattern with each `*` replaced by some sequence of characters.
* `C33_accepted_partial` (Verif/Control/Props.lean): C33. A CASE statement whose labels are 32-bit numbers, less than 2^31 apart, and whose branches have no errors is accepted exactly if its label ranges are legal: limits in order, no two ranges with a common number, in whatever order they are written, at most 128 ranges, and at most 512 from the smallest to the largest label. Missing: `C33_large_labels`, `C33_span`.
* `C33_duplicate` (Verif/Control/Props.lean): C33. After any legal ranges the next range is reported as a duplicate exactly if it shares a number with one of them; and nothing else is reported.
* `C33_limits` (Verif/Control/Props.lean): C33. In an accepted CASE statement the smallest and the largest label are computed exactly.
* `C33_switch` (Verif/Control/Props.lean): C33. The labels of the C switch of an accepted CASE statement are different, and they are exactly the numbers in the ranges.
* `C34_count` (Verif/Control/Props.lean): C34. How often: the body is executed for the i-th time (counting from 0) exactly if a + i * step does not pass b.
* `C34_for` (Verif/Control/Props.lean): C34. The C statements for `FOR v := a TO b BY step DO body END`: b is evaluated once, then a; the body, which does `g` and does not change v, is executed for v = A, A + step, … as long as B is not passed (`C34_count`), and v ends with the first value that passes B. Provided that A and B + step are representable in the type of v (`lo` to `hi`).
* `C35_all` (Verif/Control/Props.lean): C35. And all of them are dropped: what is left is the ELSE part, a branch, or an IF without constant conditions.
* `C35_effect` (Verif/Control/Props.lean): C35. Dropping branches with constant conditions leaves the effect of every IF statement unchanged: what is executed, and all effects of the conditions evaluated before.
* `C36_accepted` (Verif/Dispatch/Props.lean): C36, compile time: a test or guard is accepted exactly when the tested type is the static type or extends it; a guard is dropped only when the two are the same type, so that it could not fail.
* `C36_compiled_test` (Verif/Dispatch/Props.lean): C36, compile time: whatever `TypTest` makes of the test `x IS T1` on a variable of static type `t0`, a constant or a run-time test, its value for every possible dynamic type `d` of the variable is whether `d` extends `t1`.
* `C36_guard` (Verif/Dispatch/Props.lean): C36: a type guard passes exactly when the dynamic type extends the type of the guard, and halts (-5) otherwise; the guard of a record assignment passes exactly when the dynamic type is the static one, and halts (-6) otherwise.
* `C36_type_test` (Verif/Dispatch/Props.lean): C36. All descriptors of a program whose types are at most 15 levels deep get initialised without a halt, and then the run-time test of any dynamic type `d` against any type `j` (one load and one comparison) is true exactly when `d` is `j` or extends it.
* `C37_by_name` (Verif/Dispatch/Props.lean): C37 in the simplest terms, for programs that hide no method: the procedure a call runs is that of the first type, going from the dynamic type to its bases, which declares a method of that name.
* `C37_call_partial` (Verif/Dispatch/Props.lean): C37, the call itself: in module `mo`, `x.name(…)` on a variable of static type `t` means method `k` of type `i`. If the declaration that introduced that method is visible in `mo` too, then the compiler names that declaration's macro, and the call through it runs the most specific redefinition for every dynamic type `d` extending `t`.
* `C37_dispatch` (Verif/Dispatch/Props.lean): C37. After initialisation, a call of method `k` of type `t` on an object whose dynamic type `d` extends `t` runs the procedure of the most specific redefinition for `d`: the declaration going back to the same introduction in the first type, going from `d` to its bases, that has one.
* `C37_distinct` (Verif/Dispatch/Props.lean): C37: two methods of one type have different numbers.
* `C37_numbers` (Verif/Dispatch/Props.lean): C37. The methods available in a type `i` (its own and those of its bases) have numbers below `n i`, every number below `n i` belongs to one of them, and two of them have the same number exactly when they go back to the same declaration, that is when one redefines the other or both redefine a third.
* `C37_order` (Verif/Dispatch/Props.lean): C37: the numbers do not depend on the order in which the compiler meets the types.
* `C37_redefinition` (Verif/Dispatch/Props.lean): C37: a redefinition has the number of the method it redefines.
* `C37_super` (Verif/Dispatch/Props.lean): C37: a super call in a method of type `i` runs exactly the procedure which a call on an object of the base type would run, provided no exported method is redefined by a hidden one (the compiler reports that as error 109) and bases come from modules initialised no later.
* `C38_distinct_partial` (Verif/Horner/Props.lean): C38: different index tuples select different elements: if the C expressions for two tuples, checks included, have the same value, the tuples are the same.
* `C38_function_index` (Verif/Horner/Props.lean): C38 for indices that call functions (`__XF`): an expression that is evaluated selects the element the indices say, and all of them are within their dimensions.
* `C38_index_partial` (Verif/Horner/Props.lean): C38. For an array with any number of open dimensions and any lengths, and any number of indices that are not negative, the index expression of the generated C program halts exactly if one of the indices is not below its length; otherwise its value is the position of the selected element, or of the first element of the selected part, in row-major order.
* `C38_inside` (Verif/Horner/Props.lean): C38: the selected element, or the selected part, lies inside the array.
* `C38_part` (Verif/Horner/Props.lean): C38: a part of an array passed as a parameter: the element the called procedure selects with indices `b` in the part selected by `a` is the one all indices together select in the whole array.
* `C39_descriptor` (Verif/Ptrs/Props.lean): C39, and the link to C20 to C23: the descriptor of a record type, once the module is loaded, is one with which the storage manager works. `__INITYP` (src/runtime/SYSTEM.h 316-324) replaces the size by the size of a block.
* `C39_globals` (Verif/Ptrs/Props.lean): C39 for global variables: the addresses a module passes to the collector for a variable are exactly those of its traced pointers, each once.
* `C39_import_partial` (Verif/Ptrs/Props.lean): C39 for types imported from other modules: the offsets are those of the type in its own module, provided that the types of fields that are not exported contain no untraced pointers and no records with base types.
* `C39_layout` (Verif/Ptrs/Props.lean): C39. In a type laid out by the compiler (C13), there is one offset for each pointer, the pointers lie inside the type, do not overlap, and are aligned.
* `C39_offsets` (Verif/Ptrs/Props.lean): C39. The offsets in the type descriptor of a type are exactly the offsets of the traced pointers in it; their number is the one for which room is reserved in the descriptor, and the descriptor ends with the sentinel the collector expects after that many offsets.
* `C39_reexport` (Verif/Ptrs/Props.lean): C39: a type that passes through several modules: the third module sees what the second one sees, and fields that are not exported there hide the same pointers.
* `C40_halt` (Verif/Heap/PropsArr.lean): C40: a length that is zero or negative is reported: HALT(-20).
* `C40_new_partial` (Verif/Heap/PropsArr.lean): C40: in every history, NEW of an array terminates, with a new object that has room for the lengths, the elements and its table of pointers, and shares no word with an object the program holds. The lengths of the open dimensions are stored at its start, first dimension first, the elements are cleared, and the collector finds in the tag of the object the offset of every pointer in every element, and no other offset. Nothing else the program sees is changed. If the operating system refuses a region in which the object would fit, however, it stores through NIL (`none`).
* `C41_arguments` (Verif/Expr/Props.lean): C41. The arguments of a call are separated as in the source.
* `C41_one_reading` (Verif/Expr/Props.lean): C41. A sequence of tokens is the text of one expression of C only.
* `C41_structure` (Verif/Expr/Props.lean): C41. The text of an expression, read by the grammar of C, has the structure of the expression: whatever operators are nested, and whatever the text is an operand of (`p` is the precedence of the surrounding operator), every operator gets the operands it has in the source, and nothing is left over.
* `C41_tokens` (Verif/Expr/Props.lean): C41. No two tokens of the text run together.
* `C42_assign` (Verif/Const/PropsFold.lean): C42. Assignment of an integer expression is accepted exactly when the target type includes the source type.
* `C42_constant_type` (Verif/Const/PropsFold.lean): C42. The type given to an integer constant is the smallest of the types of 1, 2, 4 and 8 bytes that contains it.
* `C42_convert` (Verif/Const/PropsFold.lean): C42, conversion of constants: a constant converted to a type without an error message keeps its value, and fits the type (given that it fitted the old one).
* `C42_intSize` (Verif/Const/PropsFold.lean): C42. `IntSize` gives the least number of bytes that can hold the constant.
* `C42_min_max` (Verif/Const/PropsFold.lean): C42, MIN and MAX on a machine that wraps around: the bounds of the type. The computation of MAX of the 64-bit type overflows, so that C does not define it.
* `C43_string` (Verif/Scanner/PropsTokens.lean): C43, string literals. A string of at most 255 characters, none of them a control character or the quote it is enclosed in (`"` or `'`), is delivered unchanged; a string of one character is a character constant.
* `C43_string_unterminated` (Verif/Scanner/PropsTokens.lean): A string without its closing quote on the same line, or too long, is reported.
* `C43_token_stream` (Verif/Scanner/PropsTokens.lean): C43, token streams. Any sequence of tokens, each written in any of its spellings, separated by a blank (or line break) and any further blanks and nested comments: the scanner delivers exactly these tokens, then the end of the text, without an error.
* `C44_const_partial` (Verif/FPrint/Props.lean): C44, integer constants, partial: changing an exported non-negative constant below 2^32 to another such value changes its fingerprint. (See `C44_const_collision` for what is missing.)
* `C44_name` (Verif/FPrint/Props.lean): C44, names. Two names of the same length that differ in exactly one character have different fingerprints.
* `C44_param` (Verif/FPrint/Props.lean): C44, signatures. Turning a value parameter into a VAR parameter, or a parameter's type into one with a fingerprint that differs (and is not the complement), changes the fingerprint of the procedure.
* `C45_injective` (Verif/Emit/PropsIdent.lean): C45, distinct names. Different objects get different C names.
* `C45_not_keyword_partial` (Verif/Emit/PropsIdent.lean): C45, keywords. No emitted name is a keyword of C89, nor one of the type names `INT8` … `INT64`, `UINT16`, `UINT64`, `ADDRESS`.
* `C46_order` (Verif/Registry/Init.lean): C46: for a program whose imports are acyclic, starting it terminates; exactly the modules needed by the storage manager, the loader and the main module are initialized, each exactly once, and each after all the modules it imports. `log` is the order of the initializations, the last one first.
* `C46_registered` (Verif/Registry/Init.lean): C46 and C25: in the program started, if the names of the modules needed are short and distinct, every module can be found by its name, every command registered (with distinct names) by its module and name, and a module can be unloaded exactly if no module of the program imports it.
* `C47_history` (Verif/Console/Props.lean): C47: for every input and every sequence of calls, the results are those of reading the input from its begin to its end as the specification says: no character is lost or read twice. At most one character more is requested than was read.
* `C47_interactive` (Verif/Console/Props.lean): C47: a call that reads up to the end of a line requests nothing behind it, so a program at a terminal goes on when the line is complete.
* `C47_strict` (Verif/Console/Props.lean): The theorems above are about a machine whose 64-bit arithmetic wraps. If no operation of the history is undefined in C, a machine that follows the C standard only does the same.
* `C48_exit` (Verif/Control/Props.lean): An EXIT outside LOOP is an error.
* `C48_fuel` (Verif/Control/Props.lean): C48. The number of iterations allowed does not matter: what ends, ends in the same way with more.
* `C48_labels` (Verif/Control/Props.lean): C48, the C text. Labels in a C function are different, every `goto` has its label in the function, and every `break` is in a loop or a switch.
* `C48_translation` (Verif/Control/Props.lean): C48. For every accepted statement sequence whose CASE labels are 32-bit numbers: the generated C statements end, with the same kind of end, in the same state and with the same trap, exactly if the statements do; no `break` or `goto` leaves them. `t`: whatever the variables `@for` hold at the start.
* `C49_plain` (Verif/Eval/Props.lean): C49, without exceptions. For expressions of numbers, characters, truth values, sets, pointers, fields, lengths and calls, joined by arithmetic, relations, AND, OR and most operators on sets, nothing is excluded.
* `C49_value_partial` (Verif/Eval/Props.lean): C49, with the deviations excluded by `Calm`. The text generated for an expression, read as C, has the value of the expression, after the same calls with the same arguments in the same order, or stops the program with the same code; whatever the expression's size, the declarations, the values of variables, the compiler's options, and the surrounding operator are.
* `C50_complete` (Verif/Parse/Props.lean): C50, completeness. A text that begins with the symbols of a module is read without an error, and the tree is that of the module; any number of steps is enough from some number on.
* `C50_decides` (Verif/Parse/Props.lean): C50, decision. For every sequence of symbols: an error is reported unless it begins with the symbols of a module, and otherwise none is, and the tree is that of the module.
* `C50_sound` (Verif/Parse/Props.lean): C50, soundness. When the parser reports no error, the tree it returns is put together as the grammar says, and the symbols read are those of the tree, up to the period at its end, which the parser sees and leaves.
* `C50_text` (Verif/Parse/Props.lean): C50, texts. A module written as text, each symbol in any of its spellings and with any blanks and comments between them, is delivered by the scanner and read by the parser as this module, with whatever text after it.
* `C50_unambiguous` (Verif/Parse/Props.lean): C50, unambiguity. No text begins with the symbols of two different modules: the grammar, with the answers of the symbol table, gives every text one tree at most.
* `C51_terminates` (Verif/Parse/Props.lean): C51, termination. On every sequence of symbols, and whatever the symbol table says, the parser comes to an end, with calls nested no deeper than in proportion to the length of the text; allowing more changes nothing.
* `C52_place` (Verif/Nest/Props.lean): C52, the step behind it: in an activation with its environment, a variable denotes the same place in the C function.
* `C52_restores` (Verif/Nest/Props.lean): C52: a call leaves the records and pointers of the activations before it, and the global pointers, as they were.
* `C52_same` (Verif/Nest/Props.lean): C52. For every program whose variables and procedures are declared where they are used, and every initial contents of the variables: the generated C program and the program end in the same way, with the same contents of all variables, or both do not end (within any number of steps), however procedures are nested, however they call each other and themselves, and whichever variables of enclosing procedures they use or hand on as VAR parameters. If the module body comes to its end, all pointers `P_s` are as they were at the start.
* `C53_assign` (Verif/Types/Props.lean): C53, assignments: if the check of `x := e` ends, it reports nothing exactly if the expression is assignment compatible with the type of the variable.
* `C53_match` (Verif/Types/Props.lean): C53, matching parameters: if the check of two lists of parameters ends, it reports nothing exactly if they match (and for a forward declaration, if the names agree too).
* `C53_match_ends` (Verif/Types/Props.lean): C53, matching parameters: the check ends, if procedure types do not contain themselves as types of parameters (or of parameters of parameters, and so on): then there is a rank that falls from a procedure type to those of its parameters.
* `C53_value_param` (Verif/Types/Props.lean): C53, value parameters: if the check ends, nothing is reported exactly if the actual parameter is assignment compatible with the type of the formal parameter or, for an open array, array compatible with it.
* `C53_var_param` (Verif/Types/Props.lean): C53, VAR parameters: nothing is reported exactly if the actual parameter is a variable that can be written and stands for one of the type of the formal parameter.
* `C54_safe_partial` (Verif/Safe/Props.lean): C54, in part: a program that the compiler accepts never follows a pointer that does not point to a record, and never reads or writes a field that the record at hand does not have; it may stop with a trap (NIL, a guard, HALT). Missing: local variables that are records with pointers in them (`C54_local_record` shows that it fails for them), arrays, procedure variables, SYSTEM.
* `C54_types_partial` (Verif/Safe/Props.lean): C54, in part: at the end every pointer variable is NIL or points to a record whose type is an extension of the declared one, and so do the pointers in all records. Missing: as for `C54_safe_partial`.
* `C55_adler_partial` (Verif/Sums/Props.lean): C55 (partial). `Adler32(adler, buf, offset, len)` continues the checksum `adler` with the given bytes as RFC 1950 says, if there are at most 3854 bytes, or any number of bytes up to 115. Missing: other data, for which the sums overflow (`C55_adler_overflow`).
* `C55_crc` (Verif/Sums/Props.lean): C55. `CRC32(0, buf, offset, len)` is the number of 32 bits whose complement is the remainder the standard defines; there is no other.
* `C55_crc_burst` (Verif/Sums/Props.lean): C55. Two different messages of the same length that differ only within 32 consecutive bits have different checksums.
* `C55_crc_pieces` (Verif/Sums/Props.lean): C55. The checksum can be computed piece by piece.
* `C56_decode` (Verif/Utf/Props.lean): C56. If the bytes of a character stand at `p` then `UTF8toUCS(utf8, p, ucs)` returns TRUE, gives the character and moves `p` behind them.
* `C56_encode` (Verif/Utf/Props.lean): C56. `UCStoUTF8(ucs, utf8, pos)` writes the bytes of RFC 2279 and a 0X at `pos`, and moves `pos` behind them; if there is no room for all of them it returns FALSE and changes nothing.
* `C56_roundtrip` (Verif/Utf/Props.lean): C56. A text that is encoded and decoded is the same text.
* `C56_text_decode` (Verif/Utf/Props.lean): C56. `UTF8toUCS4(utf8, ucs4, idx)` puts the characters of an encoded text that ends with 0X, and a 0, from `idx` on, if there is room for them.
* `C56_text_encode` (Verif/Utf/Props.lean): C56. `UCS4toUTF8(ucs4, utf8)` writes the text in `ucs4` up to its first 0 or its end, encoded and followed by 0X, if `utf8` has room for it.
* `C57_add_clock` (Verif/Dates/Props.lean): C57. `AddHour`, `AddMinute` and `AddSecond` move a time of the day around the clock.
* `C57_add_day_partial` (Verif/Dates/Props.lean): C57 (partial). `AddDay` moves a date by a number of days within 1901 and the 28th of February 2100.
* `C57_add_month` (Verif/Dates/Props.lean): C57. `AddMonth` gives the same day, or the last day, of the month that many months away; before 1901 it gives the date back.
* `C57_add_time_partial` (Verif/Dates/Props.lean): C57 (partial). `AddTime` moves a date and time by any number of seconds, within 1901 and the 28th of February 2100.
* `C57_add_year` (Verif/Dates/Props.lean): C57. `AddYear` gives the same day, or for the 29th of February the 28th, of the year that many years away; before 1901 it gives the date back.
* `C57_all_days` (Verif/Dates/Props.lean): Every day of 1901 to 2100 is the day of some number, so the theorems above speak of all of them.
* `C57_date_partial` (Verif/Dates/Props.lean): C57 (partial). `NumberOfDaysToDate` gives the date of every day up to the 28th of February 2100. Missing: later days (`C57_date_2100`).
* `C57_hms` (Verif/Dates/Props.lean): C57. `ToTime` and `ToHMS` are inverse to each other.
* `C57_number_partial` (Verif/Dates/Props.lean): C57 (partial). `NumberOfDays` counts the days since the 1st of January 1901 up to the 31st of December 2100. Missing: later days (`C57_number_2101`).
* `C57_weekday_partial` (Verif/Dates/Props.lean): C57 (partial). `DayOfWeek`, up to the 31st of December 2100.
* `C57_ymd` (Verif/Dates/Props.lean): C57. A date is taken apart into the year, month and day it was made of.
* `C58_add` (Verif/LongInts/Props.lean): C58. `AddDigit(w, k)` adds `k`, exactly, if the first element is free to take the carry.
* `C58_base_power` (Verif/LongInts/Props.lean): C58. `BPower(x, p)` shifts by `p` digits: it multiplies by the `p`-th power of 8000H if the product fits, and for negative `p` divides and drops the fraction.
* `C58_div` (Verif/LongInts/Props.lean): C58. `DivDigit(w, digit, r)` divides by `digit` and gives the remainder, exactly.
* `C58_mult` (Verif/LongInts/Props.lean): C58. `MultDigit(w, digit, k)` multiplies by `digit` and adds `k`, exactly, if the first element is free to take the carry.
* `C58_ten_power` (Verif/LongInts/Props.lean): C58. `TenPower(x, p)` multiplies by the `p`-th power of ten, exactly, if the product fits; for negative `p` it divides and drops the fraction.
* `C59_next` (Verif/Random/Props.lean): C59. From a legal state the next is 16807 times it modulo 2³¹ − 1; nothing overflows, and it is legal again.
* `C59_period` (Verif/Random/Props.lean): C59. The generator has full period: from any legal state, each legal state comes exactly once in 2³¹ − 2 calls, and then the sequence starts again.
* `C59_range` (Verif/Random/Props.lean): C59. `RND(range)` returns a number from 0 to `range - 1`: the next of the sequence modulo `range`.
* `C59_seed` (Verif/Random/Props.lean): C59. Any LONGINT may be a seed; one that is not a multiple of 2³¹ − 1 stands for its remainder.
* `C59_sequence` (Verif/Random/Props.lean): C59. Any number of calls gives the numbers of the sequence.
* `C59_uniform_partial` (Verif/Random/Props.lean): C59. `ethRandomNumbers.Uniform` steps in the same way, so that from a legal seed the quotient it shortens is strictly between 0 and 1.
* `C60_close_open_partial` (Verif/TextFiles/Props.lean): C60. A text that was closed is the same when it is opened.
* `C60_load_partial` (Verif/TextFiles/Props.lean): C60. `Load` at a stored text is `Load0`, unless the first two bytes, which are the low bytes of the length of the header, are those of the old tag: then it skips them. So texts whose header has 0F001H bytes, or that many more than a multiple of 10000H, are excluded.
* `C60_store_load_partial` (Verif/TextFiles/Props.lean): C60. A stored text can be loaded again, wherever in a file it is: the characters, the elements with all they stored, the colours and the offsets are the same, `T.len` is their number, and the rider stands after the text. Missing: the fonts, which `Load0` reads and drops; texts with more than 30 fonts, CR LF, or more than 62 kinds of elements.
* `C61_hex` (Verif/Scan/Props.lean): C61. A hexadecimal number, a decimal digit and up to 31 hexadecimal digits, upper or lower case, before an `H`, has the value its last 32 bits have as a LONGINT.
* `C61_large_exponent` (Verif/Scan/Props.lean): C61. A real number whose exponent is larger than 38, or 308 after D, stops the program.
* `C61_last_token` (Verif/Scan/Props.lean): C61. The last token need not be followed by anything: it is found at the end of the text too, and the scanner is then at 0X.
* `C61_tokens` (Verif/Scan/Props.lean): C61. Scanning a text of tokens separated by blanks finds the tokens, one per call, in order; after them it finds 0X, and the line number is the number of ends of lines in the text.
* `C61_written` (Verif/Scan/Props.lean): C61. Integers from -(2³¹ − 1) to 2³¹ − 1 that `WriteInt` wrote, in whatever width, with a blank after each, are found again.
* `C62_in` (Verif/Opers/Props.lean): `x IN y`: an integer and a set, and a constant element has to be in the range of the set's type.
* `C62_one_operand` (Verif/Opers/Props.lean): Where only one operand is left in the tree, it has the value of the whole expression: for all values of the operands, which for constants are theirs, and 0 or 1 for Booleans.
* `C62_operators` (Verif/Opers/Props.lean): The property: the compiler accepts `x o y` without an error exactly where the report's tables allow it, and the expression then is of the type they give; for all tables of types, operators, operands, and types of constant results.
* `C62_sets` (Verif/Opers/Props.lean): The elements of sets: integers, constants from 0 to 63; ranges of constants go up.
* `C62_unary` (Verif/Opers/Props.lean): Operators with one operand, and ABS, CAP and ODD: accepted exactly where the report allows them, with the type it gives.
* `C62_zero` (Verif/Opers/Props.lean): Division by a constant zero is reported, of integers always, of reals unless the dividend is a constant 0.0.
* `C63_predeclared` (Verif/Predecl/Props.lean): The property: the compiler accepts a call of a predeclared procedure without an error exactly where the report's tables allow it (with what is marked in the specification as beyond the report), and its result is of the type they give; for all tables of types, procedures, and lists of arguments of any length.
* `C64_finite` (Verif/Decls/Props.lean): C64, no type contains itself. When the declarations of a block have been accepted, the types — those there were and those declared — contain, as elements, fields and base types, only types that are built up from types without parts in finitely many steps.
* `C64_inherited_partial` (Verif/Decls/Props.lean): C64, inherited fields. When the declarations of a block in which no record is extended within its own declaration (`NoInner`) have been accepted, no field of a new record has the name of a field of its base type, or of what that extends.
* `C64_lengths` (Verif/Decls/Props.lean): C64, the lengths of arrays. All lengths of arrays in the declarations of an accepted block are from 1 to the largest the compiler takes.
* `C64_meaning` (Verif/Decls/Props.lean): C64, what a type declaration declares. When the declarations of a block have been accepted, every declared name of a type stands for a type that is what its declaration says: with names standing for what is visible there, and pointers possibly to types declared later.
* `C64_names` (Verif/Decls/Props.lean): C64, no name twice. The names declared in an accepted block are different from each other and from those the scope had; so are the own fields of each new record.
* `C64_old` (Verif/Decls/Props.lean): C64, what was there stays. The declarations of a block change no type that was there before, nor what its names stand for.
* `C64_variables` (Verif/Decls/Props.lean): C64, what a declaration of variables declares. All variables of the list have one type, it is what the declaration says, and it is no open array.
* `C64_wf_partial` (Verif/Decls/Props.lean): C64, well-formed types. When the declarations of a block without open arrays of themselves (`Plain`) have been accepted, the table of types is as the rules for types (C53, C54, C62, C63) suppose, and further blocks can follow.
* `C65_header_partial` (Verif/CDecl/Props.lean): C65, procedures: the header written for a procedure is read as the declaration of a function of its name, whose result is that of the procedure and whose parameters are as in `cparams`, with their names: values and arrays as they are, other variable parameters and open arrays by pointers, lengths and tags after them. Partial: without the two kinds of parameters named above.
* `C65_one_reading` (Verif/CDecl/Props.lean): C65, one meaning: a text is read in one way only, so the readings above are the only ones.
* `C65_variables_partial` (Verif/CDecl/Props.lean): C65, variables: let there be variables, each with a name, the number of its type and the type (same numbers are the same type), of any legal types that are not open arrays; `sd` tells whether the list is that of a structure with pointers to variables of an outer procedure. The text written for them is read as declarations of just these names, in this order, each with the type of C for its type (or the pointer to it). Partial: procedure types with the two kinds of parameters named above are excluded (`Calm`).
* `C66_partial` (Verif/CDefs/Props.lean): C66: for every module in which no type is needed for itself (`Module`: the records without names listed with those needed for others first, as the compiler lists them when it has read them), the generation of the type definitions and the declarations of variables ends; no error is reported; in the text written, every name of a type is defined before it is used, every structure is defined before its size is needed, and none is defined twice; and every type with a name is defined.
* `C67_case` (Verif/Procs/Props.lean): C67, a concrete case: the module is accepted, so it obeys the rules.
* `C67_one_body` (Verif/Procs/Props.lean): C67: in a module that is accepted every ordinary procedure has exactly one declaration that is not a forward declaration; forward declarations stand before it and agree with it.
* `C67_one_method` (Verif/Procs/Props.lean): C67: two declarations in an accepted module of the same procedure bound to a type: the one that stands before is a forward declaration of the other, and they agree. So there is at most one body.
* `C67_procedures_partial` (Verif/Procs/Props.lean): C67: the compiler reports no error in the procedure headings of a module if and only if they obey the rules: in every block, at any depth, names are declared once; a procedure follows forward declarations that agree with it and is not missing; procedures bound to types are bound to record types of the module, do not have the name of a field, and have the parameters and results of the procedures they redefine, which stand before them.
* `C67_redefinition` (Verif/Procs/Props.lean): C67: in an accepted module a procedure bound to a type can be called like every procedure of that name bound to a type that it extends, here or in an imported module, in whatever order they are declared. So a call through a pointer or VAR parameter of the base type hands over what the procedure that is called at run time expects.
* `C68_enter_partial` (Verif/Arrays/Props.lean): C68: when a procedure is called, value parameters that are arrays become copies with the value of the actual parameter, VAR parameters are the actual parameters, and open arrays have the right lengths; memory that was in use is not changed, and no two copies share memory. Procedures nested in it find the same arrays, with the length of the first dimension. Missing: the lengths of further dimensions in nested procedures (`C68_nested_lengths`), actual parameters shorter than the formal one (`C68_shorter`).
* `C68_len` (Verif/Arrays/Props.lean): C68: `LEN(v, dim)`, and every length the compiler writes for an array `v`, is the length of `v`.
* `C68_rooted_partial` (Verif/Arrays/Props.lean): C68: in the procedure that is called, and for arrays with one open dimension also in procedures nested in it, `C68_len` applies to its parameters: lengths are held.
* `C69_accept` (Verif/SymUpdate/Props.lean): C69, acceptance. A correct module is compiled exactly if a symbol file can be written for it and, if there is an old one (and `-F` is not given): without `-s`, all that the old file exports is still exported with the same fingerprints and the types it describes are the same (`Kept`); without `-s` and `-e`, nothing new is exported either.
* `C69_extended` (Verif/SymUpdate/Props.lean): C69, extension. A module compiled without `-s` and `-F` still has in its symbol file all that was exported before, with the same fingerprints.
* `C69_file` (Verif/SymUpdate/Props.lean): C69, the file. After a module is compiled its symbol file, unless it is a main program, exports exactly what the module exports, with its fingerprints; and the file is well formed.
* `C69_history_partial` (Verif/SymUpdate/Props.lean): C69, histories. In any history of compilations without permission, whatever the texts of the module, its symbol file stays the same, and all versions that are compiled export the same objects with the same fingerprints. Partial: only while no compilation fails after the symbol file is looked at, see `C69_refused_twice`.
* `C69_unchanged` (Verif/SymUpdate/Props.lean): C69, no permission. A module compiled without `-s`, `-e`, `-F` and `-m` keeps its old symbol file.
* `C70_cc` (Verif/Cmdline/Props.lean): C70, the C compiler. When the C compiler fails, the exit status of `voc` is the exit status of the C compiler, or the signal that ended it; when it succeeds, the next file is compiled.
* `C70_every_argument` (Verif/Cmdline/Props.lean): C70, any argument. Every argument that begins with a hyphen is a list of items: so `C70_options` speaks of all command lines.
* `C70_every_command_line` (Verif/Cmdline/Props.lean): C70, any command line. Lists of arguments are command lines.
* `C70_exit_partial` (Verif/Cmdline/Props.lean): C70, exit status. If all files are there, the exit status is 0 exactly if all of them have been compiled, with their C texts. Partial: a file that is not there is not an error, see `C70_missing_file`.
* `C70_options` (Verif/Cmdline/Props.lean): C70, options. Whatever the command line, files are compiled in the order in which they are given, each with the settings that the options for all files and its own ask for, and nothing else is done: options of other files have no effect. If nothing fails, all files are compiled, their C texts are compiled and linked as the options say, and the exit status is 0.
* `C70_sizes` (Verif/Cmdline/Props.lean): C70, size models. The sizes (in bytes) of SHORTINT, INTEGER, LONGINT and SET are those of the usage text; for an unknown model they are those of the default.
* `C71_distinct_partial` (Verif/CNames/Props.lean): C71, main part. In the C text of a legal module any two names that are visible together, outside of functions or in one, are different: nothing hides or redeclares another thing. Partial: the records without names are left out (`C71_anonymous`), and the numbers must fit into an INTEGER.
* `C71_escape` (Verif/CNames/Props.lean): C71: what is done to the name of a variable: nothing, or an underscore is added; this only for words in the table; and different variables keep different names.
* `C71_keywords_partial` (Verif/CNames/Props.lean): C71, keywords: no name in the C text of a legal module is a keyword of C or the name of a basic type. Partial: except that a local variable or parameter can be called `UINT8` or `UINT32` (`C71_lost`).
* `C71_macro_partial` (Verif/CNames/Props.lean): C71, calls of procedures bound to types: the names in the body of the macro are its parameters. Partial: if the names have at most 31 characters (`C71_long`) and the receiver does not have the name of a C keyword (`C71_receiver`).
* `C71_members_partial` (Verif/CNames/Props.lean): C71, records: the members of the record that a procedure shares with those inside it also have different names. Partial: unless a variable or parameter is called `lnk` (`C71_link`).
* `C72_assign_partial` (Verif/Assign/Props.lean): C72, arrays, strings and records. For every assignment the compiler accepts, whatever the state of memory: the generated statement gives the variable exactly the value of the right side and changes nothing else. Of an extended record only the fields of the type of the variable are copied, a shorter array or string leaves the elements behind it. The variables on both sides must not overlap (for records they may be the same; see `C72_self`), the variable must have its declared type when the program runs (see `C72_guard`), and must not be a VAR parameter with a type guard (see `C72_var_guard`) or a guarded pointer to a record without name (see `C72_anonymous_guard`).
* `C72_guard` (Verif/Assign/Props.lean): C72, the check: an assignment to a VAR parameter or to `p^` whose type is named, but which has another type when the program runs, stops the program with the trap 6 and changes nothing.
* `C72_inc` (Verif/Assign/Props.lean): C72, INC and DEC: whenever the result fits the type of the variable, the variable gets it and nothing else changes.
* `C72_incl` (Verif/Assign/Props.lean): C72, INCL and EXCL: for every element that the set can have, exactly this element is included or excluded, and nothing else changes.
* `C72_move` (Verif/Assign/Props.lean): C72, SYSTEM.MOVE: areas that do not overlap are copied, and nothing else changes.
* `C72_simple` (Verif/Assign/Props.lean): C72, basic types: every accepted assignment to a variable of a basic type stores the value - the same integer or set when the variable is larger - and changes no byte outside the variable.
* `C73_line_partial` (Verif/ErrPos/Props.lean): C73, the line: whatever errors were reported before, for every text and every position in it that is not the first of a line, the line shown is the one with this position: its number, its text (the first 1022 characters), with the arrow under the position. For the first position of a line see `C73_first_column`.
* `C73_reports_partial` (Verif/ErrPos/Props.lean): C73, all reports of a compilation, in any number and order: the compilation counts as free of errors exactly if all reports were warnings; every warning is shown, and every error too, unless a shown error lies at most 9 positions before it; what is shown is the line with the position, if this is not the first position of the line.
* `C73_some_error` (Verif/ErrPos/Props.lean): C73: a compilation with an error shows at least one.
* `C74_capacity` (Verif/Imports/Props.lean): C74, reading the imports ends normally exactly if at most 64 modules are involved: the module compiled, those imported and those whose types they mention. (With more of them, an index is out of range.)
* `C74_export` (Verif/Imports/Props.lean): C74, private parts. Exporting named types of other modules reports no error exactly if there was none, and there are no versions of one of them with different private parts among the files imported.
* `C74_imports_partial` (Verif/Imports/Props.lean): C74, errors. Importing reports no error exactly if none of the files belongs to the module compiled or mentions it, and all versions of each named type, in all the files, have the same public fingerprint. Error 154 is reported exactly if a file belongs to or mentions the module compiled, error 249 only if there are versions of a type with different public fingerprints.
* `C75_directory_partial` (Verif/PathSearch/Props.lean): C75, names with a directory. A name of at most 255 characters that contains a slash is looked up as it is, whatever the search path is.
* `C75_dirs` (Verif/PathSearch/Props.lean): C75, directories. For every search path and home directory that fit into the arrays, the first calls of `ScanPath` give the directories between the semicolons, without blanks around them and with `~` replaced, in their order; then the empty string is given.
* `C75_empty` (Verif/PathSearch/Props.lean): C75, no search path. An empty search path is the same as none.
* `C75_old_partial` (Verif/PathSearch/Props.lean): C75, Old. For every search path and home directory and each name without a directory, `Old` returns the first file of this name that can be opened in the directories of the path, in their order, and `NIL` if there is none. Without a search path, or without a directory in it, it is looked up in the current directory. All this if names fit into the arrays, no directory of the path is the root or empty (after `~` has been replaced), and the limit of open files has not been reached.
* `C76_chunks` (Verif/MD5/Props.lean): C76, chunks. The digest depends only on the bytes written, for all messages: not on how they are divided into calls of `Write` and `WriteBytes`, and not on what the array of the context held before.
* `C76_hex` (Verif/MD5/Props.lean): C76, hexadecimal. `ToString` writes two hexadecimal digits for each byte of a digest, with lower case letters, and a 0X: from the characters the byte can be read back.
* `C76_md5_partial` (Verif/MD5/Props.lean): C76, MD5. For every message of less than 2^29 bytes, written by any sequence of calls of `Write` and `WriteBytes`, the digest is the one of RFC 1321.
* `C77_ends` (Verif/Ending/Props.lean): If only finitely many finalizers register others, the process ends.
* `C77_finalizers` (Verif/Ending/Props.lean): Whatever a program, its finalizers and the checks that fail do, however often `HALT` is executed, also in finalizers: if the process ends with a status, every finalizer registered, also by other finalizers, has been started exactly once.
* `C77_order` (Verif/Ending/Props.lean): If finalizers register no others, the last one registered runs first.
* `C77_quiet_partial` (Verif/Ending/Props.lean): For every schedule of signals, if handlers neither register finalizers nor end the program: every finalizer registered has been started exactly once.
* `C77_signals_partial` (Verif/Ending/Props.lean): For every schedule of signals, if handlers register no finalizers: no finalizer is started twice, and none that was not registered. Missing: handlers that end the program or register finalizers, see `C77_lost` and `C77_twice`.
* `C77_status` (Verif/Ending/Props.lean): For every schedule of signals and whatever handlers do: if the process ends with a status, it is that of the event that ended the program last, or 0 if there was none; the output is the text written with `Out`, in order, up to some characters since the last line that are still in the buffer, followed by the message that explains the event.
* `C77_success` (Verif/Ending/Props.lean): The codes that the compiler and the run-time system use: the process reports success exactly if the program reached the end of its main module or executed `HALT(0)` last.
* `C78_done` (Verif/Outputs/Props.lean): A compilation without errors writes the translation; the old object file is gone, and so are the other files if it is a main program. The symbol file is missing only if there was none and the same one is found elsewhere on the search path.
* `C78_failed` (Verif/Outputs/Props.lean): A compilation with errors leaves the header file and the C file alone, and keeps or removes the symbol file; one that fails before it writes the C text leaves the object file, too; one that fails before it looks at the interface changes nothing unless it is forced.
* `C78_linked` (Verif/Outputs/Props.lean): If the object file is linked, it, the C file, the header file and the symbol file are the translation of one text.
* `C78_object` (Verif/Outputs/Props.lean): Whatever compilations of a module are tried, with whatever errors and options, each interrupted after any number of steps or not: if there is an object file then, it, the C file and the header file are the translation of one of the texts, and the symbol file is that of this text or is missing.
* `C78_parse` (Verif/Outputs/Props.lean): A text with errors changes no file.
* `C78_pieces_partial` (Verif/Outputs/Props.lean): After a crash each file is as it was, or missing, or holds a number of pieces of the new file; files of more than four pieces are never left incomplete. Partial: shorter files may be, see `C78_short`.
* `C79_bound_partial` (Verif/Linkage/Props.lean): C79 (bound procedures). The header file declares the exported bound procedures of exactly the types that it declares, and exactly the exported ones can be seen by other files.
* `C79_declared_partial` (Verif/Linkage/Props.lean): C79 (declared). Whatever the statements of a module may use - its own and imported variables and procedures, types and type descriptors, bound procedures, the start of imported modules - is declared in its C file before its procedures, or in a header file that is included, directly or by others. This is for programs in which other names are exported only for own exported types, exported open array types have elements of own types, procedures are not marked with `-` and interrupt procedures not exported, and for modules without interrupt procedures and without procedures that are assigned to variables and no longer exported.
* `C79_defined_partial` (Verif/Linkage/Props.lean): C79 (defined). Whatever a module may use is defined in exactly one C file, that of its module, with one linkage, and if this is another file, it is not `static` there: linking finds it.
* `C79_headers_partial` (Verif/Linkage/Props.lean): C79 (headers). Every type that a header file mentions is declared in it or in a header file that it includes, directly or by others: a header file can be included on its own.
* `C79_interface_partial` (Verif/Linkage/Props.lean): C79 (interface). The header file of a module declares exactly the variables and procedures that are exported, and exactly these can be seen by other files when the program is linked: those not exported are `static`, so that files do not clash.
* `C79_linkage_partial` (Verif/Linkage/Props.lean): C79 (linkage). In a C file with its header files no name is both `static` and `extern`.
* `C79_removed` (Verif/Linkage/Props.lean): C79 (removed). Procedures that are only in the old symbol file leave no trace in the new files.
* `C80_depth_partial` (Verif/BTree/Props.lean): C80: after any sequence of calls a search looks at `d` pages at most, where `2 * (N + 1) ^ (d - 1)` is not more than the number of keys plus one, if there is more than one page to look at.
* `C80_map_partial` (Verif/BTree/Props.lean): C80: every sequence of calls on a new tree, of any length, returns what the same calls on a map return, for pages of any size. `f` allows for one more nested call than there are calls. Missing: enumerations up to the least of all keys; the variable `h` of the procedure that deletes being something else than `FALSE`; the file and the cache of pages.
* `C80_pages_partial` (Verif/BTree/Props.lean): C80: after any sequence of calls no page has more than `2 * N` entries, and all but the first have at least `N`; all ways down end at the same depth (`Bal`).
* `C80_present_partial` (Verif/BTree/Props.lean): C80: where only keys are deleted that are there, the variable `h` of the procedure that deletes may be anything.
* `C81_given_partial` (Verif/Vmake/Props.lean): The order in which the names are given does not decide whether there is an answer.
* `C81_order_partial` (Verif/Vmake/Props.lean): C81 (partial). For all files of well-formed modules, in whatever order they are given, the tool prints names if and only if no module imports itself directly or through others; then it prints every name exactly as often as it was given, and every module after all those of the given modules that it imports. Missing: if there is a cycle, it does not say so (`C81_cycle`), and the word `IMPORT` in a comment misleads it (`C81_comment`).
* `C82_directory_partial` (Verif/BinDir/Props.lean): C82 (partial). If none of the names under which a shell looks for the program exists, the directory of the program is the empty string; otherwise it is a directory in which the first of those that exist is found: appending a slash and some name to it gives a path that names the same file from everywhere. Missing: `Usual` (see `C82_empty_element`, `C82_colon`); the shell looks for programs only, not for any file (`C82_not_program`).
* `C82_install` (Verif/BinDir/Props.lean): The directory of the installation: the first that holds the three files of the directory next to the program, and of the directory above that of the program; otherwise the configured one.
* `C82_no_argument` (Verif/BinDir/Props.lean): Without the argument the variable keeps its value.
* `C82_number_partial` (Verif/BinDir/Props.lean): An argument that is a number (with or without a sign, and whatever follows the digits) gives this number; without digits, or without the argument, the variable keeps its value.
* `C82_position_partial` (Verif/BinDir/Props.lean): The position of an argument is the first place where it stands, or the number of arguments if it does not occur; for arguments of less than 256 characters.
* `C82_trim_partial` (Verif/BinDir/Props.lean): C82 (partial). Removing empty parts and dots from a path never changes which file it names, from whatever directory and in any file system (links included, as `..` is kept). Missing: paths with backslashes, which are turned into slashes (`C82_backslash`).
* `C83_order_partial` (Verif/TDInit/Props.lean): C83, order. When the declarations of a block in which no record is extended within its own declaration (`NoInner`) have been accepted, the list of type descriptors to initialise has each record declared in the block — also those without a name — exactly once and nothing else, and each stands after the record it extends.
* `C83_start_partial` (Verif/TDInit/Props.lean): C83, start. Let the blocks of a module be accepted, no record extended within its own declaration and none of a level above 15, and let the descriptors of the records there were — those of imported modules — be ready. Then the start of the module initialises all descriptors without using one that is not initialised, and afterwards every type test on a record, of the module or imported, answers whether its type is an extension of the type of the test. The descriptors are ready for modules that import it.
* `C84_append` (Verif/OocStr/Props.lean): C84 (Append). The destination holds its string followed by the source, cut at its capacity.
* `C84_assign` (Verif/OocStr/Props.lean): C84 (Assign). The destination holds the source, cut at its capacity, with a terminator.
* `C84_can` (Verif/OocStr/Props.lean): C84 (predicates for Assign, Append, Concat). Each tells whether the operation will be complete: TRUE exactly if the string assigned is not cut.
* `C84_can_delete` (Verif/OocStr/Props.lean): C84 (predicate for Delete). TRUE exactly if the position is in the string (or at its end) and the string becomes shorter by the number given.
* `C84_can_extract` (Verif/OocStr/Props.lean): C84 (predicate for Extract). TRUE exactly if the characters are all in the source, and all are assigned.
* `C84_can_insert` (Verif/OocStr/Props.lean): C84 (predicate for Insert). TRUE exactly if the position is in the string (or at its end) and nothing is cut.
* `C84_can_replace` (Verif/OocStr/Props.lean): C84 (predicate for Replace). TRUE exactly if the position is in the string (or at its end) and all of the source is copied.
* `C84_capitalize_partial` (Verif/OocStr/Props.lean): C84 (Capitalize). In a string of letters every letter is replaced by the capital letter. Missing: other characters (`C84_capitalize_space`).
* `C84_compare` (Verif/OocStr/Props.lean): C84 (Compare). The strings are compared by the order of the dictionary.
* `C84_concat` (Verif/OocStr/Props.lean): C84 (Concat). The destination holds the two strings one after the other, cut at its capacity.
* `C84_delete` (Verif/OocStr/Props.lean): C84 (Delete). The given number of characters from the position on, or those there are, are removed.
* `C84_equal` (Verif/OocStr/Props.lean): C84 (Equal, FindDiff). TRUE exactly if the strings are equal; the position of the first difference, and none exactly if they are equal.
* `C84_extract` (Verif/OocStr/Props.lean): C84 (Extract). The destination holds the given number of characters of the source from the position on, or those there are, cut at its capacity.
* `C84_findNext` (Verif/OocStr/Props.lean): C84 (FindNext). From a position in the string, the first occurrence from there on is found; the pattern is not found exactly if there is none. From a position behind the string nothing is found.
* `C84_findPrev` (Verif/OocStr/Props.lean): C84 (FindPrev). The last occurrence up to the position is found; the pattern is not found exactly if there is none.
* `C84_insert` (Verif/OocStr/Props.lean): C84 (Insert). The destination is split at the position, and holds the first part, the source and the second part, cut at its capacity.
* `C84_insert_behind` (Verif/OocStr/Props.lean): C84 (Insert behind the end) does not change the string.
* `C84_length` (Verif/OocStr/Props.lean): C84 (Length). The number of characters before the first 0X, or of the elements of the array if there is none.
* `C84_replace` (Verif/OocStr/Props.lean): C84 (Replace). The characters from the position on are replaced by those of the source, as far as both strings go; the length does not change.
* `C85_intToStr` (Verif/IntStr/Props.lean): C85 (numbers to strings). The array gets the decimal representation of the number, cut at its capacity, with a terminator.
* `C85_lengthInt` (Verif/IntStr/Props.lean): C85 (length). `LengthInt` is the number of characters of the decimal representation.
* `C85_reason_partial` (Verif/IntStr/Props.lean): C85 (the reason). If a string is a whole number that is not of type LONGINT, the result says so; and if it is empty, or white space. If the result says that the format is wrong, the string is not a whole number. Missing: `C85_not_empty` and `C85_not_a_number`, other strings for which the result is the same as for these; what the results really say is `C85_results`.
* `C85_results` (Verif/IntStr/Props.lean): C85 (what the results say). Out of range: the string begins with a whole number that is not of type LONGINT. Empty: there is neither a sign nor a digit behind the white space.
* `C85_round_trip` (Verif/IntStr/Props.lean): C85 (round trip). A number that is converted to a string, in an array with room for it, and back is the same number.
* `C85_strToInt` (Verif/IntStr/Props.lean): C85 (strings to numbers). A string is converted exactly if it is a whole number of type LONGINT, perhaps behind white space, and with a sign; the result is its value. In all other cases the variable keeps its value.
* `C86_clear` (Verif/BitSets/Props.lean): C86 (Clear).
* `C86_elements_partial` (Verif/BitSets/Props.lean): C86 (Elements). The number of elements, and the largest one, as long as all numbers there is room for are of type INTEGER.
* `C86_excl` (Verif/BitSets/Props.lean): C86 (Excl).
* `C86_fill` (Verif/BitSets/Props.lean): C86 (Fill). Afterwards the set has all numbers the array has room for.
* `C86_in` (Verif/BitSets/Props.lean): C86 (In).
* `C86_incl` (Verif/BitSets/Props.lean): C86 (Incl). The set gets the number, and nothing else changes; numbers there is no room for trap.
* `C86_operations` (Verif/BitSets/Props.lean): C86 (operations). `Unite`, `Differ` and `Intersect` form the union, the difference and the intersection of the sets as they were before the call; also when some of the parameters are the same array. Nothing else changes. The other arrays must not be shorter than the first one; what the array of the result has beyond the length of the first one stays.
* `C86_shorter` (Verif/BitSets/Props.lean): The second array must not be the shorter one.
* `C86_tests_partial` (Verif/BitSets/Props.lean): C86 (tests). For arrays of the same length: `Includes` tells whether the first set includes the second, `Equal` whether they are equal, `Different` whether they have no number in common, and `Empty` whether a set is empty.
* `C87_finishes_partial` (Verif/Inflate/Props.lean): C87: a client that calls again and again, each time with room for at least one byte and with the input that is left, comes to the end of the stream: after as many calls as there are bytes, and one more.
* `C87_output_partial` (Verif/Inflate/Props.lean): C87: whatever the sizes of the output buffers and wherever the input is cut, the bytes delivered are the beginning of the text the stream stands for, and all of it when the end of the stream is reported; no call delivers more than there is room for, no index is outside the window, no copy overlaps. This is proved for streams in which no stored block follows a compressed one, and for all streams when the fast path is not taken. It does not hold in general: `C87_lost`.
* `C87_stored_input` (Verif/Inflate/Props.lean): C87: a stored block takes as many bytes as it delivers from the input, and never more than the input buffer holds.
* `C88_processes_partial` (Verif/Share/Props.lean): C88, for processes whose numbers differ in what `Platform.PID` keeps of them, and for fewer than 32768 events. The disk is any one on which different names stand for different files. Processes begin, call procedures of Files, and are stopped (even in the middle of writing a file), in any order. What each of them sees is what the specification says: files being written by one process are not seen by the others before they are registered, and a file registered by a process has the bytes this process wrote, whatever the other ones do at the same time under other names. What is missing: processes whose numbers are different, but not what is kept of them (see `C88_mixed`: then it is false).
* `C88_undisturbed_partial` (Verif/Share/Props.lean): C88, the disk: no call of one process changes the bytes on the disk of a file another process has open, or the name the other process finds it under. What is missing is the same as in `C88_processes_partial`.
* `C89_compile` (Verif/Linking/Props.lean): C89: the command that compiles a module to an object file has the words it should have, for all directories and options, if it fits in 4095 characters.
* `C89_link_partial` (Verif/Linking/Props.lean): C89 (partly): after any history of compilations, when the modules a program needs were compiled in order and each got a symbol file without a trace of an older one, the command that links the program names the object file of each module compiled here that the program needs, directly or not, and no other, once each, if the list fits in 2048 characters and the command in 4095. Missing: a module whose interface has not changed keeps its symbol file, with the old list (`C89_stale`); a local module may also be in the library (`C89_shadow`); longer lists are cut (`C89_cut`).
* `C89_nothing_missing_partial` (Verif/Linking/Props.lean): C89 (partly): when modules are compiled again, it is enough that each got a new symbol file the last time (because its interface changed, or -F was given): then no module that is needed is missing. There may be object files of modules that were needed before.
* `C90_fractpart` (Verif/RealBits/Props.lean): C90. `intpart(x) + fractpart(x)` is x, and the absolute value of `fractpart(x)` is less than 1.
* `C90_intpart` (Verif/RealBits/Props.lean): C90. `intpart(x)` is x cut off, towards zero, to a whole number.
* `C90_parts_partial` (Verif/RealBits/Props.lean): C90. A number with full precision is `scale(fraction(x), exponent(x))`; the absolute value of its fraction is at least 1 and less than 2; its value is the fraction times 2 to the exponent; the exponent lies between `expoMin` and `expoMax`. `synthesize` is `scale`. (Partial: it is wrong for the very small numbers, see `C90_subnormal`.)
* `C90_pred_partial` (Verif/RealBits/Props.lean): C90. `pred(x)` is the next smaller number, for a positive number that is not very small and not a power of two. (Partial: see `C90_pred_negative`, `C90_pred_power`.)
* `C90_round_partial` (Verif/RealBits/Props.lean): C90. `round(x, n)` is a number with n significant places next to x. (Partial: x must not be so large that the result can be greater than all numbers, and not so small that its n-th place is less than 2 ^ `expoMin`.)
* `C90_scale_large` (Verif/RealBits/Props.lean): C90. `scale` of zero is zero, and a number that would be too large is replaced by the largest one.
* `C90_scale_partial` (Verif/RealBits/Props.lean): C90. `scale(x, n)` has the value x * 2 ^ n, if x has full precision and the result is between 2 ^ `expoMin` and `large`. (Partial: the result can exist although it is less than 2 ^ `expoMin`, see `C90_scale_lost`.)
* `C90_sign` (Verif/RealBits/Props.lean): C90. `sign(x)` is -1 for a negative number and 1 for any other one.
* `C90_succ_partial` (Verif/RealBits/Props.lean): C90. `succ(x)` is the next greater number, for a positive number that is not very small and not the largest one. (Partial: see `C90_succ_negative`, `C90_succ_zero`, `C90_ulp_small`.)
* `C90_trunc` (Verif/RealBits/Props.lean): C90. `trunc(x, n)` is x cut off, towards zero, to its n most significant places.
* `C90_ulp_partial` (Verif/RealBits/Props.lean): C90. `ulp(x)` is the value of the last of the `places` bits of x. (Partial: see `C90_ulp_small`.)
* `C91_const_partial` (Verif/ShowDef/Props.lean): C91: the text written for a constant, read again, gives its name and its value: for truth values, all 64-bit integers, all sets, NIL, characters below 0A0X other than the quote, and strings without quotes.
* `C91_decl_partial` (Verif/ShowDef/Props.lean): C91: the text written for a type, a variable or a procedure, read again, gives the declaration with its exported parts: name, mark, parameters, result, code. This is for code without quotes (see `C91_code_quote`).
* `C91_module_partial` (Verif/ShowDef/PropsModule.lean): C91: the text of a whole definition, read again, gives the name of the module, its imports, and exactly what it exports: the constants, types, variables and procedures, in this order, each with its exported parts. For a module without imports this needs that a variable without a value does not happen to have one certain value (see `C91_no_imports`).
* `C91_same_text_partial` (Verif/ShowDef/Props.lean): C91: if two lists of declarations are written as the same text, then they export the same: in the same order the same names, with the same types, parameters and results.
* `C91_type` (Verif/ShowDef/Props.lean): C91: the text written for a type, read again, gives the type with its exported fields and methods, and nothing else; the text after it is not touched.
* `C92_int_to_str` (Verif/VT100/Props.lean): C92: `IntToStr` gives the number in decimal, for every LONGINT (also the smallest), with no index out of range, whatever is in the uninitialised array; only if the result is longer than the array allows it is cut off.
* `C92_no_trap` (Verif/VT100/Props.lean): C92: no procedure has an index out of range, whatever its parameters are.
* `C92_sequence_partial` (Verif/VT100/Props.lean): C92: each procedure writes exactly its control sequence: for a single parameter from 0 to 9, for two parameters from -999 to 9999, for attributes of at most 14 characters. For larger ones see `C92_one_digit` and `C92_two_long`.
* `C93_convert_partial` (Verif/Reals/Props.lean): C93: `ConvertL` writes the `n` lowest decimal digits of the whole part of the number, the lowest first, and leaves the rest of the array, for every `n` and both sizes of LONGINT; `x` is the whole part, split exactly at 10^9 where LONGINT has 32 bits (see `C93_convert_rounded`).
* `C93_convert_trap` (Verif/Reals/Props.lean): C93: if the array is too short for `n` digits, there is a trap, and nothing is written behind the array.
* `C93_expo` (Verif/Reals/Props.lean): C93: `Expo` gives the exponent field of a REAL: bits 23 to 30, for each size of INTEGER, whatever lies behind the number in memory.
* `C93_expoL` (Verif/Reals/Props.lean): C93: `ExpoL` gives the exponent field of a LONGREAL: bits 52 to 62.
* `C93_hex` (Verif/Reals/Props.lean): C93: `ConvertH` and `ConvertHL` write two hexadecimal digits for each byte of the number; the digits determine the bytes; the rest of the array is left.
* `C93_set_expo` (Verif/Reals/Props.lean): C93: `SetExpo` replaces the exponent field, by the 8 lowest bits of its argument, and changes neither the sign nor the significand nor another byte.
* `C94_add` (Verif/Time/Props.lean): C94: `Add` adds the times exactly, if the days of the sum fit.
* `C94_add_ok` (Verif/Time/Props.lean): C94: the sum of records is a record as it should be, even if the days do not fit.
* `C94_cmp` (Verif/Time/Props.lean): C94: `Cmp` compares the times: its result is negative, zero or positive as the difference of the times is.
* `C94_delta_add` (Verif/Time/Props.lean): C94: adding the difference of two points in time to the second gives the first, for all points in time: also if the difference does not fit.
* `C94_get_time` (Verif/Time/Props.lean): C94: the current time is the time since 1970 (day 40587), in whole milliseconds.
* `C94_init` (Verif/Time/Props.lean): C94: the record for days and milliseconds stands for this time, for all numbers of milliseconds, if the days fit.
* `C94_sub` (Verif/Time/Props.lean): C94: `Sub` and `Delta` subtract the times exactly, if the days of the difference fit.
* `C94_sub_ok` (Verif/Time/Props.lean): C94: the difference of records is a record as it should be, even if the days do not fit.
* `C94_unique` (Verif/Time/Props.lean): C94: a record is the only one for its time: two points in time are equal only if their records are.
* `C95_delivered` (Verif/Ocat/Props.lean): C95: if what is shown ends with the end of a line, then all of it is given to the operating system.
* `C95_ocat` (Verif/Ocat/Props.lean): C95: for all files of all lengths, and all names that fit, the texts of the files (and the messages for names without files) are written one behind the other, without a trap: nothing is lost at the ends of the buffers or between files. Without the option.
* `C95_ocat_t` (Verif/Ocat/Props.lean): C95: the same with the option `-t` and at least one name: tabulators are kept.
* `C96_path` (Verif/ShowDef/PropsIdent.lean): C96: for `directory/file`, the definitions are looked for in the directory (everything before the last slash), and the module is the part of the file name before its first dot; without a trap. For all arrays, whatever they have behind the name.
* `C96_plain` (Verif/ShowDef/PropsIdent.lean): C96: for a name without a slash the search path stays as it is, and the module is the part before the first dot.
* `C97_append` (Verif/Listen/Props.lean): C97: `Append` gives the list with the element at its end, for lists of every length, without a trap.
* `C97_append_others` (Verif/Listen/Props.lean): C97: `Append` changes no list: the argument and all lists that share parts with it stay as they are. It makes one record for each element of the result, and no other.
* `C97_concat` (Verif/Listen/Props.lean): C97: `Concat` gives the list with one more element in front.
* `C97_concat_others` (Verif/Listen/Props.lean): C97: `Concat` and all that was made before: all lists stay as they are.
* `C97_empty` (Verif/Listen/Props.lean): C97: `Head` and `Tail` of the empty list trap.
* `C97_find` (Verif/Listen/Props.lean): C97: `Find` gives the first element of the list that is equal to the given one, and NIL if there is none.
* `C97_head_tail` (Verif/Listen/Props.lean): C97: `Head` and `Tail` of a list that is not empty are its first element and the list of the others.
* `C97_is_element` (Verif/Listen/Props.lean): C97: `IsElement` says whether some element of the list is equal, in the sense of the procedure, to the given one.
* `C97_one_list` (Verif/Listen/Props.lean): C97: a list is determined by its pointer.
