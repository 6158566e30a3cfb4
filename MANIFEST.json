{
 "claims": [
  {
   "property": "C01",
   "status": "partial",
   "theorems": [
    "Verif.Arith.C01_div_partial",
    "Verif.Arith.C01_mod_partial",
    "Verif.Arith.C01_full_32",
    "Verif.Arith.C01_div_counterexample",
    "Verif.Arith.C01_mod_counterexample",
    "Verif.Arith.C01_zero_by_zero"
   ],
   "note": "Full for operands of at most 32 bits (C01_full_32). For 64-bit operands exact unless the C expression overflows; the failures are proved with witnesses."
  },
  {
   "property": "C02",
   "status": "partial",
   "theorems": [
    "Verif.Arith.C02_xf_exact",
    "Verif.Arith.C02_x_partial",
    "Verif.Arith.C02_x_negative_passes",
    "Verif.Arith.C02_access_in_bounds_partial",
    "Verif.Arith.C02_access_complete",
    "Verif.Arith.C02_access_counterexample",
    "Verif.Arith.C02_rf_exact",
    "Verif.Arith.C02_short_exact",
    "Verif.Arith.C02_shortF_exact",
    "Verif.Arith.C02_shortF_undefined",
    "Verif.Arith.C02_chrF_exact",
    "Verif.Arith.C02_chr_partial",
    "Verif.Arith.C02_chr_counterexample"
   ],
   "note": "False as stated: the check for call-free indices and CHR arguments lets every negative value through (proved). Exact in all other cases."
  },
  {
   "property": "C03",
   "status": "proved",
   "theorems": [
    "Verif.CStr.C03_string_relations",
    "Verif.CStr.C03_lexCmp_total_order"
   ],
   "note": ""
  },
  {
   "property": "C04",
   "status": "proved",
   "theorems": [
    "Verif.CStr.C04_copy",
    "Verif.CStr.C04_copy_holds",
    "Verif.CStr.C04_copy_then_equal",
    "Verif.CStr.C04_assign_constant"
   ],
   "note": "Source and destination are distinct arrays."
  },
  {
   "property": "C05",
   "status": "partial",
   "theorems": [
    "Verif.Arith.C05_lsh",
    "Verif.Arith.C05_rot_partial",
    "Verif.Arith.C05_rot_inverse",
    "Verif.Arith.C05_rot_zero_undefined",
    "Verif.Arith.C05_ash",
    "Verif.Arith.C05_odd",
    "Verif.Arith.C05_cap_letter",
    "Verif.Arith.C05_in",
    "Verif.Arith.C05_in_undefined",
    "Verif.Arith.C05_setOf",
    "Verif.Arith.C05_incl",
    "Verif.Arith.C05_excl",
    "Verif.Arith.C05_setRng",
    "Verif.Arith.C05_set_ops"
   ],
   "note": "False for a rotation by 0 of 32/64-bit words and for IN with 64-bit elements (both undefined C, proved); exact otherwise."
  },
  {
   "property": "C06",
   "status": "proved",
   "theorems": [
    "Verif.Scanner.C06_decimal",
    "Verif.Scanner.C06_decimal_upto",
    "Verif.Scanner.C06_hex",
    "Verif.Scanner.C06_char"
   ],
   "note": ""
  },
  {
   "property": "C07",
   "status": "proved",
   "theorems": [
    "Verif.Scanner.C07_comments"
   ],
   "note": ""
  },
  {
   "property": "C08",
   "status": "partial",
   "theorems": [
    "Verif.Scanner.C08_identifier",
    "Verif.Scanner.C08_identifier_too_long",
    "Verif.Scanner.C08_counterexample"
   ],
   "note": "Proved for ASCII source text; C08_counterexample shows bytes above 7FX continuing identifiers."
  },
  {
   "property": "C09",
   "status": "partial",
   "theorems": [
    "Verif.Const.C09_plus",
    "Verif.Const.C09_minus",
    "Verif.Const.C09_times_partial",
    "Verif.Const.C09_times_mixed_undefined",
    "Verif.Const.C09_times_mixed_rejected",
    "Verif.Const.C09_times_wrap_partial",
    "Verif.Const.C09_div_mod_partial",
    "Verif.Const.C09_div_wrong",
    "Verif.Const.C09_rel",
    "Verif.Const.C09_neg_abs",
    "Verif.Const.C09_odd",
    "Verif.Const.C09_ash_partial",
    "Verif.Const.C09_ash_wrong"
   ],
   "note": "Exact for +, -, relations, negation, ABS, ODD and for products of operands of the same sign. False for products of operands of opposite sign: the overflow test is itself undefined in C, and on a wrapping machine rejects the product (proved). DIV and MOD as in C01; ASH exact except at the smallest number."
  },
  {
   "property": "C10",
   "status": "partial",
   "theorems": [
    "Verif.Const.C10_rewrite_partial",
    "Verif.Const.C10_zero_drops_call",
    "Verif.Const.C10_powers_of_two"
   ],
   "note": "Expressions of any depth with any effects, whenever the source expression has a value; false for a product with constant 0, which drops the effects of the other factor (proved)."
  },
  {
   "property": "C11",
   "status": "proved",
   "theorems": [
    "Verif.Emit.C11_writeInt",
    "Verif.Emit.C11_intLiteral",
    "Verif.Emit.C11_buffer"
   ],
   "note": ""
  },
  {
   "property": "C12",
   "status": "proved",
   "theorems": [
    "Verif.Emit.C12_string",
    "Verif.Emit.C12_character",
    "Verif.Emit.C12_set"
   ],
   "note": ""
  },
  {
   "property": "C13",
   "status": "proved",
   "theorems": [
    "Verif.Layout.C13_declared",
    "Verif.Layout.C13_fields",
    "Verif.Layout.C13_extension",
    "Verif.Layout.C13_scalars",
    "Verif.Layout.C13_dense_packing",
    "Verif.Layout.C13_overflow"
   ],
   "note": "LONGINT overflow in the compiler is the outcome none (C13_overflow shows one)."
  },
  {
   "property": "C14",
   "status": "partial",
   "theorems": [
    "Verif.Layout.C14_offsets_partial",
    "Verif.Layout.C14_size_partial",
    "Verif.Layout.C14_open_type",
    "Verif.Layout.C14_open_fields",
    "Verif.Layout.C14_hidden_alignment"
   ],
   "note": "Proved in full where no field is hidden. With hidden private fields the offsets are proved provided the C types of the visible fields have the computed size and alignment; that proviso is false in general: C14_hidden_alignment gives a record whose struct in the header file is smaller and less aligned than the compiler assumes."
  },
  {
   "property": "C15",
   "status": "proved",
   "theorems": [
    "Verif.Scope.C15_declare",
    "Verif.Scope.C15_find",
    "Verif.Scope.C15_field",
    "Verif.Scope.C15_insert",
    "Verif.Scope.C15_declareField",
    "Verif.Scope.C15_import",
    "Verif.Scope.C15_double_definition"
   ],
   "note": "C15_double_definition shows that after a reported double definition other names may be lost."
  },
  {
   "property": "C16",
   "status": "proved",
   "theorems": [
    "Verif.FPrint.C16_one_word",
    "Verif.FPrint.C16_no_merge",
    "Verif.FPrint.C16_one_value",
    "Verif.FPrint.C16_small_value"
   ],
   "note": ""
  },
  {
   "property": "C17",
   "status": "proved",
   "theorems": [
    "Verif.FileNum.C17_roundtrip",
    "Verif.FileNum.C17_bytes",
    "Verif.FileNum.C17_encodes",
    "Verif.FileNum.C17_prefix_free",
    "Verif.FileNum.C17_shortest"
   ],
   "note": ""
  },
  {
   "property": "C18",
   "status": "partial",
   "theorems": [
    "Verif.FileNum.C18_int_partial",
    "Verif.FileNum.C18_lint_partial",
    "Verif.FileNum.C18_large_partial",
    "Verif.FileNum.C18_large_negative",
    "Verif.FileNum.C18_checked_halts",
    "Verif.FileNum.C18_set",
    "Verif.FileNum.C18_set_high_dropped",
    "Verif.FileNum.C18_real",
    "Verif.FileNum.C18_write_string",
    "Verif.FileNum.C18_read_string",
    "Verif.FileNum.C18_string",
    "Verif.FileNum.C18_string_too_long",
    "Verif.FileNum.C18_line",
    "Verif.FileNum.C18_line_crlf"
   ],
   "note": "False as stated for the larger integer models: negative INTEGER and LONGINT values are read back as positive ones (proved), and with range checks on WriteInt halts for values of 256 and more (proved). Exact in the default model."
  },
  {
   "property": "C19",
   "status": "partial",
   "theorems": [
    "Verif.SymFile.C19_roundtrip",
    "Verif.SymFile.C19_export_depth",
    "Verif.SymFile.C19_int_const_truncated"
   ],
   "note": "Full round trip of whole interfaces with arbitrary (cyclic) type graphs. Integer constants must fit 32 bits: C19_int_const_truncated proves that larger ones change. Hidden fields of procedure type and system-flagged procedures are not modelled."
  },
  {
   "property": "C20",
   "status": "proved",
   "theorems": [
    "Verif.Heap.C20_disjoint",
    "Verif.Heap.C20_new",
    "Verif.Heap.C20_newBlk",
    "Verif.Heap.C20_tiling",
    "Verif.Heap.C20_lists",
    "Verif.Heap.C20_lost"
   ],
   "note": "Over all histories (Run) of InitHeap, NEW, SYSTEM.NEW, stores by the program and loss of objects, with the collector running inside every allocation that needs it: objects are disjoint (C20_disjoint, C20_tiling), NEW terminates, delivers cleared memory and disturbs nothing (C20_new, C20_newBlk). Assumes an operating system that hands out disjoint regions (OSOK), addresses without wrap-around, and an environment in which the collector can find the objects (Covers). C20_lists and C20_lost: a 288-byte remainder is missing from the free lists until the next collection. NEW of arrays with pointers is C40."
  },
  {
   "property": "C21",
   "status": "proved",
   "theorems": [
    "Verif.Heap.C21_mark",
    "Verif.Heap.C21_nil",
    "Verif.Heap.C21_roots"
   ],
   "note": "Mark by pointer reversal is modelled on a word memory, one definition per loop iteration. C21_mark: it terminates, marks exactly what was marked or is reachable, changes no other word and restores all fields and tags, for every heap whose words do not overlap (Sep) and whose pointer tables are in place (Traceable). C21_roots: the phase from all global variables. Sep follows from the layout of chunks and blocks (sep_of_chunks)."
  },
  {
   "property": "C22",
   "status": "proved",
   "theorems": [
    "Verif.Heap.C22_scan"
   ],
   "note": "Scan and the collection of free runs are modelled on the word memory. C22_scan: from any heap whose chunks are tiled by blocks and whose tags and tables are in place, the sweep ends with chunks tiled again, live blocks exactly the marked ones, contents unchanged, marks cleared, no adjacent free blocks, each free block in the list for its size exactly once, and no other word changed."
  },
  {
   "property": "C23",
   "status": "proved",
   "theorems": [
    "Verif.Heap.C23_sort",
    "Verif.Heap.C23_stack"
   ],
   "note": "HeapSort, MarkCandidates and the loop of MarkStack are modelled; the words of the stack are a parameter. C23_stack: any words, in any order and number, mark exactly what is reachable from the blocks they point into; interior addresses count, the address of a tag word does not. C23_sort: HeapSort sorts. The recursive calls that flush register windows are not modelled."
  },
  {
   "property": "C24",
   "status": "partial",
   "theorems": [
    "Verif.Fin.C24_once_partial",
    "Verif.Fin.C24_collect_partial",
    "Verif.Fin.C24_finall_partial",
    "Verif.Fin.C24_twice"
   ],
   "note": "RegisterFinalizer, CheckFin, Finalize, FINALL and GC with the calls of finalizers are modelled; a finalizer may register finalizers and make the collector run. Proved for all histories in which no finalizer makes the collector run: each finalizer is called at most once (C24_once_partial); a collection calls exactly the finalizers of objects not reachable from the program or from objects earlier in the list, and these objects are still intact (C24_collect_partial); FINALL calls all the others (C24_finall_partial). C24_twice: the property is false when a finalizer makes the collector run: another finalizer can be called twice."
  },
  {
   "property": "C25",
   "status": "partial",
   "theorems": [
    "Verif.Registry.C25_thisMod_partial",
    "Verif.Registry.C25_thisCommand_partial",
    "Verif.Registry.C25_free_partial",
    "Verif.Registry.C25_freeAll",
    "Verif.Registry.C25_others_partial",
    "Verif.Registry.C25_long_names",
    "Verif.Registry.C25_never_released"
   ],
   "note": "REGMOD, REGCMD, INCREF, FreeModule, ThisMod, ThisCommand and Free are modelled on linked records and proved to implement the registry described by spec, over all histories in which names fit in the arrays (19 and 23 characters). C25_long_names: a module with a longer name is not found by its name. C25_never_released: a module stays although its only client has been unloaded. The texts of resMsg are not modelled."
  },
  {
   "property": "C26",
   "status": "partial",
   "theorems": [
    "Verif.Files.C26_history_partial",
    "Verif.Files.C26_history_4096_partial",
    "Verif.Files.C26_read_determined",
    "Verif.Files.C26_eof_kept",
    "Verif.Files.C26_short_write"
   ],
   "note": "New, Old, Set, Pos, Read, ReadBytes, Write, WriteBytes, Length, Flush, Close, Purge with the buffers, the swapper and the operating system file are modelled for every buffer size and number. C26_history_partial: all histories over any number of files and riders show what byte arrays would show, and stop only at illegal calls; after Close the disk has the bytes. Missing: the flag eof after a successful Read depends on the buffers (C26_eof_kept); on a full disk Close loses bytes without an error (C26_short_write). Names and the list of open files are C27. Errors of the operating system other than the full disk are not modelled."
  },
  {
   "property": "C27",
   "status": "partial",
   "theorems": [
    "Verif.Names.C27_history_partial",
    "Verif.Names.C27_rename_stale",
    "Verif.Names.C27_delete_res",
    "Verif.Names.C27_temp_wrap",
    "Verif.Names.C27_inode_truncated",
    "Verif.Names.C27_register_not_atomic"
   ],
   "note": "New, Old, Close, Register, Delete, Rename, Create, Deregister, GetTempName, the list of open files and Finalize are modelled over a disk of names. C27_history_partial: all histories of fewer than 32768 operations, with buffers written to the disk at any time, from any disk: a file becomes visible under its name exactly by Register, the file that had the name before stays as it was for those who have it open, and no other name changes. Missing: longer histories (C27_temp_wrap: the 16-bit counter of temporary names wraps and two files share a name), inode numbers over 32 bits (C27_inode_truncated), renaming files that are open (C27_rename_stale). C27_delete_res: deleting an open file reports an error although it is removed. C27_register_not_atomic: during Register the file is visible while still empty. The search path and hard links are not modelled."
  },
  {
   "property": "C28",
   "status": "partial",
   "theorems": [
    "Verif.Texts.C28_texts_partial",
    "Verif.Texts.C28_empty_save",
    "Verif.Texts.C28_crlf",
    "Verif.Texts.C28_writer_buffer",
    "Verif.Texts.C28_pos_after_readElem",
    "Verif.Texts.C28_copy_self",
    "Verif.Texts.C28_no_font"
   ],
   "note": "C28_texts_partial: in every history of Open (unformatted files), OpenBuf, OpenWriter, SetFont/SetColor/SetOffset, Write, WriteElem, Insert, Append, Delete, ChangeLooks, Save, Copy, Recall, OpenReader, Read, ReadElem, ReadPrevElem, Pos and ElemPos, on any number of texts, buffers, readers and writers, every call delivers what the list specification (Texts/Spec.lean) says, including notifier arguments. Outside the contract, with proofs of what goes wrong: saving an empty stretch (C28_empty_save), CR LF line ends (C28_crlf), Save or Copy into the buffer of a writer (C28_writer_buffer), Pos after a failed ReadElem (C28_pos_after_readElem), Copy of a buffer to itself (C28_copy_self), runs without font (C28_no_font), readers of a text that has changed since OpenReader. Not modelled: Store and loading stored texts, scanning, formatted output, negative positions."
  },
  {
   "property": "C29",
   "status": "partial",
   "theorems": [
    "Verif.Console.C29_int",
    "Verif.Console.C29_write_int",
    "Verif.Console.C29_write_int_min",
    "Verif.Console.C29_roundtrip",
    "Verif.Console.C29_read_undefined",
    "Verif.Console.C29_hex_partial",
    "Verif.Console.C29_hex_undefined",
    "Verif.Console.C29_hex_roundtrip_partial",
    "Verif.Console.C29_hex_ambiguous",
    "Verif.Console.C29_narrow",
    "Verif.Console.C29_int_truncates",
    "Verif.Console.C29_write_hex"
   ],
   "note": "Out.Int, Texts.WriteInt and Texts.WriteHex are proved for all 64-bit numbers and widths (C29_int, C29_write_int; C29_write_int_min: the smallest number ignores the width). C29_roundtrip: In.HugeInt reads back what Out.Int wrote, on a machine whose arithmetic wraps; C29_read_undefined: by the C standard alone, reading 17 digits is undefined because the unused hexadecimal value overflows. Hexadecimal output is proved below 16 digits and undefined with 16 (C29_hex_undefined); without H it is read back as decimal (C29_hex_ambiguous). C29_int_truncates: In.Int cuts large numbers silently."
  },
  {
   "property": "C30",
   "status": "partial",
   "theorems": [
    "Verif.Console.C30_history",
    "Verif.Console.C30_complete",
    "Verif.Console.C30_prompt",
    "Verif.Console.C30_lost_at_end",
    "Verif.Console.C30_short_write"
   ],
   "note": "Char, String, Int, Hex, Ln, Flush and all input calls are modelled with the 128-byte buffer. C30_history, C30_complete and C30_prompt hold for all histories when the operating system takes all bytes of a write. Missing: C30_short_write (a partial write loses bytes silently) and C30_lost_at_end (the end of the program does not flush). Hex with 16 digits is excluded (C29_hex_undefined). Real numbers are not modelled."
  },
  {
   "property": "C31",
   "status": "partial",
   "theorems": [
    "Verif.Str.C31_length_partial",
    "Verif.Str.C31_append_partial",
    "Verif.Str.C31_append_unterminated",
    "Verif.Str.C31_insert_partial",
    "Verif.Str.C31_insert_trap",
    "Verif.Str.C31_insert_behind",
    "Verif.Str.C31_delete",
    "Verif.Str.C31_delete_behind",
    "Verif.Str.C31_replace_partial",
    "Verif.Str.C31_replace_zero_partial",
    "Verif.Str.C31_replace_wrong",
    "Verif.Str.C31_extract_partial",
    "Verif.Str.C31_extract_trap",
    "Verif.Str.C31_pos_partial",
    "Verif.Str.C31_pos_empty",
    "Verif.Str.C31_cap"
   ],
   "note": "Length, Append, Insert, Delete, Replace, Extract, Pos and Cap are modelled over arrays of any length with strings of at most 32767 characters. Delete and Cap are proved as documented (C31_delete, C31_cap). The others deviate from the documentation, proved as: a full destination is left without terminator (C31_append_unterminated); a source that does not fit behind the position stops the program (C31_insert_trap); Replace deletes pos characters too many (C31_replace_wrong, exact effect in C31_replace_partial); an extract too long for the destination stops the program (C31_extract_trap); the empty pattern is always found at 0 (C31_pos_empty). Positive parts: the _partial theorems. Conversions of real numbers are not modelled."
  },
  {
   "property": "C32",
   "status": "proved",
   "theorems": [
    "Verif.Str.C32_match"
   ],
   "note": "C32_match: Match terminates and decides the relation Glob for all strings and patterns of at most 32767 characters (INTEGER lengths)."
  },
  {
   "property": "C33",
   "status": "partial",
   "theorems": [
    "Verif.Control.C33_accepted_partial",
    "Verif.Control.C33_duplicate",
    "Verif.Control.C33_limits",
    "Verif.Control.C33_switch",
    "Verif.Control.C33_second_duplicate",
    "Verif.Control.C33_large_labels",
    "Verif.Control.C33_large_limit",
    "Verif.Control.C33_span"
   ],
   "note": "C33_accepted_partial: accepted exactly if the ranges are legal, in any order, for labels that are 32-bit numbers less than 2^31 apart; C33_duplicate: after legal ranges the next one is reported exactly if it shares a number with one of them; C33_limits, C33_switch (C labels different and exactly the numbers in the ranges). Missing: false in general. C33_second_duplicate: after a first duplicate another one can go unnoticed; C33_large_labels, C33_large_limit: labels outside 32 bits are cut off; C33_span: labels more than 2^31 apart are not reported."
  },
  {
   "property": "C34",
   "status": "proved",
   "theorems": [
    "Verif.Control.C34_count",
    "Verif.Control.C34_for",
    "Verif.Control.C34_never_ends"
   ],
   "note": "C34_count and C34_for, about the generated C statements, for all bounds, nonzero steps and bodies that do not change the variable. C34_never_ends shows that the proviso is needed. Bodies that end by EXIT or RETURN: C48_translation."
  },
  {
   "property": "C35",
   "status": "proved",
   "theorems": [
    "Verif.Control.C35_effect",
    "Verif.Control.C35_all"
   ],
   "note": "C35_effect for all chains and states (conditions may have effects, not come back, or be constant); C35_all: no constant condition is left."
  },
  {
   "property": "C36",
   "status": "proved",
   "theorems": [
    "Verif.Dispatch.C36_type_test",
    "Verif.Dispatch.C36_guard",
    "Verif.Dispatch.C36_compiled_test",
    "Verif.Dispatch.C36_accepted",
    "Verif.Dispatch.C36_too_deep"
   ],
   "note": "C36_type_test, C36_guard and C36_compiled_test for all hierarchies up to 15 levels of extension (the depth of the table), both word sizes; C36_accepted for the compile-time checks. C36_too_deep: the compiler does not limit the depth, and a type at level 17 makes the program halt with -15 at initialisation. Tests on NIL and on SYSTEM.PTR variables are not modelled."
  },
  {
   "property": "C37",
   "status": "partial",
   "theorems": [
    "Verif.Dispatch.C37_numbers",
    "Verif.Dispatch.C37_redefinition",
    "Verif.Dispatch.C37_distinct",
    "Verif.Dispatch.C37_order",
    "Verif.Dispatch.C37_dispatch",
    "Verif.Dispatch.C37_call_partial",
    "Verif.Dispatch.C37_by_name",
    "Verif.Dispatch.C37_super",
    "Verif.Dispatch.C37_hidden_introduction"
   ],
   "note": "C37_numbers, C37_redefinition, C37_distinct, C37_order, C37_dispatch, C37_by_name and C37_super for all hierarchies in any number of modules with hidden and exported methods. C37_call_partial needs the introducing declaration to be visible to the caller: C37_hidden_introduction proves that the compiler finds no object for a call of an exported redefinition of a hidden method. Fields, whose names methods must not repeat (error 119), and forward declarations are not modelled."
  },
  {
   "property": "C38",
   "status": "partial",
   "theorems": [
    "Verif.Horner.C38_index_partial",
    "Verif.Horner.C38_inside",
    "Verif.Horner.C38_distinct_partial",
    "Verif.Horner.C38_part",
    "Verif.Horner.C38_function_index",
    "Verif.Horner.C38_negative_index"
   ],
   "note": "C38_index_partial, C38_inside, C38_distinct_partial, C38_part for all numbers of open and fixed dimensions, lengths and index tuples; C38_function_index for indices checked by __XF, which stops at negative values too. Missing: negative index values, which the check __X lets through (C38_negative_index)."
  },
  {
   "property": "C39",
   "status": "partial",
   "theorems": [
    "Verif.Ptrs.C39_offsets",
    "Verif.Ptrs.C39_layout",
    "Verif.Ptrs.C39_descriptor",
    "Verif.Ptrs.C39_globals",
    "Verif.Ptrs.C39_import_partial",
    "Verif.Ptrs.C39_reexport",
    "Verif.Ptrs.C39_hidden_base",
    "Verif.Ptrs.C39_hidden_untraced"
   ],
   "note": "C39_offsets, C39_layout, C39_descriptor and C39_globals for all types of the compiled module; C39_import_partial and C39_reexport for imported types. Missing: C39_hidden_base proves that the pointers in the base type of the type of a non-exported record field are lost in importing modules; C39_hidden_untraced that untraced ones become traced."
  },
  {
   "property": "C40",
   "status": "partial",
   "theorems": [
    "Verif.Heap.C40_new_partial",
    "Verif.Heap.C40_halt",
    "Verif.Heap.C40_overflow",
    "Verif.Heap.C40_pointer_table"
   ],
   "note": "C40_new_partial in every history of the storage manager, for all lengths, element types without pointers, record types and pointers with one open dimension; C40_halt for lengths that are not positive. C40_pointer_table proves that arrays of pointers with no open dimension, or several, get a wrong table; C40_overflow that the number of elements may overflow. Interrupts (Heap.Lock) are not modelled."
  },
  {
   "property": "C41",
   "status": "proved",
   "theorems": [
    "Verif.Expr.C41_structure",
    "Verif.Expr.C41_tokens",
    "Verif.Expr.C41_one_reading",
    "Verif.Expr.C41_arguments",
    "Verif.Expr.C41_guard_outer"
   ],
   "note": "C41_structure: the tokens written for any expression the front end can produce, under any surrounding precedence, are read by the grammar of C (a reader written from ISO 9899 6.5, knowing nothing of the emitter) as the tree of the expression; C41_tokens: no two neighbouring tokens run together (-- , && , comments, 1.x); C41_one_reading; C41_arguments. C41_guard_outer proves a deviation in a name: a type guard on a VAR parameter of an enclosing procedure names an undeclared scope variable. Not modelled: implicit guards on the left of assignments, parameters ARRAY OF SYSTEM.BYTE, selectors applied to SYSTEM.VAL."
  },
  {
   "property": "C42",
   "status": "partial",
   "theorems": [
    "Verif.Const.C42_intSize",
    "Verif.Const.C42_constant_type",
    "Verif.Const.C42_assign",
    "Verif.Const.C42_convert",
    "Verif.Const.C42_min_max",
    "Verif.Const.C42_ash_type"
   ],
   "note": "Smallest type, assignment rule, conversion and MIN/MAX proved; C42_ash_type shows that the result of ASH keeps the type LONGINT although it need not fit."
  },
  {
   "property": "C43",
   "status": "proved",
   "theorems": [
    "Verif.Scanner.C43_string",
    "Verif.Scanner.C43_string_unterminated",
    "Verif.Scanner.C43_token_stream"
   ],
   "note": ""
  },
  {
   "property": "C44",
   "status": "partial",
   "theorems": [
    "Verif.FPrint.C44_const_partial",
    "Verif.FPrint.C44_const_collision",
    "Verif.FPrint.C44_name",
    "Verif.FPrint.C44_param"
   ],
   "note": "Proved for names, parameter types and for constants of equal sign; C44_const_collision proves that the constants x and -1-x share a fingerprint."
  },
  {
   "property": "C45",
   "status": "partial",
   "theorems": [
    "Verif.Emit.C45_injective",
    "Verif.Emit.C45_not_keyword_partial",
    "Verif.Emit.C45_counterexamples"
   ],
   "note": "Injectivity of names is proved in full. Escaping of reserved names is false for UINT32 and UINT8, whose entries are lost in the hash table, and for C99 keywords (C45_counterexamples)."
  },
  {
   "property": "C46",
   "status": "proved",
   "theorems": [
    "Verif.Registry.C46_order",
    "Verif.Registry.C46_registered"
   ],
   "note": "The generated functions M__init and main (OPC.EnterBody, InitImports, RegCmds with the macros of SYSTEM.h) are modelled for any program with acyclic imports. C46_order: exactly the needed modules are initialized, once each, after what they import. C46_registered: afterwards modules and commands can be found by name, and Free succeeds exactly for modules no module imports. The statements in the bodies are not modelled; they are assumed not to change the registry."
  },
  {
   "property": "C47",
   "status": "proved",
   "theorems": [
    "Verif.Console.C47_history",
    "Verif.Console.C47_interactive",
    "Verif.Console.C47_string_full",
    "Verif.Console.C47_strict"
   ],
   "note": "C47_history and C47_interactive for every input and all sequences of calls of In and Out, on a machine whose 64-bit arithmetic wraps; C47_strict: where no operation is undefined in C, the same holds on any machine. C30_prompt: delivery before waiting. C47_string_full: a quoted string that exactly fits the array is rejected (part of the specification). In.Real and In.LongReal are not modelled."
  },
  {
   "property": "C48",
   "status": "proved",
   "theorems": [
    "Verif.Control.C48_translation",
    "Verif.Control.C48_labels",
    "Verif.Control.C48_fuel",
    "Verif.Control.C48_exit"
   ],
   "note": "C48_translation, C48_labels and C48_fuel for all accepted statement sequences whose CASE labels are 32-bit numbers (others: C33_large_labels). Expressions, assignments and calls are arbitrary functions on the state; the types and syntax of statements, and the C text of RETURN, are not modelled."
  },
  {
   "property": "C49",
   "status": "partial",
   "theorems": [
    "Verif.Eval.C49_value_partial",
    "Verif.Eval.C49_plain",
    "Verif.Eval.C49_in_twice",
    "Verif.Eval.C49_in_skipped",
    "Verif.Eval.C49_in_untrapped",
    "Verif.Eval.C49_lsh_twice",
    "Verif.Eval.C49_rot_twice",
    "Verif.Eval.C49_open_twice",
    "Verif.Eval.C49_guard_twice",
    "Verif.Eval.C49_difference",
    "Verif.Eval.C49_abs",
    "Verif.Eval.C49_short",
    "Verif.Eval.C49_negative",
    "Verif.Eval.C49_chr"
   ],
   "note": "C49_value_partial: for every well-typed expression of the modelled kinds, every environment and every option, the generated tokens have exactly one reading as C, its macros expand, and it has the same value, calls, or trap as the expression, provided no subexpression falls under one of the listed deviations (predicate Calm). C49_plain has no such condition, for expressions without array elements, guards, ABS, checked conversions, DIV, MOD, shifts, IN and set difference. Deviations proved: C49_in_twice, C49_in_skipped, C49_in_untrapped, C49_lsh_twice, C49_rot_twice, C49_open_twice, C49_guard_twice, C49_difference, C49_abs, C49_short, C49_negative, C49_chr. Not modelled: reals, strings, several dimensions, procedure variables, methods, VAR parameters of calls, SYSTEM.VAL/ADR/BIT."
  },
  {
   "property": "C50",
   "status": "proved",
   "theorems": [
    "Verif.Parse.C50_sound",
    "Verif.Parse.C50_complete",
    "Verif.Parse.C50_unambiguous",
    "Verif.Parse.C50_decides",
    "Verif.Parse.C50_text"
   ],
   "note": "C50_decides: for every sequence of symbols and every answer of the symbol table, parsing ends; no error is reported exactly when the input begins with the symbols of a well-formed tree, and the tree returned is that one. C50_sound, C50_complete and C50_unambiguous are its parts, C50_text joins it to the scanner (C43). The grammar (Parse/Spec.lean) is that of the report with the compiler's extensions marked: system flags, marks and code after PROCEDURE, a qualified FOR variable. Errors found by checking types, scopes and constants are not modelled here; C41, C42, C49, C15 model parts of these checks."
  },
  {
   "property": "C51",
   "status": "proved",
   "theorems": [
    "Verif.Parse.C51_terminates"
   ],
   "note": "C51_terminates: 16 n + 2 nested calls are enough for n symbols, for every input and every answer of the symbol table; more change nothing. The model includes the error recovery of every procedure of the parser. Not modelled: the semantic procedures called on the way."
  },
  {
   "property": "C52",
   "status": "partial",
   "theorems": [
    "Verif.Nest.C52_same",
    "Verif.Nest.C52_place",
    "Verif.Nest.C52_restores",
    "Verif.Nest.C52_guard_name"
   ],
   "note": "C52_same: for every well-scoped program of the modelled language and every number of steps, the translated program and the program with lexical environments end alike with the same contents of all variables; C52_place and C52_restores are the invariant behind it. C52_guard_name: a type guard on a VAR record parameter of an enclosing procedure names a pointer that does not exist, so the C compiler rejects such programs. Missing: arrays and records (copies, lengths and tags in the scope record), WITH, and RETURN in the module body."
  },
  {
   "property": "C53",
   "status": "partial",
   "theorems": [
    "Verif.Types.C53_match",
    "Verif.Types.C53_match_ends",
    "Verif.Types.C53_assign",
    "Verif.Types.C53_var_param",
    "Verif.Types.C53_value_param",
    "Verif.Types.C53_endless"
   ],
   "note": "C53_assign, C53_var_param, C53_value_param and C53_match: accepted exactly if compatible, whenever the check ends. C53_match_ends: it ends for procedure types that do not contain themselves. C53_endless: for procedure types with themselves as a parameter the compiler calls itself for ever. Missing: SYSTEM.VAL results, warnings, and the types given to nodes after the check."
  },
  {
   "property": "C54",
   "status": "partial",
   "theorems": [
    "Verif.Safe.C54_safe_partial",
    "Verif.Safe.C54_types_partial",
    "Verif.Safe.C54_local_record",
    "Verif.Safe.C54_sysptr",
    "Verif.Safe.C54_array_guard",
    "Verif.Safe.C54_endless_guard"
   ],
   "note": "C54_safe_partial: no accepted program of the modelled language reaches an access outside the object at hand, for every number of steps. C54_types_partial: all pointers point to records of their types. C54_local_record: it fails for local variables that are records with pointers, which are not cleared. C54_sysptr: and for VAR parameters of type SYSTEM.PTR. C54_array_guard, C54_endless_guard: the check of type tests accepts pointers to arrays of the record, and does not end for some. Missing: arrays, records within records, functions, nested procedures, procedure variables, methods, the garbage collector (C20-C23)."
  },
  {
   "property": "C55",
   "status": "partial",
   "theorems": [
    "Verif.Sums.C55_adler_partial",
    "Verif.Sums.C55_adler_overflow",
    "Verif.Sums.C55_crc",
    "Verif.Sums.C55_crc_pieces",
    "Verif.Sums.C55_crc_burst"
   ],
   "note": "C55_adler_partial: Adler32 for up to 3854 bytes, or any number of bytes up to 115; C55_adler_overflow: 5552 bytes 0FFX overflow LONGINT. C55_crc, C55_crc_pieces, C55_crc_burst: CRC32 in full."
  },
  {
   "property": "C56",
   "status": "partial",
   "theorems": [
    "Verif.Utf.C56_encode",
    "Verif.Utf.C56_decode",
    "Verif.Utf.C56_text_encode",
    "Verif.Utf.C56_text_decode",
    "Verif.Utf.C56_roundtrip",
    "Verif.Utf.C56_ucs2_high",
    "Verif.Utf.C56_invalid",
    "Verif.Utf.C56_overflow",
    "Verif.Utf.C56_lossy",
    "Verif.Utf.C56_ascii_trap"
   ],
   "note": "C56_encode, C56_decode, C56_text_encode, C56_text_decode, C56_roundtrip: all characters and texts. C56_ucs2_high: UCS2toUTF8 writes one wrong byte for characters from 8000H on. C56_invalid, C56_overflow, C56_lossy, C56_ascii_trap: what is wrong with other input."
  },
  {
   "property": "C57",
   "status": "partial",
   "theorems": [
    "Verif.Dates.C57_ymd",
    "Verif.Dates.C57_number_partial",
    "Verif.Dates.C57_date_partial",
    "Verif.Dates.C57_weekday_partial",
    "Verif.Dates.C57_add_day_partial",
    "Verif.Dates.C57_all_days",
    "Verif.Dates.C57_date_2100",
    "Verif.Dates.C57_number_2101",
    "Verif.Dates.C57_add_month",
    "Verif.Dates.C57_add_year",
    "Verif.Dates.C57_hms",
    "Verif.Dates.C57_add_clock",
    "Verif.Dates.C57_add_time_partial"
   ],
   "note": "C57_number_partial, C57_date_partial, C57_weekday_partial, C57_add_day_partial, C57_add_time_partial: from 1901 to 2100; C57_date_2100, C57_number_2101: wrong after the 28th of February 2100 and the 31st of December 2100. C57_all_days: every date is covered. C57_ymd, C57_hms, C57_add_month, C57_add_year, C57_add_clock: all years an INTEGER holds."
  },
  {
   "property": "C58",
   "status": "proved",
   "theorems": [
    "Verif.LongInts.C58_mult",
    "Verif.LongInts.C58_add",
    "Verif.LongInts.C58_div",
    "Verif.LongInts.C58_ten_power",
    "Verif.LongInts.C58_base_power",
    "Verif.LongInts.C58_guard",
    "Verif.LongInts.C58_overflow"
   ],
   "note": "C58_mult, C58_add, C58_div, C58_ten_power, C58_base_power: for numbers whose first element is zero, as the module expects. C58_guard: with a first element that is not zero before a second that is, it is overlooked. C58_overflow: the carry out of the first element is lost."
  },
  {
   "property": "C59",
   "status": "partial",
   "theorems": [
    "Verif.Random.C59_next",
    "Verif.Random.C59_sequence",
    "Verif.Random.C59_seed",
    "Verif.Random.C59_range",
    "Verif.Random.C59_period",
    "Verif.Random.C59_uniform_partial",
    "Verif.Random.C59_stuck",
    "Verif.Random.C59_negative",
    "Verif.Random.C59_one",
    "Verif.Random.C59_one_reached"
   ],
   "note": "C59_next, C59_sequence, C59_seed, C59_range, C59_period: oocRandomNumbers on integers in full. C59_uniform_partial: ethRandomNumbers from a legal seed, before the quotient is shortened. C59_one, C59_one_reached: Uniform and Random return exactly 1 for the largest states, whatever the rounding errors before, and every seed reaches them. C59_stuck: the seed 0 makes Uniform 1 for ever. C59_negative: a negative seed overflows."
  },
  {
   "property": "C60",
   "status": "partial",
   "theorems": [
    "Verif.TextFiles.C60_store_load_partial",
    "Verif.TextFiles.C60_close_open_partial",
    "Verif.TextFiles.C60_reload",
    "Verif.TextFiles.C60_no_store",
    "Verif.TextFiles.C60_crlf",
    "Verif.TextFiles.C60_fonts",
    "Verif.TextFiles.C60_large",
    "Verif.TextFiles.C60_first_byte",
    "Verif.TextFiles.C60_load_partial"
   ],
   "note": "C60_store_load_partial, C60_close_open_partial, C60_load_partial: everything but the fonts, for up to 30 fonts and 62 kinds of elements, without CR LF. C60_reload, C60_no_store: fonts are lost, and no loaded text can be stored again. C60_crlf: CR LF becomes two characters. C60_fonts: 31 fonts trap. C60_large: elements are lost in the large size models. C60_first_byte: plain files that begin with 0F0X are misread."
  },
  {
   "property": "C61",
   "status": "proved",
   "theorems": [
    "Verif.Scan.C61_tokens",
    "Verif.Scan.C61_last_token",
    "Verif.Scan.C61_hex",
    "Verif.Scan.C61_written",
    "Verif.Scan.C61_large_exponent",
    "Verif.Scan.C61_exponent_wraps",
    "Verif.Scan.C61_min",
    "Verif.Scan.C61_long_name",
    "Verif.Scan.C61_many_digits",
    "Verif.Scan.C61_inval",
    "Verif.Scan.C61_latin",
    "Verif.Scan.C61_write_hex"
   ],
   "note": "Integers from -(2^31-1) to 2^31-1 of at most 32 digits, names and strings of at most 63 characters. C61_min: MIN(LONGINT) overflows, though WriteInt writes it. C61_long_name: longer names are split. C61_many_digits: more digits trap. C61_latin: some characters beyond ASCII count as letters. C61_write_hex: what WriteHex writes is no number to Scan. C61_large_exponent: an exponent beyond 38, or 308 after D, stops the program. C61_exponent_wraps: the exponent is counted in 16 bits, so 1.0E65536 is accepted. The values of real numbers are not modelled."
  },
  {
   "property": "C62",
   "status": "partial",
   "theorems": [
    "Verif.Opers.C62_operators",
    "Verif.Opers.C62_zero",
    "Verif.Opers.C62_unary",
    "Verif.Opers.C62_in",
    "Verif.Opers.C62_sets",
    "Verif.Opers.C62_one_operand",
    "Verif.Opers.C62_nan",
    "Verif.Opers.C62_times_zero",
    "Verif.Opers.C62_range"
   ],
   "note": "C62_operators gives both directions for two operands, C62_unary, C62_in and C62_sets for the others, C62_zero the division by zero. C62_nan: the constant 0.0/0.0 is accepted. C62_times_zero: of 0 * f() the call is dropped. C62_range: a range of constants beyond 31 is of type SET also where that has 32 elements. Not modelled: errors because a constant result is too large (203, 204, 206, 207)."
  },
  {
   "property": "C63",
   "status": "partial",
   "theorems": [
    "Verif.Predecl.C63_predeclared",
    "Verif.Predecl.C63_ash_range",
    "Verif.Predecl.C63_ash_min",
    "Verif.Predecl.C63_short_short",
    "Verif.Predecl.C63_len_type"
   ],
   "note": "C63_predeclared gives both directions, except for ASH of the smallest 64-bit constant. C63_ash_range: ASH(1, 40) is a LONGINT constant also where that has 32 bits. C63_ash_min: ASH(MIN(HUGEINT), 1) is accepted. C63_short_short: SHORT of the smallest and LONG of the largest integer type are accepted. C63_len_type: LEN of the name of an array type is accepted. Not modelled: the procedures of SYSTEM, the ranges of real constants."
  },
  {
   "property": "C64",
   "status": "partial",
   "theorems": [
    "Verif.Decls.C64_finite",
    "Verif.Decls.C64_meaning",
    "Verif.Decls.C64_variables",
    "Verif.Decls.C64_names",
    "Verif.Decls.C64_old",
    "Verif.Decls.C64_wf_partial",
    "Verif.Decls.C64_inherited_partial",
    "Verif.Decls.C64_lengths",
    "Verif.Decls.C64_open_array",
    "Verif.Decls.C64_duplicate_field",
    "Verif.Decls.C64_field_hides"
   ],
   "note": "C64_meaning, C64_variables, C64_finite, C64_names and C64_old hold for every accepted block; C64_wf_partial (the table stays as C53, C54, C62 and C63 suppose) excludes open arrays of the type being declared; C64_inherited_partial (no field has the name of an inherited one) excludes extensions of a record within its own declaration; C64_lengths bounds the lengths of arrays. C64_open_array: D = ARRAY OF ARRAY OF POINTER TO ARRAY OF D is accepted with a wrong number of dimensions. C64_duplicate_field: a record declared within its base type can have a field of the same name. C64_field_hides: fields hide types in the types of later fields. Not modelled: system flags, export marks, constant expressions, warnings, declarations of procedures."
  },
  {
   "property": "C65",
   "status": "partial",
   "theorems": [
    "Verif.CDecl.C65_variables_partial",
    "Verif.CDecl.C65_header_partial",
    "Verif.CDecl.C65_one_reading",
    "Verif.CDecl.C65_open_array_of_arrays",
    "Verif.CDecl.C65_named_open_array"
   ],
   "note": "C65_variables_partial and C65_header_partial hold for all legal types except two kinds of parameters; C65_one_reading: a text has one reading. C65_open_array_of_arrays: a parameter ARRAY OF ARRAY 5 OF CHAR is declared CHAR *a[5], an array of pointers instead of a pointer to arrays. C65_named_open_array: a parameter of a named open array type whose elements have no name loses the declarator of the elements. Not modelled: storage classes, initial values NIL, types not yet defined in the C text."
  },
  {
   "property": "C66",
   "status": "partial",
   "theorems": [
    "Verif.CDefs.C66_partial",
    "Verif.CDefs.C66_endless",
    "Verif.CDefs.C66_names_matter",
    "Verif.CDefs.C66_pointer_to_array"
   ],
   "note": "C66_partial: holds for every module in which no type is needed for itself, where types in the headers of bound procedures count as needed for the record. C66_endless: for TYPE Tree = POINTER TO ARRAY OF RECORD sub: Tree END the compiler never ends. C66_names_matter: whether a record Q holding a record R may be a parameter of a procedure bound to R depends on the alphabetical order of the names Q and R. C66_pointer_to_array: a pointer to a named array of such pointers is rejected. Not modelled: the header file (where what is not exported is skipped), types local to procedures."
  },
  {
   "property": "C67",
   "status": "partial",
   "theorems": [
    "Verif.Procs.C67_procedures_partial",
    "Verif.Procs.C67_one_body",
    "Verif.Procs.C67_one_method",
    "Verif.Procs.C67_redefinition",
    "Verif.Procs.C67_case",
    "Verif.Procs.C67_missing_body",
    "Verif.Procs.C67_code_after_forward",
    "Verif.Procs.C67_predeclared_name",
    "Verif.Procs.C67_field_below",
    "Verif.Procs.C67_export_order"
   ],
   "note": "C67_procedures_partial: an equivalence with the rules of the report, except two that are marked in the specification: a forward declaration of a redefining procedure can be left without a body (C67_missing_body), and predeclared names of types cannot be declared as procedures of a module (C67_predeclared_name). C67_one_body, C67_one_method and C67_redefinition hold for all accepted modules. Further deviations: C67_code_after_forward, C67_field_below, C67_export_order. Assumed: the comparison of parameter lists ends (C53_endless shows that with recursive procedure types it need not). Not modelled: the parser's own errors, types of parameters, statements."
  },
  {
   "property": "C68",
   "status": "partial",
   "theorems": [
    "Verif.Arrays.C68_len",
    "Verif.Arrays.C68_enter_partial",
    "Verif.Arrays.C68_rooted_partial",
    "Verif.Arrays.C68_nested_lengths",
    "Verif.Arrays.C68_shorter"
   ],
   "note": "C68_len for all designators of arrays; C68_enter_partial and C68_rooted_partial for all calls whose actual parameters the report allows. Missing: C68_nested_lengths proves that procedures nested in the one called never get the lengths of the second and further open dimensions (the fields are not set); C68_shorter proves that a string constant or array that is shorter than a value parameter of fixed length, which the compiler accepts, makes the procedure read beyond it. Not modelled here: the addresses of designators (C38), value parameters that are not arrays in nested procedures (C52), casts."
  },
  {
   "property": "C69",
   "status": "partial",
   "theorems": [
    "Verif.SymUpdate.C69_accept",
    "Verif.SymUpdate.C69_file",
    "Verif.SymUpdate.C69_unchanged",
    "Verif.SymUpdate.C69_extended",
    "Verif.SymUpdate.C69_history_partial",
    "Verif.SymUpdate.C69_refused_twice",
    "Verif.SymUpdate.C69_code_error"
   ],
   "note": "C69_accept, C69_file, C69_unchanged and C69_extended for single compilations; C69_history_partial for histories. Missing: C69_refused_twice proves that a change that is refused is accepted when the module is compiled again without permission, since the old symbol file is deleted; C69_code_error that an error in writing the C text deletes it too. Not modelled here: what goes into a fingerprint (C16, C44) and the bytes of the file (C19); what is mentioned by an object is given by the module."
  },
  {
   "property": "C70",
   "status": "partial",
   "theorems": [
    "Verif.Cmdline.C70_cc",
    "Verif.Cmdline.C70_options",
    "Verif.Cmdline.C70_every_argument",
    "Verif.Cmdline.C70_every_command_line",
    "Verif.Cmdline.C70_exit_partial",
    "Verif.Cmdline.C70_missing_file",
    "Verif.Cmdline.C70_sizes"
   ],
   "note": "C70_options for all command lines (C70_every_argument and C70_every_command_line: there are no others, up to 255 characters for an argument); C70_cc, C70_sizes and C70_exit_partial. Missing: C70_missing_file proves that when a file is not there the compiler stops without an error and does not compile the files that follow. Not modelled: the search path, the text of the commands for the C compiler."
  },
  {
   "property": "C71",
   "status": "partial",
   "theorems": [
    "Verif.CNames.C71_distinct_partial",
    "Verif.CNames.C71_members_partial",
    "Verif.CNames.C71_keywords_partial",
    "Verif.CNames.C71_escape",
    "Verif.CNames.C71_lost",
    "Verif.CNames.C71_c99",
    "Verif.CNames.C71_link",
    "Verif.CNames.C71_anonymous",
    "Verif.CNames.C71_macro_partial",
    "Verif.CNames.C71_receiver",
    "Verif.CNames.C71_long",
    "Verif.CNames.C71_void"
   ],
   "note": "C71_distinct_partial and C71_members_partial for all legal modules with fewer than 32768 numbered names; C71_keywords_partial, C71_escape, C71_macro_partial. Missing, each with a proved counterexample: C71_lost (UINT8 and UINT32 are lost from the table of keywords), C71_c99 (inline and restrict are not in it), C71_link (a shared variable called lnk), C71_anonymous (a record without a name and a local type named like the module), C71_receiver, C71_long and C71_void (macros of procedures bound to types). Not modelled: fields of records, constants, the macros of SYSTEM.h."
  },
  {
   "property": "C72",
   "status": "partial",
   "theorems": [
    "Verif.Assign.C72_assign_partial",
    "Verif.Assign.C72_guard",
    "Verif.Assign.C72_simple",
    "Verif.Assign.C72_inc",
    "Verif.Assign.C72_incl",
    "Verif.Assign.C72_move",
    "Verif.Assign.C72_var_guard",
    "Verif.Assign.C72_anonymous_guard",
    "Verif.Assign.C72_unchecked",
    "Verif.Assign.C72_self",
    "Verif.Assign.C72_inc_wraps",
    "Verif.Assign.C72_inc_overflow",
    "Verif.Assign.C72_incl_undefined",
    "Verif.Assign.C72_move_overlap"
   ],
   "note": "C72_assign_partial for arrays, strings and records that do not overlap, C72_guard for the trap, C72_simple, C72_inc, C72_incl, C72_move. Missing, each with a proved counterexample: C72_var_guard (v(T) := y on a variable parameter gives illegal C), C72_anonymous_guard (p(T)^ := y for a record type without name), C72_unchecked (p(T)^ := y without type checks), C72_self (an array assigned to itself is memcpy of overlapping areas), C72_inc_wraps and C72_inc_overflow (INC is not checked), C72_incl_undefined (the element is not checked), C72_move_overlap. Not modelled: assignment of procedures, conversion to REAL and LONGREAL."
  },
  {
   "property": "C73",
   "status": "partial",
   "theorems": [
    "Verif.ErrPos.C73_line_partial",
    "Verif.ErrPos.C73_reports_partial",
    "Verif.ErrPos.C73_some_error",
    "Verif.ErrPos.C73_first_column",
    "Verif.ErrPos.C73_line_zero",
    "Verif.ErrPos.C73_depends"
   ],
   "note": "C73_line_partial, C73_reports_partial and C73_some_error for all texts and sequences of reports, for positions that are not the first of a line. Missing: C73_first_column proves that for the first position of any line the line before is shown with the number before; C73_line_zero that the beginning of the text is shown as line 0; C73_depends that the line shown depends on earlier reports. Not modelled: the texts of the messages, colours, tabs in the line (the arrow is moved by spaces), which position the scanner reports (the end of the symbol before)."
  },
  {
   "property": "C74",
   "status": "partial",
   "theorems": [
    "Verif.Imports.C74_capacity",
    "Verif.Imports.C74_imports_partial",
    "Verif.Imports.C74_export",
    "Verif.Imports.C74_private",
    "Verif.Imports.C74_cycle",
    "Verif.Imports.C74_cycle_runs",
    "Verif.Imports.C74_too_many"
   ],
   "note": "Partial because of proved deviations: versions that differ in private parts only are accepted when the type is used but not exported (C74_private), circular imports are accepted if the interface mentions no type of the module compiled (C74_cycle), and such a program never starts (C74_cycle_runs); the 64th module imported ends the compiler with an index out of range (C74_too_many)."
  },
  {
   "property": "C75",
   "status": "partial",
   "theorems": [
    "Verif.PathSearch.C75_dirs",
    "Verif.PathSearch.C75_old_partial",
    "Verif.PathSearch.C75_directory_partial",
    "Verif.PathSearch.C75_empty",
    "Verif.PathSearch.C75_root",
    "Verif.PathSearch.C75_home",
    "Verif.PathSearch.C75_truncated",
    "Verif.PathSearch.C75_too_long"
   ],
   "note": "C75_dirs for all paths that fit into the arrays, C75_old_partial, C75_directory_partial and C75_empty. Missing because of proved deviations: the root directory in a path means the current directory (C75_root), an entry ~ without a home directory ends the search (C75_home), names with a directory are cut to 255 characters and another file is opened (C75_truncated), a directory of 256 characters stops the program (C75_too_long)."
  },
  {
   "property": "C76",
   "status": "partial",
   "theorems": [
    "Verif.MD5.C76_chunks",
    "Verif.MD5.C76_md5_partial",
    "Verif.MD5.C76_hex",
    "Verif.MD5.C76_length",
    "Verif.MD5.C76_overflow"
   ],
   "note": "C76_md5_partial, C76_chunks and C76_hex. Missing: C76_length proves that from 2^29 bytes on the padding is not the one of the RFC (the high word of the length is always 0). The model computes modulo 2^32; C76_overflow shows that the program leaves the range of LONGINT, which the generated C leaves undefined."
  },
  {
   "property": "C77",
   "status": "partial",
   "theorems": [
    "Verif.Ending.C77_finalizers",
    "Verif.Ending.C77_order",
    "Verif.Ending.C77_ends",
    "Verif.Ending.C77_status",
    "Verif.Ending.C77_success",
    "Verif.Ending.C77_signals_partial",
    "Verif.Ending.C77_quiet_partial",
    "Verif.Ending.C77_lost",
    "Verif.Ending.C77_twice",
    "Verif.Ending.C77_nil",
    "Verif.Ending.C77_killed",
    "Verif.Ending.C77_unwritten",
    "Verif.Ending.C77_256",
    "Verif.Ending.C77_never"
   ],
   "note": "C77_finalizers, C77_order, C77_ends without signals; C77_status and C77_success for every schedule; C77_signals_partial and C77_quiet_partial for handlers that register no finalizers. Missing because of proved deviations: a handler that ends the program can make a finalizer disappear (C77_lost), one that registers a finalizer can make another run twice (C77_twice), NIL in a finalizer after NIL kills the process (C77_nil), division by zero and unhandled interrupts skip the finalizers (C77_killed), text without an end of line is not written (C77_unwritten), Modules.Halt(256) reports success (C77_256), a finalizer that registers itself again keeps the program from ending (C77_never). Not modelled: signals during the message at the end, handlers on Windows."
  },
  {
   "property": "C78",
   "status": "partial",
   "theorems": [
    "Verif.Outputs.C78_object",
    "Verif.Outputs.C78_linked",
    "Verif.Outputs.C78_parse",
    "Verif.Outputs.C78_done",
    "Verif.Outputs.C78_failed",
    "Verif.Outputs.C78_pieces_partial",
    "Verif.Outputs.C78_short",
    "Verif.Outputs.C78_mixed",
    "Verif.Outputs.C78_sym_lost",
    "Verif.Outputs.C78_elsewhere"
   ],
   "note": "C78_object, C78_linked, C78_parse, C78_failed, C78_done in full; C78_pieces_partial because short files may be left incomplete under their names (C78_short). Other deviations: new and old files side by side after a crash (C78_mixed), the symbol file is lost when a compilation is refused (C78_sym_lost), no symbol file is written if the same one is found elsewhere on the search path, and the object file is then not linked (C78_elsewhere). Not modelled: the C compiler in steps, crashes of the operating system that lose writes, file systems across which files are copied."
  },
  {
   "property": "C79",
   "status": "partial",
   "theorems": [
    "Verif.Linkage.C79_declared_partial",
    "Verif.Linkage.C79_headers_partial",
    "Verif.Linkage.C79_linkage_partial",
    "Verif.Linkage.C79_defined_partial",
    "Verif.Linkage.C79_interface_partial",
    "Verif.Linkage.C79_bound_partial",
    "Verif.Linkage.C79_removed",
    "Verif.Linkage.C79_alias",
    "Verif.Linkage.C79_open_array",
    "Verif.Linkage.C79_hidden_base",
    "Verif.Linkage.C79_readonly_procedure",
    "Verif.Linkage.C79_interrupt",
    "Verif.Linkage.C79_unexported"
   ],
   "note": "C79_removed in full; the others for programs that avoid what is proved to go wrong: other names exported for types of other modules (C79_alias), exported open array types with elements of other modules (C79_open_array), extensions of base types that are exported only under another name (C79_hidden_base), procedures marked with - (C79_readonly_procedure), exported interrupt procedures (C79_interrupt), procedures that are no longer exported but assigned to variables (C79_unexported). Not modelled: anonymous record types, types and procedures declared in procedures, macros for code procedures and bound procedures."
  },
  {
   "property": "C80",
   "status": "partial",
   "theorems": [
    "Verif.BTree.C80_map_partial",
    "Verif.BTree.C80_depth_partial",
    "Verif.BTree.C80_pages_partial",
    "Verif.BTree.C80_present_partial",
    "Verif.BTree.C80_uninitialized",
    "Verif.BTree.C80_least_key"
   ],
   "note": "For all histories if the variable h of DeleteLInt is FALSE to begin with, or if only keys are deleted that are there (C80_present_partial); it is not initialized, and C80_uninitialized shows that deleting a missing key may lose another one. Not for enumerations up to the least of all keys, which give nothing (C80_least_key). Not modelled: positions in the file, the cache of pages, free pages, closing and opening again, the cutting of long strings."
  },
  {
   "property": "C81",
   "status": "partial",
   "theorems": [
    "Verif.Vmake.C81_order_partial",
    "Verif.Vmake.C81_given_partial",
    "Verif.Vmake.C81_cycle",
    "Verif.Vmake.C81_comment",
    "Verif.Vmake.C81_unended"
   ],
   "note": "For modules in which the word IMPORT does not occur before the import list, and which end it by a semicolon. Elsewhere the code deviates: modules that import each other make it dereference NIL instead of reporting the cycle (C81_cycle), the word in a comment hides the imports (C81_comment), and without the semicolon the tool does not end (C81_unended). Not modelled: the length of names, reading the list of names, the characters of the texts (the signs found by Texts.Scan are the input)."
  },
  {
   "property": "C82",
   "status": "partial",
   "theorems": [
    "Verif.BinDir.C82_trim_partial",
    "Verif.BinDir.C82_directory_partial",
    "Verif.BinDir.C82_install",
    "Verif.BinDir.C82_number_partial",
    "Verif.BinDir.C82_no_argument",
    "Verif.BinDir.C82_position_partial",
    "Verif.BinDir.C82_backslash",
    "Verif.BinDir.C82_colon",
    "Verif.BinDir.C82_empty_element",
    "Verif.BinDir.C82_not_program",
    "Verif.BinDir.C82_root"
   ],
   "note": "For paths without backslashes, names of programs without a colon, search paths without semicolons and empty elements, numbers within LONGINT. Elsewhere the code deviates: backslashes become slashes on every system (C82_backslash), a name like c:d/x is taken for absolute (C82_colon), empty elements of the search path are skipped unless they come first (C82_empty_element), directories and files that are no programs count (C82_not_program), and for a program in the root directory the result is empty (C82_root). Not modelled: the sizes of the arrays for paths."
  },
  {
   "property": "C83",
   "status": "partial",
   "theorems": [
    "Verif.TDInit.C83_order_partial",
    "Verif.TDInit.C83_start_partial",
    "Verif.TDInit.C83_inner",
    "Verif.TDInit.C83_depth"
   ],
   "note": "For modules in which no record is extended within its own declaration, and levels up to 15. Elsewhere the code deviates: RECORD p: POINTER TO RECORD (T) ... within the declaration of T is accepted, but its descriptor is initialised before that of T, through a NULL pointer (C83_inner); and records of level 16 are accepted although descriptors have no entry for them (C83_depth). Not modelled: records in the parameter lists of procedure headings."
  },
  {
   "property": "C84",
   "status": "partial",
   "theorems": [
    "Verif.OocStr.C84_length",
    "Verif.OocStr.C84_assign",
    "Verif.OocStr.C84_extract",
    "Verif.OocStr.C84_delete",
    "Verif.OocStr.C84_insert",
    "Verif.OocStr.C84_insert_behind",
    "Verif.OocStr.C84_replace",
    "Verif.OocStr.C84_append",
    "Verif.OocStr.C84_concat",
    "Verif.OocStr.C84_can",
    "Verif.OocStr.C84_can_extract",
    "Verif.OocStr.C84_can_delete",
    "Verif.OocStr.C84_can_insert",
    "Verif.OocStr.C84_can_replace",
    "Verif.OocStr.C84_compare",
    "Verif.OocStr.C84_equal",
    "Verif.OocStr.C84_findNext",
    "Verif.OocStr.C84_findPrev",
    "Verif.OocStr.C84_capitalize_partial",
    "Verif.OocStr.C84_capitalize_space"
   ],
   "note": "Capitalize is proved for strings whose characters are letters (C84_capitalize_partial). For other characters the code deviates from its description: CAP clears a bit of each, so that a blank becomes 0X and ends the string (C84_capitalize_space). Arrays have at most 32767 elements, and positions are not negative, as the module demands."
  },
  {
   "property": "C85",
   "status": "partial",
   "theorems": [
    "Verif.IntStr.C85_strToInt",
    "Verif.IntStr.C85_reason_partial",
    "Verif.IntStr.C85_results",
    "Verif.IntStr.C85_not_empty",
    "Verif.IntStr.C85_not_a_number",
    "Verif.IntStr.C85_intToStr",
    "Verif.IntStr.C85_round_trip",
    "Verif.IntStr.C85_lengthInt"
   ],
   "note": "The conversions and the round trip are proved in full. The reason given for a failure deviates from the descriptions: a string such as abc is reported to be empty (C85_not_empty), and one that begins with too large a number to be out of range although it is not a number (C85_not_a_number); C85_results says what the results mean."
  },
  {
   "property": "C86",
   "status": "partial",
   "theorems": [
    "Verif.BitSets.C86_clear",
    "Verif.BitSets.C86_fill",
    "Verif.BitSets.C86_incl",
    "Verif.BitSets.C86_excl",
    "Verif.BitSets.C86_in",
    "Verif.BitSets.C86_tests_partial",
    "Verif.BitSets.C86_longer",
    "Verif.BitSets.C86_shorter",
    "Verif.BitSets.C86_operations",
    "Verif.BitSets.C86_elements_partial",
    "Verif.BitSets.C86_many"
   ],
   "note": "The tests are proved for arrays of the same length: when the second array is longer, what it has beyond the first is ignored (C86_longer). Elements is proved for arrays with room for at most 32767 numbers: for 1024 SETs of 32 bits it always answers 0 (C86_many). Print is not modelled."
  },
  {
   "property": "C87",
   "status": "partial",
   "theorems": [
    "Verif.Inflate.C87_output_partial",
    "Verif.Inflate.C87_finishes_partial",
    "Verif.Inflate.C87_uncompress",
    "Verif.Inflate.C87_too_far",
    "Verif.Inflate.C87_dictionary",
    "Verif.Inflate.C87_stored_input",
    "Verif.Inflate.C87_lost"
   ],
   "note": "Proved for streams in which no stored block follows a compressed one, and for all streams when the fast path is not taken. It fails otherwise: InflateBlocks keeps an old value of wavail across InflateCodes, and bytes not yet delivered are overwritten (C87_lost). Uncompress to memory fails for every block with more than 32768 bytes of text, since NeedOut does not compute wavail again after Flush (C87_uncompress). Distances too far back are not rejected (C87_too_far), and a long dictionary is used from its beginning (C87_dictionary). The decoding of bits is not modelled: a stream is given as its symbols."
  },
  {
   "property": "C88",
   "status": "partial",
   "theorems": [
    "Verif.Share.C88_processes_partial",
    "Verif.Share.C88_undisturbed_partial",
    "Verif.Share.C88_mixed"
   ],
   "note": "Proved for processes whose numbers differ in what Platform.PID (an INTEGER of 16 bits) keeps of them, and fewer than 32768 events. It is false otherwise: two processes with the numbers 40000 and 50000 use the same temporary names, a file gets the bytes of the other process, and that process is stopped by an error (C88_mixed). A call is one step; that Register itself is not atomic is C27_register_not_atomic."
  },
  {
   "property": "C89",
   "status": "partial",
   "theorems": [
    "Verif.Linking.C89_link_partial",
    "Verif.Linking.C89_nothing_missing_partial",
    "Verif.Linking.C89_compile",
    "Verif.Linking.C89_stale",
    "Verif.Linking.C89_shadow",
    "Verif.Linking.C89_cut"
   ],
   "note": "Proved for modules compiled in order that each got a new symbol file the last time they were compiled, not also in the library, if the list fits in 2048 characters and the command in 4095. It fails otherwise: a module that now imports another one, with the same interface as before, keeps its symbol file with the old list, and programs are linked without the new module (C89_stale); a changed copy of a library module with the same interface gets no symbol file, and the one in the library is linked (C89_shadow); a longer list is cut within a name without a message (C89_cut, 70 modules). Quoting is modelled for blanks and quotation marks; names with other characters that are special for the shell are excluded."
  },
  {
   "property": "C90",
   "status": "partial",
   "theorems": [
    "Verif.RealBits.C90_parts_partial",
    "Verif.RealBits.C90_scale_partial",
    "Verif.RealBits.C90_scale_large",
    "Verif.RealBits.C90_sign",
    "Verif.RealBits.C90_ulp_partial",
    "Verif.RealBits.C90_succ_partial",
    "Verif.RealBits.C90_pred_partial",
    "Verif.RealBits.C90_succ_negative",
    "Verif.RealBits.C90_pred_negative",
    "Verif.RealBits.C90_pred_power",
    "Verif.RealBits.C90_succ_zero",
    "Verif.RealBits.C90_subnormal",
    "Verif.RealBits.C90_scale_lost",
    "Verif.RealBits.C90_ulp_small",
    "Verif.RealBits.C90_intpart",
    "Verif.RealBits.C90_fractpart",
    "Verif.RealBits.C90_trunc",
    "Verif.RealBits.C90_round_partial"
   ],
   "note": "Full for sign, intpart, fractpart and trunc. For fraction, exponent and scale proved for numbers not less than 2^expoMin; the smaller ones are wrong (C90_subnormal, C90_scale_lost). succ and pred are proved for positive numbers from 2^(expoMin+places-1); for negative numbers succ gives the next smaller number and pred a greater one (C90_succ_negative, C90_pred_negative), pred of a power of two passes over a number (C90_pred_power), succ of zero is 2^(1-places) (C90_succ_zero), ulp is too large for small numbers (C90_ulp_small). round: not for the largest binary exponent, and only if the n-th place is not below 2^expoMin. Infinities and NaNs are not modelled."
  },
  {
   "property": "C91",
   "status": "partial",
   "theorems": [
    "Verif.ShowDef.C91_type",
    "Verif.ShowDef.C91_decl_partial",
    "Verif.ShowDef.C91_same_text_partial",
    "Verif.ShowDef.C91_const_partial",
    "Verif.ShowDef.C91_char_letter",
    "Verif.ShowDef.C91_str_quote",
    "Verif.ShowDef.C91_char_quote",
    "Verif.ShowDef.C91_code_quote",
    "Verif.ShowDef.C91_module_partial",
    "Verif.ShowDef.C91_no_imports"
   ],
   "note": "Full for types. For procedures: code of code procedures without quotes (C91_code_quote). For constants: not characters from 0A0X, which are written without the leading zero and so begin with a letter (C91_char_letter), not the quote as a character (C91_char_quote), not strings that contain a quote (C91_str_quote), not real numbers. For whole definitions (C91_module_partial): of modules with imports, or if the variable end, which has no value yet, is not by chance the length of the first line (C91_no_imports). The option x is not modelled."
  },
  {
   "property": "C92",
   "status": "partial",
   "theorems": [
    "Verif.VT100.C92_int_to_str",
    "Verif.VT100.C92_sequence_partial",
    "Verif.VT100.C92_no_trap",
    "Verif.VT100.C92_one_digit",
    "Verif.VT100.C92_two_long"
   ],
   "note": "IntToStr and freedom from traps are full. The sequences are proved for a single parameter from 0 to 9, two parameters from -999 to 9999, attributes of at most 14 characters. For others they are wrong: of a single parameter only the first character is written, so that CUU(12) moves by 1 (C92_one_digit); of two parameters only four characters each (C92_two_long)."
  },
  {
   "property": "C93",
   "status": "partial",
   "theorems": [
    "Verif.Reals.C93_expo",
    "Verif.Reals.C93_expoL",
    "Verif.Reals.C93_set_expo",
    "Verif.Reals.C93_convert_partial",
    "Verif.Reals.C93_convert_rounded",
    "Verif.Reals.C93_convert_trap",
    "Verif.Reals.C93_hex"
   ],
   "note": "Full except for ConvertL where LONGINT has 32 bits and n > 9: proved for an exact split at 10^9; if the machine's quotient is rounded up to a whole number the digits are those of a greater number (C93_convert_rounded). The values of ENTIER are parameters. Ten and TenL are not modelled."
  },
  {
   "property": "C94",
   "status": "proved",
   "theorems": [
    "Verif.Time.C94_init",
    "Verif.Time.C94_get_time",
    "Verif.Time.C94_add_ok",
    "Verif.Time.C94_sub_ok",
    "Verif.Time.C94_add",
    "Verif.Time.C94_sub",
    "Verif.Time.C94_delta_add",
    "Verif.Time.C94_cmp",
    "Verif.Time.C94_unique",
    "Verif.Time.C94_wraps"
   ],
   "note": "If the days do not fit they wrap around without a trap (C94_wraps). Scale and Fraction, which compute with real numbers, are not modelled."
  },
  {
   "property": "C95",
   "status": "proved",
   "theorems": [
    "Verif.Ocat.C95_ocat",
    "Verif.Ocat.C95_ocat_t",
    "Verif.Ocat.C95_delivered",
    "Verif.Ocat.C95_last_line",
    "Verif.Ocat.C95_only_option",
    "Verif.Ocat.C95_empty_argument"
   ],
   "note": "Texts that do not end with the end of a line are kept in part by the Console and not written at the end of the program (C95_last_line). ocat -t without names opens a file -t (C95_only_option). An empty argument ends the list (C95_empty_argument). A file is given as the characters that Texts.Read gives; Platform.Write takes all bytes."
  },
  {
   "property": "C96",
   "status": "partial",
   "theorems": [
    "Verif.ShowDef.Arg.C96_path",
    "Verif.ShowDef.Arg.C96_plain",
    "Verif.ShowDef.Arg.C96_root"
   ],
   "note": "Full except for files in the root directory, for which the search path is not changed (C96_root)."
  },
  {
   "property": "C97",
   "status": "proved",
   "theorems": [
    "Verif.Listen.C97_one_list",
    "Verif.Listen.C97_concat",
    "Verif.Listen.C97_concat_others",
    "Verif.Listen.C97_head_tail",
    "Verif.Listen.C97_empty",
    "Verif.Listen.C97_append",
    "Verif.Listen.C97_append_others",
    "Verif.Listen.C97_is_element",
    "Verif.Listen.C97_find"
   ],
   "note": "The depth of the recursion is not bounded by a stack in the model."
  }
 ]
}