/-!
# The files a compilation writes: specification

For a module the compiler keeps a symbol file, a header file, a C file and, made by the C compiler from these, an object file.  A reader who
finds an object file relies on it being made from the C file and the header file beside it.
-/
namespace Verif.Outputs

/-- The files that the compiler writes. -/
inductive F where
  | sym
  | h
  | c
  deriving DecidableEq, Repr

/-- The contents of a file. -/
abbrev Bytes := List Nat

/-- The files of a module; an object file is represented by what it was made from. -/
structure Disk where
  file : F → Option Bytes
  /-- The header file and the C file at the time when the object file was made. -/
  obj : Option (Option Bytes × Option Bytes)

/-- What a source text is translated to; main programs have no symbol file and no header file. -/
structure Out where
  sym : Option Bytes
  h : Option Bytes
  c : Bytes
  deriving DecidableEq, Repr

/-- The object file, if there is one, belongs to the files beside it: all are the translation of one text, and the symbol file, if it is there,
describes this text. -/
def Consistent (outs : List Out) (d : Disk) : Prop :=
  ∀ x, d.obj = some x → ∃ o ∈ outs, x = (o.h, some o.c) ∧ d.file .h = o.h ∧ d.file .c = some o.c ∧
    (d.file .sym = none ∨ d.file .sym = o.sym)

end Verif.Outputs
