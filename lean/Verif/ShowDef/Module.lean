import Verif.ShowDef.Spec

/-!
# The whole definition: `WModule`, src/tools/browser/BrowserCmd.Mod 206-252
-/
namespace Verif.ShowDef

/-- What a definition shows: the names of the imported modules, and the objects in the order of the tree. -/
structure Interface where
  name : Name
  imports : List Name
  consts : List (Name × Value)
  types : List Decl
  vars : List Decl
  procs : List Decl

/-- The first line, BrowserCmd.Mod 230. -/
def wtitle (n : Name) : List Char := "DEFINITION ".toList ++ (n ++ [';', '\n'])

/-- The names with commas, BrowserCmd.Mod 233-239. -/
def wnames : List Name → List Char
  | [] => []
  | [n] => n
  | n :: ns => n ++ (',' :: ' ' :: wnames ns)

/-- `Header`, the objects, and `CheckHeader`, BrowserCmd.Mod 213-225 and 243-245: a header with nothing behind it is deleted again. -/
def wsect (header body : List Char) : List Char :=
  if body = [] then [] else indent 1 ++ (header ++ ('\n' :: (body ++ ['\n'])))

/-- The first line and the imports, BrowserCmd.Mod 230-241.  Without imports, `CheckHeader` uses the variables `beg` and `end`, which have no value yet: here
they are parameters.  The written text is then all in the buffer, and the log is empty before. -/
def wtop («beg» «end» : Nat) (n : Name) (imports : List Name) : List Char :=
  if imports ≠ [] then
    wtitle n ++ (indent 1 ++ ("IMPORT".toList ++ ('\n' :: (indent 2 ++ (wnames imports ++ [';', '\n', '\n'])))))
  else if «end» = (wtitle n).length then (wtitle n).take «beg» ++ (wtitle n).drop «end»
  else wtitle n ++ ['\n']

/-- `WModule`, BrowserCmd.Mod 206-252, for a symbol file that was found.  `HasForm` (52-58) is true if the list is not empty: the lists have the objects with names. -/
def wmodule («beg» «end» : Nat) (i : Interface) : List Char :=
  wtop «beg» «end» i.name i.imports ++
  (wsect "CONST".toList (i.consts.flatMap fun c => wconst c.1 c.2) ++
  (wsect "TYPE".toList (i.types.flatMap wdecl) ++
  (wsect "VAR".toList (i.vars.flatMap wdecl) ++
  (i.procs.flatMap wdecl ++ ('\n' :: ("END ".toList ++ (i.name ++ ['.', '\n'])))))))

/-! ## Reading a definition -/

/-- Names with commas between them. -/
def readNames : Nat → List Char → Option (List Name × List Char)
  | 0, _ => none
  | f + 1, s =>
    if (word s).2.head? = some ',' then do
      let r ← skip [',', ' '] (word s).2
      let (l, r) ← readNames f r
      pure ((word s).1 :: l, r)
    else some ([(word s).1], (word s).2)

/-- Declarations until an empty line. -/
def readDecls : Nat → List Char → Option (List Decl × List Char)
  | 0, _ => none
  | f + 1, s =>
    if s.head? = some '\n' then some ([], s.tail)
    else do
      let (d, r) ← readDecl f s
      let (l, r) ← readDecls f r
      pure (d :: l, r)

/-- Constants until an empty line. -/
def readConsts : Nat → List Char → Option (List (Name × Value) × List Char)
  | 0, _ => none
  | f + 1, s =>
    if s.head? = some '\n' then some ([], s.tail)
    else do
      let (n, v, r) ← readConst f s
      let (l, r) ← readConsts f r
      pure ((n, v) :: l, r)

/-- A section: if its header is there, what follows it. -/
def readSect {α : Type} (header : List Char) (p : List Char → Option (List α × List Char)) (s : List Char) : Option (List α × List Char) :=
  match skip header s with
  | some r => p r
  | none => some ([], s)

/-- The imports. -/
def readImports (f : Nat) (s : List Char) : Option (List Name × List Char) :=
  match skip "  IMPORT\n    ".toList s with
  | some r => do
    let (l, r) ← readNames f r
    let r ← skip [';', '\n', '\n'] r
    pure (l, r)
  | none => (skip ['\n'] s).map fun r => ([], r)

/-- A definition. -/
def readModule (f : Nat) (s : List Char) : Option Interface := do
  let r ← skip "DEFINITION ".toList s
  let (n, r) := word r
  let r ← skip [';', '\n'] r
  let (imports, r) ← readImports f r
  let (consts, r) ← readSect "  CONST\n".toList (readConsts f) r
  let (types, r) ← readSect "  TYPE\n".toList (readDecls f) r
  let (vars, r) ← readSect "  VAR\n".toList (readDecls f) r
  let (procs, r) ← readDecls f r
  let _ ← skip ("END ".toList ++ (n ++ ['.', '\n'])) r
  pure ⟨n, imports, consts, types, vars, procs⟩

/-- The names are identifiers, the constants can be written (see `Value.Ok`), and each object is in the list of its kind. -/
structure Interface.Ok (i : Interface) : Prop where
  name : Ident i.name
  imports : ∀ n ∈ i.imports, Ident n
  consts : ∀ c ∈ i.consts, Ident c.1 ∧ c.2.Ok
  types : ∀ d ∈ i.types, d.Ok
  vars : ∀ d ∈ i.vars, d.Ok
  procs : ∀ d ∈ i.procs, d.Ok ∧ ∃ k n ps r, d = .proc k n ps r

/-- The interface without what is not exported. -/
def Interface.visible (i : Interface) : Interface :=
  ⟨i.name, i.imports, i.consts, i.types.map Decl.visible, i.vars.map Decl.visible, i.procs.map Decl.visible⟩

end Verif.ShowDef
