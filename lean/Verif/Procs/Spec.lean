import Verif.Types.Model

/-!
# Declarations of procedures, after the language report

A block declares names (constants, types, variables; the parameters of the procedure around it) and then procedures; procedures have
a heading and, unless the heading is a forward declaration, a body with a block of its own.  Types and names are numbers; what is known
of types is in a table (`Verif.Types`).
-/
namespace Verif.Procs
open Verif.Types

/-- How an object is exported: not at all, by `*`, by `-`. -/
inductive Vis where
  | internal | external | readonly
deriving DecidableEq, Repr

/-- The mark after PROCEDURE: none, `*`, `^` (forward declaration), `+` (interrupt procedure), `-` (code procedure). -/
inductive Mark where
  | none | star | arrow | plus | minus
deriving DecidableEq, Repr

/-- What the name of the receiver's type denotes: nothing, something that is no type, a type. -/
inductive Denotes where
  | nothing | noType | type (t : Nat)
deriving DecidableEq, Repr

/-- A receiver. -/
structure Recv where
  var : Bool
  name : Nat
  typ : Denotes
deriving DecidableEq, Repr

/-- The heading of a procedure: mark, receiver (of a type-bound procedure), name, export, parameters, result (`notyp`: none), and the name
after its END. -/
structure Head where
  mark : Mark := .none
  recv : Option Recv := .none
  name : Nat
  vis : Vis := .internal
  pars : List Par := []
  res : Nat := notyp
  endName : Nat := name
deriving DecidableEq, Repr

mutual
/-- A procedure: its heading, the names declared in its block, and the procedures declared there. -/
inductive Decl where
  | mk (head : Head) (locals : List Nat) (body : Decls)
/-- Procedures one after the other. -/
inductive Decls where
  | nil
  | cons (d : Decl) (ds : Decls)
end

def Decl.head : Decl → Head
  | .mk h _ _ => h
def Decl.locals : Decl → List Nat
  | .mk _ l _ => l
def Decl.body : Decl → Decls
  | .mk _ _ b => b

def Decls.toList : Decls → List Decl
  | .nil => []
  | .cons d ds => d :: ds.toList

/-- The signature of a type-bound procedure: export, receiver, parameters, result. -/
structure Sig where
  vis : Vis
  recv : Par
  pars : List Par
  res : Nat
deriving DecidableEq, Repr

/-- What records contain before the procedures of the module are read: fields, and procedures bound to imported types. -/
inductive Mem where
  | field
  | method (s : Sig)
deriving DecidableEq, Repr

/-- What is known before the procedures are read. -/
structure Env where
  T : Tab
  /-- The module in which a record type is declared: 0 for this one. -/
  mno : Nat → Int
  /-- The export of the name of a record type, if it has one. -/
  strvis : Nat → Option Vis
  /-- Is SYSTEM imported? -/
  sys : Bool
  /-- The predeclared names: is it a procedure? -/
  univ : List (Nat × Bool)
  /-- The members of records: record, name, what it is. -/
  init : List (Nat × Nat × Mem)
  /-- What the comparison of two parameter lists reports (with or without the names). -/
  chk : Bool → List Par → List Par → List Nat

/-! ### Notions of the report -/

def Head.forward (h : Head) : Prop := h.mark = .arrow
instance (h : Head) : Decidable h.forward := inferInstanceAs (Decidable (_ = _))

/-- An ordinary procedure, not bound to a type. -/
def Head.plain (h : Head) : Prop := h.recv = .none
instance (h : Head) : Decidable h.plain := inferInstanceAs (Decidable (_ = _))

/-- It has statements of its own: it is neither a forward declaration nor a code procedure. -/
def Head.hasBlock (h : Head) : Prop := h.mark ≠ .arrow ∧ ¬ (h.plain ∧ h.mark = .minus)
instance (h : Head) : Decidable h.hasBlock := inferInstanceAs (Decidable (_ ∧ _))

/-- The receiver as a parameter. -/
def Recv.par (r : Recv) : Par := ⟨r.var, match r.typ with | .type t => t | _ => undftyp, r.name⟩

/-- All parameters: the receiver is the first. -/
def Head.all (h : Head) : List Par := match h.recv with | some r => r.par :: h.pars | .none => h.pars

/-- `h` is the heading of a procedure bound to record type `r`: its receiver is a VAR parameter of that type, or a value parameter of
a type of pointers to it; and `r` is declared in this module. -/
def Binds (E : Env) (h : Head) (r : Nat) : Prop :=
  ∃ rc t, h.recv = some rc ∧ rc.typ = .type t ∧ (E.T r).comp = .record ∧ E.mno r = 0 ∧
    (rc.var = true ∧ t = r ∨ rc.var = false ∧ (E.T t).form = .ptr ∧ (E.T t).base = some r)

/-- Two headings of the same procedure agree: export, result, parameters with their names. -/
def Agree (T : Tab) (e d : Head) : Prop :=
  e.vis = d.vis ∧ e.res = d.res ∧ Match T e.all d.all ∧ e.all.map Par.name = d.all.map Par.name

def Head.sig (h : Head) : Sig := ⟨h.vis, (h.all.headD ⟨false, undftyp, 0⟩), h.pars, h.res⟩

/-- Record `r` itself has a member named `n`, from the start or by one of the headings `pre`. -/
inductive Has (E : Env) (pre : List Head) (r n : Nat) : Mem → Prop
  | init {m : Mem} : (r, n, m) ∈ E.init → Has E pre r n m
  | bound {h : Head} : h ∈ pre → Binds E h r → h.name = n → Has E pre r n (.method h.sig)

/-- `b` is the nearest type that `r` extends (other than `r`) with a member named `n`, and `m` is that member. -/
inductive Base (E : Env) (pre : List Head) (n : Nat) : Nat → Nat → Mem → Prop
  | here {r b : Nat} {m : Mem} : (E.T r).base = some b → Has E pre b n m → Base E pre n r b m
  | up {r b c : Nat} {m : Mem} : (E.T r).base = some b → (∀ m, ¬ Has E pre b n m) → Base E pre n b c m → Base E pre n r c m

/-- A procedure bound to `r` with heading `h` may redefine one with signature `s`: receivers are of the same kind, parameters match, the
results are the same, and if the redefined procedure and the type are exported, so is it. -/
structure Redefines (E : Env) (h : Head) (r : Nat) (s : Sig) : Prop where
  recv : ∀ rc, h.recv = some rc → rc.var = s.recv.var
  pars : Match E.T h.pars s.pars
  res : h.res = s.res
  vis : s.vis = .external → E.strvis r = some .external → h.vis ≠ .internal

/-! ### The rules -/

/-- Rules for any heading in a block of level `lev` (0: the module). -/
structure HeadOk (E : Env) (lev : Nat) (h : Head) : Prop where
  sys : h.mark = .plus ∨ h.mark = .minus → E.sys = true
  exported : h.vis ≠ .internal → lev = 0
  marks : h.plain → h.mark = .plus ∨ h.mark = .minus → lev = 0
  params : (h.all.map Par.name).Nodup
  ends : h.hasBlock → h.endName = h.name

/-- Rules for an ordinary procedure, after the headings `pre` of the same block, which declares `names`: the name is new, or there are
forward declarations of it that agree with it. -/
structure PlainOk (E : Env) (lev : Nat) (names : List Nat) (pre : List Head) (h : Head) : Prop where
  new : h.name ∉ names
  /-- Not in the report: in the module's own block the predeclared names of types and constants cannot be used. -/
  predeclared : lev = 0 → (h.name, false) ∉ E.univ
  fwd : ∀ e ∈ pre, e.plain → e.name = h.name → e.forward ∧ Agree E.T e h

/-- Rules for a procedure bound to a type, after the headings `pre`. -/
structure MethodOk (E : Env) (pre : List Head) (h : Head) (r : Nat) : Prop where
  binds : Binds E h r
  /-- There is no such field in the record, nor in one of this module that it extends. -/
  field : (r, h.name, .field) ∉ E.init
  inherited : ∀ b, Base E pre h.name r b .field → E.mno b ≠ 0
  fwd : ∀ e ∈ pre, Binds E e r → e.name = h.name → e.forward ∧ Agree E.T e h
  redef : ∀ b s, Base E pre h.name r b (.method s) → Redefines E h r s

/-- A block: its level, its names, its procedures. -/
structure Block where
  lev : Nat
  names : List Nat
  procs : Decls

def Block.heads (b : Block) : List Head := b.procs.toList.map Decl.head

/-- The blocks in a block. -/
inductive Within (b : Block) : Block → Prop
  | self : Within b b
  | inner {c : Block} {d : Decl} : Within b c → d ∈ c.procs.toList → d.head.hasBlock →
      Within b ⟨c.lev + 1, d.head.all.map Par.name ++ d.locals, d.body⟩

/-- The rules for one block. -/
structure BlockOk (E : Env) (b : Block) : Prop where
  names : b.names.Nodup
  head : ∀ h ∈ b.heads, HeadOk E b.lev h
  plain : ∀ pre h post, b.heads = pre ++ h :: post → h.plain → PlainOk E b.lev b.names pre h
  method : ∀ pre h post, b.heads = pre ++ h :: post → ¬ h.plain → b.lev = 0 ∧ ∃ r, MethodOk E pre h r
  /-- What is declared forward is declared. -/
  complete : ∀ h ∈ b.heads, h.plain → ∃ e ∈ b.heads, e.plain ∧ e.name = h.name ∧ ¬ e.forward

/-- A heading of the procedure `n` bound to `r` stands after a procedure that it redefines. -/
def Redefinition (E : Env) (hs : List Head) (r n : Nat) : Prop :=
  ∃ pre h post b s, hs = pre ++ h :: post ∧ Binds E h r ∧ h.name = n ∧ Base E pre n r b (.method s)

/-- The rules for the procedures bound to types, when all is read. -/
structure MethodsOk (E : Env) (hs : List Head) : Prop where
  /-- What is declared forward is declared.  (The second case is not in the report, see `C67_missing_body`.) -/
  complete : ∀ h ∈ hs, ∀ r, Binds E h r → (∃ e ∈ hs, Binds E e r ∧ e.name = h.name ∧ ¬ e.forward) ∨ Redefinition E hs r h.name
  /-- A procedure that redefines another stands after it. -/
  order : ∀ h ∈ hs, ∀ r, Binds E h r → ∀ b m, Base E hs h.name r b m → Redefinition E hs r h.name

/-- The rules for a module that declares the names `names` and the procedures `ds`. -/
structure ModuleOk (E : Env) (names : List Nat) (ds : Decls) : Prop where
  blocks : ∀ b, Within ⟨0, names, ds⟩ b → BlockOk E b
  methods : MethodsOk E (Block.heads ⟨0, names, ds⟩)

/-- What the compiler knows is consistent. -/
structure Env.Ok (E : Env) : Prop where
  wf : Wf E.T
  /-- `chk` is what the comparison of parameter lists (`Verif.Types`) reports. -/
  chk : ∀ names ps qs, ∃ f, checkPars E.T f names ps qs = some (E.chk names ps qs)
  univ : (E.univ.map Prod.fst).Nodup
  /-- Members of a record have different names. -/
  keys : (E.init.map fun x => (x.1, x.2.1)).Nodup
  /-- Types of this module have no procedures yet. -/
  own : ∀ r n s, (r, n, .method s) ∈ E.init → E.mno r ≠ 0
  /-- The receiver of a procedure bound to a record is of that type or of a type of pointers to it. -/
  recv : ∀ r n s, (r, n, .method s) ∈ E.init → (E.T r).comp = .record ∧
    (s.recv.var = true ∧ s.recv.typ = r ∨ s.recv.var = false ∧ (E.T s.recv.typ).form = .ptr ∧ (E.T s.recv.typ).base = some r)
end Verif.Procs
