/-!
# The order of definitions in C: specification

Types of a module by numbers, what a piece of C text mentions, and what C demands of the order.
-/
namespace Verif.CDefs

/-- What a type is.  `basic`: predefined or imported, defined before in C.  A record has a base type, the types of its fields, and procedures bound to it, each with the types
of its result and of its parameters (the receiver among them). -/
inductive Node where
  | basic
  | pointer (b : Nat)
  | array (b : Nat)
  | openArr (b : Nat)
  | record (base : Option Nat) (fields : List Nat) (procs : List (Option Nat × List Nat))
  | proc (res : Option Nat) (ps : List Nat)
deriving DecidableEq

/-- The types of a module: what they are and whether they have names. -/
structure Tab where
  node : Nat → Node
  named : Nat → Bool

def Node.isRecord : Node → Bool
  | .record _ _ _ => true
  | _ => false

def Node.isPointer : Node → Bool
  | .pointer _ => true
  | _ => false

def Node.isOpen : Node → Bool
  | .openArr _ => true
  | _ => false

/-! ### What C demands -/

/-- What a piece of C text mentions: the name of a type; a structure by its tag where a pointer to it is declared; a structure by its tag where its size is needed; the
definition of a structure. -/
inductive Mention where
  | name (t : Nat)
  | tag (t : Nat)
  | whole (t : Nat)
  | body (t : Nat)
deriving DecidableEq

/-- Pieces of C text: the definition of a name for a type, the definition of a structure, the declaration of a procedure or of a variable. -/
inductive Item where
  | typedef (t : Nat) (ms : List Mention)
  | struct (t : Nat) (ms : List Mention)
  | proto (ms : List Mention)
  | var (ms : List Mention)
deriving DecidableEq

def Item.mentions : Item → List Mention
  | .typedef _ ms => ms
  | .struct _ ms => ms
  | .proto ms => ms
  | .var ms => ms

/-- The name has been defined in the text before. -/
def Defined (pre : List Item) (t : Nat) : Prop := ∃ ms, Item.typedef t ms ∈ pre

/-- The structure has been defined in the text before. -/
def Complete (pre : List Item) (t : Nat) : Prop := ∃ it ∈ pre, Mention.body t ∈ it.mentions

/-- Names and the sizes of structures may be used after their definition only; a structure is defined once. -/
def MentionOk (pre : List Item) : Mention → Prop
  | .name t => Defined pre t
  | .tag _ => True
  | .whole t => Complete pre t
  | .body t => ¬ Complete pre t

/-- The structures defined in a piece of text. -/
def bodies : List Mention → List Nat
  | [] => []
  | .body t :: ms => t :: bodies ms
  | _ :: ms => bodies ms

/-- A text in which everything is defined before it is used, and once. -/
def Ordered (pre : List Item) : List Item → Prop
  | [] => True
  | it :: rest => (∀ m ∈ it.mentions, MentionOk pre m) ∧ (bodies it.mentions).Nodup ∧ (∀ t ms, it = .typedef t ms → ¬ Defined pre t) ∧ Ordered (pre ++ [it]) rest

/-! ### Which types are needed for which -/

/-- The types whose definitions are needed for a definition of the type: a pointer to a record needs none. -/
def needs (T : Tab) (i : Nat) : List Nat :=
  match T.node i with
  | .basic => []
  | .pointer b => if (T.node b).isRecord then [] else [b]
  | .array b => [b]
  | .openArr b => [b]
  | .record base fs _ => base.toList ++ fs
  | .proc res ps => res.toList ++ ps

/-- The types in the headers of the procedures bound to a record. -/
def heads (T : Tab) (i : Nat) : List Nat :=
  match T.node i with
  | .record _ _ ms => ms.flatMap fun m => m.1.toList ++ m.2
  | _ => []

/-- `j` is needed for `i` or for its procedures, directly or not. -/
inductive Needs (T : Tab) : Nat → Nat → Prop
  | direct {i j} (h : j ∈ needs T i) : Needs T i j
  | head {i j} (h : j ∈ heads T i) (hn : j ≠ i) : Needs T i j
  | trans {i j k} (h1 : Needs T i j) (h2 : Needs T j k) : Needs T i k

/-- A record without a name: it is defined in C as a structure with a tag. -/
def Anon (T : Tab) (j : Nat) : Prop := T.named j = false ∧ (T.node j).isRecord = true

/-- What is supposed of a module: types have a rank, so that no type is needed for itself, directly or not; the records without names are listed with those that are needed for others before these; everything needed for
the types with names and for the variables is listed. -/
structure Module (T : Tab) (anons names vars : List Nat) : Prop where
  finite : ∃ r : Nat → Nat, ∀ i j, Needs T i j → r j < r i
  anons_rec : ∀ a ∈ anons, (T.node a).isRecord = true
  order : ∀ pre a post, anons = pre ++ a :: post → T.named a = false → a ∉ pre ∧ ∀ j, Needs T a j → Anon T j → j ∈ pre
  anons_all : ∀ i ∈ names ++ vars, ∀ j, (i = j ∨ Needs T i j) → Anon T j → j ∈ anons
  names_all : ∀ i ∈ vars, ∀ j, (i = j ∨ Needs T i j) → T.named j = true → T.node j ≠ .basic → j ∈ names
  names_named : ∀ i ∈ names, T.named i = true ∧ T.node i ≠ .basic

end Verif.CDefs
