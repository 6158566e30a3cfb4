import Mathlib.Order.Defs.LinearOrder

/-!
# Scopes, src/compiler/OPT.Mod 390-487

A scope is a binary tree of objects ordered by name; scopes are linked from the innermost to the universe.
Names are compared as strings (C03); here they are elements of a linear order `α`.  `β` is the rest of an
object.
-/
namespace Verif.Scope

/-- A tree of objects. -/
inductive Tree (α β : Type) where
  | nil
  | node (left : Tree α β) (name : α) (obj : β) (right : Tree α β)
  deriving Repr, DecidableEq

variable {α β : Type} [LinearOrder α]

/-- The inner loop of `Find`, src/compiler/OPT.Mod 441-446. -/
def search (n : α) : Tree α β → Option β
  | .nil => none
  | .node l m o r => if n < m then search n l else if n > m then search n r else some o

/-- `Find`, src/compiler/OPT.Mod 437-453; the scopes are those reached from `topScope` by `left`. -/
def find (n : α) : List (Tree α β) → Option β
  | [] => none
  | t :: ts => match search n t with
    | some o => some o
    | none => find n ts

/-- `FindField`, src/compiler/OPT.Mod 455-468; the trees are those of the type and its base types. -/
def findField (n : α) : List (Tree α β) → Option β
  | [] => none
  | t :: ts => match search n t with
    | some o => some o
    | none => findField n ts

/-- `FindImport`, src/compiler/OPT.Mod 420-435; `hiddenType o` is `(obj.mode = Typ) & (obj.vis = internal)`. -/
def findImport (hiddenType : β → Bool) (n : α) (t : Tree α β) : Option β :=
  match search n t with
  | some o => if hiddenType o then none else some o
  | none => none

/-- The loop of `Insert`, src/compiler/OPT.Mod 473-485: the new tree and the number of error messages.
`left` is the variable of that name, which the branch for a double definition does not set. -/
def insertLoop (n : α) (o : β) : Bool → Tree α β → Tree α β × Nat
  | _, .nil => (.node .nil n o .nil, 0)
  | left, .node l m p r =>
    if n < m then
      let x := insertLoop n o true l
      (.node x.1 m p r, x.2)
    else if n > m then
      let x := insertLoop n o false r
      (.node l m p x.1, x.2)
    else
      match r with
      | .nil => if left then (.node (.node .nil n o .nil) m p .nil, 1) else (.node l m p (.node .nil n o .nil), 1)
      | r =>
        let x := insertLoop n o left r
        (.node l m p x.1, x.2 + 1)

/-- `Insert`, src/compiler/OPT.Mod 470-487. -/
def insert (n : α) (o : β) (t : Tree α β) : Tree α β × Nat := insertLoop n o false t

/-- Inserting a list of declarations one after the other: the scope and the number of errors. -/
def declare : List (α × β) → Tree α β → Tree α β × Nat
  | [], t => (t, 0)
  | (n, o) :: ds, t =>
    let x := insert n o t
    let y := declare ds x.1
    (y.1, x.2 + y.2)

/-- The declaration of a field of a record, src/compiler/OPP.Mod 113-117: an error is reported if a base type
has a field of the same name, or the record itself. -/
def declareField (bases : List (Tree α β)) (n : α) (o : β) (t : Tree α β) : Tree α β × Nat :=
  let x := insert n o t
  (x.1, x.2 + if (findField n bases).isSome then 1 else 0)

end Verif.Scope
