import Mathlib.Data.List.Perm.Basic

/-!
# The order of compilation: specification
-/
namespace Verif.Vmake

/-- What a scanner for texts finds. -/
inductive Tok where
  | name (s : String)
  | char (c : Char)
  | other
deriving DecidableEq

/-- An element of an import list: `M`, or `A := M`. -/
inductive Item where
  | plain (m : String)
  | alias (a m : String)

/-- The module that it names. -/
def Item.mod : Item → String
  | .plain m => m
  | .alias _ m => m

def Item.toks : Item → List Tok
  | .plain m => [.name m]
  | .alias a m => [.name a, .char ':', .char '=', .name m]

/-- An import list after the word `IMPORT`. -/
def listToks : List Item → List Tok
  | [] => [.char ';']
  | [i] => i.toks ++ [.char ';']
  | i :: l => i.toks ++ [.char ','] ++ listToks l

/-- A module: what comes before the word, the import list, and the rest. -/
def moduleToks (before : List Tok) (l : List Item) (rest : List Tok) : List Tok := before ++ [.name "IMPORT"] ++ listToks l ++ rest

/-- An order in which modules can be compiled: all of them, and each after those it imports. -/
def Order (given : List String) (imports : String → List String) (out : List String) : Prop :=
  List.Perm out given ∧ ∀ a x b, out = a ++ x :: b → ∀ y ∈ imports x, y ∈ given → y ∈ a

/-- No module imports itself, directly or through others. -/
def Acyclic (given : List String) (imports : String → List String) : Prop :=
  ∃ rank : String → Nat, ∀ x ∈ given, ∀ y ∈ imports x, y ∈ given → rank y < rank x

end Verif.Vmake
