import Verif.Types.Spec

/-!
# What the start of a module has to do for its record types

Each record type has a descriptor.  Type tests compare one of the entries of the descriptor of a value with the descriptor of the type of the test;
so every descriptor has to list the types its type extends before a value of it can be tested.
-/
namespace Verif.TDInit
open Verif.Types

/-- The types in the list stand after what they extend, unless that is one of the types below `old` (of imported modules, or of blocks before). -/
def BaseFirst (T : Tab) (old : Nat) (l : List Nat) : Prop :=
  ∀ a t c, l = a ++ t :: c → ∀ b, (T t).base = some b → b < old ∨ b ∈ a

/-- What type tests have to say of all records below `next`: `test t u` for a variable of the type `t` is whether `t` is an extension of `u`. -/
def TestsRight (T : Tab) (next : Nat) (test : Nat → Nat → Bool) : Prop :=
  ∀ t u, t < next → (T t).comp = .record → u < next → (T u).comp = .record → (test t u = true ↔ Ext T t u)

end Verif.TDInit
