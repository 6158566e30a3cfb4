import Mathlib.Data.List.Basic

/-!
# Lists: src/library/misc/Listen.Mod

The heap is the list of the records `ListDesc` in the order in which NEW made them; a pointer is NIL (`none`) or a position.
Elements are numbers, NIL (`none`) included.  A result `none` is a trap (access through NIL), or a recursion deeper than its bound.
`equal` is modelled as a function: a procedure without side effects.
-/
namespace Verif.Listen

abbrev Elem := Option Nat
abbrev Ptr := Option Nat

/-- `ListDesc`, Listen.Mod 12-15. -/
structure Cell where
  e : Elem
  rest : Ptr
deriving DecidableEq

abbrev Heap := List Cell

/-- The record behind a pointer, with the check for NIL. -/
def deref (h : Heap) : Ptr → Option Cell
  | none => none
  | some p => h[p]?

/-- `Concat`, Listen.Mod 19-24. -/
def concat (h : Heap) (head : Elem) (tail : Ptr) : Heap × Ptr := (h ++ [⟨head, tail⟩], some h.length)

/-- `Head`, Listen.Mod 26-29. -/
def head (h : Heap) (l : Ptr) : Option Elem := (deref h l).map Cell.e

/-- `Tail`, Listen.Mod 31-34. -/
def tail (h : Heap) (l : Ptr) : Option Ptr := (deref h l).map Cell.rest

/-- `Append`, Listen.Mod 36-42; the first argument bounds the depth of the recursion. -/
def append : Nat → Heap → Ptr → Elem → Option (Heap × Ptr)
  | 0, _, _, _ => none
  | f + 1, h, l, e =>
    if l = none then some (concat h e none)
    else do
      let x ← head h l
      let t ← tail h l
      let (h', t') ← append f h t e
      pure (concat h' x t')

/-- `IsElement`, Listen.Mod 45-51. -/
def isElement (equal : Elem → Elem → Bool) : Nat → Heap → Elem → Ptr → Option Bool
  | 0, _, _, _ => none
  | f + 1, h, e, l =>
    if l = none then some false
    else do
      let x ← head h l
      if equal e x then pure true
      else do
        let t ← tail h l
        isElement equal f h e t

/-- `Find`, Listen.Mod 53-59. -/
def find (equal : Elem → Elem → Bool) : Nat → Heap → Elem → Ptr → Option Elem
  | 0, _, _, _ => none
  | f + 1, h, e, l =>
    if l = none then some none
    else do
      let x ← head h l
      if equal e x then head h l
      else do
        let t ← tail h l
        find equal f h e t

end Verif.Listen
