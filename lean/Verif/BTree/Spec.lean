import Mathlib.Order.Defs.LinearOrder

/-!
# B-trees: specification

A tree is a map from keys to numbers.  Inserting a key adds or changes it and tells which, deleting removes it if it is there, searching finds
its number, and enumerating calls a procedure for each key from one bound to the other, in ascending order, until the procedure wants no more.
-/
namespace Verif.BTree

/-- The calls.  `more` is the procedure given to the enumeration: from the keys and numbers it was called with so far, whether it goes on. -/
inductive Op (K : Type) where
  | insert (key : K) (org : Int)
  | delete (key : K)
  | search (key : K)
  | enum (min max : K) (more : List (K × Int) → Bool)
  | minKey
  | maxKey

/-- What they return. -/
inductive Out (K : Type) where
  /-- `EntryChanged` instead of `Done`. -/
  | inserted (changed : Bool)
  /-- `Done` instead of `NotFound`. -/
  | deleted (done : Bool)
  /-- The number, or `NotFound`. -/
  | found (org : Option Int)
  | calls (l : List (K × Int))
  | key (k : Option K)
deriving DecidableEq

/-- The calls of `more` for the elements of a list, after those in `done`. -/
def upTo {K : Type} (more : List (K × Int) → Bool) : List (K × Int) → List (K × Int) → List (K × Int)
  | done, [] => done
  | done, x :: l => if more (done ++ [x]) then upTo more (done ++ [x]) l else done ++ [x]

/-- A call on a map: the map afterwards and what is returned. -/
inductive Step {K : Type} [LinearOrder K] (f : K → Option Int) : Op K → (K → Option Int) → Out K → Prop where
  | insert (k : K) (v : Int) : Step f (.insert k v) (fun j => if j = k then some v else f j) (.inserted (f k).isSome)
  | delete (k : K) : Step f (.delete k) (fun j => if j = k then none else f j) (.deleted (f k).isSome)
  | search (k : K) : Step f (.search k) f (.found (f k))
  | enum (min max : K) (more : List (K × Int) → Bool) (l : List (K × Int)) : l.Pairwise (fun a b => a.1 < b.1) →
      (∀ k v, (k, v) ∈ l ↔ f k = some v ∧ min ≤ k ∧ k ≤ max) → Step f (.enum min max more) f (.calls (upTo more [] l))
  | minKey (k : K) : (f k).isSome → (∀ j, (f j).isSome → k ≤ j) → Step f .minKey f (.key (some k))
  | maxKey (k : K) : (f k).isSome → (∀ j, (f j).isSome → j ≤ k) → Step f .maxKey f (.key (some k))
  | noMin : (∀ j, f j = none) → Step f .minKey f (.key none)
  | noMax : (∀ j, f j = none) → Step f .maxKey f (.key none)

/-- A sequence of calls. -/
inductive Steps {K : Type} [LinearOrder K] : (K → Option Int) → List (Op K) → (K → Option Int) → List (Out K) → Prop where
  | nil (f : K → Option Int) : Steps f [] f []
  | cons {f g h : K → Option Int} {op : Op K} {ops : List (Op K)} {o : Out K} {os : List (Out K)} :
      Step f op g o → Steps g ops h os → Steps f (op :: ops) h (o :: os)

end Verif.BTree
