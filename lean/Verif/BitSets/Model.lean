import Mathlib.Logic.Function.Basic

/-!
# The module Sets, src/library/v4/Sets.Mod

A set is an array of SETs of `w` bits (`size` in the code, lines 5-6: 32 or 64).  The arrays are VAR parameters, so several parameters can be the same
array: a program has arrays with names (numbers), and parameters are names.  The result `none` is the trap of an index check.  Loops have a number of rounds
as an additional argument, and end with `none` if it is too small.  INTEGER has 16 bits; arrays have at most 32767 elements.
src/library/s3/ethSets.Mod is the same but for the definition of `size`.  Not modelled: `Print`, lines 118-136.
-/
namespace Verif.BitSets

/-- The arrays of a program. -/
abbrev Mem (w : Nat) := Nat → List (BitVec w)

/-- `a[i] := v` with the index check (src/runtime/SYSTEM.h 120). -/
def put {w : Nat} (m : Mem w) (a i : Nat) (v : BitVec w) : Option (Mem w) :=
  if i < (m a).length then some (Function.update m a ((m a).set i v)) else none

/-- The loops of `Clear` and `Fill`, src/library/v4/Sets.Mod 11, 18. -/
def fillLoop {w : Nat} (v : BitVec w) (s : Nat) : Nat → Mem w → Nat → Option (Mem w)
  | 0, _, _ => none
  | f + 1, m, i => if i < (m s).length then (put m s i v).bind fun m => fillLoop v s f m (i + 1) else some m

/-- `Clear`, src/library/v4/Sets.Mod 8-12. -/
def clear {w : Nat} (m : Mem w) (s : Nat) : Option (Mem w) := fillLoop 0 s ((m s).length + 1) m 0

/-- `Fill`, src/library/v4/Sets.Mod 15-19; `{0 .. size-1}` is the set with all bits. -/
def fill {w : Nat} (m : Mem w) (s : Nat) : Option (Mem w) := fillLoop (BitVec.allOnes w) s ((m s).length + 1) m 0

/-- `s[x DIV size]` with the index check: the index. -/
def index {w : Nat} (m : Mem w) (s : Nat) (x : Int) : Option Nat :=
  if 0 ≤ x / (w : Int) ∧ x / (w : Int) < (m s).length then some (x / (w : Int)).toNat else none

/-- `x MOD size`. -/
def bit (w : Nat) (x : Int) : Nat := (x % (w : Int)).toNat

/-- `Incl`, src/library/v4/Sets.Mod 22-24; `INCL` is `|= 1 << bit` (src/compiler/OPV.Mod, C05). -/
def incl {w : Nat} (m : Mem w) (s : Nat) (x : Int) : Option (Mem w) :=
  (index m s x).bind fun k => (m s)[k]?.bind fun v => put m s k (v ||| (1#w <<< bit w x))

/-- `Excl`, src/library/v4/Sets.Mod 27-29; `EXCL` is `&= ~(1 << bit)`. -/
def excl {w : Nat} (m : Mem w) (s : Nat) (x : Int) : Option (Mem w) :=
  (index m s x).bind fun k => (m s)[k]?.bind fun v => put m s k (v &&& ~~~(1#w <<< bit w x))

/-- `In`, src/library/v4/Sets.Mod 32-34. -/
def «in» {w : Nat} (m : Mem w) (s : Nat) (x : Int) : Option Bool :=
  (index m s x).bind fun k => (m s)[k]?.map fun v => v.getLsbD (bit w x)

/-- The loops of `Includes`, `Equal` and `Different`, src/library/v4/Sets.Mod 40-45, 76-81, 88-93: FALSE if `bad s1[i] s2[i]` for one `i`. -/
def testLoop {w : Nat} (bad : BitVec w → BitVec w → Bool) (m : Mem w) (s1 s2 : Nat) : Nat → Nat → Option Bool
  | 0, _ => none
  | f + 1, i =>
    if i < (m s1).length then
      (m s1)[i]?.bind fun x => (m s2)[i]?.bind fun y => if bad x y then some false else testLoop bad m s1 s2 f (i + 1)
    else some true

/-- `Includes`, src/library/v4/Sets.Mod 37-46. -/
def includes {w : Nat} (m : Mem w) (s1 s2 : Nat) : Option Bool := testLoop (fun x y => (x ||| y) != x) m s1 s2 ((m s1).length + 1) 0

/-- `Equal`, src/library/v4/Sets.Mod 73-82. -/
def equal {w : Nat} (m : Mem w) (s1 s2 : Nat) : Option Bool := testLoop (fun x y => x != y) m s1 s2 ((m s1).length + 1) 0

/-- `Different`, src/library/v4/Sets.Mod 85-94. -/
def different {w : Nat} (m : Mem w) (s1 s2 : Nat) : Option Bool := testLoop (fun x y => (x &&& y) != 0) m s1 s2 ((m s1).length + 1) 0

/-- `Empty`, src/library/v4/Sets.Mod 61-70. -/
def empty {w : Nat} (m : Mem w) (s : Nat) : Option Bool := testLoop (fun x _ => x != 0) m s s ((m s).length + 1) 0

/-- The conversion to INTEGER. -/
def int16 (x : Int) : Int := (x + 32768) % 65536 - 32768

/-- The loop of `Elements`, src/library/v4/Sets.Mod 53-56: `n` and `lastElem`. -/
def elemLoop {w : Nat} (m : Mem w) (s : Nat) (max : Int) : Nat → Nat → Nat → Int → Option (Nat × Int)
  | 0, _, _, _ => none
  | f + 1, i, n, last =>
    if (i : Int) < max then
      (m s)[i / w]?.bind fun v => if v.getLsbD (i % w) then elemLoop m s max f (i + 1) (n + 1) i else elemLoop m s max f (i + 1) n last
    else some (n, last)

/-- `Elements`, src/library/v4/Sets.Mod 49-58; `max` is an INTEGER. -/
def elements {w : Nat} (m : Mem w) (s : Nat) (last : Int) : Option (Nat × Int) :=
  elemLoop m s (int16 ((m s).length * w)) ((m s).length * w + 1) 0 0 last

/-- The loops of `Unite`, `Differ` and `Intersect`, src/library/v4/Sets.Mod 100, 107, 114. -/
def mapLoop {w : Nat} (op : BitVec w → BitVec w → BitVec w) (s1 s2 s3 : Nat) : Nat → Mem w → Nat → Option (Mem w)
  | 0, _, _ => none
  | f + 1, m, i =>
    if i < (m s1).length then
      (m s1)[i]?.bind fun x => (m s2)[i]?.bind fun y => (put m s3 i (op x y)).bind fun m => mapLoop op s1 s2 s3 f m (i + 1)
    else some m

/-- `Unite`, src/library/v4/Sets.Mod 97-101. -/
def unite {w : Nat} (m : Mem w) (s1 s2 : Nat) : Option (Mem w) := mapLoop (fun x y => x ||| y) s1 s2 s1 ((m s1).length + 1) m 0

/-- `Differ`, src/library/v4/Sets.Mod 104-108. -/
def differ {w : Nat} (m : Mem w) (s1 s2 : Nat) : Option (Mem w) := mapLoop (fun x y => x &&& ~~~y) s1 s2 s1 ((m s1).length + 1) m 0

/-- `Intersect`, src/library/v4/Sets.Mod 111-115. -/
def intersect {w : Nat} (m : Mem w) (s1 s2 s3 : Nat) : Option (Mem w) := mapLoop (fun x y => x &&& y) s1 s2 s3 ((m s1).length + 1) m 0

end Verif.BitSets
