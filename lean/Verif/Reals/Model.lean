import Verif.Str.Model

/-!
# Parts and digits of real numbers, src/runtime/Reals.Mod

A real number is its bytes in memory, the lowest first; behind them there may be other bytes.  An array of characters is the list of its elements;
`none` stands for an index out of range.  `Ten` and `TenL`, which compute with real numbers, are not modelled.
-/
namespace Verif.Reals
open Verif.Str (wr)

/-- The number in some bytes, the lowest first. -/
def le : List Nat → Nat
  | [] => 0
  | b :: bs => b + 256 * le bs

/-- `SYSTEM.GET(SYSTEM.ADR(x)+off, i)` for an INTEGER of `size` bytes. -/
def getInt (size : Nat) (mem : List Nat) (off : Nat) : Int :=
  let v := le ((mem.drop off).take size)
  if v < 2 ^ (8 * size - 1) then v else (v : Int) - 2 ^ (8 * size)

/-- `Expo`, Reals.Mod 48-53. -/
def expo (size : Nat) (mem : List Nat) : Int := (getInt size mem 2 / 128) % 256

/-- `ExpoL`, Reals.Mod 66-71. -/
def expoL (size : Nat) (mem : List Nat) : Int := (getInt size mem 6 / 16) % 2048

/-- `SetExpo`, Reals.Mod 55-64: two bytes are got and put. -/
def setExpo (mem : List Nat) (ex : Int) : Option (List Nat) :=
  (mem[3]?).bind fun c =>
  let mem := mem.set 3 ((c / 128) * 128 + ((ex / 2) % 128).toNat)
  (mem[2]?).map fun c => mem.set 2 (c % 128 + ((ex % 2) * 128).toNat)

/-- The loops of `ConvertL`, Reals.Mod 89-91 and 98-100: `m` rounds from index `k` on. -/
def convLoop : Nat → List Nat → Nat → Nat → Option (List Nat)
  | 0, d, _, _ => some d
  | m + 1, d, k, i => (wr d k (i % 10 + 48)).bind fun d => convLoop m d (k + 1) (i / 10)

/-- `ConvertL`, Reals.Mod 77-101, and `Convert`, 104-106.  `long` is SIZE(LONGINT).  The values of ENTIER are parameters: `whole` of `x`, `high` and `low` of
the two parts. -/
def convertL (long : Nat) (whole high : Nat) (low : Int) (n : Int) (d : List Nat) : Option (List Nat) :=
  if long < 8 ∧ 9 < n then
    (convLoop 9 d 0 (if low < 0 then 0 else low.toNat)).bind fun d => convLoop (n - 9).toNat d 9 high
  else convLoop n.toNat d 0 whole

/-- `ToHex`, Reals.Mod 108-112. -/
def toHex (i : Nat) : Nat := if i < 10 then i + 48 else i + 55

/-- `BytesToHex`, Reals.Mod 114-124, from the byte `i` on; `ConvertH` and `ConvertHL`, 127-134. -/
def hexLoop : List Nat → List Nat → Nat → Option (List Nat)
  | [], d, _ => some d
  | y :: b, d, i => (wr d (i * 2 : Nat) (toHex (y / 16))).bind fun d => (wr d (i * 2 + 1 : Nat) (toHex (y % 16))).bind fun d =>
      hexLoop b d (i + 1)

end Verif.Reals
