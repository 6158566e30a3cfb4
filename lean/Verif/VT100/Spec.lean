import Verif.VT100.Model
import Mathlib.Data.Nat.Digits.Defs

/-!
# Specification: decimal numbers and control sequences
-/
namespace Verif.VT100

/-- A number in decimal, the highest digit first, without leading zeros. -/
def dec (n : Nat) : Text := if n = 0 then [48] else (Nat.digits 10 n).reverse.map (· + 48)

/-- A whole number in decimal. -/
def decInt (i : Int) : Text := if i < 0 then 45 :: dec i.natAbs else dec i.natAbs

/-- A control sequence: ESC, `[`, the parameters, the final character. -/
def seq (params : Text) (final : Char) : Text := [27, 91] ++ params ++ [final.toNat]

/-- The control sequences of the procedures, as in the standard ECMA-48. -/
def wanted : Cmd → Text
  | .cuu n => seq (decInt n) 'A'
  | .cud n => seq (decInt n) 'B'
  | .cuf n => seq (decInt n) 'C'
  | .cub n => seq (decInt n) 'D'
  | .cnl n => seq (decInt n) 'E'
  | .cpl n => seq (decInt n) 'F'
  | .cha n => seq (decInt n) 'G'
  | .ed n => seq (decInt n) 'J'
  | .el n => seq (decInt n) 'K'
  | .su n => seq (decInt n) 'S'
  | .sd n => seq (decInt n) 'T'
  | .sgr n => seq (decInt n) 'm'
  | .cup n m => seq (decInt n ++ [';'.toNat] ++ decInt m) 'H'
  | .hvp n m => seq (decInt n ++ [';'.toNat] ++ decInt m) 'f'
  | .sgr2 n m => seq (decInt n ++ [';'.toNat] ++ decInt m) 'm'
  | .dsr _ => seq (decInt 6) 'n'
  | .scp => seq [] 's'
  | .rcp => seq [] 'u'
  | .hide => seq ("?25".toList.map Char.toNat) 'l'
  | .show => seq ("?25".toList.map Char.toNat) 'h'
  | .reset => [27, 'c'.toNat, 10]
  | .attr a => [27, 91] ++ a

/-- The parameters of a command, if it has some. -/
def params : Cmd → List Int
  | .cuu n | .cud n | .cuf n | .cub n | .cnl n | .cpl n | .cha n | .ed n | .el n | .su n | .sd n | .sgr n => [n]
  | .cup n m | .hvp n m | .sgr2 n m => [n, m]
  | _ => []

/-- What has room: one digit for a single parameter, four characters for each of two parameters, 14 characters for attributes. -/
def Fits : Cmd → Prop
  | .cuu n | .cud n | .cuf n | .cub n | .cnl n | .cpl n | .cha n | .ed n | .el n | .su n | .sd n | .sgr n => 0 ≤ n ∧ n ≤ 9
  | .cup n m | .hvp n m | .sgr2 n m => (-999 ≤ n ∧ n ≤ 9999) ∧ (-999 ≤ m ∧ m ≤ 9999)
  | .attr a => a.length ≤ 14
  | _ => True

end Verif.VT100
