import Verif.Str.Model

/-!
# Control sequences for terminals, src/runtime/VT100.Mod

Characters are their numbers.  LONGINT has `L` bits, 32 or 64.  An array that is only used as a string is modelled by its string; `none` stands for an
index out of range.  Loops have a number of rounds as an additional argument, and end with `none` if it is too small.
-/
namespace Verif.VT100
open Verif.Str (rd wr)

abbrev Text := List Nat

/-- `Strings.Append(extra, dest)`, src/runtime/Strings.Mod 42-48, for a `dest` of `cap` characters (`app_is_append` compares it with the model of C31). -/
def app (cap : Nat) (extra dest : Text) : Text := (dest ++ extra).take cap

/-- `COPY(src, dest)` to an array of `cap` characters: `__COPY`, src/runtime/SYSTEM.h 161-162. -/
def copy (cap : Nat) (src : Text) : Text := src.take (cap - 1)

/-- `Reverse0`, VT100.Mod 76-85. -/
def reverse0 : Nat → List Nat → Int → Int → Option (List Nat)
  | 0, _, _, _ => none
  | k + 1, a, s, e =>
    if s < e then
      (rd a s).bind fun h => (rd a e).bind fun x => (wr a s x).bind fun a => (wr a e h).bind fun a => reverse0 k a (s + 1) (e - 1)
    else some a

/-- The loop of `IntToStr`, VT100.Mod 113-117: the array and `e`.  `int` is not negative here. -/
def digits : Nat → List Nat → Nat → Nat → Option (List Nat × Nat)
  | 0, _, _, _ => none
  | k + 1, b, e, x =>
    (wr b e (x % 10 + 48)).bind fun b => if x / 10 = 0 then some (b, e + 1) else digits k b (e + 1) (x / 10)

/-- VT100.Mod 112-119. -/
def build (b : List Nat) (s x : Nat) : Option (List Nat) :=
  (digits (x + 1) b s x).bind fun (b, e) => (wr b e 0).bind fun b => reverse0 (e + 1) b s ((e : Int) - 1)

/-- `IntToStr`, VT100.Mod 87-122, to an array of `cap` characters.  `b` is the array of 21 characters, which has any values at first. -/
def intToStr (L : Nat) (b : List Nat) (int : Int) (cap : Nat) : Option Text :=
  if int = -2 ^ (L - 1) then
    some (copy cap ((if L = 32 then "-2147483648" else "-9223372036854775808").toList.map Char.toNat))
  else if int < 0 then
    (wr b 0 45).bind fun b => (build b 1 (-int).toNat).map fun b => copy cap (b.takeWhile (· ≠ 0))
  else (build b 0 int.toNat).map fun b => copy cap (b.takeWhile (· ≠ 0))

/-- `CSI`, VT100.Mod 339-340. -/
def csi : Text := app 5 [91] (copy 5 [27])

/-- `EscSeq0`, VT100.Mod 124-131, with `Out.String`, src/runtime/Out.Mod 36-47: what is written. -/
def escSeq0 (letter : Text) : Text := app 9 letter (copy 9 csi)

/-- `EscSeq`, VT100.Mod 133-142. -/
def escSeq (L : Nat) (b : List Nat) (n : Int) (letter : Text) : Option Text :=
  (intToStr L b n 2).map fun nstr => app 7 letter (app 7 nstr (copy 7 csi))

/-- `EscSeq2`, VT100.Mod 155-169. -/
def escSeq2 (L : Nat) (b c : List Nat) (n m : Int) (letter : Text) : Option Text :=
  (intToStr L b n 5).bind fun nstr => (intToStr L c m 5).map fun mstr =>
    app 12 letter (app 12 mstr (app 12 [59] (app 12 nstr (copy 12 csi))))

/-- The exported procedures. -/
inductive Cmd where
  | cuu (n : Int) | cud (n : Int) | cuf (n : Int) | cub (n : Int) | cnl (n : Int) | cpl (n : Int) | cha (n : Int)
  | ed (n : Int) | el (n : Int) | su (n : Int) | sd (n : Int) | sgr (n : Int)
  | cup (n m : Int) | hvp (n m : Int) | sgr2 (n m : Int)
  | dsr (n : Int) | scp | rcp | hide | «show» | reset | attr (a : Text)

/-- The bodies, VT100.Mod 171-335.  `b`, `c`: the values of uninitialised arrays. -/
def run (L : Nat) (b c : List Nat) : Cmd → Option Text
  | .cuu n => escSeq L b n [65]
  | .cud n => escSeq L b n [66]
  | .cuf n => escSeq L b n [67]
  | .cub n => escSeq L b n [68]
  | .cnl n => escSeq L b n [69]
  | .cpl n => escSeq L b n [70]
  | .cha n => escSeq L b n [71]
  | .ed n => escSeq L b n [74]
  | .el n => escSeq L b n [75]
  | .su n => escSeq L b n [83]
  | .sd n => escSeq L b n [84]
  | .sgr n => escSeq L b n [109]
  | .cup n m => escSeq2 L b c n m [72]
  | .hvp n m => escSeq2 L b c n m [102]
  | .sgr2 n m => escSeq2 L b c n m [109]
  | .dsr _ => escSeq L b 6 [110]
  | .scp => some (escSeq0 [115])
  | .rcp => some (escSeq0 [117])
  | .hide => some (escSeq0 [63, 50, 53, 108])
  | .show => some (escSeq0 [63, 50, 53, 104])
  | .reset => some (app 6 [99] (copy 6 [27]) ++ [10])
  | .attr a => some (app 16 a (copy 16 csi))

end Verif.VT100
