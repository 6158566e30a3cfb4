import Verif.Arith.Model

/-!
# Fingerprints, src/compiler/OPM.Mod 528-545 and src/compiler/OPT.Mod 490-687

The compiler is built with 32-bit LONGINT and SET (src/tools/make/oberon.mk 107-125), so a word is a
`BitVec 32`.  HUGEINT has 64 bits and is hashed as two words, low word first (little endian).
-/
namespace Verif.FPrint

abbrev Word := BitVec 32

/-- One round of the loop of `FingerprintBytes`, src/compiler/OPM.Mod 536: exclusive or, then rotate
left by one (`/` on sets is exclusive or). -/
def step (fp w : Word) : Word := (fp ^^^ w).rotateLeft 1

/-- `FingerprintBytes`, src/compiler/OPM.Mod 530-539, on the words that make up `bytes`. -/
def fpWords (fp : Word) (ws : List Word) : Word := ws.foldl step fp

/-- The two words of a HUGEINT or LONGREAL or 64-bit set, in memory order. -/
def words (v : BitVec 64) : List Word := [v.setWidth 32, (v >>> 32).setWidth 32]

/-- `OPM.FPrint` and `OPM.FPrintSet` and `OPM.FPrintLReal`, src/compiler/OPM.Mod 541-544. -/
def fprint (fp : Word) (v : BitVec 64) : Word := fpWords fp (words v)

/-- An integer passed to `FPrint`: conversion to HUGEINT. -/
def huge (x : Int) : BitVec 64 := BitVec.ofInt 64 x

/-- `FPrintName`, src/compiler/OPT.Mod 494-498: every character up to and including the 0X; `name` is the
text before the 0X. -/
def fprintName (fp : Word) (name : List Nat) : Word :=
  (name ++ [0]).foldl (fun fp (c : Nat) => fprint fp (huge c)) fp

/-- Object modes and forms used below, src/compiler/OPT.Mod 96-140: `Con = 3`, `XProc = 7`; form
`Bool = 2, Char = 3, Int = 4`. -/
def modeCon : Int := 3
def modeXProc : Int := 7
def formInt : Int := 4

/-- `FPrintObj` for an integer constant, src/compiler/OPT.Mod 647-659. -/
def fpIntConst (v : Int) : Word :=
  fprint (fprint (fprint 0 (huge modeCon)) (huge formInt)) (huge v)

/-- A formal parameter as far as `FPrintSign` looks at it: its mode (value or VAR) and the identifying
fingerprint of its type. -/
structure Par where
  mode : Nat
  idfp : Word
  deriving DecidableEq, Repr

/-- `FPrintSign`, src/compiler/OPT.Mod 516-527: fingerprints of types are LONGINTs and are sign extended
to HUGEINT. -/
def fprintSign (fp : Word) (result : Word) (pars : List Par) : Word :=
  pars.foldl (fun fp p => fprint (fprint fp (huge p.mode)) (p.idfp.signExtend 64))
    (fprint fp (result.signExtend 64))

/-- `FPrintObj` for a procedure, src/compiler/OPT.Mod 664-665. -/
def fpProc (result : Word) (pars : List Par) : Word :=
  fprintSign (fprint 0 (huge modeXProc)) result pars

end Verif.FPrint
