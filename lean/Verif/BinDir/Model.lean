import Verif.BinDir.Spec

/-!
# Arguments, and where the program is: src/runtime/Modules.Mod, src/compiler/OPM.Mod

Strings are lists of characters without the final `0X`.  Simplification: the arrays for paths (1024 and 4096 characters) are never full.
-/
namespace Verif.BinDir

/-- `GetArg`, 48-56: an argument cut to the size of the array, or the array as it was. -/
def getArg (args : List (List Char)) (n : Nat) (size : Nat) (val : List Char) : List Char :=
  match args[n]? with
  | some a => a.take (size - 1)
  | none => val

/-- `ORD(s[i]) - ORD("0")`, 63, for the first character of what is left (`0X` at the end). -/
def digitOf : List Char → Int
  | [] => -48
  | c :: _ => (c.toNat : Int) - 48

/-- `WHILE (d >= 0 ) & (d <= 9) DO k := k*10 + d; INC(i); d := ORD(s[i]) - ORD("0") END`, 64, with the number of steps added to `i`; `LONGINT` without
bounds here. -/
def digits : List Char → Int → Int → Int × Int
  | [], k, i => (k, i)
  | c :: l, k, i =>
    if 0 ≤ digitOf (c :: l) ∧ digitOf (c :: l) ≤ 9 then digits l (k * 10 + digitOf (c :: l)) (i + 1) else (k, i)

/-- `GetIntArg`, 58-67. -/
def getIntArg (args : List (List Char)) (n : Nat) (val : Int) : Int :=
  let s := getArg args n 64 []
  match s with
  | '-' :: l =>
    if (digits l 0 1).2 - 1 > 0 then -(digits l 0 1).1 else val
  | _ =>
    if (digits s 0 0).2 > 0 then (digits s 0 0).1 else val

/-- The loop of `ArgPos`, 73; the first argument is the number of arguments left. -/
def argLoop (args : List (List Char)) (s : List Char) : Nat → Nat → List Char → Nat
  | 0, i, _ => i
  | f + 1, i, arg => if s ≠ arg then argLoop args s f (i + 1) (getArg args (i + 1) 256 arg) else i

/-- `ArgPos`, 69-75. -/
def argPos (args : List (List Char)) (s : List Char) : Nat := argLoop args s args.length 0 (getArg args 0 256 [])

/-- `AppendPart`, 95-105. -/
def appendPart (c : Char) (s d : List Char) : List Char := (if d ≠ [] ∧ d.getLast? ≠ some c then d ++ [c] else d) ++ s

/-- `IsOneOf`, 107-113. -/
def isOneOf (c : Char) (s : List Char) : Bool := s.contains c

/-- `IsAbsolute`, 115-121. -/
def isAbsolute (d : List Char) : Bool :=
  match d with
  | [] => false
  | c :: l => if isOneOf c ['/', '\\'] then true else l.head? = some ':'

/-- `Canonify`, 123-130. -/
def canonify (cwd s : List Char) : List Char := if isAbsolute s then s else appendPart '/' s cwd

/-- `ExtractPart`, 139-152: the part and what is left. -/
def extractPart (s p : List Char) : List Char × List Char :=
  (s.takeWhile (fun c => !isOneOf c p), (s.dropWhile (fun c => !isOneOf c p)).dropWhile (fun c => isOneOf c p))

/-- `WHILE (i<2) & IsOneOf(s[i], "/\") DO INC(i); d[j] := '/'; INC(j) END`, 164. -/
def leading : Nat → List Char → List Char × List Char
  | 0, s => ([], s)
  | _ + 1, [] => ([], [])
  | k + 1, c :: s => if isOneOf c ['/', '\\'] then ('/' :: (leading k s).1, (leading k s).2) else ([], c :: s)

/-- `WHILE s[i] # 0X DO ExtractPart(s, i, "/\", part); IF (part # '') & (part # '.') THEN AppendPart('/', part, d) END END`, 167-170; the first
argument bounds the number of steps. -/
def trimLoop : Nat → List Char → List Char → List Char
  | 0, _, d => d
  | _ + 1, [], d => d
  | f + 1, c :: s, d =>
    trimLoop f (extractPart (c :: s) ['/', '\\']).2
      (if (extractPart (c :: s) ['/', '\\']).1 ≠ [] ∧ (extractPart (c :: s) ['/', '\\']).1 ≠ ['.'] then
        appendPart '/' (extractPart (c :: s) ['/', '\\']).1 d else d)

/-- `Trim`, 154-171. -/
def trim (s : List Char) : List Char := trimLoop s.length (leading 2 s).2 (leading 2 s).1

/-- `WHILE (~present) & (pathlist[i] # 0X) DO … END`, 201-206; `none` if nothing is present. -/
def searchLoop (present : List Char → Bool) (cwd arg0 : List Char) : Nat → List Char → Option (List Char)
  | 0, _ => none
  | _ + 1, [] => none
  | f + 1, c :: s =>
    let b := canonify cwd (trim (appendPart '/' arg0 (extractPart (c :: s) [':', ';']).1))
    if present b then some b else searchLoop present cwd arg0 f (extractPart (c :: s) [':', ';']).2

/-- `k := CharCount(binarydir); WHILE (k > 0) & ~IsOneOf(binarydir[k-1], '/\') DO DEC(k) END; …`, 211-214. -/
def chop (p : List Char) : List Char := ((p.reverse.dropWhile (fun c => !isOneOf c ['/', '\\'])).drop 1).reverse

/-- `FindBinaryDir`, 173-218. -/
def findBinaryDir (present : List Char → Bool) (cwd path : List Char) (args : List (List Char)) : List Char :=
  match args with
  | [] => []
  | arg0 :: _ =>
    if arg0.any (fun c => isOneOf c ['/', '\\']) then
      if present (canonify cwd (trim arg0)) then chop (canonify cwd (trim arg0)) else []
    else
      match searchLoop present cwd arg0 path.length path with
      | some b => chop b
      | none => []

/-- `IsProbablyInstallDir`, OPM.Mod 782-800 (for `InstallDir`, which is what it is called with). -/
def isInstallDir (present : List Char → Bool) (name d : List Char) : Bool :=
  present (d ++ "/lib/lib".toList ++ name ++ "-O2.a".toList) && present (d ++ "/2/include/Oberon.h".toList) && present (d ++ "/2/sym/Files.sym".toList)

/-- `FindInstallDir`, OPM.Mod 802-823. -/
def findInstallDir (present : List Char → Bool) (name conf bin : List Char) : List Char :=
  if isInstallDir present name (bin ++ ['/'] ++ name ++ ".d".toList) then bin ++ ['/'] ++ name ++ ".d".toList
  else
    match bin.reverse.dropWhile (fun c => c ≠ '/') with
    | [] => conf
    | _ :: up => if isInstallDir present name up.reverse then up.reverse else conf

end Verif.BinDir
