import Verif.Common

/-!
# The command line of the compiler: what the usage text says

`voc options {files {options}}`: "All options are off by default, except where noted above.  Initial options specify defaults for all
files.  Options following a filename are specific to that file.  Repeating an option toggles its value."
(src/compiler/OPM.Mod 246-287).  This file does not use the model.
-/
namespace Verif.Cmdline

/-- The options that are on or off. -/
inductive Opt where
  | ptrinit | assert | ranchk | typchk | inxchk
  | extsf | newsf | forcenewsym
  | mainprog | mainlinkstat | dontasm | dontlink
  | notcoloroutput | verbose
deriving DecidableEq, Repr

/-- Their letters in the usage text. -/
def Opt.letter : Opt → Char
  | .ptrinit => 'p' | .assert => 'a' | .ranchk => 'r' | .typchk => 't' | .inxchk => 'x'
  | .extsf => 'e' | .newsf => 's' | .forcenewsym => 'F'
  | .mainprog => 'm' | .mainlinkstat => 'M' | .dontasm => 'S' | .dontlink => 'c'
  | .notcoloroutput => 'f' | .verbose => 'V'

/-- "On by default." -/
def Opt.default : Opt → Bool
  | .ptrinit => true | .assert => true | .typchk => true | .inxchk => true
  | _ => false

/-- What may follow the hyphen: letters of options (or unknown ones); `O` and a size model; `A`, an address size and an alignment; and,
at the end of the argument, an `O` or `A` to which the rest is missing. -/
inductive Item where
  | flag (c : Char)
  | model (c : Char)
  | machine (a b : Char)
  | bareO
  | bareA
deriving DecidableEq, Repr

def Item.text : Item → List Char
  | .flag c => [c]
  | .model c => ['O', c]
  | .machine a b => ['A', a, b]
  | .bareO => ['O']
  | .bareA => ['A']

def texts (l : List Item) : List Char := (l.map Item.text).flatten

/-- `O` and `A` are not options that are on or off, and stand alone only if too little follows. -/
def Fits : List Item → Prop
  | [] => True
  | .flag c :: l => c ≠ 'O' ∧ c ≠ 'A' ∧ Fits l
  | .model _ :: l => Fits l
  | .machine _ _ :: l => Fits l
  | .bareO :: l => l = []
  | .bareA :: l => (texts l).length < 2 ∧ Fits l

/-- How often an option is given. -/
def given (o : Opt) (l : List Item) : Nat := l.count (.flag o.letter)

/-- An option is on: it is on by default and given an even number of times, or off and given an odd number of times. -/
def On (o : Opt) (l : List Item) : Prop := if o.default then given o l % 2 = 0 else given o l % 2 = 1

instance (o : Opt) (l : List Item) : Decidable (On o l) := by unfold On; infer_instance

/-- The size model: the last one given, `2` by default. -/
def lastModel : List Item → Char → Char
  | [], d => d
  | .model c :: l, _ => lastModel l c
  | _ :: l, d => lastModel l d

/-- Address size and alignment: the last ones given, by default those of the compiler itself. -/
def lastMachine : List Item → Int × Int → Int × Int
  | [], d => d
  | .machine a b :: l, _ => lastMachine l ((a.toNat : Int) - 48, (b.toNat : Int) - 48)
  | _ :: l, d => lastMachine l d

/-- A command line: options for all files; files with their own options.  An argument with options is a list of items. -/
structure Cmd where
  all : List (List Item)
  files : List (List Char × List (List Item))

/-- The arguments after the name of the command. -/
def Cmd.args (c : Cmd) : List (List Char) :=
  c.all.map (fun l => '-' :: texts l) ++
    (c.files.map fun f => f.1 :: f.2.map fun l => '-' :: texts l).flatten

/-- Arguments are short enough to be read, and names of files do not look like options. -/
structure Cmd.Ok (c : Cmd) : Prop where
  all : ∀ l ∈ c.all, Fits l ∧ (texts l).length ≤ 254
  own : ∀ f ∈ c.files, ∀ l ∈ f.2, Fits l ∧ (texts l).length ≤ 254
  name : ∀ f ∈ c.files, f.1.head? ≠ some '-' ∧ f.1.length ≤ 255

/-- The options that count for a file. -/
def Cmd.items (c : Cmd) (f : List Char × List (List Item)) : List Item := c.all.flatten ++ f.2.flatten

/-- How a C compiler ends, as `system` reports it: exit status, or a signal (perhaps with a core dump).  0 is success. -/
inductive Ended : Nat → Nat → Prop
  | exit (c : Nat) : c < 256 → Ended (256 * c) c
  | signal (s : Nat) : 0 < s → s < 127 → Ended s s
  | core (s : Nat) : 0 < s → s < 127 → Ended (s + 128) s

end Verif.Cmdline
