import Verif.Inflate.Model

/-!
# What a compressed stream means (RFC 1951)

A literal stands for itself.  A pair (length, distance) stands for `length` bytes, each the one `distance` bytes before it; the distance goes back at most 32768 bytes,
and not to before the beginning of the output (or of the dictionary).  A stored block stands for its bytes.
-/
namespace Verif.Inflate

/-- `len` bytes, each the one `dist` bytes before it. -/
def extend (dist : Nat) : Nat → List Byte → List Byte
  | 0, h => h
  | n + 1, h => extend dist n (h ++ [h.getD (h.length - dist) 0])

/-- The text after a symbol; `none` if the symbol is not allowed there. -/
def symText (h : List Byte) : Sym → Option (List Byte)
  | .lit b => some (h ++ [b])
  | .copy len dist =>
    if 3 ≤ len ∧ len ≤ 258 ∧ 1 ≤ dist ∧ dist ≤ 32768 ∧ dist ≤ h.length then some (extend dist len h) else none

/-- The text after some symbols. -/
def symsText : List Sym → List Byte → Option (List Byte)
  | [], h => some h
  | x :: xs, h => (symText h x).bind (symsText xs)

/-- The text after some blocks. -/
def streamText : List Block → List Byte → Option (List Byte)
  | [], h => some h
  | .codes syms :: bs, h => (symsText syms h).bind (streamText bs)
  | .stored bytes :: bs, h => streamText bs (h ++ bytes)

/-- What a stream stands for, with a dictionary: the text without the dictionary. -/
def plain (dict : List Byte) (stream : List Block) : Option (List Byte) := (streamText stream dict).map (·.drop dict.length)

/-- A stored block. -/
def Block.isStored : Block → Bool
  | .stored _ => true
  | .codes _ => false

/-- No stored block comes after a compressed one. -/
def StoredFirst : List Block → Prop
  | [] => True
  | .codes _ :: bs => ∀ b ∈ bs, b.isStored = false
  | .stored _ :: bs => StoredFirst bs

/-- The input some blocks need, in tokens: one for the header, one for each symbol, one for the end of a compressed block, one for each stored byte. -/
def needed : List Block → Nat
  | [] => 0
  | .codes syms :: bs => 1 + (syms.length + 1) + needed bs
  | .stored bytes :: bs => 1 + bytes.length + needed bs

/-- The input a decompressor still needs. -/
def D.needed (d : D) : Nat :=
  (match d.blk with
    | .codes _ syms => syms.length + 1
    | .stored bytes => bytes.length
    | _ => 0) + Inflate.needed d.rest

/-- In each call there is room for a byte or more, and all the input that is left is in the input buffer. -/
def Fed : D → List Call → Prop
  | _, [] => True
  | d, c :: cs => 1 ≤ c.room ∧ d.needed ≤ c.toks.length ∧ Fed (inflate d c) cs

/-- The fast path is never taken in these calls. -/
def NeverFast (cs : List Call) : Prop := ∀ c ∈ cs, ∀ f ∈ c.toks, f = false

end Verif.Inflate
