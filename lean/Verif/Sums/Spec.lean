import Mathlib.Algebra.Polynomial.Div
import Mathlib.Data.ZMod.Basic
import Mathlib.Algebra.Field.ZMod

/-!
# The two checksums of zlib, from their definitions

RFC 1950 defines Adler-32 by two sums modulo 65521.  CRC-32 is the remainder of a division of polynomials over the field of two
elements.  Nothing here refers to the code.
-/
namespace Verif.Sums

/-- RFC 1950, 2.2 and 8.2: the sum of the bytes, and the sum of the sums, both modulo 65521. -/
def adlerSpec (a b : Nat) : List Nat → Nat × Nat
  | [] => (a, b)
  | x :: xs => adlerSpec ((a + x) % 65521) ((b + (a + x)) % 65521) xs

/-- A checksum is stored as `b * 65536 + a` in 32 bits, which Oberon reads as a number with sign. -/
def pack (p : Nat × Nat) : Int := (BitVec.ofNat 32 (p.2 * 65536 + p.1)).toInt

open Polynomial

/-- Polynomials over the field of two elements. -/
abbrev P2 := Polynomial (ZMod 2)

/-- One bit as a coefficient. -/
noncomputable def bit (b : Bool) : P2 := if b then 1 else 0

/-- The polynomial of CRC-32 (src/library/s3/ethZlib.Mod 100-101, from ISO 3309). -/
noncomputable def gen : P2 :=
  X ^ 32 + (X ^ 26 + X ^ 23 + X ^ 22 + X ^ 16 + X ^ 12 + X ^ 11 + X ^ 10 + X ^ 8 + X ^ 7 + X ^ 5 + X ^ 4 + X ^ 2 + X + 1)

/-- Bits sent one after another, the first with the highest power. -/
noncomputable def bitsPoly : List Bool → P2
  | [] => 0
  | b :: bs => bit b * X ^ bs.length + bitsPoly bs

/-- The bits of a byte in the order of CRC-32, the least significant first. -/
def byteBits (x : BitVec 8) : List Bool := (List.range 8).map fun i => x.getLsbD i

/-- All the bits of a message. -/
def bitsOf (m : List (BitVec 8)) : List Bool := m.flatMap byteBits

/-- A 32-bit register as a polynomial: the lowest power in the most significant bit. -/
noncomputable def regPoly (r : BitVec 32) : P2 := ∑ i ∈ Finset.range 32, bit (r.getLsbD i) * X ^ (31 - i)

/-- The register the standard asks for: all ones are added to the first 32 bits of the message, 32 zeros are appended, and the
remainder is taken. -/
noncomputable def crcSpec (m : List (BitVec 8)) : P2 :=
  (bitsPoly (bitsOf m) * X ^ 32 + (∑ i ∈ Finset.range 32, X ^ i) * X ^ (8 * m.length)) %ₘ gen

/-- Two messages of the same length that differ at most in 32 consecutive bits, from bit `k` on. -/
def Burst (k : Nat) (m m' : List (BitVec 8)) : Prop :=
  m.length = m'.length ∧ ∀ i : Nat, i < k ∨ k + 32 ≤ i → (bitsOf m)[i]? = (bitsOf m')[i]?

end Verif.Sums
