/-!
# MD5: specification after RFC 1321

Words have 32 bits, bytes 8 bits; arithmetic is modulo 2^32.
-/
namespace Verif.MD5

abbrev Word := BitVec 32
abbrev Byte := BitVec 8

/-- The four words of the state. -/
structure St where
  a : Word
  b : Word
  c : Word
  d : Word
deriving DecidableEq, Repr

/-- The state at the beginning (RFC 1321, 3.3): the bytes 01 23 45 67 89 ab cd ef fe dc ba 98 76 54 32 10. -/
def initial : St := ⟨0x67452301#32, 0xefcdab89#32, 0x98badcfe#32, 0x10325476#32⟩

/-- The table `T`: the integer part of 2^32 times the absolute value of the sine of 1 to 64 (RFC 1321, 3.4). -/
def T : List Nat :=
  [0xd76aa478, 0xe8c7b756, 0x242070db, 0xc1bdceee, 0xf57c0faf, 0x4787c62a, 0xa8304613, 0xfd469501,
   0x698098d8, 0x8b44f7af, 0xffff5bb1, 0x895cd7be, 0x6b901122, 0xfd987193, 0xa679438e, 0x49b40821,
   0xf61e2562, 0xc040b340, 0x265e5a51, 0xe9b6c7aa, 0xd62f105d, 0x02441453, 0xd8a1e681, 0xe7d3fbc8,
   0x21e1cde6, 0xc33707d6, 0xf4d50d87, 0x455a14ed, 0xa9e3e905, 0xfcefa3f8, 0x676f02d9, 0x8d2a4c8a,
   0xfffa3942, 0x8771f681, 0x6d9d6122, 0xfde5380c, 0xa4beea44, 0x4bdecfa9, 0xf6bb4b60, 0xbebfbc70,
   0x289b7ec6, 0xeaa127fa, 0xd4ef3085, 0x04881d05, 0xd9d4d039, 0xe6db99e5, 0x1fa27cf8, 0xc4ac5665,
   0xf4292244, 0x432aff97, 0xab9423a7, 0xfc93a039, 0x655b59c3, 0x8f0ccc92, 0xffeff47d, 0x85845dd1,
   0x6fa87e4f, 0xfe2ce6e0, 0xa3014314, 0x4e0811a1, 0xf7537e82, 0xbd3af235, 0x2ad7d2bb, 0xeb86d391]

/-- The functions F, G, H and I for the four rounds (RFC 1321, 3.4). -/
def F (i : Nat) (x y z : Word) : Word :=
  if i < 16 then (x &&& y) ||| (~~~x &&& z)
  else if i < 32 then (x &&& z) ||| (y &&& ~~~z)
  else if i < 48 then x ^^^ y ^^^ z
  else y ^^^ (x ||| ~~~z)

/-- The word of the block used in a step. -/
def G (i : Nat) : Nat :=
  if i < 16 then i else if i < 32 then (5 * i + 1) % 16 else if i < 48 then (3 * i + 5) % 16 else (7 * i) % 16

/-- The rotation in a step. -/
def S (i : Nat) : Nat :=
  (([[7, 12, 17, 22], [5, 9, 14, 20], [4, 11, 16, 23], [6, 10, 15, 21]] : List (List Nat)).getD (i / 16) []).getD (i % 4) 0

/-- Step number `i`, from 0 on: a = b + ((a + F(b,c,d) + X[k] + T[i]) <<< s); then the words change places. -/
def step (x : Nat → Word) (i : Nat) (s : St) : St :=
  ⟨s.d, s.b + (s.a + F i s.b s.c s.d + x (G i) + BitVec.ofNat 32 (T.getD i 0)).rotateLeft (S i), s.b, s.c⟩

/-- The first `n` steps. -/
def steps (x : Nat → Word) (s : St) : Nat → St
  | 0 => s
  | n + 1 => step x n (steps x s n)

/-- One block. -/
def compress (s : St) (x : Nat → Word) : St :=
  let r := steps x s 64
  ⟨s.a + r.a, s.b + r.b, s.c + r.c, s.d + r.d⟩

/-- The word number `i` of a block: the low-order byte comes first. -/
def wordAt (bs : List Byte) (i : Nat) : Word :=
  BitVec.ofNat 32 ((bs.getD (4 * i) 0).toNat + 256 * (bs.getD (4 * i + 1) 0).toNat + 65536 * (bs.getD (4 * i + 2) 0).toNat +
    16777216 * (bs.getD (4 * i + 3) 0).toNat)

/-- The first `n` blocks of 64 bytes. -/
def absorb : Nat → St → List Byte → St
  | 0, s, _ => s
  | n + 1, s, m => absorb n (compress s (wordAt (m.take 64))) (m.drop 64)

/-- `n` bytes of a number, the low-order byte first. -/
def littleEndian (n v : Nat) : List Byte := (List.range n).map fun i => BitVec.ofNat 8 (v / 256 ^ i)

/-- The padding (RFC 1321, 3.1, 3.2) with a number given: a bit 1, bits 0 up to 448 modulo 512 bits, the number in 64 bits. -/
def padding (len bits : Nat) : List Byte := 128#8 :: (List.replicate ((119 - len % 64) % 64) 0#8 ++ littleEndian 8 bits)

/-- The digest of a state. -/
def output (s : St) : List Byte :=
  littleEndian 4 s.a.toNat ++ littleEndian 4 s.b.toNat ++ littleEndian 4 s.c.toNat ++ littleEndian 4 s.d.toNat

/-- The digest with a number given for the length in bits. -/
def md5With (bits : Nat) (m : List Byte) : List Byte :=
  let p := m ++ padding m.length bits
  output (absorb (p.length / 64) initial p)

/-- The message digest; the length counts modulo 2^64. -/
def md5 (m : List Byte) : List Byte := md5With (8 * m.length) m

end Verif.MD5
