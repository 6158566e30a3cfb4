/-!
# UTF-8, from RFC 2279

The encoding of one character in one to six bytes, as the table in section 2 of the RFC gives it.  Nothing here refers to the code.
-/
namespace Verif.Utf

/-- The bytes of the character `u`, for `u < 2^31`. -/
def utf8 (u : Nat) : List Nat :=
  if u < 0x80 then [u]
  else if u < 0x800 then [0xC0 + u / 64, 0x80 + u % 64]
  else if u < 0x10000 then [0xE0 + u / 4096, 0x80 + u / 64 % 64, 0x80 + u % 64]
  else if u < 0x200000 then [0xF0 + u / 262144, 0x80 + u / 4096 % 64, 0x80 + u / 64 % 64, 0x80 + u % 64]
  else if u < 0x4000000 then
    [0xF8 + u / 16777216, 0x80 + u / 262144 % 64, 0x80 + u / 4096 % 64, 0x80 + u / 64 % 64, 0x80 + u % 64]
  else
    [0xFC + u / 1073741824, 0x80 + u / 16777216 % 64, 0x80 + u / 262144 % 64, 0x80 + u / 4096 % 64, 0x80 + u / 64 % 64, 0x80 + u % 64]

/-- A text is encoded character by character. -/
def text (us : List Nat) : List Nat := us.flatMap utf8

/-- `buf` with the bytes `bs` and a zero written at `pos`. -/
def written (buf : List Nat) (pos : Nat) (bs : List Nat) : List Nat :=
  buf.take pos ++ bs ++ 0 :: buf.drop (pos + bs.length + 1)

end Verif.Utf
