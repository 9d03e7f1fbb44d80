import Verif.Base.AMap

/-!
# Text: what a sequence of bytes in UTF-8 is

Written from the definition of UTF-8 (RFC 3629, section 3), not from the table of well-formed sequences that the model
uses.
-/

namespace Verif.Wire

/-- A Unicode scalar value: a code point that is not a surrogate. -/
def IsScalar (n : Nat) : Prop := n < 0xD800 ∨ (0xE000 ≤ n ∧ n < 0x110000)

/-- The bytes of one character: 7, 11, 16 or 21 bits. -/
def utf8 (n : Nat) : List UInt8 :=
  if n < 0x80 then [UInt8.ofNat n]
  else if n < 0x800 then [UInt8.ofNat (0xC0 + n / 64), UInt8.ofNat (0x80 + n % 64)]
  else if n < 0x10000 then
    [UInt8.ofNat (0xE0 + n / 4096), UInt8.ofNat (0x80 + n / 64 % 64), UInt8.ofNat (0x80 + n % 64)]
  else
    [UInt8.ofNat (0xF0 + n / 262144), UInt8.ofNat (0x80 + n / 4096 % 64), UInt8.ofNat (0x80 + n / 64 % 64),
     UInt8.ofNat (0x80 + n % 64)]

/-- These bytes are text. -/
def IsText (b : List UInt8) : Prop := ∃ cs : List Nat, (∀ c ∈ cs, IsScalar c) ∧ b = cs.flatMap utf8

end Verif.Wire
