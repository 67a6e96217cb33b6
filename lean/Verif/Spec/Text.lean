import Verif.Model.Bytes
/-! # Vocabulary: UTF-8 encoding (The Unicode Standard, table 3-6) -/

namespace Verif.Spec
open Verif

/-- A Unicode scalar value: a code point that is not a surrogate. -/
def Scalar (r : Nat) : Prop := r < 0xD800 ∨ 0xDFFF < r ∧ r < 0x110000

/-- The UTF-8 encoding of a code point. -/
def utf8 (r : Nat) : GoString :=
  if r < 0x80 then [r]
  else if r < 0x800 then [0xC0 + r / 64, 0x80 + r % 64]
  else if r < 0x10000 then [0xE0 + r / 4096, 0x80 + r / 64 % 64, 0x80 + r % 64]
  else [0xF0 + r / 262144, 0x80 + r / 4096 % 64, 0x80 + r / 64 % 64, 0x80 + r % 64]

end Verif.Spec
