import Verif.Model.Basic
/-
Specification: UTF-8 (RFC 3629), written with arithmetic only, independently of the code.
-/
namespace Thors.Spec

/-- The UTF-8 encoding of a code point (surrogate code points are encoded like any other 16 bit
value, i.e. "generalised UTF-8"; for Unicode scalar values it agrees with Lean's own encoder, see
`Proofs/Utf8.lean`). -/
def utf8 (cp : Nat) : Bytes :=
  if cp < 0x80 then [UInt8.ofNat cp]
  else if cp < 0x800 then [UInt8.ofNat (0xC0 + cp / 64), UInt8.ofNat (0x80 + cp % 64)]
  else if cp < 0x10000 then
    [UInt8.ofNat (0xE0 + cp / 4096), UInt8.ofNat (0x80 + cp / 64 % 64), UInt8.ofNat (0x80 + cp % 64)]
  else
    [UInt8.ofNat (0xF0 + cp / 262144), UInt8.ofNat (0x80 + cp / 4096 % 64),
     UInt8.ofNat (0x80 + cp / 64 % 64), UInt8.ofNat (0x80 + cp % 64)]

end Thors.Spec
