import Verif.Model.Basic
/-
Hexadecimal text, and how it is read, independent of the code.
-/
namespace Thors.Spec

/-- The sixteen digits. -/
def hexAlphabet : Bytes := b!"0123456789abcdef"

/-- Two digits per byte, high half first. -/
def hexOf (bs : Bytes) : Bytes :=
  bs.flatMap fun b => [hexAlphabet.getD (b.toNat / 16) 0, hexAlphabet.getD (b.toNat % 16) 0]

/-- The number of a big endian sequence of bytes. -/
def bigEndian (bs : Bytes) : Nat := bs.foldl (fun a b => a * 256 + b.toNat) 0

end Thors.Spec
