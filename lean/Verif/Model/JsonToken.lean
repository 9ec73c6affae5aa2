import Verif.Model.Escape
/-
The text `JsonPrinter` puts on the output for the scalar values, without the separators.
-/
namespace Thors

/-- JsonPrinter.cpp:317 `addValue(std::string_view const&)`: a quote, the escaped text, a quote. -/
def jsonString (v : Bytes) : Bytes := 0x22 :: escapeString v ++ [0x22]

/-- JsonPrinter.cpp:225-227, the key written by `addKey`: a quote, the key as it is, a quote. -/
def jsonKey (k : Bytes) : Bytes := 0x22 :: k ++ [0x22]

/-- `std::to_chars` / `operator<<` on an unsigned value, base 10: the shortest decimal text. -/
def natText (n : Nat) : Bytes :=
  if _h : n < 10 then [UInt8.ofNat (0x30 + n)] else natText (n / 10) ++ [UInt8.ofNat (0x30 + n % 10)]
termination_by n

/-- JsonPrinter.cpp:301-309 `addValue` of the integer types: `std::to_chars` (string output,
StringOutput.h:66-82) or `operator<<` (stream output). -/
def intText (i : Int) : Bytes := if i < 0 then 0x2D :: natText i.natAbs else natText i.natAbs

end Thors
