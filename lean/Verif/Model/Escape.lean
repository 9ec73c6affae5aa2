import Verif.Model.Basic
/-
Model of `escapeString` (`/repo/src/Serialize/ThorsSerializerUtil.h:320-403`).
-/
namespace Thors

/-- ThorsSerializerUtil.h:326-329 the lambda `isEscape` (`char` is signed, so bytes from 0x80 on are
negative and do not satisfy `c >= 0x00`). -/
def isEscape (c : Byte) : Bool := c.toNat ≤ 0x1f ∨ c = 0x22 ∨ c = 0x5C

/-- One lower case hex digit as printed by `std::hex`. -/
def hexDigit (n : Nat) : Byte := if n < 10 then UInt8.ofNat (0x30 + n) else UInt8.ofNat (0x61 + (n - 10))

/-- ThorsSerializerUtil.h:343-389: what is written for one escaped character. In the last case the
value is below 0x20, so `setw(4)`/`setfill('0')` gives two zeros and two hex digits. -/
def escapeOne (c : Byte) : Bytes :=
  if c = 0x22 then [0x5C, 0x22]
  else if c = 0x5C then [0x5C, 0x5C]
  else if c = 0x08 then [0x5C, 0x62]
  else if c = 0x0C then [0x5C, 0x66]
  else if c = 0x0A then [0x5C, 0x6E]
  else if c = 0x0D then [0x5C, 0x72]
  else if c = 0x09 then [0x5C, 0x74]
  else [0x5C, 0x75, 0x30, 0x30, hexDigit (c.toNat / 16), hexDigit (c.toNat % 16)]

/-- ThorsSerializerUtil.h:331-402, the loop: the list of `printer.write` calls. `chunk` holds the
characters from `begin` to `next` (in order). -/
def escapeLoop : Bytes → Bytes → List Bytes
  | chunk, [] => [chunk]
  | chunk, c :: cs =>
    if isEscape c then chunk :: escapeOne c :: escapeLoop [] cs
    else escapeLoop (chunk ++ [c]) cs

/-- ThorsSerializerUtil.h:321 `escapeString`: the `write` calls it makes. Lines 333-337 (nothing to
escape: one write of the whole value) is the first equation of the loop. -/
def escapeWrites (value : Bytes) : List Bytes := escapeLoop [] value

/-- The bytes `escapeString` puts on the output. -/
def escapeString (value : Bytes) : Bytes := (escapeWrites value).flatten

end Thors
