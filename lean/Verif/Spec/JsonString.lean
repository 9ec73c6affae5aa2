import Verif.Spec.Utf8
/-
Specification: the body of a JSON string (RFC 8259 section 7) and what it denotes.
-/
namespace Thors.Spec

/-- A hexadecimal digit and its value. -/
inductive Hex : Byte → Nat → Prop
  | dec (d : Nat) (h : d < 10) : Hex (UInt8.ofNat (0x30 + d)) d
  | upper (d : Nat) (h : d < 6) : Hex (UInt8.ofNat (0x41 + d)) (10 + d)
  | lower (d : Nat) (h : d < 6) : Hex (UInt8.ofNat (0x61 + d)) (10 + d)

/-- Four hexadecimal digits and their value. -/
inductive Hex4 : Bytes → Nat → Prop
  | mk {a b c d : Byte} {w x y z : Nat} (ha : Hex a w) (hb : Hex b x) (hc : Hex c y) (hd : Hex d z) :
      Hex4 [a, b, c, d] (w * 4096 + x * 256 + y * 16 + z)

/-- The eight two-character escapes of RFC 8259: the character after the backslash and the character
denoted. -/
inductive ShortEsc : Byte → Byte → Prop
  | quote : ShortEsc 0x22 0x22        -- \"
  | backslash : ShortEsc 0x5C 0x5C    -- \\
  | slash : ShortEsc 0x2F 0x2F        -- \/
  | b : ShortEsc 0x62 0x08            -- \b
  | f : ShortEsc 0x66 0x0C            -- \f
  | n : ShortEsc 0x6E 0x0A            -- \n
  | r : ShortEsc 0x72 0x0D            -- \r
  | t : ShortEsc 0x74 0x09            -- \t

def highSurrogate (v : Nat) : Prop := 0xD800 ≤ v ∧ v < 0xDC00
def lowSurrogate (v : Nat) : Prop := 0xDC00 ≤ v ∧ v < 0xE000

instance (v : Nat) : Decidable (highSurrogate v) := by unfold highSurrogate; infer_instance
instance (v : Nat) : Decidable (lowSurrogate v) := by unfold lowSurrogate; infer_instance

/-- The code point denoted by a surrogate pair (Unicode standard, section 3.9). -/
def pairCodePoint (hi lo : Nat) : Nat := 0x10000 + (hi - 0xD800) * 0x400 + (lo - 0xDC00)

/-- One item of a string body: its text and the bytes (UTF-8) it denotes. Surrogate pairs are in
`PairItem`. -/
inductive BasicItem : Bytes → Bytes → Prop
  | raw (c : Byte) (h1 : 0x20 ≤ c.toNat) (h2 : c ≠ 0x22) (h3 : c ≠ 0x5C) : BasicItem [c] [c]
  | short {c d : Byte} (h : ShortEsc c d) : BasicItem [0x5C, c] [d]
  | uni {h : Bytes} {v : Nat} (hv : Hex4 h v) (hs : ¬ highSurrogate v) :
      BasicItem (0x5C :: 0x75 :: h) (utf8 v)

/-- A surrogate pair: `\uD8xx\uDCxx`; text, and the two values. -/
inductive PairItem : Bytes → Nat → Nat → Prop
  | mk {h1 h2 : Bytes} {hi lo : Nat} (ha : Hex4 h1 hi) (hb : Hex4 h2 lo)
      (h3 : highSurrogate hi) (h4 : lowSurrogate lo) :
      PairItem (0x5C :: 0x75 :: h1 ++ 0x5C :: 0x75 :: h2) hi lo

/-- The body of a string without surrogate pairs: text and denoted bytes. -/
inductive BasicBody : Bytes → Bytes → Prop
  | nil : BasicBody [] []
  | cons {t o ts os : Bytes} (h : BasicItem t o) (hs : BasicBody ts os) : BasicBody (t ++ ts) (o ++ os)

/-- The body of a string, full RFC 8259: text and denoted bytes. `pair` gives the meaning of surrogate
pairs; the RFC's meaning is `utf8 (pairCodePoint hi lo)`. -/
inductive Body (pair : Nat → Nat → Bytes) : Bytes → Bytes → Prop
  | nil : Body pair [] []
  | basic {t o ts os : Bytes} (h : BasicItem t o) (hs : Body pair ts os) : Body pair (t ++ ts) (o ++ os)
  | pair {t ts os : Bytes} {hi lo : Nat} (h : PairItem t hi lo) (hs : Body pair ts os) :
      Body pair (t ++ ts) (pair hi lo ++ os)

/-- The meaning the RFC gives to a string body. -/
def rfcPair (hi lo : Nat) : Bytes := utf8 (pairCodePoint hi lo)

/-- The meaning this library gives to a surrogate pair (UnicodeIterator.h:349). It is a recorded
disagreement with the RFC (property C04): the two agree when bit 6 of the high surrogate is clear. -/
def codePairValue (hi lo : Nat) : Nat := 0x00010000 ||| ((hi % 1024) * 1024) ||| (lo % 1024)

/-- The bytes the library produces for a surrogate pair. -/
def codePair (hi lo : Nat) : Bytes := utf8 (codePairValue hi lo)

end Thors.Spec
