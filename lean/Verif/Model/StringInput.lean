import Verif.Model.Basic
/-
Model of `/repo/src/Serialize/StringInput.h`: reading from a `std::string_view`.
-/
namespace Thors

/-- `char` to `int` conversion on a platform where `char` is signed (the platforms the repo's CI and
Makefile target: x86-64 Linux, macOS). -/
def sext (b : Byte) : Int := if b.toNat < 128 then (b.toNat : Int) else (b.toNat : Int) - 256

/-- `EOF`. Note `sext 0xFF = EOF`. -/
def EOFv : Int := -1

/-- `int` to `char` conversion. -/
def toChar (i : Int) : Byte := UInt8.ofNat (i % 256).toNat

/-- StringInput.h:20-33. The field `lastRead` (line 24) is dropped: it is only ever read by the YAML
reader callback (YamlParser.cpp:20), which is outside this part of the model. -/
structure StrIn where
  data : Bytes
  pos  : Nat
  good : Bool
  deriving DecidableEq, Repr

namespace StrIn

/-- StringInput.h:28-33, the constructor. -/
def ofBytes (d : Bytes) : StrIn := { data := d, pos := 0, good := true }

/-- What is still to be read (specification helper, not code). -/
def rest (s : StrIn) : Bytes := s.data.drop s.pos

/-- StringInput.h:35-44 `read`. Returns the bytes copied to the destination (possibly fewer than asked
for), the boolean result and the new state. With `position > data.size()` the subtraction wraps and
the copy runs outside the string. -/
def read (s : StrIn) (size : Nat) : Res (Bytes × Bool × StrIn) :=
  if s.pos > s.data.length ∧ size > 0 then .ub
  else
    let got := (s.data.drop s.pos).take size
    let pos := s.pos + got.length
    let good : Bool := pos ≤ s.data.length
    .ok (got, good, { s with pos := pos, good := good })

/-- Index of the first occurrence of `d`, or the length of the list: `data.find(delim, position)` with
the `npos` replacement of StringInput.h:47-50. -/
def upTo (d : Byte) : Bytes → Nat
  | [] => 0
  | c :: cs => if c = d then 0 else upTo d cs + 1

/-- StringInput.h:45-61 `readTo`, as called from ParserInterface.h:199, which clears the destination
first: the result is the new content of the destination. When `position > data.size()` the unsigned
subtraction `find - position` wraps and `dst.resize` throws `std::length_error`. -/
def readTo (s : StrIn) (delim : Byte) : Res (Bytes × Bool × StrIn) :=
  if s.pos > s.data.length then throwStd
  else
    let size := upTo delim (s.data.drop s.pos)
    let pos := s.pos + (size + 1)
    let good : Bool := pos ≤ s.data.length
    .ok ((s.data.drop s.pos).take size, good, { s with pos := pos, good := good })

/-- StringInput.h:74-77 `get`. -/
def get (s : StrIn) : Int × StrIn :=
  if s.good ∧ s.pos < s.data.length then
    (sext (s.data.getD s.pos 0), { s with pos := s.pos + 1 })
  else (EOFv, s)

/-- StringInput.h:78-81 `peek` (does not look at `good`). -/
def peek (s : StrIn) : Int :=
  if s.pos < s.data.length then sext (s.data.getD s.pos 0) else EOFv

/-- StringInput.h:82-86 `ignore`. (The `std::size_t` addition cannot wrap for the sizes passed here
unless the string is longer than 2^64-2^32 bytes.) -/
def ignore (s : StrIn) (size : Nat) : StrIn :=
  { s with pos := s.pos + size, good := s.pos + size ≤ s.data.length }

/-- StringInput.h:87-90 `clear`. -/
def clear (s : StrIn) : StrIn := { s with good := true }

/-- StringInput.h:91-95 `unget`; `--position` wraps at zero. -/
def unget (s : StrIn) : StrIn :=
  let pos := if s.pos = 0 then 2 ^ 64 - 1 else s.pos - 1
  { s with pos := pos, good := pos ≤ s.data.length }

/-- StringInput.h:96-99 `isOk`. -/
def isOk (s : StrIn) : Bool := s.good

/-- StringInput.h:100-103 `setFail`. -/
def setFail (s : StrIn) : StrIn := { s with good := false }

/-- StringInput.h:66-73 `tellg` / `seekg`. -/
def tellg (s : StrIn) : Nat := s.pos
def seekg (s : StrIn) (p : Nat) : StrIn := { s with pos := p }

/-- The white space set of StringInput.h:136. -/
def isSpace (c : Byte) : Bool :=
  c = 0x20 ∨ c = 0x09 ∨ c = 0x0A ∨ c = 0x0D ∨ c = 0x0B ∨ c = 0x0C

/-- Number of leading white space characters: `find_first_not_of` relative to the start, or the length
(StringInput.h:137-140). -/
def spaces : Bytes → Nat
  | [] => 0
  | c :: cs => if isSpace c then spaces cs + 1 else 0

/-- StringInput.h:134-145 `readValue(char&)`; it always reports success. At the end of the data the
character is `char(-1)`. -/
def readChar (s : StrIn) : Byte × StrIn :=
  let p := if s.pos ≤ s.data.length then s.pos + spaces (s.data.drop s.pos) else s.data.length
  let value : Byte := if p < s.data.length then s.data.getD p 0 else 0xFF
  (value, { s with pos := p + 1, good := p + 1 ≤ s.data.length })

/-- Kind of an integer destination: width in bits and signedness (`short`=16, `int`=32, `long` and
`long long`=64, and their unsigned counterparts). -/
structure IntKind where
  bits : Nat
  signed : Bool
  deriving DecidableEq, Repr

namespace IntKind
/-- `std::numeric_limits<T>::min()` -/
def lo (k : IntKind) : Int := if k.signed then -(2 ^ (k.bits - 1) : Int) else 0
/-- `std::numeric_limits<T>::max()` -/
def hi (k : IntKind) : Int := if k.signed then (2 ^ (k.bits - 1) : Int) - 1 else (2 ^ k.bits : Int) - 1
/-- The value is representable. -/
def fits (k : IntKind) (i : Int) : Prop := k.lo ≤ i ∧ i ≤ k.hi
instance (k : IntKind) (i : Int) : Decidable (k.fits i) := by unfold fits; infer_instance
end IntKind

/-- `std::isdigit` in the C locale. -/
def isDigit (c : Byte) : Bool := 0x30 ≤ c ∧ c ≤ 0x39

/-- Leading digits of a text. -/
def digitPrefix (bs : Bytes) : Bytes := bs.takeWhile isDigit

/-- Value of a digit sequence. -/
def digitsVal (ds : Bytes) : Nat := ds.foldl (fun acc d => acc * 10 + (d.toNat - 0x30)) 0

/-- Result of `std::from_chars` on an integer type. -/
inductive FromChars
  | invalid                        -- errc::invalid_argument
  | outOfRange (len : Nat)         -- errc::result_out_of_range, value unmodified
  | value (len : Nat) (i : Int)
  deriving DecidableEq, Repr

/-- `std::from_chars(first, last, value)` for integers, base 10, from the C++ standard
[charconv.from.chars]: optional minus sign (signed types only), longest run of digits, no plus sign,
no white space. -/
def fromChars (k : IntKind) (bs : Bytes) : FromChars :=
  match bs with
  | c :: cs =>
    if c = 0x2D ∧ k.signed then
      let ds := digitPrefix cs
      if ds = [] then .invalid
      else
        let i : Int := -(digitsVal ds : Int)
        if k.fits i then .value (ds.length + 1) i else .outOfRange (ds.length + 1)
    else
      let ds := digitPrefix (c :: cs)
      if ds = [] then .invalid
      else
        let i : Int := digitsVal ds
        if k.fits i then .value ds.length i else .outOfRange ds.length
  | [] => .invalid

/-- StringInput.h:105-123 `readValue<T>` for integral `T`. Result: the boolean, the content of the
destination (`none`: not written, i.e. still indeterminate in `JsonManualLexer::scan`), the new
state. -/
def readInt (s : StrIn) (k : IntKind) : Res ((Bool × Option Int) × StrIn) :=
  if s.pos > s.data.length then .ub
  else
    match fromChars k (s.data.drop s.pos) with
    | .invalid => .ok ((false, none), s)
    | .outOfRange n =>
      .ok ((n ≠ 0, none), { s with pos := s.pos + n, good := s.pos + n ≤ s.data.length })
    | .value n i =>
      .ok ((n ≠ 0, some i), { s with pos := s.pos + n, good := s.pos + n ≤ s.data.length })

end StrIn
end Thors
