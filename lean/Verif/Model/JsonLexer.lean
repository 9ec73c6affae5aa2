import Verif.Model.StringInput
import Verif.Model.Float
import Verif.Model.Unicode
/-
Model of `/repo/src/Serialize/JsonManualLexer.{h,cpp}` over a string input, with the helpers
`ReadValue` and `PeekNextNonSpaceValue` of `/repo/src/Serialize/ParserInterface.h`.
-/
namespace Thors
open StrIn

/-- The values of `lastToken` (JsonLexemes.h, JsonManualLexer.cpp:22-54). -/
inductive Lexeme
  | lbrace | rbrace | lbracket | rbracket | comma | colon
  | true_ | false_ | null_ | string | number
  deriving DecidableEq, Repr

/-- JsonManualLexer.h:17-23, the fields, with the input they read from (the `input` of the owning
`ParserInterface`) and the one configuration flag they consult (`config.convertBackSlash`,
JsonManualLexer.cpp:199). `lastToken` is uninitialised before the first `yylex`. -/
structure Lexer where
  inp : StrIn
  buffer : Bytes
  lastToken : Option Lexeme
  lastBool : Bool
  lastNull : Bool
  convertBackSlash : Bool
  deriving DecidableEq, Repr

/-- ParserInterface.h:97-112 `checkAction`: the characters that are consumed. -/
def isPunct (c : Byte) : Bool :=
  c = 0x7B ∨ c = 0x7D ∨ c = 0x5B ∨ c = 0x5D ∨ c = 0x2C ∨ c = 0x3A

/-- ParserInterface.h:121-128 `PeekNextNonSpaceValue` on a string input. -/
def peekNextNonSpace (s : StrIn) : Byte × StrIn :=
  let (c, s) := s.readChar
  if isPunct c then (c, s) else (c, s.unget)

/-- ParserInterface.h:27-42 `checkZero`. -/
def checkZero (s : StrIn) : Res StrIn :=
  if s.peek = 0x30 then
    let s := s.get.2
    let p := s.peek
    if p ≥ 0x31 ∧ p ≤ 0x39 then throwStd else .ok s.unget
  else .ok s

/-- ParserInterface.h:43-49 `validateResult` for integral types. -/
def validateResult (ok : Bool) (s : StrIn) : Bool :=
  let next := toChar s.peek
  ok ∧ next ≠ 0x2E ∧ next ≠ 0x65 ∧ next ≠ 0x45

/-- ParserInterface.h:86-92 `ReadValue::operator()(StringInput&, T*)`, integral `T`. -/
def readIntValue (s : StrIn) (k : IntKind) : Res ((Bool × Option Int) × StrIn) := do
  let s ← checkZero s
  let ((ok, v), s) ← s.readInt k
  return ((validateResult ok s, v), s)

/-- JsonManualLexer.cpp:163-171 `checkEscape`: parity of the run of backslashes at the end. -/
def checkEscape (reply : Bytes) : Bool :=
  (reply.reverse.takeWhile (· = 0x5C)).length % 2 = 1

namespace Lexer

/-- Which lexeme starts with a character: the `switch` of JsonManualLexer.cpp:20-56. -/
def classify (c : Byte) : Lexeme :=
  if c = 0x7B then .lbrace
  else if c = 0x7D then .rbrace
  else if c = 0x5B then .lbracket
  else if c = 0x5D then .rbracket
  else if c = 0x2C then .comma
  else if c = 0x3A then .colon
  else if c = 0x74 then .true_
  else if c = 0x66 then .false_
  else if c = 0x6E then .null_
  else if c = 0x22 then .string
  else .number

/-- JsonManualLexer.cpp:15-57 `yylex`. The integer result (the column of the state table) is a function
of the lexeme, see `Lexeme.column` in JsonParser.lean. -/
def yylex (l : Lexer) : Lexeme × Lexer :=
  let (c, inp) := peekNextNonSpace l.inp
  let x := classify c
  (x, { l with inp := inp, lastToken := some x, lastNull := x = .null_,
               lastBool := if x = .true_ then true else if x = .false_ then false else l.lastBool })

/-- JsonManualLexer.cpp:314-322 `checkFixed`: `buffer.resize(size)`, read over it, compare. A short read
leaves the old content of `buffer` in the tail. -/
def checkFixed (l : Lexer) (check : Bytes) : Res Lexer := do
  let size := check.length
  let old := l.buffer.take size ++ List.replicate (size - l.buffer.length) 0
  let (got, _, inp) ← l.inp.read size
  let buffer := got ++ old.drop got.length
  if buffer = check then return { l with inp := inp, buffer := buffer } else throwStd

/-- Scanning a string to its closing quote, the loop of JsonManualLexer.cpp:88-98 (and 129-148, where
`ctl` makes it reject `next < 0x20`). `acc` collects the characters passed over. -/
def scanQuote (ctl : Bool) : Nat → StrIn → Byte → Bytes → Res (Bytes × StrIn)
  | 0, _, _, _ => .ub
  | fuel + 1, s, last, acc =>
    let (next, s) := s.get
    if next ≠ EOFv ∧ ¬ (next = 0x22 ∧ last ≠ 0x5C) then
      if ctl ∧ next < 0x20 then throwStd
      else scanQuote ctl fuel s (toChar next) (acc ++ [toChar next])
    else if next = EOFv then throwStd
    else .ok (acc, s)

/-- `std::isdigit(next)` for a `char` converted back to `int`. -/
def isDigitI (i : Int) : Bool := 0x30 ≤ i ∧ i ≤ 0x39

/-- JsonManualLexer.cpp:249-253, the loop of `readDigits`. -/
def digitLoop : Nat → StrIn → Int → Bytes → Res (Int × Bytes × StrIn)
  | 0, _, _, _ => .ub
  | fuel + 1, s, next, buf =>
    if isDigitI next then
      let (n, s') := s.get
      digitLoop fuel s' (sext (toChar n)) (buf ++ [toChar next])
    else .ok (next, buf, s)

/-- JsonManualLexer.cpp:243-255 `readDigits`. -/
def readDigits (s : StrIn) (next : Int) (buf : Bytes) : Res (Int × Bytes × StrIn) :=
  if ¬ isDigitI next then throwStd else digitLoop (s.data.length + 2) s next buf

/-- JsonManualLexer.cpp:258-311 `readNumber`: new buffer and input. -/
def readNumber (s : StrIn) : Res (Bytes × StrIn) := do
  let (next, s) := s.get
  -- 264-271 sign
  let (next, buf, s) ← (if next = 0x2D ∨ next = 0x2B then
      let (n, s) := s.get
      if n = EOFv then throwStd else .ok (n, [toChar next], s)
    else .ok (next, [], s) : Res (Int × Bytes × StrIn))
  -- 272-280 integer part
  let (next, buf, s) ← (if next = 0x30 then
      let (n, s) := s.get
      .ok (n, buf ++ [toChar next], s)
    else readDigits s next buf : Res (Int × Bytes × StrIn))
  -- 281-289 fraction
  let (next, buf, s) ← (if next = 0x2E then
      let (n, s) := s.get
      if n = EOFv then throwStd else readDigits s n (buf ++ [toChar next])
    else .ok (next, buf, s) : Res (Int × Bytes × StrIn))
  -- 290-306 exponent
  let (next, buf, s) ← (if next = 0x65 ∨ next = 0x45 then
      let (n, s) := s.get
      if n = EOFv then throwStd else
      if n = 0x2D ∨ n = 0x2B then
        let (m, s) := s.get
        if m = EOFv then throwStd else readDigits s m (buf ++ [toChar next] ++ [toChar n])
      else readDigits s n (buf ++ [toChar next])
    else .ok (next, buf, s) : Res (Int × Bytes × StrIn))
  -- 307-310
  if next ≠ EOFv then return (buf, s.unget) else return (buf, s)

/-- JsonManualLexer.cpp:78-103 `ignoreRawValue`. -/
def ignoreRawValue (l : Lexer) : Res Lexer :=
  match l.lastToken with
  | none => .ub
  | some .true_ => .ok { l with inp := l.inp.ignore 4 }
  | some .false_ => .ok { l with inp := l.inp.ignore 5 }
  | some .null_ => .ok { l with inp := l.inp.ignore 4 }
  | some .number => do
    let (buf, s) ← readNumber l.inp
    return { l with inp := s, buffer := buf }
  | some .string => do
    let (q, s) := l.inp.get
    let (_, s) ← scanQuote false (s.data.length + 1) s (toChar q) []
    return { l with inp := s }
  | some _ => .ok l

/-- JsonManualLexer.cpp:106-160 `getRawString`. -/
def getRawString (l : Lexer) : Res (Bytes × Lexer) :=
  match l.lastToken with
  | none => .ub
  | some .lbrace => .ok ([0x7B], l)
  | some .rbrace => .ok ([0x7D], l)
  | some .lbracket => .ok ([0x5B], l)
  | some .rbracket => .ok ([0x5D], l)
  | some .comma => .ok ([0x2C], l)
  | some .colon => .ok ([0x3A], l)
  | some .true_ => .ok (b!"true", { l with inp := l.inp.ignore 4 })
  | some .false_ => .ok (b!"false", { l with inp := l.inp.ignore 5 })
  | some .null_ => .ok (b!"null", { l with inp := l.inp.ignore 4 })
  | some .number => do
    let (buf, s) ← readNumber l.inp
    return (buf, { l with inp := s, buffer := buf })
  | some .string => do
    let (q, s) := l.inp.get
    let (body, s) ← scanQuote true (s.data.length + 1) s (toChar q) []
    let buf := [toChar q] ++ body ++ [0x22]
    return (buf, { l with inp := s, buffer := buf })

/-- JsonManualLexer.cpp:191-197, the do-while loop collecting the rest of a string that contains
escaped quotes. -/
def readMore : Nat → StrIn → Bytes → Res (Bytes × StrIn)
  | 0, _, _ => .ub
  | fuel + 1, s, value => do
    let (tmp, _, s) ← s.readTo 0x22
    let value := value ++ [0x22] ++ tmp
    if tmp.length > 0 ∧ checkEscape tmp then readMore fuel s value
    else return (value, s)

/-- JsonManualLexer.cpp:174-206 `getStringInto`: the new content of the destination and the input. -/
def getStringInto (l : Lexer) : Res (Bytes × Lexer) := do
  let (next, s) := l.inp.get
  if toChar next ≠ 0x22 then throwStd else
  let (value, _, s) ← s.readTo 0x22
  let (value, s) ← (if value.length > 0 ∧ checkEscape value then readMore (s.data.length + 1) s value
                    else .ok (value, s) : Res (Bytes × StrIn))
  let value ← (if l.convertBackSlash then unescapeInPlace value else .ok value : Res Bytes)
  return (value, { l with inp := s })

/-- JsonManualLexer.cpp:209-213 `getString`: the destination is the member `buffer`. -/
def getString (l : Lexer) : Res (Bytes × Lexer) := do
  let (v, l) ← l.getStringInto
  return (v, { l with buffer := v })

/-- JsonManualLexer.cpp:216-234 `getLastBool`. -/
def getLastBool (l : Lexer) : Res (Bool × Lexer) :=
  match l.lastToken with
  | none => .ub
  | some .true_ => do let l ← l.checkFixed b!"true"; return (l.lastBool, l)
  | some .false_ => do let l ← l.checkFixed b!"false"; return (l.lastBool, l)
  | some _ => throwStd

/-- JsonManualLexer.h:48-61 `scan<T>` for integral `T`. `T value;` is uninitialised; returning it
unwritten is a read of an indeterminate value. -/
def scanInt (l : Lexer) (k : IntKind) : Res (Int × Lexer) := do
  let ((ok, v), s) ← readIntValue l.inp k
  if ¬ ok then throwStd else
  match v with
  | some i => return (i, { l with inp := s })
  | none => .ub

end Lexer

/-- ParserInterface.h:85-90 `ReadValue` on a string, floating point: `checkZero`, then the conversion; 49-55: what
follows is not looked at. -/
def readFltValue (s : StrIn) (f : FKind) : Res ((Bool × Option Flt) × StrIn) := do
  let s ← checkZero s
  s.readFlt f

/-- JsonManualLexer.h:48-61 `scan<T>` for floating point `T`. -/
def Lexer.scanFlt (l : Lexer) (f : FKind) : Res (Flt × Lexer) := do
  let ((ok, v), s) ← readFltValue l.inp f
  if ¬ ok then throwStd else
  match v with
  | some x => return (x, { l with inp := s })
  | none => .ub

end Thors
