import Verif.Model.StreamInput
import Verif.Model.Importer
/-
Model of `/repo/src/Serialize/JsonManualLexer.{h,cpp}` and `JsonParser.{h,cpp}` over a `std::istream`.
The control part of the parser does not touch the input and is shared with `Model/JsonParser.lean`.
-/
namespace Thors
open StrIn

/-- JsonManualLexer.h:17-23, as `Lexer`, reading from a stream. -/
structure LexerS where
  inp : IStr
  buffer : Bytes
  lastToken : Option Lexeme
  lastBool : Bool
  lastNull : Bool
  convertBackSlash : Bool
  deriving DecidableEq, Repr

namespace LexerS

/-- ParserInterface.h:113-120 `PeekNextNonSpaceValue` on a stream: at the end the value stays `char(-1)` and nothing is put
back. -/
def peekNextNonSpace (i : IStr) : Byte × IStr :=
  match i.readChar with
  | (some c, i) => if isPunct c then (c, i) else (c, i.unget)
  | (none, i) => (0xFF, i)

/-- JsonManualLexer.cpp:15-57 `yylex`. -/
def yylex (l : LexerS) : Lexeme × LexerS :=
  let (c, inp) := peekNextNonSpace l.inp
  let x := Lexer.classify c
  (x, { l with inp := inp, lastToken := some x, lastNull := x = .null_,
               lastBool := if x = .true_ then true else if x = .false_ then false else l.lastBool })

/-- JsonManualLexer.cpp:314-322 `checkFixed`. -/
def checkFixed (l : LexerS) (check : Bytes) : Res LexerS :=
  let size := check.length
  let old := l.buffer.take size ++ List.replicate (size - l.buffer.length) 0
  let (got, _, inp) := l.inp.read size
  let buffer := got ++ old.drop got.length
  if buffer = check then .ok { l with inp := inp, buffer := buffer } else throwStd

/-- JsonManualLexer.cpp:88-98 and 129-148, the loop to the closing quote. -/
def scanQuote (ctl : Bool) : Nat → IStr → Byte → Bytes → Res (Bytes × IStr)
  | 0, _, _, _ => .ub
  | fuel + 1, i, last, acc =>
    let (next, i) := i.get
    if next ≠ EOFv ∧ ¬ (next = 0x22 ∧ last ≠ 0x5C) then
      if ctl ∧ next < 0x20 then throwStd
      else scanQuote ctl fuel i (toChar next) (acc ++ [toChar next])
    else if next = EOFv then throwStd
    else .ok (acc, i)

/-- JsonManualLexer.cpp:249-253, the loop of `readDigits` (`next` is a `char` there). -/
def digitLoop : Nat → IStr → Int → Bytes → Res (Int × Bytes × IStr)
  | 0, _, _, _ => .ub
  | fuel + 1, i, next, buf =>
    if Lexer.isDigitI next then
      let (n, i') := i.get
      digitLoop fuel i' (sext (toChar n)) (buf ++ [toChar next])
    else .ok (next, buf, i)

/-- JsonManualLexer.cpp:243-255 `readDigits`: the parameter is a `char`. -/
def readDigits (i : IStr) (next : Int) (buf : Bytes) : Res (Int × Bytes × IStr) :=
  if ¬ Lexer.isDigitI (sext (toChar next)) then throwStd else digitLoop (i.data.length + 2) i (sext (toChar next)) buf

/-- JsonManualLexer.cpp:258-311 `readNumber`. -/
def readNumber (i : IStr) : Res (Bytes × IStr) := do
  let (next, i) := i.get
  -- 264-271 sign
  let (next, buf, i) ← (if next = 0x2D ∨ next = 0x2B then
      let (n, i) := i.get
      if n = EOFv then throwStd else .ok (n, [toChar next], i)
    else .ok (next, [], i) : Res (Int × Bytes × IStr))
  -- 272-280 integer part
  let (next, buf, i) ← (if next = 0x30 then
      let (n, i) := i.get
      .ok (n, buf ++ [toChar next], i)
    else readDigits i next buf : Res (Int × Bytes × IStr))
  -- 281-289 fraction
  let (next, buf, i) ← (if next = 0x2E then
      let (n, i) := i.get
      if n = EOFv then throwStd else readDigits i n (buf ++ [toChar next])
    else .ok (next, buf, i) : Res (Int × Bytes × IStr))
  -- 290-306 exponent
  let (next, buf, i) ← (if next = 0x65 ∨ next = 0x45 then
      let (n, i) := i.get
      if n = EOFv then throwStd else
      if n = 0x2D ∨ n = 0x2B then
        let (m, i) := i.get
        if m = EOFv then throwStd else readDigits i m (buf ++ [toChar next] ++ [toChar n])
      else readDigits i n (buf ++ [toChar next])
    else .ok (next, buf, i) : Res (Int × Bytes × IStr))
  -- 307-310
  if next ≠ EOFv then return (buf, i.unget) else return (buf, i)

/-- JsonManualLexer.cpp:78-103 `ignoreRawValue`. -/
def ignoreRawValue (l : LexerS) : Res LexerS :=
  match l.lastToken with
  | none => .ub
  | some .true_ => .ok { l with inp := l.inp.ignore 4 }
  | some .false_ => .ok { l with inp := l.inp.ignore 5 }
  | some .null_ => .ok { l with inp := l.inp.ignore 4 }
  | some .number => do
    let (buf, i) ← readNumber l.inp
    return { l with inp := i, buffer := buf }
  | some .string => do
    let (q, i) := l.inp.get
    let (_, i) ← scanQuote false (i.data.length + 1) i (toChar q) []
    return { l with inp := i }
  | some _ => .ok l

/-- JsonManualLexer.cpp:106-160 `getRawString`. -/
def getRawString (l : LexerS) : Res (Bytes × LexerS) :=
  match l.lastToken with
  | none => .ub
  | some .lbrace => .ok ([0x7B], l)
  | some .rbrace => .ok ([0x7D], l)
  | some .lbracket => .ok ([0x5B], l)
  | some .rbracket => .ok ([0x5D], l)
  | some .comma => .ok ([0x2C], l)
  | some .colon => .ok ([0x3A], l)
  | some .true_ => .ok (b!"true", { l with inp := l.inp.ignore 4 })
  | some .false_ => .ok (b!"false", { l with inp := l.inp.ignore 5 })
  | some .null_ => .ok (b!"null", { l with inp := l.inp.ignore 4 })
  | some .number => do
    let (buf, i) ← readNumber l.inp
    return (buf, { l with inp := i, buffer := buf })
  | some .string => do
    let (q, i) := l.inp.get
    let (body, i) ← scanQuote true (i.data.length + 1) i (toChar q) []
    let buf := [toChar q] ++ body ++ [0x22]
    return (buf, { l with inp := i, buffer := buf })

/-- JsonManualLexer.cpp:191-197, the do-while loop of `getStringInto`. `tmp` is declared outside the loop: a `getline` that
does nothing, because the stream is not good, leaves in it what the round before has read. Running out of fuel stands
for not returning. -/
def readMore : Nat → IStr → Bytes → Bytes → Res (Bytes × IStr)
  | 0, _, _, _ => .ub
  | fuel + 1, i, tmp, value =>
    let (new, _, i) := i.getline 0x22
    let tmp := new.getD tmp
    let value := value ++ [0x22] ++ tmp
    if tmp.length > 0 ∧ checkEscape tmp then readMore fuel i tmp value
    else .ok (value, i)

/-- JsonManualLexer.cpp:174-206 `getStringInto`: the new content of the destination and the input. After a successful
`get` the stream is good, so the first `getline` always clears the destination. -/
def getStringInto (l : LexerS) : Res (Bytes × LexerS) := do
  let (next, i) := l.inp.get
  if toChar next ≠ 0x22 then throwStd else
  let (value, _, i) := i.getline 0x22
  let value := value.getD []
  let (value, i) ← (if value.length > 0 ∧ checkEscape value then readMore (i.data.length + 1) i [] value
                    else .ok (value, i) : Res (Bytes × IStr))
  let value ← (if l.convertBackSlash then unescapeInPlace value else .ok value : Res Bytes)
  return (value, { l with inp := i })

/-- JsonManualLexer.cpp:209-213 `getString`. -/
def getString (l : LexerS) : Res (Bytes × LexerS) := do
  let (v, l) ← l.getStringInto
  return (v, { l with buffer := v })

/-- JsonManualLexer.cpp:216-234 `getLastBool`. -/
def getLastBool (l : LexerS) : Res (Bool × LexerS) :=
  match l.lastToken with
  | none => .ub
  | some .true_ => do let l ← l.checkFixed b!"true"; return (l.lastBool, l)
  | some .false_ => do let l ← l.checkFixed b!"false"; return (l.lastBool, l)
  | some _ => throwStd

/-- JsonManualLexer.h:48-61 `scan<T>` for integral `T`. -/
def scanInt (l : LexerS) (k : IntKind) : Res (Int × LexerS) := do
  let ((ok, v), i) ← l.inp.readIntValue k
  if ¬ ok then throwStd else return (v, { l with inp := i })

/-- JsonManualLexer.h:48-61 `scan<T>` for floating point `T`. -/
def scanFlt (l : LexerS) (f : FKind) : Res (Flt × LexerS) := do
  let ((ok, v), i) ← l.inp.readFltValue f
  if ¬ ok then throwStd else return (v, { l with inp := i })

end LexerS

/-- A `JsonParser` on a stream. -/
structure JsonS where
  lex : LexerS
  ctl : JCtl
  deriving DecidableEq, Repr

namespace JsonS

/-- JsonParser.cpp:16-22 with ParserInterface.h:142-147: a parser on a stream. -/
def ofStream (i : IStr) (convertBackSlash : Bool := true) : JsonS where
  lex := { inp := i, buffer := [], lastToken := none, lastBool := false, lastNull := false, convertBackSlash := convertBackSlash }
  ctl := JCtl.init

/-- JsonParser.cpp:63-117, see `JsonP.lexStep`. -/
def lexStep : Nat → JsonS → Res (Tok × JsonS)
  | 0, _ => .ub
  | fuel + 1, p => do
    let (x, lex) := p.lex.yylex
    let (t, ctl) ← p.ctl.feed x
    match t with
    | some t => return (t, { lex := lex, ctl := ctl })
    | none => lexStep fuel { lex := lex, ctl := ctl }

/-- JsonParser.cpp:25-125 `getNextToken`. -/
def getNextToken (p : JsonS) : Res (Tok × JsonS) :=
  if ¬ p.ctl.started then .ok (.DocStart, { p with ctl := { p.ctl with started := true } })
  else if p.ctl.currentState = .Done then
    .ok (.DocEnd, { p with ctl := { p.ctl with currentState := .Error } })
  else if p.ctl.currentState = .Error then .ok (.Error, p)
  else lexStep 2 p

/-- JsonParser.cpp:128-187, the rest of the interface. -/
def ops : POps JsonS where
  next := getNextToken
  getKey p := do let (v, l) ← p.lex.getString; return (v, { p with lex := l })
  getInt k p := do let (v, l) ← p.lex.scanInt k; return (v, { p with lex := l })
  getFlt f p := do let (v, l) ← p.lex.scanFlt f; return (v, { p with lex := l })
  getBool p := do let (v, l) ← p.lex.getLastBool; return (v, { p with lex := l })
  getStr p := do let (v, l) ← p.lex.getStringInto; return (v, { p with lex := l })
  isNull p := p.lex.lastNull
  ignoreData p := do let l ← p.lex.ignoreRawValue; return { p with lex := l }
  getRaw p := do let (v, l) ← p.lex.getRawString; return (v, { p with lex := l })

/-- The input functions `extract` calls: `ok()` is `!fail()`. -/
def inOps : InOps JsonS where
  ops := ops
  ok s := !s.lex.inp.fail
  clear s := { s with lex := { s.lex with inp := s.lex.inp.clear } }
  readChar s := ((s.lex.inp.readChar).1.getD 0xFF, { s with lex := { s.lex with inp := (s.lex.inp.readChar).2 } })

end JsonS

/-- `stream >> jsonImporter(value, config)` (Importer.h:99-103). -/
noncomputable def jsonStreamExtract (env : Env) (cfg : Cfg) (pol : Policy) (conv : Bool) (ty : Ty) (old : Val) (i : IStr) : Report Val :=
  extract JsonS.inOps env cfg pol ty old (PI.init (JsonS.ofStream i conv))

/-- The import of a value from a stream: the new value, and the stream after it. -/
noncomputable def jsonStreamImport (env : Env) (cfg : Cfg) (conv : Bool) (ty : Ty) (old : Val) (i : IStr) : Res (Val × IStr) := do
  let (v, p) ← importValue JsonS.ops env cfg ty old (PI.init (JsonS.ofStream i conv))
  return (v, p.inner.lex.inp)

end Thors
