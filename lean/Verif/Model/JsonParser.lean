import Verif.Model.JsonLexer
/-
Model of `/repo/src/Serialize/JsonParser.{h,cpp}`.
-/
namespace Thors

/-- JsonParser.h:34 `enum State`. -/
inductive JState
  | Error | Init | OpenM | Key | Colon | ValueM | CommaM | CloseM | OpenA | ValueA | CommaA | CloseA
  | ValueD | Done
  deriving DecidableEq, Repr

/-- JsonParser.cpp:44-61 `stateTable`, indexed by the state and the result of `yylex`
(JsonManualLexer.cpp:22-54: `{`=1 `}`=2 `[`=3 `]`=4 `,`=5 `:`=6 true=7 false=8 null=9 string=10
number=13; columns 0, 11 and 12 are never used). -/
def stateTable : JState → Lexeme → JState
  | .Init, .lbrace => .OpenM
  | .Init, .lbracket => .OpenA
  | .Init, .true_ | .Init, .false_ | .Init, .null_ | .Init, .string | .Init, .number => .ValueD
  | .OpenM, .rbrace => .CloseM
  | .OpenM, .string => .Key
  | .Key, .colon => .Colon
  | .Colon, .lbrace => .OpenM
  | .Colon, .lbracket => .OpenA
  | .Colon, .true_ | .Colon, .false_ | .Colon, .null_ | .Colon, .string | .Colon, .number => .ValueM
  | .ValueM, .rbrace => .CloseM
  | .ValueM, .comma => .CommaM
  | .CommaM, .string => .Key
  | .OpenA, .lbrace => .OpenM
  | .OpenA, .lbracket => .OpenA
  | .OpenA, .rbracket => .CloseA
  | .OpenA, .true_ | .OpenA, .false_ | .OpenA, .null_ | .OpenA, .string | .OpenA, .number => .ValueA
  | .ValueA, .rbracket => .CloseA
  | .ValueA, .comma => .CommaA
  | .CommaA, .lbrace => .OpenM
  | .CommaA, .lbracket => .OpenA
  | .CommaA, .true_ | .CommaA, .false_ | .CommaA, .null_ | .CommaA, .string | .CommaA, .number => .ValueA
  | _, _ => .Error

/-- JsonParser.h:36-40, the fields other than the lexer. -/
structure JCtl where
  currentEnd : JState
  currentState : JState
  parrentState : List JState          -- back of the vector is the head of the list
  started : Bool
  deriving DecidableEq, Repr

namespace JCtl

/-- JsonParser.cpp:16-22, the constructor. -/
def init : JCtl := { currentEnd := .Done, currentState := .Init, parrentState := [], started := false }

/-- What one pass through lines 63-117 of JsonParser.cpp does once `yylex` has delivered a lexeme:
either a token is returned, or `getNextToken` calls itself again (`none`). `ub` is `back()`/`pop_back()`
of the empty `parrentState`. -/
def feed (c : JCtl) (x : Lexeme) : Res (Option Tok × JCtl) :=
  let st := stateTable c.currentState x
  match st with
  | .Error => .ok (some .Error, { c with currentState := st })
  | .Key => .ok (some .Key, { c with currentState := st })
  | .ValueM => .ok (some .Value, { c with currentState := st })
  | .ValueA => .ok (some .Value, { c with currentState := st })
  | .ValueD => .ok (some .Value, { c with currentState := .Done })
  | .Colon => .ok (none, { c with currentState := st })
  | .CommaM => .ok (none, { c with currentState := st })
  | .CommaA => .ok (none, { c with currentState := st })
  | .OpenM => .ok (some .MapStart, { c with currentState := st, parrentState := c.currentEnd :: c.parrentState, currentEnd := .ValueM })
  | .OpenA => .ok (some .ArrayStart, { c with currentState := st, parrentState := c.currentEnd :: c.parrentState, currentEnd := .ValueA })
  | .CloseM =>
    match c.parrentState with
    | [] => .ub
    | p :: ps => .ok (some .MapEnd, { c with currentState := p, currentEnd := p, parrentState := ps })
  | .CloseA =>
    match c.parrentState with
    | [] => .ub
    | p :: ps => .ok (some .ArrayEnd, { c with currentState := p, currentEnd := p, parrentState := ps })
  | .Init | .Done => throwStd                     -- lines 117-124

end JCtl

/-- A `JsonParser` on a string input. -/
structure JsonP where
  lex : Lexer
  ctl : JCtl
  deriving DecidableEq, Repr

namespace JsonP

/-- JsonParser.cpp:16-22 with ParserInterface.h:136-141: a parser on a string. -/
def ofBytes (d : Bytes) (convertBackSlash : Bool := true) : JsonP where
  lex := { inp := StrIn.ofBytes d, buffer := [], lastToken := none, lastBool := false, lastNull := false,
           convertBackSlash := convertBackSlash }
  ctl := JCtl.init

/-- JsonParser.cpp:63-117, `fuel` is the number of self calls still allowed (punctuation never follows
punctuation, so two suffice; see `getNextToken`). -/
def lexStep : Nat → JsonP → Res (Tok × JsonP)
  | 0, _ => .ub
  | fuel + 1, p => do
    let (x, lex) := p.lex.yylex
    let (t, ctl) ← p.ctl.feed x
    match t with
    | some t => return (t, { lex := lex, ctl := ctl })
    | none => lexStep fuel { lex := lex, ctl := ctl }

/-- JsonParser.cpp:25-125 `getNextToken`. The self calls of lines 83-88 are made in a state other than
not-started, `Done` or `Error`, so they go straight to line 63. A table entry for a separator leads to
a state from which no separator is accepted, hence at most one self call. -/
def getNextToken (p : JsonP) : Res (Tok × JsonP) :=
  if ¬ p.ctl.started then .ok (.DocStart, { p with ctl := { p.ctl with started := true } })
  else if p.ctl.currentState = .Done then
    .ok (.DocEnd, { p with ctl := { p.ctl with currentState := .Error } })
  else if p.ctl.currentState = .Error then .ok (.Error, p)
  else lexStep 2 p

/-- JsonParser.cpp:128-131, 146-149 `getKey`. -/
def getKey (p : JsonP) : Res (Bytes × JsonP) := do
  let (v, l) ← p.lex.getString
  return (v, { p with lex := l })

/-- JsonParser.cpp:140-143 `ignoreDataValue`. -/
def ignoreDataValue (p : JsonP) : Res JsonP := do
  let l ← p.lex.ignoreRawValue
  return { p with lex := l }

/-- JsonParser.cpp:151-159 `getValue` of the integer types. -/
def getInt (k : StrIn.IntKind) (p : JsonP) : Res (Int × JsonP) := do
  let (v, l) ← p.lex.scanInt k
  return (v, { p with lex := l })

/-- JsonParser.cpp:161-163 `getValue` of the floating point types. -/
def getFlt (f : FKind) (p : JsonP) : Res (Flt × JsonP) := do
  let (v, l) ← p.lex.scanFlt f
  return (v, { p with lex := l })

/-- JsonParser.cpp:166-169 `getValue(bool&)`. -/
def getBool (p : JsonP) : Res (Bool × JsonP) := do
  let (v, l) ← p.lex.getLastBool
  return (v, { p with lex := l })

/-- JsonParser.cpp:172-175 `getValue(std::string&)`. -/
def getStr (p : JsonP) : Res (Bytes × JsonP) := do
  let (v, l) ← p.lex.getStringInto
  return (v, { p with lex := l })

/-- JsonParser.cpp:178-181 `isValueNull`. -/
def isValueNull (p : JsonP) : Bool := p.lex.lastNull

/-- JsonParser.cpp:184-187 `getRawValue`. -/
def getRaw (p : JsonP) : Res (Bytes × JsonP) := do
  let (v, l) ← p.lex.getRawString
  return (v, { p with lex := l })

end JsonP
end Thors
