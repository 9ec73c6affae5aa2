import Verif.Model.Parser
import Verif.Model.BsonParser
import Verif.Model.JsonPrinter
/-
Model of `/repo/src/Serialize/YamlParser.{h,cpp}` and `/repo/src/Serialize/YamlPrinter.{h,cpp}`.

libyaml itself is not modelled. The parser sees it as a sequence of events, one for each call of
`yaml_parser_parse`; where the sequence ends, `yaml_parser_parse` reports an error. The printer is modelled
by the events it hands to `yaml_emitter_emit`.
-/
namespace Thors
open StrIn

/-- `yaml_event_type_t` with the parts of the event that the code looks at: the text of a scalar. -/
inductive YEv
  | noEvent | streamStart | streamEnd | docStart | docEnd | alias
  | scalar (text : Bytes)
  | seqStart | seqEnd | mapStart | mapEnd
  deriving DecidableEq, Repr

/-- YamlParser.h:38 `enum class State`. -/
inductive YState
  | Open | Map | Array
  deriving DecidableEq, Repr

/-- YamlParser.h:36-43, the data members of `YamlParser`. `events` is what `yaml_parser_parse` will still
report; `state` has the back of the vector at its head; `cur` is `event`. Simplified: the counters are `int`
in the code; here they do not overflow (2^31 items in one container). -/
structure YamlP where
  events : List YEv
  state : List (YState × Nat)
  first : Bool
  error : Bool
  cur : YEv
  deriving DecidableEq, Repr

namespace YamlP

/-- YamlParser.cpp:30-51, the constructors, in front of the given events. (`event` is not initialised; it is
not looked at before the first `getNextToken`.) -/
def ofEvents (es : List YEv) : YamlP := ⟨es, [], true, false, .noEvent⟩

/-- YamlParser.cpp:154-159 `parsingError`. -/
def parsingError (p : YamlP) : Res (Tok × YamlP) := .ok (.Error, { p with error := true })

/-- YamlParser.cpp:82-152, the part of `getNextToken` behind the check of `error`: `yaml_parser_parse` and the
`switch`. The first three cases of the `switch` fall through into each other, but each of them throws.
`back()` and `pop_back()` of an empty vector are undefined. Where `yaml_parser_parse` fails it has cleared the event
(trusted: the `memset` at its beginning). -/
def parseEvent (p : YamlP) : Res (Tok × YamlP) :=
  match p.events with
  | [] => { p with cur := .noEvent }.parsingError
  | e :: es =>
    let p := { p with events := es, cur := e }
    match e, p.state with
    | .streamStart, _ => throwStd
    | .alias, _ => throwStd
    | .noEvent, _ => throwStd
    | .streamEnd, _ => p.parsingError
    | .docStart, [(.Open, 0)] => .ok (.DocStart, { p with state := [(.Open, 1)] })
    | .docStart, _ => throwStd
    | .docEnd, [(.Open, _)] => .ok (.DocEnd, p)
    | .docEnd, _ => throwStd
    | .mapStart, (k, n) :: st =>
      if k = .Map ∧ (n + 1) % 2 = 1 then throwStd
      else .ok (.MapStart, { p with state := (.Map, 0) :: (k, n + 1) :: st })
    | .mapEnd, (_, n) :: st => if n % 2 ≠ 0 then throwStd else .ok (.MapEnd, { p with state := st })
    | .seqStart, (k, n) :: st =>
      if k = .Map ∧ (n + 1) % 2 = 1 then throwStd
      else .ok (.ArrayStart, { p with state := (.Array, 0) :: (k, n + 1) :: st })
    | .seqEnd, _ :: st => .ok (.ArrayEnd, { p with state := st })
    | .scalar _, (k, n) :: st =>
      .ok (if k = .Map ∧ (n + 1) % 2 = 1 then .Key else .Value, { p with state := (k, n + 1) :: st })
    | _, [] => .ub

/-- YamlParser.cpp:62-152 `getNextToken`. -/
def getNextToken (p : YamlP) : Res (Tok × YamlP) :=
  if p.first then
    match p.events with
    | .streamStart :: es =>
      -- line 73: `state.emplace_back(State::Open, 0)`
      let p := { p with first := false, events := es, cur := .streamStart, state := (.Open, 0) :: p.state }
      if p.error then .ok (.Error, p) else p.parseEvent
    | e :: es => { p with first := false, events := es, cur := e }.parsingError
    | [] => { p with first := false, cur := .noEvent }.parsingError
  else if p.error then .ok (.Error, p)
  else p.parseEvent

/-- YamlParser.cpp:178-198 `getString`, which is also `getKey` (YamlParser.h:63), `getValue(std::string&)`
(257-262) and `getRawValue` (274-278). Reading the text of an event that is not a scalar is reading an
inactive member of a union. No event and the end of the stream have no parts at all: the union is cleared and nothing
else is in it, so that the text is a null pointer with the length 0. -/
def getString (p : YamlP) : Res (Bytes × YamlP) :=
  match p.cur with
  | .scalar t => .ok (t, p)
  | .noEvent => .ok ([], p)
  | .streamEnd => .ok ([], p)
  | _ => .ub

/-- The text that `scan` (YamlParser.cpp:200-217) gives to `strtol` and its relatives, which must not be a null
pointer. -/
def scalarText (p : YamlP) : Res (Bytes × YamlP) :=
  match p.cur with
  | .scalar t => .ok (t, p)
  | _ => .ub

/-- `isspace` in the C locale. -/
def isSpaceC (c : Byte) : Bool := c = 0x20 ∨ (0x09 ≤ c ∧ c ≤ 0x0D)

/-- What `std::strtol` and its relatives (C17 7.22.1.4, base 10) see of a text: optional white space, an
optional sign, digits. Result: whether there is a minus sign, the magnitude, and what is behind the number;
`none`: no number, nothing is consumed. -/
def strto (t : Bytes) : Option (Bool × Nat × Bytes) :=
  let t := t.dropWhile isSpaceC
  let (neg, t) := match t with
    | c :: cs => if c = 0x2D then (true, cs) else if c = 0x2B then (false, cs) else (false, c :: cs)
    | [] => (false, [])
  if digitPrefix t = [] then none
  else some (neg, digitsVal (digitPrefix t), t.drop (digitPrefix t).length)

/-- The value of `strtol`/`strtoll` (both 64 bits): the nearest representable number. -/
def strtolVal (neg : Bool) (m : Nat) : Int :=
  let v : Int := if neg then -(m : Int) else m
  if v < -(2 ^ 63 : Int) then -(2 ^ 63 : Int) else if (2 ^ 63 : Int) - 1 < v then (2 ^ 63 : Int) - 1 else v

/-- The value of `strtoul`/`strtoull` (both 64 bits): negation is modulo 2^64; too large gives the largest. -/
def strtoulVal (neg : Bool) (m : Nat) : Int :=
  if 2 ^ 64 ≤ m then (2 ^ 64 : Int) - 1 else if neg then (-(m : Int)) % (2 ^ 64 : Int) else m

/-- YamlParser.cpp:200-217 `scan<T>` with Serialize.h:56-68 `scanValue<T>`, for the text of a scalar. libyaml
puts a NUL behind the text, so that a number always ends at the latest there; a NUL inside the text ends it
like any other character that is not a digit. Without a number `end` is the start of the text, which is its end
too if the text is empty; the value is then 0. -/
def scanText (k : IntKind) (t : Bytes) : Res Int :=
  match strto t with
  | none => if t = [] then .ok (castTo k 0) else throwStd
  | some (neg, m, rest) =>
    if rest ≠ [] then throwStd
    else .ok (castTo k (if k.signed then strtolVal neg m else strtoulVal neg m))

/-- YamlParser.cpp:220-228 `getValue` of the integer types. -/
def getInt (k : IntKind) (p : YamlP) : Res (Int × YamlP) := do
  let (t, p) ← p.scalarText
  let i ← scanText k t
  return (i, p)

/-- A hexadecimal digit. -/
def hexVal (c : Byte) : Option Nat :=
  if 0x30 ≤ c ∧ c ≤ 0x39 then some (c.toNat - 0x30)
  else if 0x61 ≤ c ∧ c ≤ 0x66 then some (c.toNat - 0x57)
  else if 0x41 ≤ c ∧ c ≤ 0x46 then some (c.toNat - 0x37)
  else none

/-- The longest prefix of hexadecimal digits: their values. -/
def hexPrefix : Bytes → List Nat
  | c :: cs => match hexVal c with
    | some d => d :: hexPrefix cs
    | none => []
  | [] => []

/-- The number with these digits. -/
def hexNum (ds : List Nat) : Nat := ds.foldl (fun a d => a * 16 + d) 0

/-- The fraction of a hexadecimal number: number of characters and the digits. -/
def scanHexFrac : Bytes → Nat × List Nat
  | c :: cs => if c = 0x2E then (1 + (hexPrefix cs).length, hexPrefix cs) else (0, [])
  | [] => (0, [])

/-- The binary exponent: `p`, an optional sign and decimal digits; otherwise nothing. -/
def scanHexExpo : Bytes → Nat × Int
  | c :: cs => if c = 0x70 ∨ c = 0x50 then scanExpo (0x65 :: cs) else (0, 0)
  | [] => (0, 0)

/-- What is behind `0x` (C17 7.22.1.3): hexadecimal digits with an optional point, at least one digit, an optional
exponent. Its length, its digits as a number and the power of two. -/
def scanHex (bs : Bytes) : Option (Nat × Nat × Int) :=
  let ds := hexPrefix bs
  let (lf, fs) := scanHexFrac (bs.drop ds.length)
  if ds = [] ∧ fs = [] then none
  else
    let (le, e) := scanHexExpo (bs.drop (ds.length + lf))
    some (ds.length + lf + le, hexNum (ds ++ fs), e - 4 * fs.length)

/-- `n * 2 ^ k` as a decimal number. -/
def binDecimal (neg : Bool) (n : Nat) (k : Int) : Decimal :=
  if 0 ≤ k then ⟨neg, n * 2 ^ k.toNat, 0⟩ else ⟨neg, n * 5 ^ (-k).toNat, k⟩

/-- A character of the text in `nan(...)`. -/
def isWordChar (c : Byte) : Bool := isDigit c ∨ (0x61 ≤ c ∧ c ≤ 0x7A) ∨ (0x41 ≤ c ∧ c ≤ 0x5A) ∨ c = 0x5F

/-- The length of `(...)` behind `nan`; 0 if it is not there. -/
def scanNanTail : Bytes → Nat
  | c :: cs => if c = 0x28 ∧ (cs.dropWhile isWordChar).head? = some 0x29 then (cs.takeWhile isWordChar).length + 2 else 0
  | [] => 0

/-- The unsigned number at the beginning of a text: length and value; `none`: no number. -/
def scanUnsigned (f : FKind) (neg : Bool) (v : Bytes) : Option (Nat × Flt) :=
  match (if (v.take 2).map lower = b!"0x" then scanHex (v.drop 2) else none) with
  | some (len, n, k) => some (len + 2, (binDecimal neg n k).toFltInf f)
  | none =>
    match scanDecimal v with
    | some (len, n, k) => some (len, (Decimal.mk neg n k).toFltInf f)
    | none =>
      match scanSpecial neg v with
      | some (len, .nan s) => some (len + scanNanTail (v.drop 3), .nan s)
      | r => r

/-- YamlParser.cpp:200-217 `scan<T>` with Serialize.h:56-68 `scanValue<T>` for floating point types: `std::strtof`,
`strtod`, `strtold` (C17 7.22.1.3) on the text of a scalar: white space, an optional sign, a decimal or hexadecimal
number, `inf`, `infinity`, `nan` or `nan(...)`. Simplified: the payload of a NaN is not kept. -/
def scanTextFlt (f : FKind) (t : Bytes) : Res Flt :=
  let u := t.dropWhile isSpaceC
  let neg : Bool := u.head? = some 0x2D
  let v := if neg ∨ u.head? = some 0x2B then u.drop 1 else u
  match scanUnsigned f neg v with
  | some (len, x) => if len < v.length then throwStd else .ok x
  | none => if t = [] then .ok (.fin false 0 0) else throwStd

/-- YamlParser.cpp:227-229 `getValue` of the floating point types. -/
def getFlt (f : FKind) (p : YamlP) : Res (Flt × YamlP) := do
  let (t, p) ← p.scalarText
  let x ← scanTextFlt f t
  return (x, p)

/-- YamlParser.cpp:234-255 `getValue(bool&)`. -/
def getBool (p : YamlP) : Res (Bool × YamlP) := do
  let (t, p) ← p.getString
  if t = b!"true" then return (true, p)
  else if t = b!"false" then return (false, p)
  else throwStd

/-- YamlParser.cpp:264-272 `isValueNull`. For an event that is not a scalar the member `length` is 0, because
libyaml clears the event first (trusted: `memset` in the `*_EVENT_INIT` macros of libyaml). -/
def isValueNull (p : YamlP) : Bool :=
  match p.cur with
  | .scalar t => t = b!"null" ∨ t = b!"~"
  | _ => false

/-- YamlParser.h:58-86, the overrides; `ignoreDataValue` is the default, which does nothing
(ParserInterface.h:159). -/
def ops : POps YamlP where
  next := getNextToken
  getKey := getString
  getInt := getInt
  getFlt := getFlt
  getBool := getBool
  getStr := getString
  isNull := isValueNull
  ignoreData := .ok
  getRaw := getString

end YamlP

namespace YPrint
open JPrint (Kind)

/-- YamlPrinter.h:27 `state`; the back of the vector is the head of the list. -/
abbrev State := List (Nat × Kind)

/-- YamlPrinter.cpp:177-199 `emit` (and 200-220 `emitNull`): the event, then `++state.back().first`. `accepts`
is libyaml's answer to `yaml_scalar_event_initialize`: it refuses texts that are not UTF-8, and the printer
then throws (lines 43-52). Simplified: a text of 2^31 bytes or more is not considered (the size is cast to
`int`). -/
def emit (accepts : Bytes → Bool) (t : Bytes) : State → Res (List YEv × State)
  | [] => .ub
  | (n, k) :: ss => if accepts t then .ok ([.scalar t], (n + 1, k) :: ss) else throwStd

/-- The calls of the printer interface: `openMap` YamlPrinter.cpp:126-140, `closeMap` 142-150, `openArray`
152-166, `closeArray` 168-175, `addKey` 222-234, `addValue` YamlPrinter.h:67-84 (numbers with `operator<<`,
so integers as decimal text and floating point values with six digits), `addNull` YamlPrinter.h:88. The style of containers is not modelled. That
`yaml_emitter_emit` accepts the events is trusted (they are properly nested). -/
def step (accepts : Bytes → Bool) : Cmd → State → Res (List YEv × State)
  | .openMap _, ss => .ok ([.mapStart], (0, .Map) :: ss)
  | .closeMap, ss => match ss with
    | [] => .ub
    | _ :: ss => .ok ([.mapEnd], ss)
  | .openArray _, ss => .ok ([.seqStart], (0, .Array) :: ss)
  | .closeArray, ss => match ss with
    | [] => .ub
    | _ :: ss => .ok ([.seqEnd], ss)
  | .addKey key, ss => match ss with
    | [] => .ub
    | (n, k) :: ss => if k ≠ .Map ∧ n % 2 ≠ 1 then throwStd else emit accepts key ((n, k) :: ss)
  | .addInt _ n, ss => emit accepts (intText n) ss
  | .addFlt f x, ss => emit accepts (general6 f x) ss
  | .addBool b, ss => emit accepts (if b then b!"true" else b!"false") ss
  | .addStr s, ss => emit accepts s ss
  | .addNull, ss => emit accepts b!"null" ss

/-- A sequence of calls. -/
def run (accepts : Bytes → Bool) : List Cmd → State → Res (List YEv × State)
  | [], ss => .ok ([], ss)
  | c :: cs, ss => do
    let (w, ss) ← step accepts c ss
    let (ws, ss) ← run accepts cs ss
    return (w ++ ws, ss)

end YPrint

/-- Exporter.h:100-104 with Serialize.h:287-303, output to a `std::ostream`: stream start (`init`,
YamlPrinter.cpp:84-95), document start (`openDoc`, 112-118), the value, document end (`closeDoc`, 119-124),
and in the destructor stream end (`complete`, 96-104). -/
def yamlExport (accepts : Bytes → Bool) (env : Env) (marker : Bytes) (ty : Ty) (v : Val) : Res (List YEv) := do
  let cmds ← ser env marker noSize ty v
  let (es, _) ← YPrint.run accepts cmds [(0, .Value)]
  return [.streamStart, .docStart] ++ es ++ [.docEnd, .streamEnd]

/-- YamlPrinter.cpp:13-38 `thorsanvilYamlStreamWritter`: one chunk of libyaml's output. `blockInden` is
`owner->config.blockSize` spaces; `firstDone` is `YamlPrinter::firstLine` (YamlPrinter.h:44: it is set by the
first call). Result: the bytes written. The loop writes each line with its line feed and then the
indentation. -/
def yamlWriteLines (ind : Bytes) : Bytes → Bytes
  | [] => []
  | c :: cs => if c = 0x0A then c :: (ind ++ yamlWriteLines ind cs) else c :: yamlWriteLines ind cs

def yamlWriteChunk (blockSize : Nat) (firstDone : Bool) (chunk : Bytes) : Bytes × Bool :=
  let ind := List.replicate blockSize 0x20
  ((if firstDone then [] else ind) ++ yamlWriteLines ind chunk, true)

/-- The chunks libyaml hands over, one call after the other. -/
def yamlWriteChunks (blockSize : Nat) : Bool → List Bytes → Bytes
  | _, [] => []
  | firstDone, c :: cs =>
    let (w, firstDone) := yamlWriteChunk blockSize firstDone c
    w ++ yamlWriteChunks blockSize firstDone cs

/-- YamlParser.cpp:13-27 `thorsanvilYamlStreamReader` on a `StringInput`: libyaml asks for up to `size` bytes;
the bytes it gets (`*size_read` of them) and whether it is told that reading succeeded. `clear()` does not
matter: `read` does not look at the flag. -/
def yamlReadChunk (size : Nat) (s : StrIn) : Res (Bytes × Bool × StrIn) := do
  let (got, _, s) ← s.read size
  return (got, true, s)

/-- libyaml asks again and again, with sizes of its choice. -/
def yamlReadChunks : List Nat → StrIn → Res (List Bytes × StrIn)
  | [], s => .ok ([], s)
  | n :: ns, s => do
    let (got, _, s) ← yamlReadChunk n s
    let (rest, s) ← yamlReadChunks ns s
    return (got :: rest, s)

end Thors
