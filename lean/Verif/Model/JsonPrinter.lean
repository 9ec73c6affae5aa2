import Verif.Model.Ser
import Verif.Model.JsonToken
/-
Model of `/repo/src/Serialize/JsonPrinter.cpp`: what the printer sends to its output for each call.
-/
namespace Thors

/-- PrinterConfig.h:14 `enum class OutputType`. -/
inductive Layout
  | Default | Stream | Config
  deriving DecidableEq, Repr

/-- PrinterConfig.h:63-69, the part the JSON printer uses. `tabSize` and `blockSize` are `long`; they are set
from an `int`. -/
structure PrintCfg where
  layout : Layout := .Default
  tabSize : Int := 0
  blockSize : Int := 0
  marker : Bytes := []
  exact : Bool := false

/-- One call on the output: `write(src, size)` (PrinterInterface.h:100-116) or `writeValue(src)`
(PrinterInterface.h:135-146) with the text of the value. For a floating point value (`FormatDouble`) the text
depends on the output. -/
inductive Write
  | chars (b : Bytes)
  | value (text : Bytes)
  | flt (f : FKind) (x : Flt)
  deriving DecidableEq, Repr

/-- The bytes of a call on the output, with the texts of floating point values given by `ft`. -/
def Write.bytesIn (ft : FKind → Flt → Bytes) : Write → Bytes
  | chars b => b
  | value t => t
  | flt f x => ft f x

/-- All bytes of a list of calls. -/
def bytesIn (ft : FKind → Flt → Bytes) (ws : List Write) : Bytes := (ws.map (Write.bytesIn ft)).flatten

/-- The bytes that arrive on a stream. -/
abbrev bytesOf (ws : List Write) : Bytes := bytesIn streamText ws

namespace JPrint

/-- The `TraitType` values used for `PrintState::f1`. -/
inductive Kind
  | Value | Map | Array
  deriving DecidableEq, Repr

/-- JsonPrinter.h:25-33 `PrintState`. Simplified: `f0` is an `int` in the code; here it does not overflow
(2^31 elements in one container). -/
structure PState where
  f0 : Nat
  f1 : Kind
  f2 : Bool
  deriving DecidableEq, Repr

/-- JsonPrinter.cpp:137-156, the state after construction or `reset`. -/
def init : List PState := [⟨0, .Value, false⟩]

/-- JsonPrinter.cpp:44, 52: the number `size * tabSize + 1 + blockSize` computed in `std::size_t`; `size` is
one less than the height of the stack (line 26), a tab size of 0 counts as 4 (line 27). -/
def width (cfg : PrintCfg) (size : Nat) : Nat :=
  let tab := if cfg.tabSize = 0 then 4 else cfg.tabSize
  ((size * tab + 1 + cfg.blockSize) % (2 ^ 64 : Nat)).toNat

/-- JsonPrinter.cpp:61-66 `buildIndent`, with the terminating NUL of the string. -/
def indentBuffer : Bytes := 0x0A :: List.replicate 4003 0x20 ++ [0x00]

/-- JsonPrinter.cpp:39-46 `printIndent` without suffix. Reading more than the string and its NUL is
undefined. -/
def indentPlain (cfg : PrintCfg) (size : Nat) (hasIndent : Bool) : Res (List Write) :=
  if hasIndent = false then .ok []
  else
    let n := width cfg size
    if n ≤ 4005 then .ok [.chars (indentBuffer.take n)] else .ub

/-- JsonPrinter.cpp:47-60 `printIndent` with a suffix, which is put into the static buffer, written with what
is before it, and replaced by a space. Writing over the terminating NUL or behind it is undefined.
Simplified: for `n = 0` (only possible with a negative block size) the newline at the front of the static
buffer is lost for later calls; the model keeps it. -/
def indentSuffix (cfg : PrintCfg) (size : Nat) (hasIndent : Bool) (suffix : Byte) : Res (List Write) :=
  if hasIndent = false then .ok [.chars [suffix]]
  else
    let n := width cfg size
    if n ≤ 4003 then .ok [.chars (indentBuffer.take n ++ [suffix])] else .ub

/-- JsonPrinter.cpp:32-38 `printSeporator` with the tables 132-134 (all columns are equal). -/
def separator (st : PState) (key sep : Bool) : List Write :=
  if key = false ∧ st.f1 = .Map then [.chars (if sep then b!": " else b!":")]
  else if st.f0 ≠ 0 then [.chars (if sep then b!", " else b!",")]
  else [.chars (if sep then b!" " else [])]

/-- JsonPrinter.cpp:238-243 `addIndent` with 78-92 `PrefixValue::write`, then the text of the value. -/
def value (cfg : PrintCfg) (text : List Write) : List PState → Res (List Write × List PState)
  | [] => .ub
  | st :: ss =>
    let sep : Bool := cfg.layout ≠ .Stream ∧ ((st.f1 = .Array ∧ st.f0 ≠ 0) ∨ st.f1 = .Map)
    .ok (separator st false sep ++ text, { st with f0 := st.f0 + 1, f2 := true } :: ss)

/-- The calls of the printer interface:
 * `openMap`, `openArray`: JsonPrinter.cpp:166-172, 190-196 with 94-102, 112-120.
 * `closeMap`, `closeArray`: JsonPrinter.cpp:174-188, 198-212 with 103-111, 121-129.
 * `addKey`: JsonPrinter.cpp:214-229 with 69-77; the key is written as it is.
 * `addValue`, `addNull`: JsonPrinter.cpp:301-320.
`state.back()` of an empty stack is undefined. The head of the list is the back of the vector. -/
def step (cfg : PrintCfg) : Cmd → List PState → Res (List Write × List PState)
  | _, [] => .ub
  | .openMap _, st :: ss => do
    let i ← indentSuffix cfg ss.length (cfg.layout ≠ .Stream) 0x7B
    return (separator st false false ++ i, ⟨0, .Map, false⟩ :: st :: ss)
  | .closeMap, st :: ss =>
    if st.f1 ≠ .Map then throwStd else
    match ss with
    | [] => .ub
    | st' :: ss' => do
      let i ← indentSuffix cfg ss'.length (cfg.layout ≠ .Stream) 0x7D
      return (i, { st' with f0 := st'.f0 + 1 } :: ss')
  | .openArray _, st :: ss => do
    let i ← indentSuffix cfg ss.length (cfg.layout ≠ .Stream) 0x5B
    return (separator st false false ++ i, ⟨0, .Array, false⟩ :: st :: ss)
  | .closeArray, st :: ss =>
    if st.f1 ≠ .Array then throwStd else
    match ss with
    | [] => .ub
    | st' :: ss' => do
      let i ← indentSuffix cfg ss'.length (cfg.layout ≠ .Stream ∧ st.f2 = false) 0x5D
      return (i, { st' with f0 := st'.f0 + 1 } :: ss')
  | .addKey key, st :: ss =>
    if st.f1 ≠ .Map then throwStd else do
    let i ← indentPlain cfg ss.length (cfg.layout ≠ .Stream)
    return (separator st true false ++ i ++ [.chars b!"\"", .chars key, .chars b!"\""], st :: ss)
  | .addInt _ n, ss => value cfg [.value (intText n)] ss
  | .addFlt f x, ss => value cfg [.flt f x] ss
  | .addBool b, ss => value cfg [.value (if b then b!"true" else b!"false")] ss
  | .addStr s, ss => value cfg ([.chars b!"\""] ++ (escapeWrites s).map .chars ++ [.chars b!"\""]) ss
  | .addNull, ss => value cfg [.chars b!"null"] ss

/-- A sequence of calls. -/
def run (cfg : PrintCfg) : List Cmd → List PState → Res (List Write × List PState)
  | [], ss => .ok ([], ss)
  | c :: cs, ss => do
    let (w, ss) ← step cfg c ss
    let (ws, ss) ← run cfg cs ss
    return (w ++ ws, ss)

end JPrint

/-- Exporter.h:100-104 with Serialize.h:287-303 and Serialize.tpp:1318-1323, output to a `std::ostream`: the
bytes handed to the stream. -/
def jsonExport (env : Env) (cfg : PrintCfg) (ty : Ty) (v : Val) : Res Bytes := do
  let cmds ← ser env cfg.marker noSize ty v
  let (ws, _) ← JPrint.run cfg cmds JPrint.init
  return bytesOf ws

end Thors
