import Verif.Model.JsonPrinter
/-
Model of `/repo/src/Serialize/StringOutput.h`: printing into a `std::string` in two passes.
-/
namespace Thors

/-- StringOutput.h:14-33. `data`: the string; `current`: offset of the pointer `current` in it (meaningful
after `reserveSize`; `end` is the end of `data`). `ok` is left out (Model/Importer). -/
structure StrOut where
  data : Bytes
  current : Option Nat
  calcSize : Nat
  preFlight : Bool
  estimate : Bool
  deriving DecidableEq, Repr

namespace StrOut

/-- StringOutput.h:25-33. -/
def ofString (data : Bytes) (estimate : Bool) : StrOut := ⟨data, none, 0, false, estimate⟩

/-- `std::copy(src, src + size, current)`: `current` null or less room than needed is undefined. -/
def copy (s : StrOut) (src : Bytes) : Res StrOut :=
  match s.current with
  | none => if src = [] then .ok s else .ub
  | some p =>
    if p + src.length ≤ s.data.length then
      .ok { s with data := s.data.take p ++ src ++ s.data.drop (p + src.length), current := some (p + src.length) }
    else .ub

/-- StringOutput.h:34-46 `write`, and 55-76 `writeValue`. In the second pass `to_chars` with too little room leaves
the contents unspecified (integers, floating point numbers) or writes outside (`bool`, JsonPrinter.cpp:294, and
zeros of floating point types): both are `ub` here. In the first pass with exact sizes the text of a floating point
number goes to a buffer of 100 characters; a longer one counts as 100. -/
def put (s : StrOut) : Write → Res StrOut
  | .chars b => if s.preFlight then .ok { s with calcSize := s.calcSize + b.length } else s.copy b
  | .value t =>
    if s.preFlight then .ok { s with calcSize := s.calcSize + if s.estimate then 25 else t.length }
    else s.copy t
  | .flt f x =>
    if s.preFlight then
      .ok { s with calcSize := s.calcSize + if s.estimate then 25 else min 100 (stringText f x).length }
    else match x with
      -- JsonPrinter.cpp:276-282: all characters are copied, whatever room there is; the pointer moves by three
      | .fin neg 0 _ => do
        let t ← s.copy (if neg then b!"-0.0" else b!"0.0")
        return { t with current := s.current.map (· + 3) }
      | x => s.copy (fixed6 f x)

/-- A sequence of calls. -/
def putAll (s : StrOut) : List Write → Res StrOut
  | [] => .ok s
  | w :: ws => do (← s.put w).putAll ws

/-- StringOutput.h:77-81 `preflightSize`. -/
def preflightSize (s : StrOut) : StrOut := { s with preFlight := true }

/-- StringOutput.h:82-88 `reserveSize`: `std::string::resize` keeps what fits and pads with NUL. -/
def reserveSize (s : StrOut) : StrOut :=
  { s with data := s.data.take s.calcSize ++ List.replicate (s.calcSize - s.data.length) 0x00,
           current := some 0, preFlight := false }

/-- StringOutput.h:89-96 `finalizePrint`. -/
def finalizePrint (s : StrOut) : Res StrOut :=
  if s.preFlight then .ok s
  else match s.current with
    | none => .ub
    | some p => .ok { s with data := s.data.take p ++ List.replicate (p - s.data.length) 0x00 }

end StrOut

/-- Serialize.tpp:1306-1317 with Serialize.h:287-303 and JsonPrinter.cpp:152-156: export to a `std::string`.
First pass: sizes only. `reserveSize`, `reset` of the printer, second pass, `finalizePrint`. The result is the
final content of the string. (The calls of the two passes are computed once: `ser` depends on nothing that
the first pass changes, shared pointers aside, which are modelled separately.) -/
def jsonExportString (env : Env) (cfg : PrintCfg) (ty : Ty) (v : Val) (old : Bytes) : Res Bytes := do
  let s := (StrOut.ofString old (!cfg.exact)).preflightSize
  let cmds ← ser env cfg.marker noSize ty v
  let (ws, _) ← JPrint.run cfg cmds JPrint.init
  let s ← s.putAll ws
  let s := s.reserveSize
  let (ws, _) ← JPrint.run cfg cmds JPrint.init
  let s ← s.putAll ws
  let s ← s.finalizePrint
  return s.data

end Thors
