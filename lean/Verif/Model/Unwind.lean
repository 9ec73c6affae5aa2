import Verif.Model.Sink
import Verif.Model.Yaml
import Verif.Model.StringOutput
/-
Exports that do not come to their end: an exception of the serialiser, of the printer or of the stream, and the destructors it meets on its way
(`/repo/src/Serialize/Serialize.tpp`, `Serialize.h`, `Exporter.h`, `YamlPrinter.cpp`).
-/
namespace Thors
open StrIn

/-- How a traversal of a value by the serialiser ends. -/
inductive Stop
  | done
  | threw (e : Exc)
  | undefined
  deriving DecidableEq, Repr

/-- The calls of the serialiser on the printer, up to its end. The blocks that are open at the end of a traversal that throws are not closed in `cmds`. -/
structure Traversal where
  cmds : List Cmd
  stop : Stop
  deriving DecidableEq, Repr

namespace Traversal

/-- A single call. -/
def call (c : Cmd) : Traversal := ⟨[c], .done⟩

/-- One after the other. -/
def andThen (a b : Traversal) : Traversal :=
  match a.stop with
  | .done => ⟨a.cmds ++ b.cmds, b.stop⟩
  | s => ⟨a.cmds, s⟩

/-- A block: the constructor computes the size and opens (Serialize.tpp:921-929, 1193-1201), the destructor closes (930-933, 1202-1206). -/
def block (size : Res Nat) (start : Nat → Cmd) (stop : Cmd) (body : Traversal) : Traversal :=
  match size with
  | .ub => ⟨[], .undefined⟩
  | .throw e => ⟨[], .threw e⟩
  | .ok n =>
    match body.stop with
    | .done => ⟨start n :: body.cmds ++ [stop], .done⟩
    | s => ⟨start n :: body.cmds, s⟩

/-- As the model without the calls of a traversal that throws. -/
def toRes (t : Traversal) : Res (List Cmd) :=
  match t.stop with
  | .done => .ok t.cmds
  | .threw e => .throw e
  | .undefined => .ub

end Traversal

section
variable (env : Env) (marker : Bytes) (sz : Ty → Val → Bool → Res Nat)

mutual
/-- Serialize.tpp:1318-1323 `print` with the `SerializerForBlock` specialisations: as `ser` (Model/Ser.lean, with the citations), but with the calls made before an
exception. -/
def traceOf : Ty → Val → Traversal
  | .int k, .int i => .call (.addInt k i)
  | .flt f, .flt x => .call (.addFlt f x)
  | .bool, .bool b => .call (.addBool b)
  | .str, .str s => .call (.addStr s)
  | .seq k t, .list vs => .block (sz (.seq k t) (.list vs) false) .openArray .closeArray (traceList t vs)
  | .arr n t, .list vs => .block (sz (.arr n t) (.list vs) false) .openArray .closeArray (traceList t vs)
  | .smap t, .dict kvs => .block (sz (.smap t) (.dict kvs) false) .openMap .closeMap (traceDict t kvs)
  | .mmap t, .dict kvs => .block (sz (.mmap t) (.dict kvs) false) .openMap .closeMap (traceDict t kvs)
  | .umap t, .dict kvs => .block (sz (.umap t) (.dict kvs) false) .openMap .closeMap (traceDict t kvs)
  | .opt t, .some v => traceOf t v
  | .opt _, .none => ⟨[], .threw .std⟩
  | .uptr _, .null => .call .addNull
  | .uptr t, .ptr v => traceOf t v
  | .pptr _, .null => .call .addNull
  | .pptr _, .dyn c (.obj ps fs) =>
    match env.defs c with
    | .cls ⟨.mk dps ms f, name, _⟩ =>
      .block (sz (.named c) (.obj ps fs) true) .openMap .closeMap
        ((Traversal.mk [.addKey (polyMarker env marker c), .addStr name] .done).andThen ((traceOwn f (.obj ps fs) ms fs).andThen (traceParents dps ps)))
    | _ => ⟨[], .undefined⟩
  | .named i, .obj ps fs =>
    match env.defs i with
    | .cls ⟨.mk dps ms f, name, field⟩ =>
      .block (sz (.named i) (.obj ps fs) false) .openMap .closeMap
        ((Traversal.mk (if field.isSome then [.addKey (polyMarker env marker i), .addStr name] else []) .done).andThen ((traceOwn f (.obj ps fs) ms fs).andThen (traceParents dps ps)))
    | _ => ⟨[], .undefined⟩
  | .named i, .list vs =>
    match env.defs i with
    | .tuple ts => .block (sz (.named i) (.list vs) false) .openArray .closeArray (traceTuple ts vs)
    | _ => ⟨[], .undefined⟩
  | .named i, .enum e =>
    match env.defs i with
    | .enum table =>
      match enumName table e with
      | some s => .call (.addStr s)
      | none => ⟨[], .threw .std⟩
    | _ => ⟨[], .undefined⟩
  | .named _, .alt c (.obj ps fs) =>
    match env.defs c with
    | .cls ⟨.mk dps ms f, name, _⟩ =>
      .block (sz (.named c) (.obj ps fs) true) .openMap .closeMap
        ((Traversal.mk [.addKey (polyMarker env marker c), .addStr name] .done).andThen ((traceOwn f (.obj ps fs) ms fs).andThen (traceParents dps ps)))
    | _ => ⟨[], .undefined⟩
  | _, _ => ⟨[], .undefined⟩
/-- The elements of a sequence container, SerUtil.h:225-232. -/
def traceList : Ty → List Val → Traversal
  | _, [] => ⟨[], .done⟩
  | t, v :: vs => (traceOf t v).andThen (traceList t vs)
/-- The elements of a tuple, SerUtil.h:836-846. -/
def traceTuple : List Ty → List Val → Traversal
  | [], [] => ⟨[], .done⟩
  | t :: ts, v :: vs => (traceOf t v).andThen (traceTuple ts vs)
  | _, _ => ⟨[], .undefined⟩
/-- The elements of an associative container, SerUtil.h:610-618. -/
def traceDict : Ty → List (Bytes × Val) → Traversal
  | _, [] => ⟨[], .done⟩
  | t, (k, v) :: kvs => ((Traversal.call (.addKey k)).andThen (traceOf t v)).andThen (traceDict t kvs)
/-- Serialize.tpp:1277-1288 `printEachMember` with 1214-1256. -/
def traceOwn (f : Option (Val → Bytes → Bool)) (self : Val) : List Member → List Val → Traversal
  | [], [] => ⟨[], .done⟩
  | m :: ms, v :: vs =>
    if keepMember f self m v then ((Traversal.call (.addKey m.out)).andThen (traceOf m.ty v)).andThen (traceOwn f self ms vs)
    else traceOwn f self ms vs
  | _, _ => ⟨[], .undefined⟩
/-- Serialize.tpp:39-83 `printParentMembers`. -/
def traceParents : List StructDef → List Val → Traversal
  | [], [] => ⟨[], .done⟩
  | .mk dps ms f :: ds, .obj ps fs :: vs => ((traceOwn f (.obj ps fs) ms fs).andThen (traceParents dps ps)).andThen (traceParents ds vs)
  | _, _ => ⟨[], .undefined⟩
end
end

/-- How a call on a printer ends. -/
inductive Went
  | fine
  | threw (e : Exc)
  | undefined
  deriving DecidableEq, Repr

/-- How a traversal ends together with the destructors: `terminated` is `std::terminate`, called when an exception leaves a destructor. None of the destructors
`~SerializerForBlock` (Serialize.tpp:930, 1202), `~Serializer` (Serialize.h:296) and `~YamlPrinter` (YamlPrinter.cpp:79) is declared `noexcept(false)`. -/
inductive Ended
  | done
  | threw (e : Exc)
  | terminated
  | undefined
  deriving DecidableEq, Repr

/-- The block objects of the serialiser that have a destructor with a call in it. -/
inductive Blk
  | map | array
  deriving DecidableEq, Repr

/-- Serialize.tpp:930-933, 1202-1206: what the destructor calls. -/
def Blk.close : Blk → Cmd
  | .map => .closeMap
  | .array => .closeArray

/-- Is it a call that is made in a destructor? -/
def Cmd.closes : Cmd → Bool
  | .closeMap | .closeArray => true
  | _ => false

/-- The blocks that are open after a call that succeeded. A block whose constructor throws is not there. -/
def Cmd.blocks : Cmd → List Blk → List Blk
  | .openMap _, bs => .map :: bs
  | .openArray _, bs => .array :: bs
  | .closeMap, bs | .closeArray, bs => bs.tail
  | _, bs => bs

section
variable {σ : Type} (call : Cmd → σ → Went × σ)

/-- An exception on its way through the open blocks, the innermost first. -/
def unwind (e : Exc) : List Blk → σ → Ended × σ
  | [], s => (.threw e, s)
  | b :: bs, s =>
    match call b.close s with
    | (.fine, s) => unwind e bs s
    | (.threw _, s) => (.terminated, s)
    | (.undefined, s) => (.undefined, s)

/-- The calls of a traversal on a printer. -/
def play (stop : Stop) : List Cmd → List Blk → σ → Ended × σ
  | [], bs, s =>
    match stop with
    | .done => (.done, s)
    | .threw e => unwind call e bs s
    | .undefined => (.undefined, s)
  | c :: cs, bs, s =>
    match call c s with
    | (.fine, s) => play stop cs (c.blocks bs) s
    | (.threw e, s) => if c.closes then (.terminated, s) else unwind call e bs s
    | (.undefined, s) => (.undefined, s)

/-- A call made in a destructor at the end of a traversal that ended with `e`. -/
def inDtor (f : σ → Went × σ) (e : Ended) (s : σ) : Ended × σ :=
  match f s with
  | (.fine, s) => (e, s)
  | (.threw _, s) => (.terminated, s)
  | (.undefined, s) => (.undefined, s)

/-- Serialize.h:287-303 with Serialize.tpp:1318-1323, one pass: the calls and then the destructor of the `Serializer`, which calls `closeDoc`. -/
def passThrough (closeDoc : σ → Went × σ) (t : Traversal) (s : σ) : Ended × σ :=
  match play call t.stop t.cmds [] s with
  | (.done, s) => inDtor closeDoc .done s
  | (.threw e, s) => inDtor closeDoc (.threw e) s
  | r => r
end

/-- A call whose model is in `Res`, with its writes put on a stream. Simplified: the state of the printer after a write that throws is that before the call; the code
has then counted at most one more element in the innermost container. -/
def onStream {τ : Type} (step : Cmd → τ → Res (List Write × τ)) (c : Cmd) : τ × OStream → Went × (τ × OStream)
  | (t, o) =>
    match step c t with
    | .ub => (.undefined, t, o)
    | .throw e => (.threw e, t, o)
    | .ok (ws, t') =>
      match o.putAll ws with
      | (o, false) => (.fine, t', o)
      | (o, true) => (.threw .std, t, o)

/-- Writes on a stream. -/
def putDoc {τ : Type} (ws : List Write) : τ × OStream → Went × (τ × OStream)
  | (t, o) =>
    match o.putAll ws with
    | (o, false) => (.fine, t, o)
    | (o, true) => (.threw .std, t, o)

/-- Exporter.h:38-79 `inserter` on a stream, around a traversal. In the handlers `setFail` sets `failbit` (PrinterInterface.h:126-134); this throws again, out of the
handler, if `badbit` is set and in `exceptions()`: whatever `catchExceptions` is. -/
def OStream.report (pol : Policy) : Ended × OStream → Sent
  | (.done, o) => ⟨.returned (!o.fail) (some ()), o.data, o.fail⟩
  | (.undefined, o) => ⟨.ub, o.data, o.fail⟩
  | (.terminated, o) => ⟨.terminated, o.data, o.fail⟩
  | (.threw .deprecated, o) => ⟨.raised .deprecated, o.data, o.fail⟩
  | (.threw e, o) => ⟨if o.fail && o.throwing then .raised .std else (pol.handle e).fate, o.data, true⟩

/-- `stream << jsonExporter(value, config)` (Exporter.h:81-85, 100-104; `closeDoc` is empty, JsonPrinter.cpp:162-164), for a traversal. -/
def jsonSendT (cfg : PrintCfg) (pol : Policy) (t : Traversal) (o : OStream) : Sent :=
  let r := passThrough (onStream (JPrint.step cfg)) (putDoc []) t (JPrint.init, o)
  OStream.report pol (r.1, r.2.2)

/-- The same for a value. -/
def jsonSend (env : Env) (cfg : PrintCfg) (pol : Policy) (ty : Ty) (v : Val) (o : OStream) : Sent :=
  jsonSendT cfg pol (traceOf env cfg.marker noSize ty v) o

/-- `stream << bsonExporter(value, config)` (Exporter.h:81-85, BsonThor.h:93-99; a null pointer is refused when the exporter is made, 67-79). -/
def bsonSend (env : Env) (info : BPrint.SizeInfo) (marker : Bytes) (pol : Policy) (ty : Ty) (v : Val) (o : OStream) : Res Sent :=
  if bsonRefuses ty v then throwStd else
  let r := passThrough (onStream BPrint.step) (putDoc (BPrint.closeDoc (bsonBase env ty)))
    (traceOf env marker (fun t w p => BPrint.psize env marker info p t w) ty v) (BPrint.init, o)
  .ok (OStream.report pol (r.1, r.2.2))

/-- A call with its writes put into a `std::string`. -/
def onString {τ : Type} (step : Cmd → τ → Res (List Write × τ)) (c : Cmd) : τ × StrOut → Went × (τ × StrOut)
  | (t, s) =>
    match step c t with
    | .ub => (.undefined, t, s)
    | .throw e => (.threw e, t, s)
    | .ok (ws, t') =>
      match s.putAll ws with
      | .ub => (.undefined, t, s)
      | .throw e => (.threw e, t, s)
      | .ok s => (.fine, t', s)

/-- Exporter.h:38-79, 86-89 `inserter` on a string, at the end of a pass that did not succeed: `finalizePrint` in the destructor of the `Serializer` (Serialize.h:296-303),
then the handlers, `setFail` (StringOutput.h:52-54) and `ok`. -/
def StrOut.report (pol : Policy) : Ended × StrOut → Fate Unit × Bytes
  | (.threw e, s) =>
    match s.finalizePrint with
    | .ok s => ((pol.handle e).fate, s.data)
    | _ => (.ub, s.data)
  | (.terminated, s) => (.terminated, s.data)
  | (.undefined, s) => (.ub, s.data)
  | (.done, s) =>
    match s.finalizePrint with
    | .ok s => (.returned true (some ()), s.data)
    | _ => (.ub, s.data)

/-- `string << jsonExporter(value, config)`: Serialize.tpp:1304-1317, two passes; `closeDoc` is empty. -/
def jsonSendString (env : Env) (cfg : PrintCfg) (pol : Policy) (ty : Ty) (v : Val) (old : Bytes) : Fate Unit × Bytes :=
  let t := traceOf env cfg.marker noSize ty v
  match play (onString (JPrint.step cfg)) t.stop t.cmds [] (JPrint.init, (StrOut.ofString old (!cfg.exact)).preflightSize) with
  | (.done, _, s) =>
    let r := play (onString (JPrint.step cfg)) t.stop t.cmds [] (JPrint.init, s.reserveSize)
    StrOut.report pol (r.1, r.2.2)
  | (e, _, s) => StrOut.report pol (e, s)

/-! ### YAML -/

/-- YamlPrinter.h:24-27: the vector `state`, the flag `error`, and the events handed to the emitter of libyaml so far. -/
structure YOut where
  state : YPrint.State
  events : List YEv
  error : Bool
  deriving DecidableEq, Repr

section
variable (accepts : Bytes → Bool) (refuse : List YEv → Bool)

/-- YamlPrinter.cpp:40-63 `checkYamlResultCode`: an event for libyaml's `yaml_emitter_emit`. `refuse` is its answer to the events so far, with the new one at the end. -/
def YOut.emit (e : YEv) (s : YOut) : Went × YOut :=
  if refuse (s.events ++ [e]) then (.threw .std, { s with events := s.events ++ [e], error := true })
  else (.fine, { s with events := s.events ++ [e] })

/-- YamlPrinter.cpp:177-199 `emit`, 200-220 `emitNull`: `accepts` is libyaml's answer to `yaml_scalar_event_initialize` (texts that are not UTF-8 are refused). -/
def YOut.scalar (t : Bytes) (s : YOut) : Went × YOut :=
  if accepts t = false then (.threw .std, { s with error := true }) else
  match YOut.emit refuse (.scalar t) s with
  | (.fine, s) =>
    match s.state with
    | [] => (.undefined, s)
    | (n, k) :: ss => (.fine, { s with state := (n + 1, k) :: ss })
  | r => r

/-- The calls of the printer interface: YamlPrinter.cpp:126-234 and YamlPrinter.h:67-88. -/
def YOut.call (c : Cmd) (s : YOut) : Went × YOut :=
  match c with
  | .openMap _ =>
    match YOut.emit refuse .mapStart s with
    | (.fine, s) => (.fine, { s with state := (0, .Map) :: s.state })
    | r => r
  | .openArray _ =>
    match YOut.emit refuse .seqStart s with
    | (.fine, s) => (.fine, { s with state := (0, .Array) :: s.state })
    | r => r
  | .closeMap =>
    match YOut.emit refuse .mapEnd s with
    | (.fine, s) => if s.state = [] then (.undefined, s) else (.fine, { s with state := s.state.tail })
    | r => r
  | .closeArray =>
    match YOut.emit refuse .seqEnd s with
    | (.fine, s) => if s.state = [] then (.undefined, s) else (.fine, { s with state := s.state.tail })
    | r => r
  | .addKey key =>
    match s.state with
    | [] => (.undefined, s)
    | (n, k) :: _ => if k ≠ .Map ∧ n % 2 ≠ 1 then (.threw .std, { s with error := true }) else s.scalar accepts refuse key
  | .addInt _ n => s.scalar accepts refuse (intText n)
  | .addFlt f x => s.scalar accepts refuse (general6 f x)
  | .addBool b => s.scalar accepts refuse (if b then b!"true" else b!"false")
  | .addStr t => s.scalar accepts refuse t
  | .addNull => s.scalar accepts refuse b!"null"

/-- Exporter.h:45-78, the handlers, and `complete` (YamlPrinter.cpp:96-104) in the destructor of the printer (79-82), if there was no error. -/
def YOut.finish (pol : Policy) : Ended × YOut → Fate Unit × List YEv
  | (.terminated, s) => (.terminated, s.events)
  | (.undefined, s) => (.ub, s.events)
  | (e, s) =>
    match if s.error then (e, s) else inDtor (YOut.emit refuse .streamEnd) e s with
    | (.done, s) => (.returned true (some ()), s.events)
    | (.threw e, s) => ((pol.handle e).fate, s.events)
    | (.terminated, s) => (.terminated, s.events)
    | (.undefined, s) => (.ub, s.events)

/-- Exporter.h:38-85 around a YAML printer: its constructor (YamlPrinter.cpp:84-95 `init`, outside of the `try` block), `openDoc` (112-118) in the constructor of the
`Serializer`, the calls, and `closeDoc` (119-124) in its destructor. Simplified: `yaml_emitter_flush` is taken to be part of the event before it, which flushes as well;
the result is that of a stream without exceptions. -/
def yamlSendT (pol : Policy) (t : Traversal) : Fate Unit × List YEv :=
  match YOut.emit refuse .streamStart ⟨[(0, .Value)], [], false⟩ with
  | (.threw e, s) => (.raised e, s.events)
  | (.undefined, s) => (.ub, s.events)
  | (.fine, s) =>
    YOut.finish refuse pol <|
      match YOut.emit refuse .docStart s with
      | (.threw e, s) => (.threw e, s)
      | (.undefined, s) => (.undefined, s)
      | (.fine, s) => passThrough (YOut.call accepts refuse) (YOut.emit refuse .docEnd) t s

/-- The same for a value. -/
def yamlSend (env : Env) (marker : Bytes) (pol : Policy) (ty : Ty) (v : Val) : Fate Unit × List YEv := yamlSendT accepts refuse pol (traceOf env marker noSize ty v)
end

end Thors
