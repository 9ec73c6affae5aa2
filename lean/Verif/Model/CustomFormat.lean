import Verif.Model.Unwind
import Verif.Model.Mongo
import Verif.Model.Custom
/-
Model of `/repo/src/Serialize/CustomSerialization.{h,tpp}`: classes with a serialiser of their own (`ThorsAnvil_MakeTraitCustomSerialize`), which has a function for each format.
-/
namespace Thors
open StrIn

/-- ThorsSerializerUtilTypes.h:15 `FormatType`. -/
inductive FormatType
  | Json | Yaml | Bson
  deriving DecidableEq, Repr

/-- The classes derived from `PrinterInterface`, or from `ParserInterface`. -/
inductive Side
  | json | yaml | bson
  deriving DecidableEq, Repr

/-- JsonPrinter.h:44, YamlPrinter.h:47, BsonPrinter.h:57: what a printer says about its format. -/
def Side.printerFormat : Side → FormatType
  | .json => .Json
  | .yaml => .Json
  | .bson => .Bson

/-- JsonParser.h:48, YamlParser.h:59, BsonParser.h:69. -/
def Side.parserFormat : Side → FormatType
  | .json => .Json
  | .yaml => .Yaml
  | .bson => .Bson

/-- `dynamic_cast` of a reference to the class that belongs to the format: `std::bad_cast` if it is another class. CustomSerialization.tpp:17-40, 44-67. -/
def FormatType.cast (f : FormatType) (s : Side) : Res Side :=
  match f, s with
  | .Json, .json => .ok .json
  | .Yaml, .yaml => .ok .yaml
  | .Bson, .bson => .ok .bson
  | _, _ => throwStd

/-- CustomSerialization.h:80-98 `DefaultCustomSerializer`: the functions a class may provide; `none`: that of the base class, which throws
(CustomSerialization.tpp:69-147). The writers of JSON and YAML make calls on the printer; that of BSON writes bytes behind the key. -/
structure OwnFormat (V : Type) where
  writeJson : Option (V → Traversal)
  writeYaml : Option (V → Traversal)
  mark : Byte
  sizeBson : Option (V → Nat)
  writeBson : Option (V → Bytes)
  readJson : Option (V → JsonP → Res (V × JsonP))
  readYaml : Option (V → YamlP → Res (V × YamlP))
  readBson : Option (Byte → V → StrIn → Res (V × StrIn))

section
variable {V : Type} (S : OwnFormat V)

/-- CustomSerialization.tpp:15-40 `writeCustomOld`, JSON and YAML printers: the calls it makes. -/
def OwnFormat.calls (p : Side) (v : V) : Traversal :=
  match p.printerFormat.cast p with
  | .ok .json => match S.writeJson with
    | some f => f v
    | none => ⟨[], .threw .std⟩
  | .ok .yaml => match S.writeYaml with
    | some f => f v
    | none => ⟨[], .threw .std⟩
  | .ok .bson => ⟨[], .undefined⟩
  | .throw e => ⟨[], .threw e⟩
  | .ub => ⟨[], .undefined⟩

/-- The elements of a `std::vector`, SerUtil.h:225-232. -/
def OwnFormat.callsAll (p : Side) : List V → Traversal
  | [] => ⟨[], .done⟩
  | v :: vs => (S.calls p v).andThen (OwnFormat.callsAll p vs)

/-- Serialize.tpp:997-1015, and 921-933 for a `std::vector`. -/
def OwnFormat.trace (p : Side) : CVal V → Traversal
  | .one v => S.calls p v
  | .vec vs => .block (.ok 0) .openArray .closeArray (S.callsAll p vs)

/-- A class with the name `name` and one member of this kind, `key`: Serialize.tpp:1202-1256. -/
def OwnFormat.member (p : Side) (key : Bytes) (v : V) : Traversal :=
  .block (.ok 0) .openMap .closeMap ((Traversal.call (.addKey key)).andThen (S.calls p v))

/-- CustomSerialization.tpp:26-31 `writeCustomOld`, BSON. -/
def OwnFormat.bson (v : V) (s : BPrint.St) : Res (List Write × BPrint.St) := do
  match ← Side.printerFormat .bson |>.cast .bson with
  | .bson =>
    match S.sizeBson, S.writeBson with
    | some n, some w => bsonCustomWrite S.mark (n v) (w v) s
    | some n, none => do
      let _ ← BPrint.writeKey S.mark (some (n v)) s
      throwStd
    | none, _ => throwStd
  | _ => .ub

/-- CustomSerialization.h:43-55 and CustomSerialization.tpp:42-67: reading JSON. -/
def OwnFormat.fromJson (v : V) (p : PI JsonP) : Res (V × PI JsonP) :=
  customRead JsonP.ops (fun s => do
    match ← Side.parserFormat .json |>.cast .json with
    | .json => match S.readJson with
      | some f => f v s
      | none => throwStd
    | _ => .ub) p

/-- The same for YAML. -/
def OwnFormat.fromYaml (o : POps YamlP) (v : V) (p : PI YamlP) : Res (V × PI YamlP) :=
  customRead o (fun s => do
    match ← Side.parserFormat .yaml |>.cast .yaml with
    | .yaml => match S.readYaml with
      | some f => f v s
      | none => throwStd
    | _ => .ub) p

/-- The same for BSON; the function is told the type of the element. -/
def OwnFormat.fromBson (v : V) (p : PI BsonP) : Res (V × PI BsonP) :=
  customRead BsonP.ops (fun s => do
    match ← Side.parserFormat .bson |>.cast .bson with
    | .bson => match S.readBson with
      | some f => bsonCustomRead (f s.type v) s
      | none => throwStd
    | _ => .ub) p
end

/-- MongoUtility.h:148-171: the serialisers of `ObjectID` as an example; there is none for YAML. -/
def ObjectID.own : OwnFormat ObjectID where
  writeJson := some fun o => .call o.json
  writeYaml := none
  mark := 0x07
  sizeBson := some fun _ => 12
  writeBson := some fun o => o.bson
  readJson := some fun o p => o.readJson p
  readYaml := none
  readBson := some fun _ o s => o.readBson s

end Thors
