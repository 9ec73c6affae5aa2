import Verif.Model.BsonPrinter
import Verif.Model.JsonPrinter
/-
Model of `jsonStreanSize` (JsonThor.h:54-63): the size computation `getPrintSize` with the `getSize...` functions of
`JsonPrinter.h`. The exporters do not use it (`printerUsesSize()` is false for JSON).

Two library functions are parameters: `lg x` is the integral part of `std::log10(x) + 1` for a `double` (the C++ standard does not
say how precise `std::log10` is), `sh f x` the text of `std::to_chars(first, last, x)` (the shortest text that is read back as `x`).
-/
namespace Thors
open StrIn

namespace JSize

/-- JsonPrinter.h:79 `getSizeMap`: braces, a colon for each member, commas between them. -/
def sizeMap (count : Nat) : Nat := 2 + count * 2 - (if count = 0 then 0 else 1)

/-- JsonPrinter.h:80 `getSizeArray`: brackets, commas between the elements. -/
def sizeArray (count : Nat) : Nat := 2 + count * 1 - (if count = 0 then 0 else 1)

/-- JsonPrinter.h:81 `getSizeMember`: the name and two quotes. -/
def sizeMember (name : Bytes) : Nat := name.length + 2

/-- JsonPrinter.h:95 `getSizeValue(std::string_view)`: the string as it is and two quotes. -/
def sizeStr (s : Bytes) : Nat := s.length + 2

section
variable (lg : Flt → Nat) (sh : FKind → Flt → Bytes)

/-- JsonPrinter.h:100-101 `getOutputSizeInt` of a number that is not negative. `std::log10` converts it to `double`. -/
def sizeDigits (n : Nat) : Nat := if n = 0 then 1 else lg (intFlt f64 n)

/-- JsonPrinter.h:83-90. `std::abs` of the least value of `int` or a larger type is undefined; a `short` is converted to `int`. -/
def sizeInt (k : IntKind) (i : Int) : Res Nat :=
  if k.signed then
    if 32 ≤ k.bits ∧ i = -2 ^ (k.bits - 1) then .ub
    else .ok (sizeDigits lg i.natAbs + (if i < 0 then 1 else 0))
  else .ok (sizeDigits lg i.natAbs)

/-- JsonPrinter.h:102-111 `getOutputSizeFlt`. -/
def sizeFlt (f : FKind) (x : Flt) : Nat :=
  match x with
  | .fin _ 0 _ => 3
  | x => (sh f x).length

variable (env : Env) (marker : Bytes) (info : BPrint.SizeInfo)

mutual
/-- `Traits<T>::getPrintSize(printer, object, poly)` with a `JsonPrinter`; the same functions as for BSON (`BPrint.psize`):
 * values: ThorsSerializerUtil.h:120-130 with JsonPrinter.h:82-95.
 * sequence containers: SerUtil.h:105-119; tuples: SerUtil.h:887-906.
 * associative containers: SerUtil.h:88-102.
 * `std::optional`: SerUtil.h:989-994. Pointers: SerUtil.h:923-930, ThorsSerializerUtil.h:180-187.
 * classes: Traits.h:1076-1079, ThorsSerializerUtil.h:222-260, Traits.h:901-908.
 * `std::pair`: SerUtil.h:275-286.
 * enumerations: Traits.h:792-796; variants: SerUtil.h:996-1020. -/
def psize : Bool → Ty → Val → Res Nat
  | _, .int k, .int i => sizeInt lg k i
  | _, .flt f, .flt x => .ok (sizeFlt sh f x)
  | _, .bool, .bool b => .ok (if b then 4 else 5)
  | _, .str, .str s => .ok (sizeStr s)
  | _, .seq _ t, .list vs => do return sizeArray vs.length + (← psizeList t vs)
  | _, .arr _ t, .list vs => do return sizeArray vs.length + (← psizeList t vs)
  | _, .smap t, .dict kvs => do return sizeMap kvs.length + (← psizeDict t kvs)
  | _, .mmap t, .dict kvs => do return sizeMap kvs.length + (← psizeDict t kvs)
  | _, .umap t, .dict kvs => do return sizeMap kvs.length + (← psizeDict t kvs)
  | p, .opt t, .some v => psize p t v
  | _, .opt _, .none => .ok 0
  | _, .uptr _, .null => .ok 4
  | _, .uptr t, .ptr v => psize true t v
  | _, .pptr _, .null => .ok 4
  | _, .pptr _, .dyn c (.obj ps fs) =>
    match env.defs c with
    | .cls ⟨.mk dps ms f, name, _⟩ => do
      let (n, m) ← psizeOwn f (.obj ps fs) ms fs
      let (n', m') ← psizeParents dps ps
      return sizeMap (1 + n + n') + (sizeMember (polyMarker env marker c) + sizeStr name + m + m')
    | _ => .ub
  | p, .named i, .obj ps fs =>
    match env.defs i with
    | .cls ⟨.mk dps ms f, name, field⟩ =>
      if info.pair i then do
        let m ← psizePair ms fs
        return sizeMap 2 + m
      else do
        let (n, m) ← psizeOwn f (.obj ps fs) ms fs
        let (n', m') ← psizeParents dps ps
        if (if info.virt i then p else field.isSome) then
          return sizeMap (1 + n + n') + (sizeMember (polyMarker env marker i) + sizeStr name + m + m')
        else return sizeMap (n + n') + (m + m')
    | _ => .ub
  | _, .named i, .list vs =>
    match env.defs i with
    | .tuple ts => do return sizeArray ts.length + (← psizeTuple ts vs)
    | _ => .ub
  | _, .named i, .enum e =>
    match env.defs i with
    | .enum table =>
      match enumName table e with
      | some s => .ok (sizeStr s)
      | none => .ub
    | _ => .ub
  | p, .named _, .alt c (.obj ps fs) =>
    match env.defs c with
    | .cls ⟨.mk dps ms f, name, field⟩ => do
      let (n, m) ← psizeOwn f (.obj ps fs) ms fs
      let (n', m') ← psizeParents dps ps
      if (if info.virt c then p else field.isSome) then
        return sizeMap (1 + n + n') + (sizeMember (polyMarker env marker c) + sizeStr name + m + m')
      else return sizeMap (n + n') + (m + m')
    | _ => .ub
  | _, _, _ => .ub
termination_by structural _ _ v => v
/-- The elements of a sequence container, SerUtil.h:112-115. -/
def psizeList : Ty → List Val → Res Nat
  | _, [] => .ok 0
  | t, v :: vs => do
    let a ← psize false t v
    let b ← psizeList t vs
    return a + b
termination_by structural _ vs => vs
/-- The elements of a tuple, SerUtil.h:893-898. -/
def psizeTuple : List Ty → List Val → Res Nat
  | [], [] => .ok 0
  | t :: ts, v :: vs => do
    let a ← psize false t v
    let b ← psizeTuple ts vs
    return a + b
  | _, _ => .ub
termination_by structural _ vs => vs
/-- The elements of an associative container, SerUtil.h:95-99: the keys count as they are, not with `getSizeMember`. -/
def psizeDict : Ty → List (Bytes × Val) → Res Nat
  | _, [] => .ok 0
  | t, (k, v) :: kvs => do
    let a ← psize false t v
    let b ← psizeDict t kvs
    return k.length + a + b
termination_by structural _ vs => vs
/-- Both members of a `std::pair`, SerUtil.h:279-283: the names count as they are. -/
def psizePair : List Member → List Val → Res Nat
  | [], [] => .ok 0
  | m :: ms, v :: vs => do
    let a ← psize false m.ty v
    let b ← psizePair ms vs
    return m.name.length + a + b
  | _, _ => .ub
termination_by structural _ vs => vs
/-- Traits.h:1030-1062 `addSizeEachMember`: number of the own members that pass the filter, and the size of
their names and values. -/
def psizeOwn (f : Option (Val → Bytes → Bool)) (self : Val) : List Member → List Val → Res (Nat × Nat)
  | [], [] => .ok (0, 0)
  | m :: ms, v :: vs =>
    if keepMember f self m v then do
      let a ← psize false m.ty v
      let (n, b) ← psizeOwn f self ms vs
      return (1 + n, sizeMember m.out + a + b)
    else psizeOwn f self ms vs
  | _, _ => .ub
termination_by structural _ vs => vs
/-- Traits.h:1064-1074 with ThorsSerializerUtil.h:65-81, 199-217: the counts are passed by reference from
parent to parent, so the last result is the total. -/
def psizeParents : List StructDef → List Val → Res (Nat × Nat)
  | [], [] => .ok (0, 0)
  | .mk dps ms f :: ds, .obj ps fs :: vs => do
    let (n, m) ← psizeOwn f (.obj ps fs) ms fs
    let (n', m') ← psizeParents dps ps
    let (n'', m'') ← psizeParents ds vs
    return (n + n' + n'', m + m' + m'')
  | _, _ => .ub
termination_by structural _ vs => vs
end
end
end JSize

/-- JsonThor.h:57-63 `jsonStreanSize(value)`. The printer has the default marker; the flag is `true`. -/
def jsonStreamSize (lg : Flt → Nat) (sh : FKind → Flt → Bytes) (env : Env) (info : BPrint.SizeInfo) (ty : Ty) (v : Val) : Res Nat :=
  JSize.psize lg sh env [] info true ty v

end Thors
