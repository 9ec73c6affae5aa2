import Verif.Model.Parser
/-
The C++ types and values the serialiser is instantiated with (a deep embedding of `Traits<T>`).
-/
namespace Thors
open StrIn

/-- The containers whose elements are a JSON array.
 * `back`: `std::vector`, `std::list`, `std::deque`, SerUtil.h:345-455: elements are appended. Also
   `std::unordered_multiset` (SerUtil.h:545-571) and `std::unordered_multimap` with other keys than strings (SerUtil.h:694-723), whose order
   has no meaning.
 * `sorted c`: `std::set` with the comparison `c` (SerUtil.h:457-485); `std::map` with other keys than strings (SerUtil.h:573-601), its elements
   being `std::pair`s, compared by `first`.
 * `multi c`: `std::multiset` (SerUtil.h:516-543), `std::multimap` with other keys than strings (SerUtil.h:754-782).
 * `hashed c`: `std::unordered_set` with the equality `c` (SerUtil.h:487-514), `std::unordered_map` with other keys than
   strings (SerUtil.h:632-660). -/
inductive SeqKind
  | back
  | sorted (c : Nat)
  | multi (c : Nat)
  | hashed (c : Nat)
  deriving DecidableEq, Repr

/-- A C++ type with a `Traits` specialisation.
 * `int`, `flt`, `bool`, `str`: ThorsSerializerUtil.h:120-151 (TraitType::Value).
 * `seq`: containers with a variable number of elements, see `SeqKind` (TraitType::Array); `vec` is `std::vector`.
 * `arr`: `std::array`, SerUtil.h:317-343.
 * `smap`, `mmap`, `umap`: `std::map`, `std::multimap`, `std::unordered_map` with `std::string` keys,
   SerUtil.h:596-630, 784-823, 653-692 (TraitType::Map).
 * `opt`: `std::optional`, SerUtil.h:971-988 (TraitType::Reference).
 * `uptr`: `std::unique_ptr` and raw pointers to a type without the polymorphic member functions,
   SerUtil.h:910-926, ThorsSerializerUtil.h:165-188 (TraitType::Pointer).
 * `pptr b`: the same pointers to a polymorphic class `b` (ThorsAnvil_PolyMorphicSerializer).
 * `named i`: a class, enumeration, tuple or variant described by the environment. `std::pair` is a class
   with the members `first` and `second` (SerUtil.h:261-287). -/
inductive Ty
  | int (k : IntKind)
  | flt (f : FKind)
  | bool
  | str
  | seq (k : SeqKind) (t : Ty)
  | arr (n : Nat) (t : Ty)
  | smap (t : Ty)
  | mmap (t : Ty)
  | umap (t : Ty)
  | opt (t : Ty)
  | uptr (t : Ty)
  | pptr (base : Nat)
  | named (i : Nat)
  deriving DecidableEq, Repr

/-- `std::vector`, `std::list`, `std::deque`. -/
abbrev Ty.vec (t : Ty) : Ty := .seq .back t

/-- A C++ value. `list`: sequence containers, sets and maps that are arrays (sorted as the container is; for `hashed` in
insertion order and the order has no meaning), arrays and tuples. `dict`: associative containers (for the
sorted containers the list is sorted by key; for `umap` it is in insertion order and the order has no
meaning). `none`/`some`: `std::optional`. `null`/`ptr`: pointers. `dyn c v`: pointer to a polymorphic object
of dynamic class `c`. `obj ps fs`: base class subobjects and own members. `alt i v`: a variant holding
its alternative of class `i`. -/
inductive Val
  | int (i : Int)
  | flt (x : Flt)
  | bool (b : Bool)
  | str (s : Bytes)
  | enum (i : Int)
  | list (vs : List Val)
  | dict (kvs : List (Bytes × Val))
  | none
  | some (v : Val)
  | null
  | ptr (v : Val)
  | dyn (c : Nat) (v : Val)
  | obj (parents : List Val) (fields : List Val)
  | alt (c : Nat) (v : Val)
  deriving Repr

/-- One data member listed in `ThorsAnvil_MakeTrait` (Traits.h:691-724): its declared name, the name used
in the documents (`Override<T>::nameOverride`, Traits.h:584-617; equal to `name` without an override) and
its type. -/
structure Member where
  name : Bytes
  out : Bytes
  ty : Ty

/-- The serialisation traits of a class: the traits of its parents (Traits.h:663-674
`ThorsAnvil_ExpandTrait`, `Parents<...>`), its own members, and the user's filter if there is one
(`ThorsAnvil_MakeFilter`, Traits.h:620-640) as a predicate on the object and the declared member name. -/
inductive StructDef
  | mk (parents : List StructDef) (members : List Member) (filter : Option (Val → Bytes → Bool))

/-- A class: its traits, its `polyMorphicSerializerName` (Traits.h:885-924; the class name if it has
neither ThorsAnvil_PolyMorphicSerializer nor ThorsAnvil_VariantSerializer, where it is not used) and the
name of its type field if it has `ThorsAnvil_TypeFieldName` (Traits.h:914-918). -/
structure ClassDef where
  traits : StructDef
  serName : Bytes
  typeField : Option Bytes

/-- What a named type is.
 * `tuple`: `std::tuple`, SerUtil.h:829-907.
 * `enum`: the `std::map<EnumName, std::string>` of `ThorsAnvil_MakeEnum` (Traits.h:758-811) in key order, or
   the table of magic_enum (Traits.h:1082-1120).
 * `variant`: `std::variant` of classes with `ThorsAnvil_VariantSerializer`, SerUtil.h:990-1020. -/
inductive TypeDef
  | cls (c : ClassDef)
  | tuple (ts : List Ty)
  | enum (table : List (Int × Bytes))
  | variant (alts : List Nat)

/-- The named types of a program, their value initialised objects `T{}`, and the registry of polymorphic
class names (`PolyMorphicRegistry`, Traits.h:1161-1194): name to class. `derives c b`: an object of class
`c` can be used through a pointer to `b` obtained by `reinterpret_cast`, i.e. `c` is `b` or derived from it
at offset zero. -/
structure Env where
  defs : Nat → TypeDef
  dflt : Nat → Val
  registry : List (Bytes × Nat)
  derives : Nat → Nat → Bool
  /-- the comparisons of the sorted containers (`Compare`) and the equalities of the hashed ones (`KeyEqual`) -/
  less : Nat → Val → Val → Bool := fun _ _ _ => false

/-- `std::set::insert`: at the first element that is not smaller; nothing if that one is equivalent. -/
def setInsert (lt : Val → Val → Bool) (v : Val) : List Val → List Val
  | [] => [v]
  | x :: xs => if lt x v then x :: setInsert lt v xs else if lt v x then v :: x :: xs else x :: xs

/-- `std::multiset::insert`: behind all elements that are not greater. -/
def multisetInsert (lt : Val → Val → Bool) (v : Val) : List Val → List Val
  | [] => [v]
  | x :: xs => if lt v x then v :: x :: xs else x :: multisetInsert lt v xs

/-- `std::unordered_set::insert`: nothing if there is an equal element. -/
def hashInsert (eq : Val → Val → Bool) (v : Val) (xs : List Val) : List Val :=
  if xs.any (fun x => eq x v) then xs else xs ++ [v]

/-- `MemberEmplacer::get` and `MemberInserter::add` (SerUtil.h:345-571): an element that was read is put into its container. -/
def SeqKind.insert (env : Env) : SeqKind → List Val → Val → List Val
  | .back, vs, v => vs ++ [v]
  | .sorted c, vs, v => setInsert (env.less c) v vs
  | .multi c, vs, v => multisetInsert (env.less c) v vs
  | .hashed c, vs, v => hashInsert (env.less c) v vs

/-- A value initialised object `T{}`. -/
def Ty.default (env : Env) : Ty → Val
  | .int _ => .int 0
  | .flt _ => .flt (.fin false 0 0)
  | .bool => .bool false
  | .str => .str []
  | .seq _ _ => .list []
  | .arr n t => .list (List.replicate n (t.default env))
  | .smap _ | .mmap _ | .umap _ => .dict []
  | .opt _ => .none
  | .uptr _ => .null
  | .pptr _ => .null
  | .named i => env.dflt i

/-- PolymorphicMarker.h:41-53 `getPolymorphicMarker<T>`: the configured marker, else the type field name of
the class, else `__type`. -/
def polyMarker (env : Env) (cfgMarker : Bytes) (c : Nat) : Bytes :=
  if cfgMarker ≠ [] then cfgMarker
  else match env.defs c with
    | .cls d => d.typeField.getD b!"__type"
    | _ => b!"__type"

namespace StructDef

/-- Where a key belongs: the path through the parents and the position and type of the member. -/
structure Slot where
  path : List Nat
  index : Nat
  ty : Ty

/-- Serialize.tpp:833-839 with 853-856: the first own member whose document name is the key. -/
def findMember (key : Bytes) : List Member → Nat → Option Slot
  | [], _ => none
  | m :: ms, i => if key = m.out then some ⟨[], i, m.ty⟩ else findMember key ms (i + 1)

/-- Serialize.tpp:871-878 `scanObjectMembers` with 44-67 `scanParentMember`: the parents from left to right
(each with its own parents first), then the own members; the first hit wins. -/
def find (key : Bytes) : StructDef → Option Slot
  | mk ps ms _ =>
    match findInParents ps 0 with
    | some s => some s
    | none => findMember key ms 0
where findInParents : List StructDef → Nat → Option Slot
  | [], _ => none
  | p :: ps, i =>
    match find key p with
    | some s => some { s with path := i :: s.path }
    | none => findInParents ps (i + 1)

/-- Serialize.tpp:104-163 `HeedAllValues<T>`: every declared name of the class and of its parents is among
the keys found. -/
def heed (found : List Bytes) : StructDef → Bool
  | mk ps ms _ => ms.all (fun m => found.contains m.name) && heedAll ps
where heedAll : List StructDef → Bool
  | [] => true
  | p :: ps => heed found p && heedAll ps

end StructDef

/-- The data member at a place in an object (`object.*memberPtr` after the casts to the parents). -/
def Val.field : Val → List Nat → Nat → Option Val
  | .obj _ fs, [], i => fs[i]?
  | .obj ps _, p :: path, i => match ps[p]? with
    | .some v => v.field path i
    | .none => .none
  | _, _, _ => .none

/-- Assignment to a data member. -/
def Val.setField : Val → List Nat → Nat → Val → Val
  | .obj ps fs, [], i, v => .obj ps (fs.set i v)
  | .obj ps fs, p :: path, i, v => match ps[p]? with
    | .some w => .obj (ps.set p (w.setField path i v)) fs
    | .none => .obj ps fs
  | w, _, _, _ => w

/-- SerUtil.h:981 `getInputValue` of `std::optional`: the content, or that of a freshly emplaced one. -/
def Val.contentOr (v d : Val) : Val :=
  match v with
  | .some w => w
  | _ => d

/-- `operator<` of `std::string`: lexicographic on the characters as unsigned values. -/
def keyLt : Bytes → Bytes → Bool
  | [], [] => false
  | [], _ :: _ => true
  | _ :: _, [] => false
  | a :: as, b :: bs => a < b || (a = b && keyLt as bs)

/-- `object[key]` on a `std::map` (SerUtil.h:620): the element if there is one. -/
def dictGet (key : Bytes) : List (Bytes × Val) → Option Val
  | [] => none
  | (k, v) :: kvs => if k = key then some v else dictGet key kvs

/-- Storing through the reference `object[key]` of a `std::map`: the element is replaced, or a new one put
in key order. -/
def dictSet (key : Bytes) (v : Val) : List (Bytes × Val) → List (Bytes × Val)
  | [] => [(key, v)]
  | (k, w) :: kvs =>
    if k = key then (k, v) :: kvs
    else if keyLt key k then (key, v) :: (k, w) :: kvs
    else (k, w) :: dictSet key v kvs

/-- `std::multimap::insert` (SerUtil.h:814): behind the elements with keys not greater. -/
def multiInsert (key : Bytes) (v : Val) : List (Bytes × Val) → List (Bytes × Val)
  | [] => [(key, v)]
  | (k, w) :: kvs => if keyLt key k then (key, v) :: (k, w) :: kvs else (k, w) :: multiInsert key v kvs

/-- `std::unordered_map::insert` (SerUtil.h:683): nothing happens if the key is present. -/
def uniqueInsert (key : Bytes) (v : Val) (kvs : List (Bytes × Val)) : List (Bytes × Val) :=
  if (dictGet key kvs).isSome then kvs else kvs ++ [(key, v)]

end Thors
