import Verif.Spec.Doc
/-
Specification: the members of an object that are written, in the order in which they are written (C136).
-/
namespace Thors.Spec
open Thors

/-- A member that is written: its name in the document, its type, what it holds. -/
structure Written where
  key : Bytes
  ty : Ty
  val : Val

/-- The own members of an object that are not hidden, in the order of their declaration. -/
def writtenOwn (filter : Option (Val → Bytes → Bool)) (self : Val) (ms : List Member) (vs : List Val) : List Written :=
  ((ms.zip vs).filter fun (m, v) => decide (shown filter self m v)).map fun (m, v) => ⟨m.out, m.ty, v⟩

/-- Those of its base classes: class by class, the members a class declares before those it inherits. -/
def writtenParents : List StructDef → List Val → List Written
  | .mk dps ms f :: ds, .obj ps fs :: vs => writtenOwn f (.obj ps fs) ms fs ++ writtenParents dps ps ++ writtenParents ds vs
  | _, _ => []

/-- All members of an object that are written: its own, then those of its base classes. -/
def written : StructDef → Val → List Written
  | .mk dps ms f, .obj ps fs => writtenOwn f (.obj ps fs) ms fs ++ writtenParents dps ps
  | _, _ => []

/-- A member in the document: its name in quotes, a colon, the text of its value. -/
def memberText (key text : Bytes) : Bytes := b!"\"" ++ key ++ b!"\":" ++ text

/-- The marker under which the name of a class is written: what the user configured; otherwise what the class names as its type field; otherwise `__type`. -/
def typeKey (configured : Bytes) (ofClass : Option Bytes) : Bytes :=
  if configured = [] then ofClass.getD b!"__type" else configured

end Thors.Spec
