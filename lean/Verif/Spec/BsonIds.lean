import Verif.Spec.BsonDoc
import Verif.Model.Mongo
/-
Specification: the documents of an insert command with their `_id` members; the document of a projection.
-/
namespace Thors.Spec
open Thors StrIn

/-- The twelve bytes of an ObjectID: time, random number and counter, most significant byte first. -/
def objectIdBytes (o : ObjectID) : Bytes := be 4 o.timestamp ++ be 5 o.random ++ be 3 o.counter

/-- The member `_id`. -/
def idMember (o : ObjectID) : Bytes × BTree := (b!"_id", .scalar (.fixed .objectId (objectIdBytes o)))

/-- The number of documents among the elements of an array. -/
def countDocs : List BTree → Nat
  | [] => 0
  | .obj _ :: ts => countDocs ts + 1
  | _ :: ts => countDocs ts

/-- Each document in an array gets an `_id` in front of its members: the `n`-th identifier, the next one and so on. -/
def idElems (fresh : Nat → ObjectID) : Nat → List BTree → List BTree
  | _, [] => []
  | n, .obj ms :: ts => .obj (idMember (fresh n) :: ms) :: idElems fresh (n + 1) ts
  | n, t :: ts => t :: idElems fresh n ts

/-- The same for each member that is an array. -/
def idMembers (fresh : Nat → ObjectID) : Nat → List (Bytes × BTree) → List (Bytes × BTree)
  | _, [] => []
  | n, (k, .arr ts) :: ms => (k, .arr (idElems fresh n ts)) :: idMembers fresh (n + countDocs ts) ms
  | n, (k, t) :: ms => (k, t) :: idMembers fresh n ms

/-- The documents in the arrays that are members of a document. -/
def countMembers : List (Bytes × BTree) → Nat
  | [] => 0
  | (_, .arr ts) :: ms => countDocs ts + countMembers ms
  | _ :: ms => countMembers ms

/-- A command like `{"insert": "collection", "documents": [{...}, {...}]}` with the identifiers. -/
def withIds (fresh : Nat → ObjectID) : BTree → BTree
  | .obj ms => .obj (idMembers fresh 0 ms)
  | t => t

/-- The number of identifiers. -/
def idsNeeded : BTree → Nat
  | .obj ms => countMembers ms
  | _ => 0

/-- The document of a projection: the same shape, with the number 1 for each value. -/
def ones : Doc → BTree
  | .scalar _ => .scalar (.int32 1)
  | .arr ts => .arr (elems ts)
  | .obj ms => .obj (members ms)
where
  elems : List Doc → List BTree
  | [] => []
  | t :: ts => ones t :: elems ts
  members : List (Bytes × Doc) → List (Bytes × BTree)
  | [] => []
  | (k, t) :: ms => (k, ones t) :: members ms

end Thors.Spec
