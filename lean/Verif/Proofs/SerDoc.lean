import Verif.Model.Ser
import Verif.Spec.Doc
/-
The serialiser makes the calls of the document that represents the value.
-/
namespace Thors
open Spec StrIn

/-- The calls for a scalar. -/
def atomCmd : Atom → Cmd
  | .null => .addNull
  | .bool b => .addBool b
  | .int k i => .addInt k i
  | .flt f x => .addFlt f x
  | .str s => .addStr s

/-- The calls for a document, without sizes. -/
def cmdsOf : Doc → List Cmd
  | .scalar a => [atomCmd a]
  | .arr ts => .openArray 0 :: elems ts ++ [.closeArray]
  | .obj ms => .openMap 0 :: members ms ++ [.closeMap]
where
  elems : List Doc → List Cmd
  | [] => []
  | t :: ts => cmdsOf t ++ elems ts
  members : List (Bytes × Doc) → List Cmd
  | [] => []
  | (k, t) :: ms => .addKey k :: cmdsOf t ++ members ms

theorem cmdsOf.members_append (a b : List (Bytes × Doc)) : cmdsOf.members (a ++ b) = cmdsOf.members a ++ cmdsOf.members b := by
  induction a with
  | nil => rfl
  | cons m a ih => obtain ⟨k, t⟩ := m; simp [cmdsOf.members, ih]

theorem cmdsOf.elems_append (a b : List Doc) : cmdsOf.elems (a ++ b) = cmdsOf.elems a ++ cmdsOf.elems b := by
  induction a with
  | nil => rfl
  | cons m a ih => simp [cmdsOf.elems, ih]

def Res.map' {α β : Type} (f : α → β) (r : Res α) : Res β := r >>= fun a => .ok (f a)

@[simp] theorem Res.map'_ok {α β : Type} (f : α → β) (a : α) : Res.map' f (.ok a) = .ok (f a) := rfl
@[simp] theorem Res.map'_throw {α β : Type} (f : α → β) (e : Exc) : Res.map' f (.throw e) = .throw e := rfl
@[simp] theorem Res.map'_ub {α β : Type} (f : α → β) : Res.map' f (.ub : Res α) = .ub := rfl

theorem keep_iff (f : Option (Val → Bytes → Bool)) (self : Val) (m : Member) (v : Val) : keepMember f self m v = true ↔ shown f self m v := by
  obtain ⟨n, o, ty⟩ := m
  cases f with
  | some f => exact Iff.rfl
  | none => cases ty <;> cases v <;> simp [keepMember, shown]

theorem inArray_ok {b : Res (List Cmd)} : inArray (.ok 0) b = Res.map' (fun c => .openArray 0 :: c ++ [.closeArray]) b := by
  cases b <;> rfl
theorem inMap_ok {b : Res (List Cmd)} : inMap (.ok 0) b = Res.map' (fun c => .openMap 0 :: c ++ [.closeMap]) b := by
  cases b <;> rfl

section
variable (env : Env) (mk : Bytes)

mutual
theorem ser_doc : ∀ (ty : Ty) (v : Val), ser env mk noSize ty v = Res.map' cmdsOf (docOf env mk ty v)
  | ty, .int i => by cases ty <;> simp [ser, docOf, cmdsOf, atomCmd]
  | ty, .flt x => by cases ty <;> simp [ser, docOf, cmdsOf, atomCmd]
  | ty, .bool b => by cases ty <;> simp [ser, docOf, cmdsOf, atomCmd]
  | ty, .str s => by cases ty <;> simp [ser, docOf, cmdsOf, atomCmd]
  | ty, .none => by cases ty <;> simp [ser, docOf]
  | ty, .null => by cases ty <;> simp [ser, docOf, cmdsOf, atomCmd]
  | ty, .some v => by
    cases ty <;> simp [ser, docOf]
    exact ser_doc _ v
  | ty, .ptr v => by
    cases ty <;> simp [ser, docOf]
    exact ser_doc _ v
  | ty, .list vs => by
    cases ty with
    | seq k t => simp only [ser, docOf, noSize, inArray_ok, serList_doc t vs]; cases docList env mk t vs <;> simp [cmdsOf]
    | arr n t => simp only [ser, docOf, noSize, inArray_ok, serList_doc t vs]; cases docList env mk t vs <;> simp [cmdsOf]
    | named i =>
      simp only [ser, docOf]
      cases env.defs i with
      | tuple ts => simp only [noSize, inArray_ok, serTuple_doc ts vs]; cases docTuple env mk ts vs <;> simp [cmdsOf]
      | _ => rfl
    | _ => simp [ser, docOf]
  | ty, .dict kvs => by
    cases ty with
    | smap t => simp only [ser, docOf, noSize, inMap_ok, serDict_doc t kvs]; cases docDict env mk t kvs <;> simp [cmdsOf]
    | mmap t => simp only [ser, docOf, noSize, inMap_ok, serDict_doc t kvs]; cases docDict env mk t kvs <;> simp [cmdsOf]
    | umap t => simp only [ser, docOf, noSize, inMap_ok, serDict_doc t kvs]; cases docDict env mk t kvs <;> simp [cmdsOf]
    | _ => simp [ser, docOf]
  | ty, .enum e => by
    cases ty with
    | named i =>
      simp only [ser, docOf]
      cases env.defs i with
      | enum table => simp only [enumName]; cases table.lookup e <;> simp [cmdsOf, atomCmd]
      | _ => rfl
    | _ => simp [ser, docOf]
  | ty, .obj ps fs => by
    cases ty with
    | named i =>
      simp only [ser, docOf]
      cases env.defs i with
      | cls d =>
        obtain ⟨⟨dps, ms, f⟩, name, field⟩ := d
        simp only [noSize, inMap_ok, serOwn_doc f (.obj ps fs) ms fs, serParents_doc dps ps]
        cases docOwn env mk f (.obj ps fs) ms fs <;> cases docParents env mk dps ps <;>
          simp [cmdsOf, cmdsOf.members_append]
        cases field <;> simp [cmdsOf.members, cmdsOf, atomCmd]
      | _ => rfl
    | _ => simp [ser, docOf]
  | ty, .dyn c v => by
    cases ty with
    | pptr b =>
      cases v with
      | obj ps fs =>
        simp only [ser, docOf]
        cases env.defs c with
        | cls d =>
          obtain ⟨⟨dps, ms, f⟩, name, field⟩ := d
          simp only [noSize, inMap_ok, serOwn_doc f (.obj ps fs) ms fs, serParents_doc dps ps]
          cases docOwn env mk f (.obj ps fs) ms fs <;> cases docParents env mk dps ps <;>
            simp [cmdsOf, cmdsOf.members_append, cmdsOf.members, atomCmd]
        | _ => rfl
      | _ => simp [ser, docOf]
    | _ => simp [ser, docOf]
  | ty, .alt c v => by
    cases ty with
    | named i =>
      cases v with
      | obj ps fs =>
        simp only [ser, docOf]
        cases env.defs c with
        | cls d =>
          obtain ⟨⟨dps, ms, f⟩, name, field⟩ := d
          simp only [noSize, inMap_ok, serOwn_doc f (.obj ps fs) ms fs, serParents_doc dps ps]
          cases docOwn env mk f (.obj ps fs) ms fs <;> cases docParents env mk dps ps <;>
            simp [cmdsOf, cmdsOf.members_append, cmdsOf.members, atomCmd]
        | _ => rfl
      | _ => simp [ser, docOf]
    | _ => simp [ser, docOf]
theorem serList_doc : ∀ (t : Ty) (vs : List Val), serList env mk noSize t vs = Res.map' cmdsOf.elems (docList env mk t vs)
  | t, [] => rfl
  | t, v :: vs => by
    simp only [serList, docList, ser_doc t v, serList_doc t vs]
    cases docOf env mk t v <;> cases docList env mk t vs <;> simp [cmdsOf.elems]
theorem serTuple_doc : ∀ (ts : List Ty) (vs : List Val), serTuple env mk noSize ts vs = Res.map' cmdsOf.elems (docTuple env mk ts vs)
  | [], [] => rfl
  | [], _ :: _ => rfl
  | _ :: _, [] => rfl
  | t :: ts, v :: vs => by
    simp only [serTuple, docTuple, ser_doc t v, serTuple_doc ts vs]
    cases docOf env mk t v <;> cases docTuple env mk ts vs <;> simp [cmdsOf.elems]
theorem serDict_doc : ∀ (t : Ty) (kvs : List (Bytes × Val)), serDict env mk noSize t kvs = Res.map' cmdsOf.members (docDict env mk t kvs)
  | t, [] => rfl
  | t, (k, v) :: kvs => by
    simp only [serDict, docDict, ser_doc t v, serDict_doc t kvs]
    cases docOf env mk t v <;> cases docDict env mk t kvs <;> simp [cmdsOf.members]
theorem serOwn_doc (f : Option (Val → Bytes → Bool)) (self : Val) : ∀ (ms : List Member) (vs : List Val),
    serOwn env mk noSize f self ms vs = Res.map' cmdsOf.members (docOwn env mk f self ms vs)
  | [], [] => rfl
  | [], _ :: _ => rfl
  | _ :: _, [] => rfl
  | m :: ms, v :: vs => by
    simp only [serOwn, docOwn, ser_doc m.ty v, serOwn_doc f self ms vs]
    by_cases h : shown f self m v
    · rw [if_pos h, if_pos ((keep_iff f self m v).2 h)]
      cases docOf env mk m.ty v <;> cases docOwn env mk f self ms vs <;> simp [cmdsOf.members]
    · rw [if_neg h, if_neg (fun hk => h ((keep_iff f self m v).1 hk))]
theorem serParents_doc : ∀ (ds : List StructDef) (vs : List Val),
    serParents env mk noSize ds vs = Res.map' cmdsOf.members (docParents env mk ds vs)
  | [], [] => rfl
  | [], _ :: _ => rfl
  | .mk _ _ _ :: _, [] => rfl
  | .mk dps ms f :: ds, v :: vs => by
    cases v with
    | obj ps fs =>
      simp only [serParents, docParents, serOwn_doc f (.obj ps fs) ms fs, serParents_doc dps ps, serParents_doc ds vs]
      cases docOwn env mk f (.obj ps fs) ms fs <;> cases docParents env mk dps ps <;> cases docParents env mk ds vs <;>
        simp [cmdsOf.members_append]
    | _ => rfl
end
end
end Thors
