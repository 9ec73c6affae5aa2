import Verif.Proofs.BsonExport
import Verif.Spec.Positions
/-
A BSON document without its unknown members is still a BSON document.
-/
namespace Thors
open Spec StrIn

section
variable (sem : ScalarSem Bytes BScalar) (env : Env)

theorem prune_type (t : BTree) (ty : Ty) : btype (prune sem env t ty) = btype t ∧ BsonP.rootKind (prune sem env t ty) = BsonP.rootKind t := by
  cases t <;> simp [prune, btype, BsonP.rootKind]

mutual
theorem prune_keys {P : Bytes → Prop} : ∀ (t : BTree) (ty : Ty), AllKeys P t → AllKeys P (prune sem env t ty)
  | .scalar x, ty, h => trivial
  | .arr ts, ty, h => by rw [prune]; exact prune_keys_elems ts ty 0 h
  | .obj ms, ty, h => by rw [prune]; exact prune_keys_members ms ty h
theorem prune_keys_elems {P : Bytes → Prop} : ∀ (ts : List BTree) (ty : Ty) (i : Nat), AllKeys.elems P ts → AllKeys.elems P (prune.elems sem env ts ty i)
  | [], ty, i, h => trivial
  | t :: ts, ty, i, h => by
    rw [prune.elems]
    refine ⟨?_, prune_keys_elems ts ty (i + 1) h.2⟩
    cases elemTy env ty i with
    | none => exact h.1
    | some e => exact prune_keys t e h.1
theorem prune_keys_members {P : Bytes → Prop} : ∀ (ms : List (Bytes × BTree)) (ty : Ty), AllKeys.members P ms → AllKeys.members P (prune.members sem env ms ty)
  | [], ty, h => trivial
  | (k, t) :: ms, ty, h => by
    have h2 := prune_keys_members ms ty h.2.2
    rw [prune.members]
    cases memberTy sem env ty k with
    | none => exact ⟨h.1, h.2.1, h2⟩
    | some o => cases o with
      | none => exact h2
      | some e => exact ⟨h.1, prune_keys t e h.2.1, h2⟩
end

mutual
theorem prune_scalars {P : BScalar → Prop} : ∀ (t : BTree) (ty : Ty), AllScalars P t → AllScalars P (prune sem env t ty)
  | .scalar x, ty, h => h
  | .arr ts, ty, h => by rw [prune]; exact prune_scalars_elems ts ty 0 h
  | .obj ms, ty, h => by rw [prune]; exact prune_scalars_members ms ty h
theorem prune_scalars_elems {P : BScalar → Prop} : ∀ (ts : List BTree) (ty : Ty) (i : Nat), AllScalars.elems P ts → AllScalars.elems P (prune.elems sem env ts ty i)
  | [], ty, i, h => trivial
  | t :: ts, ty, i, h => by
    rw [prune.elems]
    refine ⟨?_, prune_scalars_elems ts ty (i + 1) h.2⟩
    cases elemTy env ty i with
    | none => exact h.1
    | some e => exact prune_scalars t e h.1
theorem prune_scalars_members {P : BScalar → Prop} : ∀ (ms : List (Bytes × BTree)) (ty : Ty), AllScalars.members P ms → AllScalars.members P (prune.members sem env ms ty)
  | [], ty, h => trivial
  | (k, t) :: ms, ty, h => by
    have h2 := prune_scalars_members ms ty h.2
    rw [prune.members]
    cases memberTy sem env ty k with
    | none => exact ⟨h.1, h2⟩
    | some o => cases o with
      | none => exact h2
      | some e => exact ⟨prune_scalars t e h.1, h2⟩
end

theorem framed_length (b : Bytes) : (framed b).length = 4 + b.length + 1 := by simp [framed, le]; omega

mutual
theorem prune_payload : ∀ (t : BTree) (ty : Ty), (bpayload (prune sem env t ty)).length ≤ (bpayload t).length
  | .scalar x, ty => by rw [prune]; exact Nat.le_refl _
  | .arr ts, ty => by
    have := prune_payload_elems ts ty 0 0
    simp only [prune, bpayload, framed_length]
    omega
  | .obj ms, ty => by
    have := prune_payload_members ms ty
    simp only [prune, bpayload, framed_length]
    omega
theorem prune_payload_elems : ∀ (ts : List BTree) (ty : Ty) (i j : Nat), (bpayload.elems j (prune.elems sem env ts ty i)).length ≤ (bpayload.elems j ts).length
  | [], ty, i, j => by rw [prune.elems]; exact Nat.le_refl _
  | t :: ts, ty, i, j => by
    have h2 := prune_payload_elems ts ty (i + 1) (j + 1)
    rw [prune.elems]
    simp only [bpayload.elems, List.length_append, List.length_cons]
    cases elemTy env ty i with
    | none => simp only; omega
    | some e => have := prune_payload t e; simp only; omega
theorem prune_payload_members : ∀ (ms : List (Bytes × BTree)) (ty : Ty), (bpayload.members (prune.members sem env ms ty)).length ≤ (bpayload.members ms).length
  | [], ty => by rw [prune.members]; exact Nat.le_refl _
  | (k, t) :: ms, ty => by
    have h2 := prune_payload_members ms ty
    rw [prune.members]
    cases memberTy sem env ty k with
    | none => simp only [bpayload.members, List.length_append, List.length_cons]; omega
    | some o => cases o with
      | none => simp only [bpayload.members, List.length_append, List.length_cons]; omega
      | some e =>
        have := prune_payload t e
        simp only [bpayload.members, List.length_append, List.length_cons]
        omega
end

theorem prune_storable {t : BTree} (ty : Ty) (h : Storable32 t) : Storable32 (prune sem env t ty) := by
  refine ⟨prune_keys sem env t ty h.keys, prune_scalars sem env t ty h.scalars, Nat.lt_of_le_of_lt ?_ h.length⟩
  have := prune_payload sem env t ty
  cases t with
  | scalar x => rw [prune]; exact Nat.le_refl _
  | arr ts => simpa only [prune, bdoc] using this
  | obj ms => simpa only [prune, bdoc] using this

end

/-- The first byte of every document is that of its length. -/
theorem bdoc_framed (t : BTree) : ∃ b, bdoc t = framed b := by
  cases t with
  | scalar x => exact ⟨_, rfl⟩
  | arr ts => exact ⟨bpayload.elems 0 ts, by simp only [bdoc, bpayload]⟩
  | obj ms => exact ⟨bpayload.members ms, by simp only [bdoc, bpayload]⟩

end Thors
