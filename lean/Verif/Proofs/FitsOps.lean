import Verif.Proofs.Fits
import Verif.Proofs.TypedOps
import Verif.Proofs.BsonStreamDoc
import Verif.Proofs.YamlPresents
import Verif.Proofs.StreamImport
/-
The scalars of the formats: what reading them gives.
-/
namespace Thors
open Thors.Spec StrIn

mutual
theorem allScalars_imp {K X : Type} {P Q : X → Prop} (h : ∀ x, P x → Q x) : ∀ t : Tr K X, AllScalars P t → AllScalars Q t
  | .scalar x, ht => by simp only [AllScalars] at ht ⊢; exact h x ht
  | .arr ts, ht => by simp only [AllScalars] at ht ⊢; exact allScalars_imp_elems h ts ht
  | .obj ms, ht => by simp only [AllScalars] at ht ⊢; exact allScalars_imp_members h ms ht
theorem allScalars_imp_elems {K X : Type} {P Q : X → Prop} (h : ∀ x, P x → Q x) : ∀ ts : List (Tr K X), AllScalars.elems P ts → AllScalars.elems Q ts
  | [], _ => trivial
  | t :: ts, ht => ⟨allScalars_imp h t ht.1, allScalars_imp_elems h ts ht.2⟩
theorem allScalars_imp_members {K X : Type} {P Q : X → Prop} (h : ∀ x, P x → Q x) : ∀ ms : List (K × Tr K X), AllScalars.members P ms → AllScalars.members Q ms
  | [], _ => trivial
  | (k, t) :: ms, ht => ⟨allScalars_imp h t ht.1, allScalars_imp_members h ms ht.2⟩
end

mutual
theorem allScalars_all {K X : Type} {P : X → Prop} (h : ∀ x, P x) : ∀ t : Tr K X, AllScalars P t
  | .scalar x => by simp only [AllScalars]; exact h x
  | .arr ts => by simp only [AllScalars]; exact allScalars_all_elems h ts
  | .obj ms => by simp only [AllScalars]; exact allScalars_all_members h ms
theorem allScalars_all_elems {K X : Type} {P : X → Prop} (h : ∀ x, P x) : ∀ ts : List (Tr K X), AllScalars.elems P ts
  | [] => trivial
  | t :: ts => ⟨allScalars_all h t, allScalars_all_elems h ts⟩
theorem allScalars_all_members {K X : Type} {P : X → Prop} (h : ∀ x, P x) : ∀ ms : List (K × Tr K X), AllScalars.members P ms
  | [] => trivial
  | (k, t) :: ms => ⟨allScalars_all h t, allScalars_all_members h ms⟩
end

theorem bson_good (ok : Ty → BScalar → Prop) (x : BScalar) (hx : x.valid) : Good bsem ok x where
  int k _ := by
    cases x <;> first | exact trivial | exact fun hk => castTo_range hk _
  flt f _ := by
    cases x with
    | int32 v => exact fun hf => intFlt_value hf (by simp only [BScalar.valid] at hx; omega)
    | int64 v => exact fun hf => intFlt_value hf (by simp only [BScalar.valid] at hx; omega)
    | fixed g p => cases g <;> first | exact trivial | exact fun hf => castFlt_value (f := f64) (std_prec hf) _
    | _ => exact trivial
  bool := by cases x <;> simp [bsem, throwStd]
  str := by cases x <;> simp [bsem, throwStd]

theorem yaml_good (ok : Ty → Bytes → Prop) (x : Bytes) : Good ysem ok x where
  int k _ := by
    show Safe _ (YamlP.scanText k x)
    unfold YamlP.scanText
    split
    · split
      · exact fun hk => castTo_range hk _
      · exact trivial
    · split
      · exact trivial
      · exact fun hk => castTo_range hk _
  flt f _ := by
    show Safe _ (YamlP.scanTextFlt f x)
    unfold YamlP.scanTextFlt
    dsimp only
    generalize (if decide ((x.dropWhile YamlP.isSpaceC).head? = some 0x2D) = true ∨ (x.dropWhile YamlP.isSpaceC).head? = some 0x2B then (x.dropWhile YamlP.isSpaceC).drop 1 else x.dropWhile YamlP.isSpaceC : Bytes) = v
    split
    · next e =>
      split
      · exact trivial
      · exact fun hf => scanUnsigned_value (std_prec hf) e
    · split
      · exact fun hf => zero_value f _
      · exact trivial
  bool := by
    show (if _ then _ else _) ≠ _
    split
    · simp
    · split <;> simp [throwStd]
  str := by simp [ysem]

theorem json_good (conv : Bool) (x : JScalar) : Good (jsem conv) NumberFits x where
  int k h := by
    cases x with
    | int t i =>
      simp only [jsem]
      split
      · exact trivial
      · rw [if_pos (h t i rfl)]
        exact fun _ => h t i rfl
    | _ => exact trivial
  flt f h := by
    simp only [jsem]
    split
    · next d hd =>
      split
      · next v hv => exact fun hf => toFlt_value (std_prec hf) hv
      · next hn => exact absurd hn (h d hd)
    · exact trivial
  bool := by cases x <;> simp [jsem, throwStd]
  str := by cases x <;> simp [jsem, throwStd]

theorem asSigned_range {bits : Nat} (hb : 0 < bits) (i : Int) : -(2 ^ (bits - 1)) ≤ asSigned bits i ∧ asSigned bits i < 2 ^ (bits - 1) := wrapSigned_range hb i

theorem streamInt_range {k : IntKind} (hk : 0 < k.bits) (t : Bytes) (i : Int) : InRange k (streamInt k t i) := by
  unfold InRange streamInt
  cases k.signed with
  | true =>
    simp only [if_true]
    exact asSigned_range hk _
  | false =>
    simp only [Bool.false_eq_true, if_false]
    have h2 : (0 : Int) < 2 ^ k.bits := Int.pow_pos (by omega)
    have h3 : ((2 ^ k.bits : Nat) : Int) = 2 ^ k.bits := by simp
    split
    · omega
    · split
      · exact ⟨Int.emod_nonneg _ (by omega), Int.emod_lt_of_pos _ h2⟩
      · exact ⟨by omega, by omega⟩

theorem stream_good (conv : Bool) (ok : Ty → JScalar → Prop) (x : JScalar) : Good (jssem conv) ok x where
  int k h := by
    cases x with
    | int t i => exact fun hk => streamInt_range hk t i
    | _ => exact trivial
  flt f h := by
    simp only [jssem]
    split
    · next d hd =>
      intro hf
      have hp := std_prec hf
      unfold streamFlt
      split
      · exact maxFlt_value hp _
      · exact ⟨nearest_canon f hp (den_pos d), by omega⟩
    · exact trivial
  bool := by cases x <;> simp [jssem, throwStd]
  str := by cases x <;> simp [jssem, throwStd]

theorem safe_cases {α : Type} {P : α → Prop} {r : Res α} (h : Safe P r) : (∃ v, r = .ok v ∧ P v) ∨ ∃ e, r = .throw e := by
  cases r with
  | ok v => exact .inl ⟨v, rfl, h⟩
  | throw e => exact .inr ⟨e, rfl⟩
  | ub => exact h.elim

end Thors
