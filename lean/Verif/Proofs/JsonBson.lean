import Verif.Proofs.BsonNum
import Verif.Proofs.BsonExport
import Verif.Proofs.FloatCast
import Verif.Proofs.ImpMono
import Verif.Spec.SameDoc
/-
A JSON document and the BSON document with the same content.
-/
namespace Thors
open Spec StrIn

/-- The scalars are the same, and fractions occur only if `D`. -/
def JBScalar (conv : Bool) (D : Prop) (x : JScalar) (y : BScalar) : Prop := SameScalar conv x y ∧ ((∃ t d, x = .frac t d) → D)

theorem int_toFlt {f : FKind} {t : Bytes} {i : Int} {v : Flt} (hs : t.head? = some 0x2D ↔ i < 0)
    (h : Decimal.toFlt f ⟨t.head? = some 0x2D, i.natAbs, 0⟩ = some v) : intFlt f i = v := by
  obtain ⟨rfl, -, -⟩ := toFlt_some h
  have hr : Decimal.round f ⟨t.head? = some 0x2D, i.natAbs, 0⟩ = nearest f (i.natAbs * 2 ^ f.q) 1 := by
    show nearest f (i.natAbs * 10 ^ (0 : Int).toNat * 2 ^ f.q) (10 ^ (-(0 : Int)).toNat) = _
    rw [show (10 : Nat) ^ (0 : Int).toNat = 1 from rfl, Nat.mul_one]
    rfl
  rw [hr]
  show Flt.fin (decide (i < 0)) (nearest f (i.natAbs * 2 ^ f.q) 1).1 (nearest f (i.natAbs * 2 ^ f.q) 1).2 =
    Flt.fin (decide (t.head? = some 0x2D)) (nearest f (i.natAbs * 2 ^ f.q) 1).1 (nearest f (i.natAbs * 2 ^ f.q) 1).2
  rw [decide_eq_decide.2 hs]

/-- A fraction read as a double, from both. -/
theorem frac_same {d : Decimal} {p : Bytes} {f : FKind} (hf : f = f64) (h : d.toFlt f = some (payloadDouble p)) : castFlt f64 f (payloadDouble p) = payloadDouble p := by
  have hp : 0 < f.prec := by rw [hf]; decide
  have := cast_same hp (toFlt_value hp h)
  rw [← hf]
  exact this

theorem json_readsLike_bson (conv : Bool) (F : FKind → Prop) (D : Prop) (hF : D → ∀ f, F f → f = f64) :
    ReadsLike usual F (jsem conv) bsem (fun k l => l = k.val conv) (JBScalar conv D) where
  key k l h := by rw [h]; rfl
  keySkips _ _ _ _ := rfl
  null x y h := by
    obtain ⟨h, -⟩ := h
    cases x <;> cases y <;> first | exact h.elim | rfl
  int x y k i hk h e := by
    obtain ⟨h, -⟩ := h
    cases x with
    | int t j =>
      simp only [jsem] at e
      split at e
      · cases e
      · split at e
        · rename_i hf
          cases e
          cases y with
          | int32 v => obtain ⟨rfl, -⟩ := h; simp [bsem, castTo_fits hk.1 (fits_iff.2 hf)]
          | int64 v => obtain ⟨rfl, -⟩ := h; simp [bsem, castTo_fits hk.1 (fits_iff.2 hf)]
          | _ => exact h.elim
        · cases e
    | _ => cases e
  flt x y f v hf h e := by
    obtain ⟨h, hd⟩ := h
    cases x with
    | int t j =>
      simp only [jsem, JScalar.number] at e
      split at e
      · rename_i w hw
        cases e
        cases y with
        | int32 v => obtain ⟨rfl, hs⟩ := h; simp [bsem, int_toFlt hs hw]
        | int64 v => obtain ⟨rfl, hs⟩ := h; simp [bsem, int_toFlt hs hw]
        | _ => exact h.elim
      · cases e
    | frac t d =>
      have hf := hF (hd ⟨t, d, rfl⟩) f hf
      cases y with
      | fixed g p =>
        cases g with
        | double =>
          have h : d.toFlt f64 = some (payloadDouble p) := h
          rw [← hf] at h
          have hc := frac_same hf h
          simp only [jsem, JScalar.number, h] at e
          have e : payloadDouble p = v := by injection e
          show Res.ok (castFlt f64 f (payloadDouble p)) = _
          rw [hc, e]
        | _ => exact h.elim
      | _ => exact h.elim
    | _ => cases e
  bool x y b h e := by
    obtain ⟨h, -⟩ := h
    cases x with
    | bool c =>
      cases y with
      | bool d => cases h; exact e
      | _ => exact h.elim
    | _ => cases e
  str x y s h e := by
    obtain ⟨h, -⟩ := h
    cases x with
    | str c =>
      cases y with
      | str d => cases h; exact e
      | _ => exact h.elim
    | _ => cases e
  skips _ y _ _ := by cases y <;> rfl

mutual
theorem json_bson_shape (conv : Bool) (D : Prop) : ∀ (v : JTree) (u : BTree), SameDoc conv v u → (D ∨ WholeNumbers v) →
    SameShape (fun (k : JStr) (l : Bytes) => l = k.val conv) (JBScalar conv D) v u
  | .scalar x, .scalar y, h, hd => ⟨h, fun ⟨t, d, e⟩ => hd.elim id fun hw => by subst e; exact hw.elim⟩
  | .arr ts, .arr us, h, hd => json_bson_elems conv D ts us h hd
  | .obj ms, .obj ns, h, hd => json_bson_members conv D ms ns h hd
  | .scalar _, .arr _, h, _ => h.elim
  | .scalar _, .obj _, h, _ => h.elim
  | .arr _, .scalar _, h, _ => h.elim
  | .arr _, .obj _, h, _ => h.elim
  | .obj _, .scalar _, h, _ => h.elim
  | .obj _, .arr _, h, _ => h.elim
theorem json_bson_elems (conv : Bool) (D : Prop) : ∀ (ts : List JTree) (us : List BTree), SameDoc.elems conv ts us → (D ∨ WholeNumbers.elems ts) →
    SameShape.elems (fun (k : JStr) (l : Bytes) => l = k.val conv) (JBScalar conv D) ts us
  | [], [], _, _ => trivial
  | t :: ts, u :: us, h, hd => ⟨json_bson_shape conv D t u h.1 (hd.imp id (·.1)), json_bson_elems conv D ts us h.2 (hd.imp id (·.2))⟩
  | [], _ :: _, h, _ => h.elim
  | _ :: _, [], h, _ => h.elim
theorem json_bson_members (conv : Bool) (D : Prop) : ∀ (ts : List (JStr × JTree)) (us : List (Bytes × BTree)), SameDoc.members conv ts us → (D ∨ WholeNumbers.members ts) →
    SameShape.members (fun (k : JStr) (l : Bytes) => l = k.val conv) (JBScalar conv D) ts us
  | [], [], _, _ => trivial
  | (k, t) :: ts, (l, u) :: us, h, hd => ⟨h.1, json_bson_shape conv D t u h.2.1 (hd.imp id (·.1)), json_bson_members conv D ts us h.2.2 (hd.imp id (·.2))⟩
  | [], _ :: _, h, _ => h.elim
  | _ :: _, [], h, _ => h.elim
end

/-- What the JSON document gives, the BSON document gives. -/
theorem json_bson_imp (env : Env) (cfg : Cfg) (conv : Bool) (F : FKind → Prop) (D : Prop) (hF : D → ∀ f, F f → f = f64) {v : JTree} {u : BTree}
    (hu : SameDoc conv v u) (hd : D ∨ WholeNumbers v) (he : env.ints usual F) {ty : Ty} (ht : ty.ints usual F) {old x : Val}
    (h : imp (jsem conv) env cfg v ty old = .ok x) : imp bsem env cfg u ty old = .ok x :=
  imp_mono env cfg he (json_readsLike_bson conv F D hF) v u (json_bson_shape conv D v u hu hd) ty old ht x h

end Thors
