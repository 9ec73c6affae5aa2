import Verif.Spec.Layers
import Verif.Proofs.ImpOrder
import Verif.Proofs.Touch
/-
Documents read one after the other into one object.
-/
namespace Thors
open StrIn Thors.Spec

variable {K X : Type} {sem : ScalarSem K X} {env : Env} {cfg : Cfg}

theorem imp_members_append (a b : List (K × Tr K X)) : imp.members sem env cfg (a ++ b) = imp.members sem env cfg a ++ imp.members sem env cfg b := by
  induction a with
  | nil => rfl
  | cons m a ih => obtain ⟨k, t⟩ := m; simp only [List.cons_append, imp.members, ih]

theorem imp_elems_append (a b : List (Tr K X)) : imp.elems sem env cfg (a ++ b) = imp.elems sem env cfg a ++ imp.elems sem env cfg b := by
  induction a with
  | nil => rfl
  | cons m a ih => simp only [List.cons_append, imp.elems, ih]

theorem bind_assoc' {α β γ : Type} (r : Res α) (f : α → Res β) (g : β → Res γ) : (r >>= f) >>= g = r >>= fun a => f a >>= g := by
  cases r <;> rfl

/-- Without the test of Exact mode it does not matter which members have been seen. -/
theorem found_any (hs : cfg.strict ≠ .Exact) (d : StructDef) : ∀ (ms : List (Mem K X)) (f f' : List Bytes) (old : Val),
    impMembers sem cfg d ms f old = impMembers sem cfg d ms f' old
  | [], f, f', old => by simp [impMembers, hs]
  | m :: ms, f, f', old => by
    simp only [impMembers]
    split
    · rw [found_any hs d ms f f']
    · split
      · rfl
      · congr 1
        funext v
        exact found_any hs d ms _ _ _

theorem impMembers_append (hs : cfg.strict ≠ .Exact) (d : StructDef) (b : List (Mem K X)) : ∀ (a : List (Mem K X)) (f : List Bytes) (old : Val),
    impMembers sem cfg d (a ++ b) f old = impMembers sem cfg d a f old >>= fun v => impMembers sem cfg d b [] v
  | [], f, old => by
    rw [List.nil_append, impMembers, if_neg (fun h => hs h.1)]
    exact found_any hs d b f [] old
  | m :: a, f, old => by
    simp only [List.cons_append, impMembers]
    split
    · split
      · rfl
      · split
        · rfl
        · exact impMembers_append hs d b a f old
    · split
      · rfl
      · rw [bind_assoc']
        congr 1
        funext v
        exact impMembers_append hs d b a _ _

/-- What the import of an associative container returns is one. -/
theorem impDict_append (kind : DictKind) (t : Ty) (b : List (Mem K X)) : ∀ (a : List (Mem K X)) (kvs : List (Bytes × Val)),
    impDict sem env kind t (a ++ b) kvs = impDict sem env kind t a kvs >>= fun v => match v with
      | .dict kvs => impDict sem env kind t b kvs
      | _ => .ub
  | [], kvs => rfl
  | m :: a, kvs => by
    simp only [List.cons_append, impDict]
    cases kind
    all_goals
      dsimp only
      rw [bind_assoc']
      congr 1
      funext v
      exact impDict_append _ t b a _

theorem impVec_append (c : SeqKind) (t : Ty) (b : List Imp) : ∀ (a : List Imp) (vs : List Val),
    impVec env c t (a ++ b) vs = impVec env c t a vs >>= fun v => match v with
      | .list vs => impVec env c t b vs
      | _ => .ub
  | [], vs => rfl
  | m :: a, vs => by
    simp only [List.cons_append, impVec]
    rw [bind_assoc']
    congr 1
    funext v
    exact impVec_append c t b a _

theorem impObj_append (hs : cfg.strict ≠ .Exact) (a b : List (Mem K X)) : ∀ ty, Accumulates env ty → ∀ old,
    impObj sem env cfg (a ++ b) ty old = impObj sem env cfg a ty old >>= impObj sem env cfg b ty := by
  intro ty
  induction ty with
  | seq c t _ => intro _ old; simp [impObj]
  | smap t _ =>
    intro _ old
    cases old with
    | dict kvs =>
      simp only [impObj]
      rw [impDict_append]
      congr 1
      funext v
      cases v <;> rfl
    | _ => simp [impObj]
  | mmap t _ =>
    intro _ old
    cases old with
    | dict kvs =>
      simp only [impObj]
      rw [impDict_append]
      congr 1
      funext v
      cases v <;> rfl
    | _ => simp [impObj]
  | umap t _ =>
    intro _ old
    cases old with
    | dict kvs =>
      simp only [impObj]
      rw [impDict_append]
      congr 1
      funext v
      cases v <;> rfl
    | _ => simp [impObj]
  | opt t ih =>
    intro h old
    simp only [impObj]
    rw [ih h, bind_assoc', bind_assoc']
    rfl
  | named i =>
    intro h old
    unfold Accumulates at h
    cases hd : env.defs i with
    | cls d =>
      simp only [impObj, hd]
      exact impMembers_append hs _ b a [] old
    | _ => rw [hd] at h; cases h
  | _ => intro h; cases h

theorem impArr_append (a b : List Imp) : ∀ ty, Accumulates env ty → ∀ old, impArr env (a ++ b) ty old = impArr env a ty old >>= impArr env b ty := by
  intro ty
  induction ty with
  | seq c t _ =>
    intro _ old
    cases old with
    | list vs =>
      simp only [impArr]
      rw [impVec_append]
      congr 1
      funext v
      cases v <;> rfl
    | _ => simp [impArr]
  | smap t _ => intro _ old; simp [impArr]
  | mmap t _ => intro _ old; simp [impArr]
  | umap t _ => intro _ old; simp [impArr]
  | opt t ih =>
    intro h old
    simp only [impArr]
    rw [ih h, bind_assoc', bind_assoc']
    rfl
  | named i =>
    intro h old
    unfold Accumulates at h
    cases hd : env.defs i with
    | cls d => simp only [impArr, hd]; rfl
    | _ => rw [hd] at h; cases h
  | _ => intro h; cases h

/-- Reading two documents one after the other is reading the document with the members of both. -/
theorem imp_joined (hs : cfg.strict ≠ .Exact) {a b c : Tr K X} (h : joined a b = some c) (ty : Ty) (ha : Accumulates env ty) (old : Val) :
    imp sem env cfg c ty old = imp sem env cfg a ty old >>= imp sem env cfg b ty := by
  cases a with
  | scalar x => cases b <;> cases h
  | arr ts =>
    cases b with
    | arr ts' =>
      cases h
      simp only [imp, imp_elems_append]
      exact impArr_append _ _ ty ha old
    | _ => cases h
  | obj ms =>
    cases b with
    | obj ms' =>
      cases h
      simp only [imp, imp_members_append]
      exact impObj_append hs _ _ ty ha old
    | _ => cases h

theorem joined_skippable {a b c : Tr K X} (h : joined a b = some c) (hc : c.skippable sem = true) : a.skippable sem = true ∧ b.skippable sem = true := by
  have hA : ∀ (ts ts' : List (Tr K X)), Tr.skippable.all sem (ts ++ ts') = true → Tr.skippable.all sem ts = true ∧ Tr.skippable.all sem ts' = true := by
    intro ts ts'
    induction ts with
    | nil => exact fun h => ⟨rfl, h⟩
    | cons t ts ih =>
      intro h
      simp only [List.cons_append, Tr.skippable.all, Bool.and_eq_true] at h ⊢
      exact ⟨⟨h.1, (ih h.2).1⟩, (ih h.2).2⟩
  have hM : ∀ (ts ts' : List (K × Tr K X)), Tr.skippable.allM sem (ts ++ ts') = true → Tr.skippable.allM sem ts = true ∧ Tr.skippable.allM sem ts' = true := by
    intro ts ts'
    induction ts with
    | nil => exact fun h => ⟨rfl, h⟩
    | cons t ts ih =>
      obtain ⟨k, t⟩ := t
      intro h
      simp only [List.cons_append, Tr.skippable.allM, Bool.and_eq_true] at h ⊢
      exact ⟨⟨h.1, (ih h.2).1⟩, (ih h.2).2⟩
  cases a with
  | scalar x => cases b <;> cases h
  | arr ts =>
    cases b with
    | arr ts' =>
      cases h
      simp only [Tr.skippable] at hc ⊢
      exact hA _ _ hc
    | _ => cases h
  | obj ms =>
    cases b with
    | obj ms' =>
      cases h
      simp only [Tr.skippable] at hc ⊢
      exact hM _ _ hc
    | _ => cases h

end Thors
