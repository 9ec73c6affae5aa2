import Verif.Proofs.Presents
import Verif.Spec.Ints
/-
Importing from two formats: where the scalars of one can be read like those of the other, so can the documents.
-/
namespace Thors
open Spec StrIn

section
variable {K1 X1 K2 X2 : Type}

/-- Documents of the same shape with related keys and scalars. -/
def SameShape (RK : K1 → K2 → Prop) (RX : X1 → X2 → Prop) : Tr K1 X1 → Tr K2 X2 → Prop
  | .scalar x, .scalar y => RX x y
  | .arr ts, .arr us => elems ts us
  | .obj ms, .obj ns => members ms ns
  | _, _ => False
where
  elems : List (Tr K1 X1) → List (Tr K2 X2) → Prop
  | [], [] => True
  | t :: ts, u :: us => SameShape RK RX t u ∧ elems ts us
  | _, _ => False
  members : List (K1 × Tr K1 X1) → List (K2 × Tr K2 X2) → Prop
  | [], [] => True
  | (k, t) :: ms, (l, u) :: ns => RK k l ∧ SameShape RK RX t u ∧ members ms ns
  | _, _ => False

/-- What is read from the first is read from the second. -/
structure ReadsLike (P : IntKind → Prop) (F : FKind → Prop) (sem1 : ScalarSem K1 X1) (sem2 : ScalarSem K2 X2) (RK : K1 → K2 → Prop) (RX : X1 → X2 → Prop) : Prop where
  key : ∀ k l, RK k l → sem1.key k = sem2.key l
  keySkips : ∀ k l, RK k l → sem1.keySkips k = true → sem2.keySkips l = true
  null : ∀ x y, RX x y → sem1.isNull x = sem2.isNull y
  int : ∀ x y k i, P k → RX x y → sem1.readInt k x = .ok i → sem2.readInt k y = .ok i
  flt : ∀ x y f v, F f → RX x y → sem1.readFlt f x = .ok v → sem2.readFlt f y = .ok v
  bool : ∀ x y b, RX x y → sem1.readBool x = .ok b → sem2.readBool y = .ok b
  str : ∀ x y s, RX x y → sem1.readStr x = .ok s → sem2.readStr y = .ok s
  skips : ∀ x y, RX x y → sem1.skips x = true → sem2.skips y = true

variable {P : IntKind → Prop} {F : FKind → Prop} {sem1 : ScalarSem K1 X1} {sem2 : ScalarSem K2 X2} {RK : K1 → K2 → Prop} {RX : X1 → X2 → Prop}

/-- `r` returns whatever `l` returns. -/
def Le {α : Type} (l r : Res α) : Prop := ∀ a, l = .ok a → r = .ok a

theorem Le.rfl' {α : Type} {l : Res α} : Le l l := fun _ h => h
theorem Le.bind {α β : Type} {l r : Res α} {f g : α → Res β} (h : Le l r) (h2 : ∀ a, Le (f a) (g a)) : Le (l >>= f) (r >>= g) := by
  intro b e
  obtain ⟨a, e1, e2⟩ := Res.bind_eq_ok.1 e
  rw [h a e1]
  exact h2 a b e2
theorem Le.throw {α : Type} {r : Res α} : Le throwStd r := by intro a e; cases e
theorem Le.ub {α : Type} {r : Res α} : Le .ub r := by intro a e; cases e

mutual
theorem skippable_mono (H : ReadsLike P F sem1 sem2 RK RX) : ∀ (t : Tr K1 X1) (u : Tr K2 X2), SameShape RK RX t u → t.skippable sem1 = true → u.skippable sem2 = true
  | .scalar x, .scalar y, h, hs => H.skips x y h hs
  | .arr ts, .arr us, h, hs => skippable_elems H ts us h hs
  | .obj ms, .obj ns, h, hs => skippable_members H ms ns h hs
  | .scalar _, .arr _, h, _ => h.elim
  | .scalar _, .obj _, h, _ => h.elim
  | .arr _, .scalar _, h, _ => h.elim
  | .arr _, .obj _, h, _ => h.elim
  | .obj _, .scalar _, h, _ => h.elim
  | .obj _, .arr _, h, _ => h.elim
theorem skippable_elems (H : ReadsLike P F sem1 sem2 RK RX) : ∀ (ts : List (Tr K1 X1)) (us : List (Tr K2 X2)), SameShape.elems RK RX ts us →
    Tr.skippable.all sem1 ts = true → Tr.skippable.all sem2 us = true
  | [], [], _, _ => rfl
  | t :: ts, u :: us, h, hs => by
    simp only [Tr.skippable.all, Bool.and_eq_true] at hs ⊢
    exact ⟨skippable_mono H t u h.1 hs.1, skippable_elems H ts us h.2 hs.2⟩
  | [], _ :: _, h, _ => h.elim
  | _ :: _, [], h, _ => h.elim
theorem skippable_members (H : ReadsLike P F sem1 sem2 RK RX) : ∀ (ts : List (K1 × Tr K1 X1)) (us : List (K2 × Tr K2 X2)), SameShape.members RK RX ts us →
    Tr.skippable.allM sem1 ts = true → Tr.skippable.allM sem2 us = true
  | [], [], _, _ => rfl
  | (k, t) :: ts, (l, u) :: us, h, hs => by
    simp only [Tr.skippable.allM, Bool.and_eq_true] at hs ⊢
    exact ⟨⟨H.keySkips k l h.1 hs.1.1, skippable_mono H t u h.2.1 hs.1.2⟩, skippable_members H ts us h.2.2 hs.2⟩
  | [], _ :: _, h, _ => h.elim
  | _ :: _, [], h, _ => h.elim
end

/-- Imports of elements, pairwise. -/
def LeImps (P : IntKind → Prop) (F : FKind → Prop) : List Imp → List Imp → Prop
  | [], [] => True
  | e :: es, f :: fs => (∀ ty old, ty.ints P F → Le (e ty old) (f ty old)) ∧ LeImps P F es fs
  | _, _ => False

/-- Members, pairwise. -/
def LeMems (P : IntKind → Prop) (F : FKind → Prop) (sem1 : ScalarSem K1 X1) (sem2 : ScalarSem K2 X2) (RK : K1 → K2 → Prop) (RX : X1 → X2 → Prop) : List (Mem K1 X1) → List (Mem K2 X2) → Prop
  | [], [] => True
  | m :: ms, n :: ns => RK m.key n.key ∧ SameShape RK RX m.tree n.tree ∧ (∀ ty old, ty.ints P F → Le (m.imp ty old) (n.imp ty old)) ∧ LeMems P F sem1 sem2 RK RX ms ns
  | _, _ => False

variable (env : Env) (cfg : Cfg)

theorem impScalar_mono (H : ReadsLike P F sem1 sem2 RK RX) {x : X1} {y : X2} (h : RX x y) : ∀ (ty : Ty) (old : Val), ty.ints P F → Le (impScalar sem1 env x ty old) (impScalar sem2 env y ty old)
  | .int k, old, hp => by simp only [impScalar]; exact Le.bind (fun i e => H.int x y k i hp h e) fun _ => Le.rfl'
  | .flt f, old, hp => by simp only [impScalar]; exact Le.bind (fun i e => H.flt x y f i hp h e) fun _ => Le.rfl'
  | .bool, old, hp => by simp only [impScalar]; exact Le.bind (fun i e => H.bool x y i h e) fun _ => Le.rfl'
  | .str, old, hp => by simp only [impScalar]; exact Le.bind (fun i e => H.str x y i h e) fun _ => Le.rfl'
  | .opt t, old, hp => by simp only [impScalar]; exact Le.bind (impScalar_mono H h t _ hp) fun _ => Le.rfl'
  | .uptr t, old, hp => by
    simp only [impScalar, H.null x y h]
    split
    · exact Le.rfl'
    · exact Le.bind (impScalar_mono H h t _ hp) fun _ => Le.rfl'
  | .pptr b, old, hp => by simp only [impScalar, H.null x y h]; exact Le.rfl'
  | .named i, old, hp => by
    simp only [impScalar]
    cases env.defs i with
    | enum t => exact Le.bind (fun s e => H.str x y s h e) fun _ => Le.rfl'
    | _ => exact Le.throw
  | .seq _ _, old, hp => by simp only [impScalar]; exact Le.throw
  | .arr _ _, old, hp => by simp only [impScalar]; exact Le.throw
  | .smap _, old, hp => by simp only [impScalar]; exact Le.throw
  | .mmap _, old, hp => by simp only [impScalar]; exact Le.throw
  | .umap _, old, hp => by simp only [impScalar]; exact Le.throw

theorem impVec_mono (k : SeqKind) (t : Ty) (hp : t.ints P F) : ∀ (es fs : List Imp) (vs : List Val), LeImps P F es fs → Le (impVec env k t es vs) (impVec env k t fs vs)
  | [], [], vs, _ => Le.rfl'
  | e :: es, f :: fs, vs, h => by
    simp only [impVec]
    exact Le.bind (h.1 _ _ hp) fun v => impVec_mono k t hp es fs _ h.2
  | [], _ :: _, _, h => h.elim
  | _ :: _, [], _, h => h.elim

theorem impFix_mono (tyAt : Nat → Option Ty) (hp : ∀ i t, tyAt i = some t → t.ints P F) : ∀ (es fs : List Imp) (i : Nat) (vs : List Val), LeImps P F es fs → Le (impFix tyAt es i vs) (impFix tyAt fs i vs)
  | [], [], i, vs, _ => Le.rfl'
  | e :: es, f :: fs, i, vs, h => by
    simp only [impFix]
    split
    · rename_i ht _
      exact Le.bind (h.1 _ _ (hp _ _ ht)) fun v => impFix_mono tyAt hp es fs _ _ h.2
    · exact Le.ub
  | [], _ :: _, _, _, h => h.elim
  | _ :: _, [], _, _, h => h.elim

theorem impArr_mono (he : env.ints P F) {es fs : List Imp} (h : LeImps P F es fs) : ∀ (ty : Ty) (old : Val), ty.ints P F → Le (impArr env es ty old) (impArr env fs ty old)
  | .seq k t, old, hp => by
    cases old <;> simp only [impArr] <;> first | exact impVec_mono env k t hp es fs _ h | exact Le.ub
  | .arr n t, old, hp => by
    have hp' : ∀ i u, (if i < n then some t else none) = some u → u.ints P F := fun i u e => by split at e <;> cases e; exact hp
    cases old <;> simp only [impArr] <;> first | exact impFix_mono _ hp' es fs _ _ h | exact Le.ub
  | .opt t, old, hp => by simp only [impArr]; exact Le.bind (impArr_mono he h t _ hp) fun _ => Le.rfl'
  | .uptr t, old, hp => by simp only [impArr]; exact Le.bind (impArr_mono he h t _ hp) fun _ => Le.rfl'
  | .named i, old, hp => by
    simp only [impArr]
    have hi := he i
    cases hd : env.defs i with
    | tuple ts =>
      rw [hd] at hi
      cases old <;> first | exact impFix_mono _ (fun i t ht => hi t (List.mem_of_getElem? ht)) es fs _ _ h | exact Le.ub
    | _ => exact Le.throw
  | .int _, old, hp => by simp only [impArr]; exact Le.throw
  | .flt _, old, hp => by simp only [impArr]; exact Le.throw
  | .bool, old, hp => by simp only [impArr]; exact Le.throw
  | .str, old, hp => by simp only [impArr]; exact Le.throw
  | .pptr _, old, hp => by simp only [impArr]; exact Le.throw
  | .smap _, old, hp => by simp only [impArr]; exact Le.throw
  | .mmap _, old, hp => by simp only [impArr]; exact Le.throw
  | .umap _, old, hp => by simp only [impArr]; exact Le.throw

theorem impDict_mono (H : ReadsLike P F sem1 sem2 RK RX) (kind : DictKind) (t : Ty) (hp : t.ints P F) : ∀ (ms : List (Mem K1 X1)) (ns : List (Mem K2 X2)) (kvs : List (Bytes × Val)),
    LeMems P F sem1 sem2 RK RX ms ns → Le (impDict sem1 env kind t ms kvs) (impDict sem2 env kind t ns kvs)
  | [], [], kvs, _ => Le.rfl'
  | m :: ms, n :: ns, kvs, h => by
    obtain ⟨h1, -, h3, h4⟩ := h
    simp only [impDict, H.key _ _ h1]
    cases kind <;> exact Le.bind (h3 _ _ hp) fun v => impDict_mono H _ t hp ms ns _ h4
  | [], _ :: _, _, h => h.elim
  | _ :: _, [], _, h => h.elim

theorem impMembers_mono (H : ReadsLike P F sem1 sem2 RK RX) (d : StructDef) (hp : d.ints P F) : ∀ (ms : List (Mem K1 X1)) (ns : List (Mem K2 X2)) (found : List Bytes) (old : Val),
    LeMems P F sem1 sem2 RK RX ms ns → Le (impMembers sem1 cfg d ms found old) (impMembers sem2 cfg d ns found old)
  | [], [], found, old, _ => Le.rfl'
  | m :: ms, n :: ns, found, old, h => by
    obtain ⟨h1, h2, h3, h4⟩ := h
    simp only [impMembers, H.key _ _ h1]
    cases hf : d.find (sem2.key n.key) with
    | none =>
      simp only
      split
      · exact Le.throw
      · split
        · exact Le.ub
        · rename_i hs
          rw [if_neg (by simp only [Bool.not_eq_false] at hs ⊢; exact skippable_mono H _ _ h2 hs)]
          exact impMembers_mono H d hp ms ns _ _ h4
    | some slot =>
      simp only
      split
      · exact Le.ub
      · exact Le.bind (h3 _ _ (hp _ _ hf)) fun v => impMembers_mono H d hp ms ns _ _ h4
  | [], _ :: _, _, _, h => h.elim
  | _ :: _, [], _, _, h => h.elim

theorem className_mono (H : ReadsLike P F sem1 sem2 RK RX) (mk : Bytes) {ms : List (Mem K1 X1)} {ns : List (Mem K2 X2)} (h : LeMems P F sem1 sem2 RK RX ms ns)
    {name : Bytes} {ms' : List (Mem K1 X1)} (e : className sem1 mk ms = .ok (name, ms')) :
    ∃ ns', className sem2 mk ns = .ok (name, ns') ∧ LeMems P F sem1 sem2 RK RX ms' ns' := by
  cases ms with
  | nil => simp [className] at e
  | cons m ms =>
    cases ns with
    | nil => exact h.elim
    | cons n ns =>
      obtain ⟨h1, h2, h3, h4⟩ := h
      obtain ⟨k, t, i⟩ := m
      obtain ⟨l, u, j⟩ := n
      simp only [className, H.key _ _ h1] at e ⊢
      split at e
      · cases e
      · rename_i hk
        rw [if_neg hk]
        cases t with
        | scalar x =>
          cases u with
          | scalar y =>
            simp only at e ⊢
            obtain ⟨s, e1, e2⟩ := Res.bind_eq_ok.1 e
            simp only [Res.pure_eq, Res.ok.injEq, Prod.mk.injEq] at e2
            obtain ⟨rfl, rfl⟩ := e2
            exact ⟨ns, by rw [H.str x y s h2 e1]; rfl, h4⟩
          | _ => exact h2.elim
        | arr _ => cases e
        | obj _ => cases e

theorem impObj_mono (H : ReadsLike P F sem1 sem2 RK RX) (he : env.ints P F) {ms : List (Mem K1 X1)} {ns : List (Mem K2 X2)} (h : LeMems P F sem1 sem2 RK RX ms ns) :
    ∀ (ty : Ty) (old : Val), ty.ints P F → Le (impObj sem1 env cfg ms ty old) (impObj sem2 env cfg ns ty old)
  | .smap t, old, hp => by cases old <;> simp only [impObj] <;> first | exact impDict_mono env H _ t hp ms ns _ h | exact Le.ub
  | .mmap t, old, hp => by cases old <;> simp only [impObj] <;> first | exact impDict_mono env H _ t hp ms ns _ h | exact Le.ub
  | .umap t, old, hp => by cases old <;> simp only [impObj] <;> first | exact impDict_mono env H _ t hp ms ns _ h | exact Le.ub
  | .opt t, old, hp => by simp only [impObj]; exact Le.bind (impObj_mono H he h t _ hp) fun _ => Le.rfl'
  | .uptr t, old, hp => by simp only [impObj]; exact Le.bind (impObj_mono H he h t _ hp) fun _ => Le.rfl'
  | .pptr b, old, hp => by
    simp only [impObj]
    intro a e
    obtain ⟨⟨name, ms'⟩, e1, e2⟩ := Res.bind_eq_ok.1 e
    obtain ⟨ns', e3, h'⟩ := className_mono H _ h e1
    rw [e3]
    simp only [Res.ok_bind] at e2 ⊢
    clear e
    revert e2 a
    intro a
    cases env.registry.lookup name with
    | none => intro e; cases e
    | some c =>
      simp only
      split
      · intro e; cases e
      · have hc := he c
        cases hd : env.defs c with
        | cls d =>
          rw [hd] at hc
          exact Le.bind (impMembers_mono cfg H _ hc _ _ _ _ h') (fun _ => Le.rfl') a
        | _ => intro e; cases e
  | .named i, old, hp => by
    simp only [impObj]
    have hi := he i
    cases hd : env.defs i with
    | cls d =>
      rw [hd] at hi
      exact impMembers_mono cfg H _ hi _ _ _ _ h
    | variant alts =>
      simp only
      intro a e
      obtain ⟨⟨name, ms'⟩, e1, e2⟩ := Res.bind_eq_ok.1 e
      obtain ⟨ns', e3, h'⟩ := className_mono H _ h e1
      rw [e3]
      simp only [Res.ok_bind] at e2 ⊢
      clear e
      revert e2 a
      intro a
      cases pickAlt env cfg (polyMarker env cfg.marker (alts.headD 0)) name alts with
      | none => intro e; cases e
      | some c =>
        simp only
        have hc := he c
        cases hd2 : env.defs c with
        | cls d =>
          rw [hd2] at hc
          exact Le.bind (impMembers_mono cfg H _ hc _ _ _ _ h') (fun _ => Le.rfl') a
        | _ => intro e; cases e
    | _ => exact Le.throw
  | .int _, old, hp => by simp only [impObj]; exact Le.throw
  | .flt _, old, hp => by simp only [impObj]; exact Le.throw
  | .bool, old, hp => by simp only [impObj]; exact Le.throw
  | .str, old, hp => by simp only [impObj]; exact Le.throw
  | .seq _ _, old, hp => by simp only [impObj]; exact Le.throw
  | .arr _ _, old, hp => by simp only [impObj]; exact Le.throw

mutual
theorem imp_mono (he : env.ints P F) (H : ReadsLike P F sem1 sem2 RK RX) : ∀ (t : Tr K1 X1) (u : Tr K2 X2), SameShape RK RX t u → ∀ ty old, ty.ints P F → Le (imp sem1 env cfg t ty old) (imp sem2 env cfg u ty old)
  | .scalar x, .scalar y, h, ty, old, hp => impScalar_mono env H h ty old hp
  | .arr ts, .arr us, h, ty, old, hp => impArr_mono env he (imp_elems_mono he H ts us h) ty old hp
  | .obj ms, .obj ns, h, ty, old, hp => impObj_mono env cfg H he (imp_members_mono he H ms ns h) ty old hp
  | .scalar _, .arr _, h, _, _, _ => h.elim
  | .scalar _, .obj _, h, _, _, _ => h.elim
  | .arr _, .scalar _, h, _, _, _ => h.elim
  | .arr _, .obj _, h, _, _, _ => h.elim
  | .obj _, .scalar _, h, _, _, _ => h.elim
  | .obj _, .arr _, h, _, _, _ => h.elim
theorem imp_elems_mono (he : env.ints P F) (H : ReadsLike P F sem1 sem2 RK RX) : ∀ (ts : List (Tr K1 X1)) (us : List (Tr K2 X2)), SameShape.elems RK RX ts us →
    LeImps P F (imp.elems sem1 env cfg ts) (imp.elems sem2 env cfg us)
  | [], [], _ => trivial
  | t :: ts, u :: us, h => ⟨imp_mono he H t u h.1, imp_elems_mono he H ts us h.2⟩
  | [], _ :: _, h => h.elim
  | _ :: _, [], h => h.elim
theorem imp_members_mono (he : env.ints P F) (H : ReadsLike P F sem1 sem2 RK RX) : ∀ (ts : List (K1 × Tr K1 X1)) (us : List (K2 × Tr K2 X2)), SameShape.members RK RX ts us →
    LeMems P F sem1 sem2 RK RX (imp.members sem1 env cfg ts) (imp.members sem2 env cfg us)
  | [], [], _ => trivial
  | (k, t) :: ts, (l, u) :: us, h => ⟨h.1, h.2.1, imp_mono he H t u h.2.1, imp_members_mono he H ts us h.2.2⟩
  | [], _ :: _, h => h.elim
  | _ :: _, [], h => h.elim
end

end
end Thors
