import Verif.Model.Importer
/-
A parser whose functions are those of another one, except that they may have undefined behaviour: so does the import.
-/
namespace Thors
open Lean.Order StrIn

/-- Undefined behaviour, or the same. -/
def Low {α : Type} (r r' : Res α) : Prop := r = .ub ∨ r = r'

namespace Low
variable {α β : Type}

theorem same (r : Res α) : Low r r := .inr rfl
theorem bind {r r' : Res α} {f f' : α → Res β} (h : Low r r') (h2 : ∀ a, Low (f a) (f' a)) : Low (r >>= f) (r' >>= f') := by
  rcases h with rfl | rfl
  · exact .inl rfl
  · cases r with
    | ok a => exact h2 a
    | throw e => exact .inr rfl
    | ub => exact .inl rfl
theorem ite {c : Prop} [Decidable c] {a a' b b' : Res α} (h1 : Low a a') (h2 : Low b b') : Low (if c then a else b) (if c then a' else b') := by
  split
  · exact h1
  · exact h2
theorem admissible (r' : Res α) : Lean.Order.admissible (fun r : Res α => Low r r') := admissible_flatOrder (b := Res.ub) _ (.inl rfl)
theorem ub {r : Res α} (h : Low r .ub) : r = .ub := by rcases h with h | h <;> exact h
end Low

/-- All functions of a parser. -/
structure LowOps {σ : Type} (o o' : POps σ) : Prop where
  next : ∀ s, Low (o.next s) (o'.next s)
  getKey : ∀ s, Low (o.getKey s) (o'.getKey s)
  getInt : ∀ k s, Low (o.getInt k s) (o'.getInt k s)
  getFlt : ∀ f s, Low (o.getFlt f s) (o'.getFlt f s)
  getBool : ∀ s, Low (o.getBool s) (o'.getBool s)
  getStr : ∀ s, Low (o.getStr s) (o'.getStr s)
  isNull : ∀ s, o.isNull s = o'.isNull s
  ignoreData : ∀ s, Low (o.ignoreData s) (o'.ignoreData s)

section
variable {σ : Type} {o o' : POps σ}

theorem ignore_low (L : LowOps o o') : (∀ s, Low (ignoreTheValue o s) (ignoreTheValue o' s)) ∧ (∀ s, Low (ignoreTheArray o s) (ignoreTheArray o' s)) ∧
    (∀ s, Low (ignoreTheMap o s) (ignoreTheMap o' s)) := by
  refine ignoreTheValue.mutual_fixpoint_induct o (fun f => ∀ s, Low (f s) (ignoreTheValue o' s)) (fun f => ∀ s, Low (f s) (ignoreTheArray o' s))
    (fun f => ∀ s, Low (f s) (ignoreTheMap o' s)) ?_ ?_ ?_ ?_ ?_ ?_
  · exact admissible_pi _ fun s => admissible_apply (fun s r => Low r (ignoreTheValue o' s)) s (Low.admissible _)
  · exact admissible_pi _ fun s => admissible_apply (fun s r => Low r (ignoreTheArray o' s)) s (Low.admissible _)
  · exact admissible_pi _ fun s => admissible_apply (fun s r => Low r (ignoreTheMap o' s)) s (Low.admissible _)
  · intro fa fm ha hm s
    rw [ignoreTheValue]
    refine (L.next s).bind ?_
    rintro ⟨t, s⟩
    cases t <;> first | exact .same _ | exact L.ignoreData s | exact hm s | exact ha s
  · intro fa fm ha hm s
    rw [ignoreTheArray]
    refine (L.next s).bind ?_
    rintro ⟨t, s⟩
    cases t <;> first
      | exact .same _
      | exact (L.ignoreData s).bind ha
      | exact (hm s).bind ha
      | exact (ha s).bind ha
  · intro fv fm hv hm s
    rw [ignoreTheMap]
    refine (L.next s).bind ?_
    rintro ⟨t, s⟩
    exact .ite (.same _) ((L.ignoreData s).bind fun s => .ite (.same _) ((hv s).bind hm))

theorem ignoreValue_low (L : LowOps o o') (st : ParseType) (p : PI σ) : Low (p.ignoreValue o st) (p.ignoreValue o' st) := by
  unfold PI.ignoreValue
  exact .ite (.same _) (((ignore_low L).1 _).bind fun _ => .same _)

theorem getToken_low (L : LowOps o o') (p : PI σ) : Low (p.getToken o) (p.getToken o') := by
  unfold PI.getToken
  exact .ite (.same _) (.ite (.same _) ((L.next _).bind fun _ => .same _))

theorem lift_low {α : Type} {r r' : Res (α × σ)} (p : PI σ) (h : Low r r') : Low (p.lift r) (p.lift r') := h.bind fun _ => .same _

theorem polyName_low (L : LowOps o o') (mk : Bytes) (p : PI σ) : Low (polyClassName o mk p) (polyClassName o' mk p) := by
  unfold polyClassName
  refine (getToken_low L p).bind fun ⟨t, p⟩ => .ite (.same _) ?_
  refine (getToken_low L p).bind fun ⟨t, p⟩ => .ite (.same _) ?_
  refine (lift_low p (L.getKey _)).bind fun ⟨key, p⟩ => .ite (.same _) ?_
  refine (getToken_low L p).bind fun ⟨t, p⟩ => .ite (.same _) ?_
  exact (lift_low p (L.getStr _)).bind fun ⟨key, p⟩ => .same _

theorem scalar_low {α : Type} (L : LowOps o o') (p : PI σ) (g g' : σ → Res (α × σ)) (h : ∀ s, Low (g s) (g' s)) (f : α → PI σ → Res (Val × PI σ)) :
    Low (do let (t, p) ← p.getToken o; if t ≠ Tok.Value then throwStd else let (i, p) ← p.lift (g p.inner); f i p)
      (do let (t, p) ← p.getToken o'; if t ≠ Tok.Value then throwStd else let (i, p) ← p.lift (g' p.inner); f i p) :=
  (getToken_low L p).bind fun ⟨_, p⟩ => .ite (.same _) ((lift_low p (h _)).bind fun _ => .same _)

theorem open_low (L : LowOps o o') (p : PI σ) (tok : Tok) (f f' : PI σ → Res (Val × PI σ)) (h : ∀ p, Low (f p) (f' p)) :
    Low (do let (k, p) ← p.getToken o; if k ≠ tok then throwStd else f p) (do let (k, p) ← p.getToken o'; if k ≠ tok then throwStd else f' p) :=
  (getToken_low L p).bind fun ⟨_, p⟩ => .ite (.same _) (h p)

theorem lowAdm3 {A B C D : Type} (g : A → B → C → Res D) : admissible (fun f : A → B → C → Res D => ∀ a b c, Low (f a b c) (g a b c)) :=
  admissible_pi _ fun a => admissible_pi _ fun b => admissible_pi _ fun c =>
    admissible_apply (fun (_ : A) (f : B → C → Res D) => Low (f b c) (g a b c)) a
      (admissible_apply (fun (_ : B) (f : C → Res D) => Low (f c) (g a b c)) b (admissible_apply (fun (_ : C) (r : Res D) => Low r (g a b c)) c (Low.admissible _)))

theorem lowAdm4 {A B C E D : Type} (g : A → B → C → E → Res D) : admissible (fun f : A → B → C → E → Res D => ∀ a b c e, Low (f a b c e) (g a b c e)) :=
  admissible_pi _ fun a => admissible_apply (fun (a : A) (f : B → C → E → Res D) => ∀ b c e, Low (f b c e) (g a b c e)) a (lowAdm3 (g a))

set_option maxHeartbeats 1000000 in
theorem deser_low (L : LowOps o o') (env : Env) (cfg : Cfg) : ∀ ty old p, Low (deser o env cfg ty old p) (deser o' env cfg ty old p) := by
  refine (deser.mutual_fixpoint_induct o env cfg
    (fun f => ∀ ty old p, Low (f ty old p) (deser o' env cfg ty old p))
    (fun f => ∀ d old p, Low (f d old p) (deserClass o' env cfg d old p))
    (fun f => ∀ d found old p, Low (f d found old p) (deserMembers o' env cfg d found old p))
    (fun f => ∀ kind t kvs p, Low (f kind t kvs p) (deserDict o' env cfg kind t kvs p))
    (fun f => ∀ tyAt i vs p, Low (f tyAt i vs p) (deserFix o' env cfg tyAt i vs p))
    (fun f => ∀ c t vs p, Low (f c t vs p) (deserVec o' env cfg c t vs p))
    ?_ ?_ ?_ ?_ ?_ ?_ ?_ ?_ ?_ ?_ ?_ ?_).1
  · exact lowAdm3 _
  · exact lowAdm3 _
  · exact lowAdm4 _
  · exact lowAdm4 _
  · exact lowAdm4 _
  · exact lowAdm4 _
  · intro fD fc fd ff fv hD hc hd hf hv ty old p
    rw [deser.eq_def o']
    cases ty with
    | int k => exact scalar_low L p _ _ (L.getInt k) fun i p => .ok (.int i, p)
    | flt k => exact scalar_low L p _ _ (L.getFlt k) fun i p => .ok (.flt i, p)
    | bool => exact scalar_low L p _ _ L.getBool fun i p => .ok (.bool i, p)
    | str => exact scalar_low L p _ _ L.getStr fun i p => .ok (.str i, p)
    | seq c t => exact (getToken_low L p).bind fun ⟨k, p⟩ => .ite (.same _) (by cases old <;> first | exact .same _ | exact hv _ _ _ _)
    | arr n t => exact (getToken_low L p).bind fun ⟨k, p⟩ => .ite (.same _) (by cases old <;> first | exact .same _ | exact hf _ _ _ _)
    | smap t => exact (getToken_low L p).bind fun ⟨k, p⟩ => .ite (.same _) (by cases old <;> first | exact .same _ | exact hd _ _ _ _)
    | mmap t => exact (getToken_low L p).bind fun ⟨k, p⟩ => .ite (.same _) (by cases old <;> first | exact .same _ | exact hd _ _ _ _)
    | umap t => exact (getToken_low L p).bind fun ⟨k, p⟩ => .ite (.same _) (by cases old <;> first | exact .same _ | exact hd _ _ _ _)
    | opt t => exact (hD _ _ _).bind fun _ => .same _
    | uptr t =>
      refine (getToken_low L p).bind fun ⟨k, p⟩ => ?_
      dsimp only
      rw [L.isNull]
      exact .ite ((L.ignoreData _).bind fun _ => .same _) ((hD _ _ _).bind fun _ => .same _)
    | pptr b =>
      refine (getToken_low L p).bind fun ⟨k, p⟩ => ?_
      dsimp only
      rw [L.isNull]
      refine .ite ((L.ignoreData _).bind fun _ => .same _) ((polyName_low L _ _).bind fun ⟨name, p⟩ => ?_)
      dsimp only
      cases env.registry.lookup name with
      | none => exact .same _
      | some c =>
        refine .ite (.same _) ?_
        cases env.defs c with
        | cls d => exact (hc _ _ _).bind fun _ => .same _
        | _ => exact .same _
    | named i =>
      dsimp only
      cases env.defs i with
      | cls d => exact hc _ _ _
      | tuple ts => exact (getToken_low L p).bind fun ⟨k, p⟩ => .ite (.same _) (by cases old <;> first | exact .same _ | exact hf _ _ _ _)
      | enum table => exact scalar_low L p _ _ L.getStr fun s p => match enumOf table s with | some v => .ok (.enum v, p) | none => throwStd
      | variant alts =>
        refine (polyName_low L _ _).bind fun ⟨name, p⟩ => ?_
        dsimp only
        cases pickAlt env cfg (polyMarker env cfg.marker (alts.headD 0)) name alts with
        | none => exact (ignoreValue_low L _ _).bind fun _ => .same _
        | some c =>
          dsimp only
          cases env.defs c with
          | cls d => exact (hc _ _ _).bind fun _ => .same _
          | _ => exact .same _
  · intro fm hm d old p
    rw [deserClass.eq_def o']
    exact open_low L p _ _ _ fun p => hm _ _ _ _
  · intro fD fm hD hm d found old p
    rw [deserMembers.eq_def o']
    refine (getToken_low L p).bind fun ⟨k, p⟩ => .ite (.same _) ?_
    refine (lift_low p (L.getKey _)).bind fun ⟨key, p⟩ => ?_
    dsimp only
    cases d.find key with
    | none => exact (ignoreValue_low L _ _).bind fun p => hm _ _ _ _
    | some slot =>
      dsimp only
      cases old.field slot.path slot.index with
      | none => exact .same _
      | some w => exact (hD _ _ _).bind fun ⟨v, p⟩ => hm _ _ _ _
  · intro fD fd hD hd kind t kvs p
    rw [deserDict.eq_def o']
    refine (getToken_low L p).bind fun ⟨k, p⟩ => .ite (.same _) ?_
    refine (lift_low p (L.getKey _)).bind fun ⟨key, p⟩ => ?_
    exact (hD _ _ _).bind fun ⟨v, p⟩ => hd _ _ _ _
  · intro fD ff hD hf tyAt i vs p
    rw [deserFix.eq_def o']
    refine (getToken_low L p).bind fun ⟨k, p⟩ => .ite (.same _) ?_
    dsimp only
    cases tyAt i with
    | none => exact .same _
    | some t =>
      cases vs[i]? with
      | none => exact .same _
      | some w => exact (hD _ _ _).bind fun ⟨v, p⟩ => hf _ _ _ _
  · intro fD fv hD hv c t vs p
    rw [deserVec.eq_def o']
    refine (getToken_low L p).bind fun ⟨k, p⟩ => .ite (.same _) ?_
    exact (hD _ _ _).bind fun ⟨v, p⟩ => hv _ _ _ _

/-- `extract` with the two parsers: undefined behaviour, or the same report. -/
theorem extract_low (io : InOps σ) (L : LowOps io.ops o') (env : Env) (cfg : Cfg) (pol : Policy) (ty : Ty) (old : Val) (p : PI σ)
    (h : (extract io env cfg pol ty old p).fate ≠ .ub) : extract { io with ops := o' } env cfg pol ty old p = extract io env cfg pol ty old p := by
  have h1 : Low (do
      let (k, p) ← p.getToken io.ops
      if k ≠ Tok.DocStart then throwStd else deser io.ops env cfg ty old p : Res (Val × PI σ))
      (do
      let (k, p) ← p.getToken o'
      if k ≠ Tok.DocStart then throwStd else deser o' env cfg ty old p) := open_low L p _ _ _ fun p => deser_low L env cfg ty old p
  unfold extract at h ⊢
  dsimp only at h ⊢
  rcases h1 with h1 | h1
  · rw [h1] at h; exact absurd rfl h
  · rw [h1] at h ⊢
    clear h1
    generalize (do
      let (k, p) ← p.getToken o'
      if k ≠ Tok.DocStart then throwStd else deser o' env cfg ty old p : Res (Val × PI σ)) = r at h ⊢
    cases r with
    | ub => rfl
    | throw e => rfl
    | ok vp =>
      obtain ⟨v, p1⟩ := vp
      dsimp only at h ⊢
      have h2 := getToken_low L (trailing io pol p1).2
      have ht : trailing { io with ops := o' } pol p1 = trailing io pol p1 := rfl
      rw [ht]
      rcases h2 with h2 | h2
      · rw [h2] at h; exact absurd rfl h
      · rw [h2]

end
end Thors
