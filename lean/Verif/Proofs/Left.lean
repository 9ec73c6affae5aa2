import Verif.Model.Left
import Verif.Proofs.Lower
/-
The model of what a throwing import leaves behind (`deserE`) has the outcomes of the model of the import (`deser`).
-/
namespace Thors
open Lean.Order StrIn

variable {σ : Type}

/-- The outcome without the object that was left. -/
def forget : Res (Eff σ) → Res (Val × PI σ)
  | .ok (.done v p) => .ok (v, p)
  | .ok (.threw e _ _) => .throw e
  | .ub => .ub
  | .throw e => .throw e

@[simp] theorem forget_done (v : Val) (p : PI σ) : forget (.ok (.done v p)) = .ok (v, p) := rfl
@[simp] theorem forget_threw (e : Exc) (w : Val) (d : Bool) : forget (σ := σ) (.ok (.threw e w d)) = .throw e := rfl
@[simp] theorem forget_ub : forget (σ := σ) .ub = .ub := rfl

theorem forget_step {α : Type} (r : Res α) (now : Val) (d : Bool) (k : α → Res (Eff σ)) : forget (step r now d k) = r >>= fun a => forget (k a) := by
  cases r <;> rfl

theorem forget_into (r : Res (Eff σ)) (back : Val → Bool → Val × Bool) (k : Val → PI σ → Res (Eff σ)) :
    forget (into r back k) = forget r >>= fun x => forget (k x.1 x.2) := by
  cases r with
  | ok a => cases a <;> rfl
  | throw e => rfl
  | ub => rfl

theorem forget_ite {c : Prop} [Decidable c] (a b : Res (Eff σ)) : forget (if c then a else b) = if c then forget a else forget b := by
  split <;> rfl

theorem scalarE_bind {α β : Type} (o : POps σ) (g : σ → Res (α × σ)) (p : PI σ) (f : α × PI σ → Res β) :
    (scalarE o g p >>= f) = (do let (t, p) ← p.getToken o; if t ≠ Tok.Value then throwStd else let (i, p) ← p.lift (g p.inner); f (i, p)) := by
  unfold scalarE
  cases p.getToken o with
  | ok x =>
    obtain ⟨t, p⟩ := x
    simp only [Res.ok_bind]
    split <;> rfl
  | throw e => rfl
  | ub => rfl

theorem pointerE_bind {β : Type} (o : POps σ) (p : PI σ) (f : Option Tok × PI σ → Res β) :
    (pointerE o p >>= f) = (do
      let (k, p) ← p.getToken o
      if o.isNull p.inner then
        let s ← o.ignoreData p.inner
        f (none, { p with inner := s })
      else f (some k, p)) := by
  unfold pointerE
  cases p.getToken o with
  | ok x =>
    obtain ⟨t, p⟩ := x
    simp only [Res.ok_bind]
    split
    · cases o.ignoreData p.inner <;> rfl
    · rfl
  | throw e => rfl
  | ub => rfl

theorem low_forget_adm (r' : Res (Val × PI σ)) : admissible (fun r : Res (Eff σ) => Low (forget r) r') := admissible_flatOrder (b := Res.ub) _ (.inl rfl)

theorem forgetAdm3 {A B C : Type} (g : A → B → C → Res (Val × PI σ)) : admissible (fun f : A → B → C → Res (Eff σ) => ∀ a b c, Low (forget (f a b c)) (g a b c)) :=
  admissible_pi _ fun a => admissible_pi _ fun b => admissible_pi _ fun c =>
    admissible_apply (fun (_ : A) (f : B → C → Res (Eff σ)) => Low (forget (f b c)) (g a b c)) a
      (admissible_apply (fun (_ : B) (f : C → Res (Eff σ)) => Low (forget (f c)) (g a b c)) b
        (admissible_apply (fun (_ : C) (r : Res (Eff σ)) => Low (forget r) (g a b c)) c (low_forget_adm _)))

theorem forgetAdm4 {A B C E : Type} (g : A → B → C → E → Res (Val × PI σ)) :
    admissible (fun f : A → B → C → E → Res (Eff σ) => ∀ a b c e, Low (forget (f a b c e)) (g a b c e)) :=
  admissible_pi _ fun a => admissible_apply (fun (a : A) (f : B → C → E → Res (Eff σ)) => ∀ b c e, Low (forget (f b c e)) (g a b c e)) a (forgetAdm3 (g a))

/-- The block of the content of an optional begins with the token that its constructor wants. -/
theorem blockStart_deser (o : POps σ) (env : Env) (cfg : Cfg) (t : Ty) (w : Val) (p : PI σ) :
    (blockStart o (t.opens env) p >>= fun _ => deser o env cfg t w p) = deser o env cfg t w p := by
  cases hs : t.opens env with
  | none => rfl
  | some k =>
    have key : (∃ F : PI σ → Res (Val × PI σ), deser o env cfg t w p = (do let (k', p) ← p.getToken o; if k' ≠ k then throwStd else F p)) := by
      rw [deser.eq_def]
      cases t with
      | named i =>
        simp only [Ty.opens] at hs
        dsimp only
        cases hd : env.defs i with
        | cls d =>
          rw [hd] at hs
          cases hs
          dsimp only
          rw [deserClass.eq_def]
          exact ⟨fun p => deserMembers o env cfg d.traits [] w p, rfl⟩
        | tuple ts =>
          rw [hd] at hs
          cases hs
          exact ⟨fun p => match w with | .list vs => deserFix o env cfg (fun i => ts[i]?) 0 vs p | _ => .ub, rfl⟩
        | enum ts => rw [hd] at hs; cases hs
        | variant ts => rw [hd] at hs; cases hs
      | seq c t => cases hs; exact ⟨fun p => match w with | .list vs => deserVec o env cfg c t vs p | _ => .ub, rfl⟩
      | arr n t => cases hs; exact ⟨fun p => match w with | .list vs => deserFix o env cfg (fun i => if i < n then some t else none) 0 vs p | _ => .ub, rfl⟩
      | smap t => cases hs; exact ⟨fun p => match w with | .dict kvs => deserDict o env cfg .sorted t kvs p | _ => .ub, rfl⟩
      | mmap t => cases hs; exact ⟨fun p => match w with | .dict kvs => deserDict o env cfg .multi t kvs p | _ => .ub, rfl⟩
      | umap t => cases hs; exact ⟨fun p => match w with | .dict kvs => deserDict o env cfg .unordered t kvs p | _ => .ub, rfl⟩
      | _ => cases hs
    obtain ⟨F, hF⟩ := key
    rw [hF]
    simp only [blockStart]
    cases p.getToken o with
    | ok x =>
      obtain ⟨k', p'⟩ := x
      simp only [Res.ok_bind]
      split <;> rfl
    | throw e => rfl
    | ub => rfl

/-- The same in the other model. -/
theorem blockStart_deserE (o : POps σ) (env : Env) (cfg : Cfg) (m : Mess σ) (t : Ty) (w : Val) (p : PI σ) :
    (blockStart o (t.opens env) p >>= fun _ => forget (deserE o env cfg m t w p)) = forget (deserE o env cfg m t w p) := by
  cases hs : t.opens env with
  | none => rfl
  | some k =>
    have key : (∃ F : PI σ → Res (Eff σ), deserE o env cfg m t w p = step (p.getToken o) w false fun (k', p) => if k' ≠ k then .ok (.threw .std w false) else F p) := by
      rw [deserE.eq_def]
      cases t with
      | named i =>
        simp only [Ty.opens] at hs
        dsimp only
        cases hd : env.defs i with
        | cls d =>
          rw [hd] at hs
          cases hs
          dsimp only
          rw [deserClassE.eq_def]
          exact ⟨fun p => deserMembersE o env cfg m d.traits [] w p, rfl⟩
        | tuple ts =>
          rw [hd] at hs
          cases hs
          exact ⟨fun p => match w with | .list vs => deserFixE o env cfg m (fun i => ts[i]?) 0 vs p | _ => .ub, rfl⟩
        | enum ts => rw [hd] at hs; cases hs
        | variant ts => rw [hd] at hs; cases hs
      | seq c t => cases hs; exact ⟨fun p => match w with | .list vs => deserVecE o env cfg m c t vs p | _ => .ub, rfl⟩
      | arr n t => cases hs; exact ⟨fun p => match w with | .list vs => deserFixE o env cfg m (fun i => if i < n then some t else none) 0 vs p | _ => .ub, rfl⟩
      | smap t => cases hs; exact ⟨fun p => match w with | .dict kvs => deserDictE o env cfg m .sorted t kvs p | _ => .ub, rfl⟩
      | mmap t => cases hs; exact ⟨fun p => match w with | .dict kvs => deserDictE o env cfg m .multi t kvs p | _ => .ub, rfl⟩
      | umap t => cases hs; exact ⟨fun p => match w with | .dict kvs => deserDictE o env cfg m .unordered t kvs p | _ => .ub, rfl⟩
      | _ => cases hs
    obtain ⟨F, hF⟩ := key
    rw [hF, forget_step]
    simp only [blockStart]
    cases p.getToken o with
    | ok x =>
      obtain ⟨k', p'⟩ := x
      simp only [Res.ok_bind]
      split <;> rfl
    | throw e => rfl
    | ub => rfl

set_option maxHeartbeats 1000000 in
theorem deserE_low (o : POps σ) (env : Env) (cfg : Cfg) (m : Mess σ) : ∀ ty old p, Low (forget (deserE o env cfg m ty old p)) (deser o env cfg ty old p) := by
  have L : ∀ p : PI σ, Low (p.getToken o) (p.getToken o) := fun p => .same _
  refine (deserE.mutual_fixpoint_induct o env cfg m
    (fun f => ∀ ty old p, Low (forget (f ty old p)) (deser o env cfg ty old p))
    (fun f => ∀ d old p, Low (forget (f d old p)) (deserClass o env cfg d old p))
    (fun f => ∀ d found old p, Low (forget (f d found old p)) (deserMembers o env cfg d found old p))
    (fun f => ∀ kind t kvs p, Low (forget (f kind t kvs p)) (deserDict o env cfg kind t kvs p))
    (fun f => ∀ tyAt i vs p, Low (forget (f tyAt i vs p)) (deserFix o env cfg tyAt i vs p))
    (fun f => ∀ c t vs p, Low (forget (f c t vs p)) (deserVec o env cfg c t vs p))
    (forgetAdm3 _) (forgetAdm3 _) (forgetAdm4 _) (forgetAdm4 _) (forgetAdm4 _) (forgetAdm4 _) ?_ ?_ ?_ ?_ ?_ ?_).1
  · intro fD fc fd ff fv hD hc hd hf hv ty v p
    cases ty with
    | int k => rw [deser.eq_def, forget_step, scalarE_bind]; exact .same _
    | flt k => rw [deser.eq_def, forget_step, scalarE_bind]; exact .same _
    | bool => rw [deser.eq_def, forget_step, scalarE_bind]; exact .same _
    | str =>
      rw [deser.eq_def, forget_step]
      refine (L p).bind fun ⟨k, p⟩ => ?_
      dsimp only
      rw [forget_ite]
      exact .ite (.same _) (by rw [forget_step]; exact .same _)
    | seq c t =>
      rw [deser.eq_def, forget_step]
      refine (L p).bind fun ⟨k, p⟩ => ?_
      dsimp only
      rw [forget_ite]
      exact .ite (.same _) (by cases v <;> first | exact .same _ | exact hv _ _ _ _)
    | arr n t =>
      rw [deser.eq_def, forget_step]
      refine (L p).bind fun ⟨k, p⟩ => ?_
      dsimp only
      rw [forget_ite]
      exact .ite (.same _) (by cases v <;> first | exact .same _ | exact hf _ _ _ _)
    | smap t =>
      rw [deser.eq_def, forget_step]
      refine (L p).bind fun ⟨k, p⟩ => ?_
      dsimp only
      rw [forget_ite]
      exact .ite (.same _) (by cases v <;> first | exact .same _ | exact hd _ _ _ _)
    | mmap t =>
      rw [deser.eq_def, forget_step]
      refine (L p).bind fun ⟨k, p⟩ => ?_
      dsimp only
      rw [forget_ite]
      exact .ite (.same _) (by cases v <;> first | exact .same _ | exact hd _ _ _ _)
    | umap t =>
      rw [deser.eq_def, forget_step]
      refine (L p).bind fun ⟨k, p⟩ => ?_
      dsimp only
      rw [forget_ite]
      exact .ite (.same _) (by cases v <;> first | exact .same _ | exact hd _ _ _ _)
    | opt t =>
      rw [deser.eq_def, forget_step]
      dsimp only
      rw [← blockStart_deser o env cfg t]
      have e : ∀ (b : Res Unit) (x : Res (Val × PI σ)) (g : Val × PI σ → Res (Val × PI σ)), ((b >>= fun _ => x) >>= g) = b >>= fun _ => x >>= g := by
        intro b x g; cases b <;> rfl
      rw [e]
      refine (Low.same _).bind fun _ => ?_
      rw [forget_into]
      exact (hD _ _ _).bind fun _ => .same _
    | uptr t =>
      rw [deser.eq_def, forget_step, pointerE_bind]
      refine (L p).bind fun ⟨k, p⟩ => ?_
      dsimp only
      refine .ite (.same _) ?_
      rw [forget_into]
      exact (hD _ _ _).bind fun _ => .same _
    | pptr b =>
      rw [deser.eq_def, forget_step, pointerE_bind]
      refine (L p).bind fun ⟨k, p⟩ => ?_
      dsimp only
      refine .ite (.same _) ?_
      rw [forget_step]
      refine (Low.same _).bind fun ⟨name, p⟩ => ?_
      dsimp only
      cases env.registry.lookup name with
      | none => exact .same _
      | some c =>
        dsimp only
        rw [forget_ite]
        refine .ite (.same _) ?_
        cases env.defs c with
        | cls d =>
          dsimp only
          rw [forget_into]
          exact (hc _ _ _).bind fun _ => .same _
        | _ => exact .same _
    | named i =>
      rw [deser.eq_def]
      dsimp only
      cases env.defs i with
      | cls d => exact hc _ _ _
      | tuple ts =>
        dsimp only
        rw [forget_step]
        refine (L p).bind fun ⟨k, p⟩ => ?_
        dsimp only
        rw [forget_ite]
        exact .ite (.same _) (by cases v <;> first | exact .same _ | exact hf _ _ _ _)
      | enum table =>
        dsimp only
        rw [forget_step, scalarE_bind]
        refine (L p).bind fun ⟨k, p⟩ => .ite (.same _) ((Low.same _).bind fun ⟨s, p⟩ => ?_)
        dsimp only
        cases enumOf table s <;> exact .same _
      | variant alts =>
        dsimp only
        rw [forget_step]
        refine (Low.same _).bind fun ⟨name, p⟩ => ?_
        dsimp only
        cases pickAlt env cfg (polyMarker env cfg.marker (alts.headD 0)) name alts with
        | none =>
          dsimp only
          rw [forget_step]
          exact .same _
        | some c =>
          dsimp only
          cases env.defs c with
          | cls d =>
            dsimp only
            rw [forget_into]
            exact (hc _ _ _).bind fun _ => .same _
          | _ => exact .same _
  · intro fm hm d v p
    rw [deserClass.eq_def, forget_step]
    refine (L p).bind fun ⟨k, p⟩ => ?_
    dsimp only
    rw [forget_ite]
    exact .ite (.same _) (hm _ _ _ _)
  · intro fD fm hD hm d found v p
    rw [deserMembers.eq_def, forget_step]
    refine (L p).bind fun ⟨k, p⟩ => ?_
    dsimp only
    rw [forget_ite, forget_ite]
    refine .ite (.same _) ?_
    rw [forget_step]
    refine (Low.same _).bind fun ⟨key, p⟩ => ?_
    dsimp only
    cases d.find key with
    | none =>
      dsimp only
      rw [forget_step]
      exact (Low.same _).bind fun _ => hm _ _ _ _
    | some slot =>
      dsimp only
      cases v.field slot.path slot.index with
      | none => exact .same _
      | some w =>
        dsimp only
        rw [forget_into]
        exact (hD _ _ _).bind fun _ => hm _ _ _ _
  · intro fD fd hD hd kind t kvs p
    rw [deserDict.eq_def, forget_step]
    refine (L p).bind fun ⟨k, p⟩ => ?_
    dsimp only
    rw [forget_ite]
    refine .ite (.same _) ?_
    rw [forget_step]
    refine (Low.same _).bind fun ⟨key, p⟩ => ?_
    dsimp only
    rw [forget_into]
    refine Low.bind ?_ fun _ => ?_
    · exact hD _ _ _
    · exact hd _ _ _ _
  · intro fD ff hD hf tyAt i vs p
    rw [deserFix.eq_def, forget_step]
    refine (L p).bind fun ⟨k, p⟩ => ?_
    dsimp only
    rw [forget_ite]
    refine .ite (.same _) ?_
    cases tyAt i with
    | none => exact .same _
    | some t =>
      cases vs[i]? with
      | none => exact .same _
      | some w =>
        dsimp only
        rw [forget_into]
        exact (hD _ _ _).bind fun _ => hf _ _ _ _
  · intro fD fv hD hv c t vs p
    rw [deserVec.eq_def, forget_step]
    refine (L p).bind fun ⟨k, p⟩ => ?_
    dsimp only
    rw [forget_ite]
    refine .ite (.same _) ?_
    rw [forget_into]
    exact (hD _ _ _).bind fun _ => hv _ _ _ _

set_option maxHeartbeats 1000000 in
theorem deser_lowE (o : POps σ) (env : Env) (cfg : Cfg) (m : Mess σ) : ∀ ty old p, Low (deser o env cfg ty old p) (forget (deserE o env cfg m ty old p)) := by
  have L : ∀ p : PI σ, Low (p.getToken o) (p.getToken o) := fun p => .same _
  refine (deser.mutual_fixpoint_induct o env cfg
    (fun f => ∀ ty old p, Low (f ty old p) (forget (deserE o env cfg m ty old p)))
    (fun f => ∀ d old p, Low (f d old p) (forget (deserClassE o env cfg m d old p)))
    (fun f => ∀ d found old p, Low (f d found old p) (forget (deserMembersE o env cfg m d found old p)))
    (fun f => ∀ kind t kvs p, Low (f kind t kvs p) (forget (deserDictE o env cfg m kind t kvs p)))
    (fun f => ∀ tyAt i vs p, Low (f tyAt i vs p) (forget (deserFixE o env cfg m tyAt i vs p)))
    (fun f => ∀ c t vs p, Low (f c t vs p) (forget (deserVecE o env cfg m c t vs p)))
    (lowAdm3 _) (lowAdm3 _) (lowAdm4 _) (lowAdm4 _) (lowAdm4 _) (lowAdm4 _) ?_ ?_ ?_ ?_ ?_ ?_).1
  · intro fD fc fd ff fv hD hc hd hf hv ty v p
    cases ty with
    | int k => rw [deserE.eq_def, forget_step, scalarE_bind]; exact .same _
    | flt k => rw [deserE.eq_def, forget_step, scalarE_bind]; exact .same _
    | bool => rw [deserE.eq_def, forget_step, scalarE_bind]; exact .same _
    | str =>
      rw [deserE.eq_def, forget_step]
      refine (L p).bind fun ⟨k, p⟩ => ?_
      dsimp only
      rw [forget_ite]
      exact .ite (.same _) (by rw [forget_step]; exact .same _)
    | seq c t =>
      rw [deserE.eq_def, forget_step]
      refine (L p).bind fun ⟨k, p⟩ => ?_
      dsimp only
      rw [forget_ite]
      exact .ite (.same _) (by cases v <;> first | exact .same _ | exact hv _ _ _ _)
    | arr n t =>
      rw [deserE.eq_def, forget_step]
      refine (L p).bind fun ⟨k, p⟩ => ?_
      dsimp only
      rw [forget_ite]
      exact .ite (.same _) (by cases v <;> first | exact .same _ | exact hf _ _ _ _)
    | smap t =>
      rw [deserE.eq_def, forget_step]
      refine (L p).bind fun ⟨k, p⟩ => ?_
      dsimp only
      rw [forget_ite]
      exact .ite (.same _) (by cases v <;> first | exact .same _ | exact hd _ _ _ _)
    | mmap t =>
      rw [deserE.eq_def, forget_step]
      refine (L p).bind fun ⟨k, p⟩ => ?_
      dsimp only
      rw [forget_ite]
      exact .ite (.same _) (by cases v <;> first | exact .same _ | exact hd _ _ _ _)
    | umap t =>
      rw [deserE.eq_def, forget_step]
      refine (L p).bind fun ⟨k, p⟩ => ?_
      dsimp only
      rw [forget_ite]
      exact .ite (.same _) (by cases v <;> first | exact .same _ | exact hd _ _ _ _)
    | opt t =>
      rw [deserE.eq_def, forget_step]
      dsimp only
      simp only [forget_into]
      have e : ∀ (b : Res Unit) (x : Res (Val × PI σ)) (g : Val × PI σ → Res (Val × PI σ)), (b >>= fun _ => x >>= g) = ((b >>= fun _ => x) >>= g) := by
        intro b x g; cases b <;> rfl
      rw [e, blockStart_deserE]
      exact (hD _ _ _).bind fun _ => .same _
    | uptr t =>
      rw [deserE.eq_def, forget_step, pointerE_bind]
      refine (L p).bind fun ⟨k, p⟩ => ?_
      dsimp only
      refine .ite (.same _) ?_
      rw [forget_into]
      exact (hD _ _ _).bind fun _ => .same _
    | pptr b =>
      rw [deserE.eq_def, forget_step, pointerE_bind]
      refine (L p).bind fun ⟨k, p⟩ => ?_
      dsimp only
      refine .ite (.same _) ?_
      rw [forget_step]
      refine (Low.same _).bind fun ⟨name, p⟩ => ?_
      dsimp only
      cases env.registry.lookup name with
      | none => exact .same _
      | some c =>
        dsimp only
        rw [forget_ite]
        refine .ite (.same _) ?_
        cases env.defs c with
        | cls d =>
          dsimp only
          rw [forget_into]
          exact (hc _ _ _).bind fun _ => .same _
        | _ => exact .same _
    | named i =>
      rw [deserE.eq_def]
      dsimp only
      cases env.defs i with
      | cls d => exact hc _ _ _
      | tuple ts =>
        dsimp only
        rw [forget_step]
        refine (L p).bind fun ⟨k, p⟩ => ?_
        dsimp only
        rw [forget_ite]
        exact .ite (.same _) (by cases v <;> first | exact .same _ | exact hf _ _ _ _)
      | enum table =>
        dsimp only
        rw [forget_step, scalarE_bind]
        refine (L p).bind fun ⟨k, p⟩ => .ite (.same _) ((Low.same _).bind fun ⟨s, p⟩ => ?_)
        dsimp only
        cases enumOf table s <;> exact .same _
      | variant alts =>
        dsimp only
        rw [forget_step]
        refine (Low.same _).bind fun ⟨name, p⟩ => ?_
        dsimp only
        cases pickAlt env cfg (polyMarker env cfg.marker (alts.headD 0)) name alts with
        | none =>
          dsimp only
          rw [forget_step]
          exact .same _
        | some c =>
          dsimp only
          cases env.defs c with
          | cls d =>
            dsimp only
            rw [forget_into]
            exact (hc _ _ _).bind fun _ => .same _
          | _ => exact .same _
  · intro fm hm d v p
    rw [deserClassE.eq_def, forget_step]
    refine (L p).bind fun ⟨k, p⟩ => ?_
    dsimp only
    rw [forget_ite]
    exact .ite (.same _) (hm _ _ _ _)
  · intro fD fm hD hm d found v p
    rw [deserMembersE.eq_def, forget_step]
    refine (L p).bind fun ⟨k, p⟩ => ?_
    dsimp only
    rw [forget_ite, forget_ite]
    refine .ite (.same _) ?_
    rw [forget_step]
    refine (Low.same _).bind fun ⟨key, p⟩ => ?_
    dsimp only
    cases d.find key with
    | none =>
      dsimp only
      rw [forget_step]
      exact (Low.same _).bind fun _ => hm _ _ _ _
    | some slot =>
      dsimp only
      cases v.field slot.path slot.index with
      | none => exact .same _
      | some w =>
        dsimp only
        rw [forget_into]
        exact (hD _ _ _).bind fun _ => hm _ _ _ _
  · intro fD fd hD hd kind t kvs p
    rw [deserDictE.eq_def, forget_step]
    refine (L p).bind fun ⟨k, p⟩ => ?_
    dsimp only
    rw [forget_ite]
    refine .ite (.same _) ?_
    rw [forget_step]
    refine (Low.same _).bind fun ⟨key, p⟩ => ?_
    dsimp only
    rw [forget_into]
    refine Low.bind ?_ fun _ => ?_
    · exact hD _ _ _
    · exact hd _ _ _ _
  · intro fD ff hD hf tyAt i vs p
    rw [deserFixE.eq_def, forget_step]
    refine (L p).bind fun ⟨k, p⟩ => ?_
    dsimp only
    rw [forget_ite]
    refine .ite (.same _) ?_
    cases tyAt i with
    | none => exact .same _
    | some t =>
      cases vs[i]? with
      | none => exact .same _
      | some w =>
        dsimp only
        rw [forget_into]
        exact (hD _ _ _).bind fun _ => hf _ _ _ _
  · intro fD fv hD hv c t vs p
    rw [deserVecE.eq_def, forget_step]
    refine (L p).bind fun ⟨k, p⟩ => ?_
    dsimp only
    rw [forget_ite]
    refine .ite (.same _) ?_
    rw [forget_into]
    exact (hD _ _ _).bind fun _ => hv _ _ _ _

/-- Both models end alike. -/
theorem forget_deserE (o : POps σ) (env : Env) (cfg : Cfg) (m : Mess σ) (ty : Ty) (old : Val) (p : PI σ) :
    forget (deserE o env cfg m ty old p) = deser o env cfg ty old p := by
  rcases deserE_low o env cfg m ty old p with h | h
  · rcases deser_lowE o env cfg m ty old p with h' | h'
    · rw [h, h']
    · exact h'.symm
  · exact h

end Thors
