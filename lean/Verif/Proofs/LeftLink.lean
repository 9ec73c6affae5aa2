import Verif.Proofs.LeftTyped
/-
The object after an import is what the import says it is.
-/
namespace Thors
open Lean.Order StrIn

variable {σ : Type}

/-- Exceptions are caught. -/
def Quiet (r : Res (Eff σ)) : Prop := ∀ e, r ≠ .throw e

theorem Quiet.ok {x : Eff σ} : Quiet (.ok x) := by intro e h; cases h
theorem Quiet.ub : Quiet (σ := σ) .ub := by intro e h; cases h

theorem quiet_step {α : Type} {r : Res α} {now : Val} {d : Bool} {k : α → Res (Eff σ)} (hk : ∀ a, Quiet (k a)) : Quiet (step r now d k) := by
  unfold step
  cases r with
  | ok a => exact hk a
  | throw e => exact .ok
  | ub => exact .ub

theorem quiet_into {r : Res (Eff σ)} {back : Val → Bool → Val × Bool} {k : Val → PI σ → Res (Eff σ)} (hr : Quiet r) (hk : ∀ v p, Quiet (k v p)) : Quiet (into r back k) := by
  unfold into
  cases r with
  | ok a =>
    cases a with
    | done v p => exact hk v p
    | threw e w d => exact .ok
  | throw e => exact absurd rfl (hr e)
  | ub => exact .ub

theorem quiet_adm3 {α β γ : Type} : admissible fun f : α → β → γ → Res (Eff σ) => ∀ a b c, Quiet (f a b c) :=
  admissible_pi_apply (fun a (f : β → γ → Res (Eff σ)) => ∀ b c, Quiet (f b c)) fun a =>
  admissible_pi_apply (fun b (f : γ → Res (Eff σ)) => ∀ c, Quiet (f c)) fun b =>
  admissible_pi_apply (fun c (r : Res (Eff σ)) => Quiet r) fun c => admissible_flatOrder (b := Res.ub) _ Quiet.ub

theorem quiet_adm4 {α β γ δ : Type} : admissible fun f : α → β → γ → δ → Res (Eff σ) => ∀ a b c d, Quiet (f a b c d) :=
  admissible_pi_apply (fun a (f : β → γ → δ → Res (Eff σ)) => ∀ b c d, Quiet (f b c d)) fun a => quiet_adm3

theorem deserE_quiet (o : POps σ) (env : Env) (cfg : Cfg) (m : Mess σ) : ∀ ty old p, Quiet (deserE o env cfg m ty old p) := by
  refine (deserE.mutual_fixpoint_induct o env cfg m
    (fun f => ∀ ty old p, Quiet (f ty old p)) (fun f => ∀ d old p, Quiet (f d old p)) (fun f => ∀ d found old p, Quiet (f d found old p))
    (fun f => ∀ kind t kvs p, Quiet (f kind t kvs p)) (fun f => ∀ tyAt i vs p, Quiet (f tyAt i vs p)) (fun f => ∀ c t vs p, Quiet (f c t vs p))
    quiet_adm3 quiet_adm3 quiet_adm4 quiet_adm4 quiet_adm4 quiet_adm4 ?_ ?_ ?_ ?_ ?_ ?_).1
  · intro fD fc fd ff fv h1 h2 h4 h5 h6 ty old p
    cases ty <;> dsimp only
    all_goals repeat' first
      | exact .ok
      | exact .ub
      | exact h1 _ _ _
      | exact h2 _ _ _
      | exact h4 _ _ _ _
      | exact h5 _ _ _ _
      | exact h6 _ _ _ _
      | refine quiet_step fun _ => ?_
      | refine quiet_into ?_ fun _ _ => ?_
      | split
  · intro fm h3 d old p
    repeat' first
      | exact .ok
      | exact h3 _ _ _ _
      | refine quiet_step fun _ => ?_
      | split
  · intro fD fm h1 h3 d found old p
    repeat' first
      | exact .ok
      | exact .ub
      | exact h1 _ _ _
      | exact h3 _ _ _ _
      | refine quiet_step fun _ => ?_
      | refine quiet_into ?_ fun _ _ => ?_
      | split
  · intro fD fd h1 h4 kind t kvs p
    cases kind <;> repeat' first
      | exact .ok
      | exact h1 _ _ _
      | exact h4 _ _ _ _
      | refine quiet_step fun _ => ?_
      | refine quiet_into ?_ fun _ _ => ?_
      | split
  · intro fD ff h1 h5 tyAt i vs p
    repeat' first
      | exact .ok
      | exact .ub
      | exact h1 _ _ _
      | exact h5 _ _ _ _
      | refine quiet_step fun _ => ?_
      | refine quiet_into ?_ fun _ _ => ?_
      | split
  · intro fD fv h1 h6 c t vs p
    repeat' first
      | exact .ok
      | exact h1 _ _ _
      | exact h6 _ _ _ _
      | refine quiet_step fun _ => ?_
      | refine quiet_into ?_ fun _ _ => ?_
      | split

/-- The object after an import and the outcome of the import agree. -/
theorem objectAfter_link (o : POps σ) (env : Env) (cfg : Cfg) (m : Mess σ) (ty : Ty) (old : Val) (p : PI σ) :
    match (do let (k, p) ← p.getToken o; if k ≠ Tok.DocStart then throwStd else deser o env cfg ty old p : Res (Val × PI σ)) with
    | .ok (v, _) => objectAfter o env cfg m ty old p = .ok (v, false)
    | .throw _ => ∃ w d, objectAfter o env cfg m ty old p = .ok (w, d)
    | .ub => objectAfter o env cfg m ty old p = .ub := by
  unfold objectAfter
  cases hg : p.getToken o with
  | ub => rfl
  | throw e => exact ⟨_, _, rfl⟩
  | ok x =>
    obtain ⟨k, p⟩ := x
    simp only [Res.ok_bind, step, Res.attempt]
    by_cases hk : k ≠ .DocStart
    · rw [if_pos hk, if_pos hk]
      exact ⟨_, _, rfl⟩
    · rw [if_neg hk, if_neg hk, ← forget_deserE o env cfg m]
      have hq := deserE_quiet o env cfg m ty old p
      cases h : deserE o env cfg m ty old p with
      | ub => rfl
      | throw e => exact absurd h (hq e)
      | ok r =>
        cases r with
        | done v p => rfl
        | threw e w d => exact ⟨_, _, rfl⟩

theorem extract_after (io : InOps σ) (env : Env) (cfg : Cfg) (pol : Policy) (m : Mess σ) (ty : Ty) (old : Val) (p : PI σ)
    (h : (extract io env cfg pol ty old p).fate ≠ .ub) :
    ∃ w d, objectAfter io.ops env cfg m ty old p = .ok (w, d) ∧ ∀ r v, (extract io env cfg pol ty old p).fate = .returned r (some v) → w = v ∧ d = false := by
  have hl := objectAfter_link io.ops env cfg m ty old p
  unfold extract at h ⊢
  revert hl h
  generalize (do let (k, p) ← p.getToken io.ops; if k ≠ Tok.DocStart then throwStd else deser io.ops env cfg ty old p : Res (Val × PI σ)) = r
  intro hl h
  cases r with
  | ub => exact absurd rfl hl
  | throw e =>
    obtain ⟨w, d, hw⟩ := h
    refine ⟨w, d, hw, fun r v hr => ?_⟩
    exfalso
    dsimp only at hr
    unfold Policy.handle at hr
    split at hr
    · cases hr
    · split at hr <;> cases hr
    · split at hr <;> cases hr
  | ok x =>
    obtain ⟨v, q⟩ := x
    refine ⟨v, false, h, fun r v' hr => ⟨?_, rfl⟩⟩
    dsimp only at hr
    have hh : ∀ e, (Policy.handle (α := Val) pol e).fate ≠ .returned r (some v') := by
      intro e h
      unfold Policy.handle at h
      split at h
      · cases h
      · split at h <;> cases h
      · split at h <;> cases h
    split at hr
    · cases hr
    · split at hr
      · cases hr
      · exact absurd hr (hh _)
    · split at hr
      · split at hr
        · cases hr
        · exact absurd hr (hh _)
      split at hr
      · exact absurd hr (hh _)
      · cases hr
        rfl

theorem import_after (o : POps σ) (env : Env) (cfg : Cfg) (m : Mess σ) (ty : Ty) (old : Val) (p : PI σ) :
    match importValue o env cfg ty old p with
    | .ok (v, _) => objectAfter o env cfg m ty old p = .ok (v, false)
    | .throw _ => ∃ w d, objectAfter o env cfg m ty old p = .ok (w, d)
    | .ub => True := by
  have hl := objectAfter_link o env cfg m ty old p
  have e : importValue o env cfg ty old p = (do
      let (v, p) ← (do let (k, p) ← p.getToken o; if k ≠ Tok.DocStart then throwStd else deser o env cfg ty old p : Res (Val × PI σ))
      let (k, p) ← p.getToken o
      if k ≠ .DocEnd then throwStd else return (v, p)) := by
    unfold importValue
    cases p.getToken o with
    | ok x =>
      simp only [Res.ok_bind]
      split <;> rfl
    | throw e => rfl
    | ub => rfl
  rw [e]
  revert hl
  generalize (do let (k, p) ← p.getToken o; if k ≠ Tok.DocStart then throwStd else deser o env cfg ty old p : Res (Val × PI σ)) = r
  intro h
  cases r with
  | ub => trivial
  | throw e => exact h
  | ok x =>
    obtain ⟨v, q⟩ := x
    simp only [Res.ok_bind]
    cases q.getToken o with
    | ub => trivial
    | throw e => exact ⟨_, _, h⟩
    | ok x =>
      obtain ⟨k, q⟩ := x
      simp only [Res.ok_bind]
      by_cases hk : k ≠ .DocEnd
      · rw [if_pos hk]
        exact ⟨_, _, h⟩
      · rw [if_neg hk]
        exact h

end Thors
