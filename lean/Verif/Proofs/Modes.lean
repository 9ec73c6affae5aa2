import Verif.Spec.Modes
import Verif.Proofs.Typed
import Verif.Model.Importer
/-
A laxer mode accepts more and does not change what is read.
-/
namespace Thors
open StrIn Lean.Order Thors.Spec

/-- What the first run returns, the second returns, too. -/
def Sub {α : Type} (r r' : Res α) : Prop := Yields (fun x => r' = .ok x) r

namespace Sub
variable {α β : Type}

theorem refl (r : Res α) : Sub r r := fun _ h => h
theorem throwStd {r : Res α} : Sub throwStd r := Yields.throwStd
theorem ub {r : Res α} : Sub .ub r := Yields.ub
theorem bind {r r' : Res α} {f f' : α → Res β} (h : Sub r r') (h2 : ∀ a, Sub (f a) (f' a)) : Sub (r >>= f) (r' >>= f') := by
  intro x hx
  obtain ⟨a, e1, e2⟩ := Res.bind_eq_ok.1 hx
  exact Res.bind_eq_ok.2 ⟨a, h a e1, h2 a x e2⟩
theorem same {r : Res α} {f f' : α → Res β} (h2 : ∀ a, Sub (f a) (f' a)) : Sub (r >>= f) (r >>= f') := (Sub.refl r).bind h2
theorem ite {c : Prop} [Decidable c] {a b a' b' : Res α} (h1 : Sub a a') (h2 : Sub b b') : Sub (if c then a else b) (if c then a' else b') := by
  by_cases h : c
  · rw [if_pos h, if_pos h]; exact h1
  · rw [if_neg h, if_neg h]; exact h2
end Sub

variable {σ : Type} {o : POps σ} {env : Env}

theorem ignore_laxer {m m' : ParseType} (h : Laxer m m') (p : PI σ) : Sub (p.ignoreValue o m) (p.ignoreValue o m') := by
  cases m with
  | Weak => cases h; exact .refl _
  | Strict => exact .throwStd
  | Exact => exact .throwStd

theorem pickAlt_marker {cfg cfg' : Cfg} (h : cfg'.marker = cfg.marker) (key name : Bytes) : ∀ alts, pickAlt env cfg' key name alts = pickAlt env cfg key name alts
  | [] => rfl
  | c :: cs => by
    simp only [pickAlt, h, pickAlt_marker h key name cs]

set_option maxHeartbeats 1000000 in
theorem deser_laxer {cfg cfg' : Cfg} (hm : cfg'.marker = cfg.marker) (hl : Laxer cfg.strict cfg'.strict) :
    ∀ ty old p, True → Sub (deser o env cfg ty old p) (deser o env cfg' ty old p) := by
  refine (deser.mutual_fixpoint_induct o env cfg
    (fun f => ∀ ty old p, True → Sub (f ty old p) (deser o env cfg' ty old p))
    (fun f => ∀ d old p, True → Sub (f d old p) (deserClass o env cfg' d old p))
    (fun f => ∀ d found old p, True → Sub (f d found old p) (deserMembers o env cfg' d found old p))
    (fun f => ∀ kind t kvs p, True → Sub (f kind t kvs p) (deserDict o env cfg' kind t kvs p))
    (fun f => ∀ tyAt i vs p, True → Sub (f tyAt i vs p) (deserFix o env cfg' tyAt i vs p))
    (fun f => ∀ c t vs p, True → Sub (f c t vs p) (deserVec o env cfg' c t vs p))
    ?_ ?_ ?_ ?_ ?_ ?_ ?_ ?_ ?_ ?_ ?_ ?_).1
  · exact typAdm3 (fun ty old p x => deser o env cfg' ty old p = .ok x) (fun _ _ (_ : PI σ) => True)
  · exact typAdm3 (fun d old p x => deserClass o env cfg' d old p = .ok x) (fun _ _ (_ : PI σ) => True)
  · exact typAdm4 (fun d found old p x => deserMembers o env cfg' d found old p = .ok x) (fun _ _ _ (_ : PI σ) => True)
  · exact typAdm4 (fun kind t kvs p x => deserDict o env cfg' kind t kvs p = .ok x) (fun _ _ _ (_ : PI σ) => True)
  · exact typAdm4 (fun tyAt i vs p x => deserFix o env cfg' tyAt i vs p = .ok x) (fun _ _ _ (_ : PI σ) => True)
  · exact typAdm4 (fun c t vs p x => deserVec o env cfg' c t vs p = .ok x) (fun _ _ _ (_ : PI σ) => True)
  · intro deser deserClass deserDict deserFix deserVec h1 h2 h4 h5 h6 ty old p _
    rw [Thors.deser.eq_def]
    cases ty with
    | int k => exact .refl _
    | flt f => exact .refl _
    | bool => exact .refl _
    | str => exact .refl _
    | seq c t =>
      refine .same fun x => .ite .throwStd ?_
      cases old with
      | list vs => exact h6 _ _ _ _ trivial
      | _ => exact .ub
    | arr n t =>
      refine .same fun x => .ite .throwStd ?_
      cases old with
      | list vs => exact h5 _ _ _ _ trivial
      | _ => exact .ub
    | smap t =>
      refine .same fun x => .ite .throwStd ?_
      cases old with
      | dict vs => exact h4 _ _ _ _ trivial
      | _ => exact .ub
    | mmap t =>
      refine .same fun x => .ite .throwStd ?_
      cases old with
      | dict vs => exact h4 _ _ _ _ trivial
      | _ => exact .ub
    | umap t =>
      refine .same fun x => .ite .throwStd ?_
      cases old with
      | dict vs => exact h4 _ _ _ _ trivial
      | _ => exact .ub
    | opt t => exact (h1 _ _ _ trivial).bind fun x => .refl _
    | uptr t => exact .same fun x => .ite (.refl _) ((h1 _ _ _ trivial).bind fun x => .refl _)
    | pptr b =>
      refine .same fun x => .ite (.refl _) ?_
      dsimp only
      rw [hm]
      refine .same fun y => ?_
      cases env.registry.lookup y.1 with
      | none => exact .throwStd
      | some c =>
        refine .ite .ub ?_
        cases env.defs c with
        | cls d => exact (h2 _ _ _ trivial).bind fun x => .refl _
        | _ => exact .ub
    | named i =>
      dsimp only
      cases env.defs i with
      | cls d => exact h2 _ _ _ trivial
      | tuple ts =>
        refine .same fun x => .ite .throwStd ?_
        cases old with
        | list vs => exact h5 _ _ _ _ trivial
        | _ => exact .ub
      | enum table => exact .refl _
      | variant alts =>
        dsimp only
        rw [hm]
        refine .same fun x => ?_
        rw [pickAlt_marker hm]
        cases pickAlt env cfg (polyMarker env cfg.marker (alts.headD 0)) x.1 alts with
        | none => exact (ignore_laxer hl _).bind fun x => .refl _
        | some c =>
          dsimp only
          cases env.defs c with
          | cls d => exact (h2 _ _ _ trivial).bind fun x => .refl _
          | _ => exact .ub
  · intro deserMembers h3 d old p _
    rw [Thors.deserClass.eq_def]
    exact .same fun x => .ite .throwStd (h3 _ _ _ _ trivial)
  · intro deser deserMembers h1 h3 d found old p _
    rw [Thors.deserMembers.eq_def]
    refine .same fun x => .ite ?_ (.same fun y => ?_)
    · by_cases h : cfg'.strict = .Exact ∧ d.heed found = false
      · have : cfg.strict = .Exact := by
          have h1 := h.1
          rw [h1] at hl
          cases hc : cfg.strict <;> rw [hc] at hl <;> simp_all [Laxer]
        rw [if_pos h, if_pos ⟨this, h.2⟩]
        exact .throwStd
      · rw [if_neg h]
        split
        · exact .throwStd
        · exact .refl _
    · dsimp only
      cases d.find y.1 with
      | none => exact (ignore_laxer hl _).bind fun p => h3 _ _ _ _ trivial
      | some slot =>
        dsimp only
        cases old.field slot.path slot.index with
        | none => exact .ub
        | some w => exact (h1 _ _ _ trivial).bind fun x => h3 _ _ _ _ trivial
  · intro deser deserDict h1 h4 kind t kvs p _
    rw [Thors.deserDict.eq_def]
    exact .same fun x => .ite (.refl _) (.same fun y => (h1 _ _ _ trivial).bind fun z => h4 _ _ _ _ trivial)
  · intro deser deserFix h1 h5 tyAt i vs p _
    rw [Thors.deserFix.eq_def]
    refine .same fun x => .ite (.refl _) ?_
    cases tyAt i with
    | none => exact .ub
    | some t =>
      cases vs[i]? with
      | none => exact .ub
      | some w => exact (h1 _ _ _ trivial).bind fun z => h5 _ _ _ _ trivial
  · intro deser deserVec h1 h6 c t vs p _
    rw [Thors.deserVec.eq_def]
    exact .same fun x => .ite (.refl _) ((h1 _ _ _ trivial).bind fun z => h6 _ _ _ _ trivial)

/-- An import that succeeds does the same in a laxer mode. -/
theorem import_laxer {cfg cfg' : Cfg} (hm : cfg'.marker = cfg.marker) (hl : Laxer cfg.strict cfg'.strict) (ty : Ty) (old : Val) (p : PI σ) :
    Sub (importValue o env cfg ty old p) (importValue o env cfg' ty old p) :=
  .same fun _ => .ite .throwStd ((deser_laxer hm hl _ _ _ trivial).bind fun _ => .refl _)

/-- The same for a whole call of `extract`: if the object was read, the call ends in the same way. -/
theorem extract_laxer (io : InOps σ) {cfg cfg' : Cfg} (hm : cfg'.marker = cfg.marker) (hl : Laxer cfg.strict cfg'.strict) (pol : Policy) (ty : Ty) (old : Val) (p : PI σ)
    (r : Bool) (v : Val) (h : (extract io env cfg pol ty old p).fate = .returned r (some v)) : extract io env cfg' pol ty old p = extract io env cfg pol ty old p := by
  have hs : Sub (do
      let (k, p) ← p.getToken io.ops
      if k ≠ Tok.DocStart then throwStd else
      deser io.ops env cfg ty old p : Res (Val × PI σ)) (do
      let (k, p) ← p.getToken io.ops
      if k ≠ Tok.DocStart then throwStd else
      deser io.ops env cfg' ty old p : Res (Val × PI σ)) :=
    .same fun _ => .ite .throwStd (deser_laxer hm hl _ _ _ trivial)
  unfold extract at h ⊢
  cases hx : (do
      let (k, p) ← p.getToken io.ops
      if k ≠ Tok.DocStart then throwStd else
      deser io.ops env cfg ty old p : Res (Val × PI σ)) with
  | ub => rw [hx] at h; cases h
  | throw e =>
    rw [hx] at h
    dsimp only at h
    unfold Policy.handle at h
    cases e <;> dsimp only at h <;> try split at h
    all_goals cases h
  | ok x => rw [hs x hx]

end Thors
