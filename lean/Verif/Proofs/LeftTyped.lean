import Verif.Proofs.Left
import Verif.Proofs.Typed
/-
What a throwing import leaves behind is a value of the type.
-/
namespace Thors
open Lean.Order StrIn Thors.Spec

variable {σ : Type} {env : Env} {o : POps σ}

/-- The object satisfies `P` in the end; no pointer dangles if all are smart. -/
def Leaves (m : Mess σ) (P : Val → Prop) : Eff σ → Prop
  | .done v _ => P v
  | .threw _ w d => P w ∧ ((∀ t, m.raw t = false) → d = false)

theorem Leaves.mono {m : Mess σ} {P Q : Val → Prop} {r : Eff σ} (h : Leaves m P r) (hq : ∀ v, P v → Q v) : Leaves m Q r := by
  cases r with
  | done v p => exact hq _ h
  | threw e w d => exact ⟨hq _ h.1, h.2⟩

theorem leaves_step {α : Type} {m : Mess σ} {P : Val → Prop} {Q : α → Prop} {r : Res α} {now : Val} {d : Bool} {k : α → Res (Eff σ)} (hr : Yields Q r) (hn : P now)
    (hd : (∀ t, m.raw t = false) → d = false) (hk : ∀ a, Q a → Yields (Leaves m P) (k a)) : Yields (Leaves m P) (step r now d k) := by
  unfold step
  cases r with
  | ok a => exact hk a (hr a rfl)
  | throw e => exact .ok ⟨hn, hd⟩
  | ub => exact .ub

theorem leaves_into {m : Mess σ} {P Q : Val → Prop} {r : Res (Eff σ)} {back : Val → Bool → Val × Bool} {k : Val → PI σ → Res (Eff σ)} (hr : Yields (Leaves m Q) r)
    (hb : ∀ w d, Q w → P (back w d).1) (hd : ∀ w, (back w false).2 = false) (hk : ∀ v p, Q v → Yields (Leaves m P) (k v p)) :
    Yields (Leaves m P) (into r back k) := by
  unfold into
  cases r with
  | ok a =>
    have ha := hr a rfl
    cases a with
    | done v p => exact hk v p ha
    | threw e w d =>
      refine .ok ⟨hb w d ha.1, fun h => ?_⟩
      rw [ha.2 h]
      exact hd w
  | throw e => exact .throw
  | ub => exact .ub

theorem mess_dangles {m : Mess σ} (ty : Ty) (v : Val) : (∀ t, m.raw t = false) → m.dangles ty v = false := by
  intro h
  unfold Mess.dangles
  split
  · rfl
  · exact h _

theorem scalarE_yields {α : Type} {P : α → Prop} {g : σ → Res (α × σ)} {p : PI σ} (h : ∀ s, Yields (fun x => P x.1) (g s)) : Yields (fun x => P x.1) (scalarE o g p) := by
  unfold scalarE
  refine (yields_any _).bind fun x _ => ?_
  dsimp only
  split
  · exact .throwStd
  · exact lift_yields (h _)

set_option maxHeartbeats 1000000 in
theorem deserE_typed (R : Ranged o) (D : DefaultsTyped env) (cfg : Cfg) (m : Mess σ) :
    ∀ ty old p, HasType env ty old → Yields (Leaves m (HasType env ty)) (deserE o env cfg m ty old p) := by
  refine (deserE.mutual_fixpoint_induct o env cfg m
    (fun f => ∀ ty old p, HasType env ty old → Yields (Leaves m (HasType env ty)) (f ty old p))
    (fun f => ∀ d old p, ClsHas env d old → Yields (Leaves m (ClsHas env d)) (f d old p))
    (fun f => ∀ d found old p, ClsHas env d old → Yields (Leaves m (ClsHas env d)) (f d found old p))
    (fun f => ∀ kind t kvs p, DictHas env t kvs ∧ InKeyOrder kind kvs → Yields (Leaves m fun v => ∃ kvs, v = .dict kvs ∧ DictHas env t kvs ∧ InKeyOrder kind kvs) (f kind t kvs p))
    (fun f => ∀ tyAt i vs p, FixHas env tyAt vs → Yields (Leaves m fun v => ∃ ws, v = .list ws ∧ ws.length = vs.length ∧ FixHas env tyAt ws) (f tyAt i vs p))
    (fun f => ∀ c t vs p, HaveType env t vs ∧ InSeqOrder env c vs → Yields (Leaves m fun v => ∃ ws, v = .list ws ∧ HaveType env t ws ∧ InSeqOrder env c ws) (f c t vs p))
    ?_ ?_ ?_ ?_ ?_ ?_ ?_ ?_ ?_ ?_ ?_ ?_).1
  · exact typAdm3 (fun ty _ _ (x : Eff σ) => Leaves m (HasType env ty) x) (fun ty old _ => HasType env ty old)
  · exact typAdm3 (fun d _ _ (x : Eff σ) => Leaves m (ClsHas env d) x) (fun d old _ => ClsHas env d old)
  · exact typAdm4 (fun d _ _ _ (x : Eff σ) => Leaves m (ClsHas env d) x) (fun d _ old _ => ClsHas env d old)
  · exact typAdm4 (fun kind t _ _ (x : Eff σ) => Leaves m (fun v => ∃ kvs, v = .dict kvs ∧ DictHas env t kvs ∧ InKeyOrder kind kvs) x) (fun kind t kvs _ => DictHas env t kvs ∧ InKeyOrder kind kvs)
  · exact typAdm4 (fun tyAt _ vs _ (x : Eff σ) => Leaves m (fun v => ∃ ws, v = .list ws ∧ ws.length = vs.length ∧ FixHas env tyAt ws) x) (fun tyAt _ vs _ => FixHas env tyAt vs)
  · exact typAdm4 (fun c t _ _ (x : Eff σ) => Leaves m (fun v => ∃ ws, v = .list ws ∧ HaveType env t ws ∧ InSeqOrder env c ws) x) (fun c t vs _ => HaveType env t vs ∧ InSeqOrder env c vs)
  · intro fD fc fd ff fv h1 h2 h4 h5 h6 ty old p ho
    cases ty with
    | int k =>
      by_cases hk : 0 < k.bits
      · exact leaves_step (scalarE_yields (P := fun i => InRange k i) fun s => R.int k s hk) ho (fun _ => rfl) fun x hx => .ok (by simp only [Leaves, HasType]; exact fun _ => hx)
      · exact leaves_step (yields_any _) ho (fun _ => rfl) fun x hx => .ok (by simp only [Leaves, HasType]; exact fun h => absurd h hk)
    | flt f =>
      by_cases hk : f ∈ [f32, f64, f80]
      · exact leaves_step (scalarE_yields (P := fun i => IsFlt f i) fun s => R.flt f s hk) ho (fun _ => rfl) fun x hx => .ok (by simp only [Leaves, HasType]; exact fun _ => hx)
      · exact leaves_step (yields_any _) ho (fun _ => rfl) fun x hx => .ok (by simp only [Leaves, HasType]; exact fun h => absurd h hk)
    | bool => exact leaves_step (yields_any _) ho (fun _ => rfl) fun x hx => .ok (by simp only [Leaves, HasType])
    | str =>
      refine leaves_step (yields_any _) ho (fun _ => rfl) fun x _ => ?_
      dsimp only
      split
      · exact .ok ⟨ho, fun _ => rfl⟩
      exact leaves_step (yields_any _) (by simp only [HasType]) (fun _ => rfl) fun x hx => .ok (by simp only [Leaves, HasType])
    | seq c t =>
      refine leaves_step (yields_any _) ho (fun _ => rfl) fun x _ => ?_
      dsimp only
      split
      · exact .ok ⟨ho, fun _ => rfl⟩
      split
      · rename_i vs
        have ho' := ho
        simp only [HasType] at ho'
        refine (h6 _ _ _ _ ho').mono fun x hx => hx.mono fun v hv => ?_
        obtain ⟨ws, e, hw⟩ := hv
        rw [e, HasType]
        exact hw
      · exact .ub
    | arr n t =>
      refine leaves_step (yields_any _) ho (fun _ => rfl) fun x _ => ?_
      dsimp only
      split
      · exact .ok ⟨ho, fun _ => rfl⟩
      split
      · rename_i vs
        have ho' := ho
        simp only [HasType] at ho'
        refine (h5 _ _ _ _ ((fixHas_arr ho'.1).2 ho'.2)).mono fun x hx => hx.mono fun v hv => ?_
        obtain ⟨ws, e, hl, hw⟩ := hv
        rw [e, HasType]
        have hl : ws.length = n := hl.trans ho'.1
        exact ⟨hl, (fixHas_arr hl).1 hw⟩
      · exact .ub
    | smap t =>
      refine leaves_step (yields_any _) ho (fun _ => rfl) fun x _ => ?_
      dsimp only
      split
      · exact .ok ⟨ho, fun _ => rfl⟩
      split
      · have ho' := ho
        simp only [HasType] at ho'
        refine (h4 .sorted _ _ _ ho').mono fun x hx => hx.mono fun v hv => ?_
        obtain ⟨ws, e, hw⟩ := hv
        rw [e, HasType]
        exact hw
      · exact .ub
    | mmap t =>
      refine leaves_step (yields_any _) ho (fun _ => rfl) fun x _ => ?_
      dsimp only
      split
      · exact .ok ⟨ho, fun _ => rfl⟩
      split
      · have ho' := ho
        simp only [HasType] at ho'
        refine (h4 .multi _ _ _ ho').mono fun x hx => hx.mono fun v hv => ?_
        obtain ⟨ws, e, hw⟩ := hv
        rw [e, HasType]
        exact hw
      · exact .ub
    | umap t =>
      refine leaves_step (yields_any _) ho (fun _ => rfl) fun x _ => ?_
      dsimp only
      split
      · exact .ok ⟨ho, fun _ => rfl⟩
      split
      · have ho' := ho
        simp only [HasType] at ho'
        refine (h4 .unordered _ _ _ ho').mono fun x hx => hx.mono fun v hv => ?_
        obtain ⟨ws, e, hw⟩ := hv
        rw [e, HasType]
        exact hw
      · exact .ub
    | opt t =>
      have hc : HasType env t (old.contentOr (t.default env)) := by
        cases old <;> simp only [HasType] at ho
        · exact default_typed D t
        · exact ho
      refine leaves_step (yields_any _) ho (fun _ => rfl) fun x _ => ?_
      exact leaves_into (h1 _ _ _ hc) (fun w d hw => by simp only [HasType]; exact hw) (fun _ => rfl) fun v p hv => .ok (by simp only [Leaves, HasType]; exact hv)
    | uptr t =>
      refine leaves_step (yields_any _) (by simp only [HasType]) (mess_dangles _ _) fun x _ => ?_
      dsimp only
      split
      · exact .ok (by simp only [Leaves, HasType])
      · exact leaves_into (h1 _ _ _ (default_typed D t)) (fun w d hw => by simp only [HasType]; exact hw) (fun _ => rfl)
          fun v p hv => .ok (by simp only [Leaves, HasType]; exact hv)
    | pptr b =>
      refine leaves_step (yields_any _) (by simp only [HasType]) (mess_dangles _ _) fun x _ => ?_
      dsimp only
      split
      · exact .ok (by simp only [Leaves, HasType])
      refine leaves_step (yields_any _) (by simp only [HasType]) (mess_dangles _ _) fun x _ => ?_
      split
      · exact .ok ⟨by simp only [HasType], mess_dangles _ _⟩
      rename_i c _
      split
      · exact .ub
      rename_i hd
      split
      · rename_i d hc
        have key : ∀ v, ClsHas env d.traits v → HasType env (.pptr b) (.dyn c v) := by
          intro v hv
          simp only [HasType]
          exact ⟨by simpa using hd, (hasType_cls hc _).2 hv⟩
        exact leaves_into (h2 _ _ _ ((hasType_cls hc _).1 (D c))) (fun w d hw => key w hw) (fun _ => rfl) fun v p hv => .ok (key v hv)
      · exact .ub
    | named i =>
      dsimp only
      split
      · rename_i d hc
        exact (h2 _ _ _ ((hasType_cls hc _).1 ho)).mono fun x hx => hx.mono fun v hv => (hasType_cls hc _).2 hv
      · rename_i ts hc
        refine leaves_step (yields_any _) ho (fun _ => rfl) fun x _ => ?_
        split
        · exact .ok ⟨ho, fun _ => rfl⟩
        split
        · rename_i vs
          have ho' := ho
          simp only [HasType, hc] at ho'
          obtain ⟨hl, hf⟩ := fixHas_tuple.2 ho'
          refine (h5 _ _ _ _ hf).mono fun x hx => hx.mono fun v hv => ?_
          obtain ⟨ws, e, hl', hw⟩ := hv
          rw [e]
          simp only [HasType, hc]
          exact fixHas_tuple.1 ⟨hl'.trans hl, hw⟩
        · exact .ub
      · rename_i table hc
        refine leaves_step (yields_any _) ho (fun _ => rfl) fun x _ => ?_
        split
        · rename_i v hv
          exact .ok (by simp only [Leaves, HasType, hc]; exact enumOf_mem hv)
        · exact .ok ⟨ho, fun _ => rfl⟩
      · rename_i alts hc
        refine leaves_step (yields_any _) ho (fun _ => rfl) fun x _ => ?_
        split
        · rename_i c hp
          split
          · rename_i d hd
            have key : ∀ v, ClsHas env d.traits v → HasType env (.named i) (.alt c v) := by
              intro v hv
              simp only [HasType, hc]
              exact ⟨pickAlt_among hp, (hasType_cls hd _).2 hv⟩
            exact leaves_into (h2 _ _ _ ((hasType_cls hd _).1 (D c))) (fun w d hw => key w hw) (fun _ => rfl) fun v p hv => .ok (key v hv)
          · exact .ub
        · exact leaves_step (yields_any _) ho (fun _ => rfl) fun p _ => .ok ho
  · intro fm h3 d old p ho
    refine leaves_step (yields_any _) ho (fun _ => rfl) fun x _ => ?_
    dsimp only
    split
    · exact .ok ⟨ho, fun _ => rfl⟩
    · exact h3 _ _ _ _ ho
  · intro fD fm h1 h3 d found old p ho
    refine leaves_step (yields_any _) ho (fun _ => rfl) fun x _ => ?_
    dsimp only
    split
    · split
      · exact .ok ⟨ho, fun _ => rfl⟩
      · exact .ok ho
    refine leaves_step (yields_any _) ho (fun _ => rfl) fun x _ => ?_
    split
    · exact leaves_step (yields_any _) ho (fun _ => rfl) fun p _ => h3 _ _ _ _ ho
    rename_i slot hs
    obtain ⟨w, e, hw, hset⟩ := find_typed d old slot ho hs
    split
    · exact .ub
    · rename_i w' e'
      rw [e] at e'
      cases e'
      exact leaves_into (h1 _ _ _ hw) (fun w d hw => hset _ hw) (fun _ => rfl) fun v p hv => h3 _ _ _ _ (hset _ hv)
  · intro fD fd h1 h4 kind t kvs p ho
    refine leaves_step (yields_any _) ⟨_, rfl, ho⟩ (fun _ => rfl) fun x _ => ?_
    dsimp only
    split
    · exact .ok ⟨_, rfl, ho⟩
    refine leaves_step (yields_any _) ⟨_, rfl, ho⟩ (fun _ => rfl) fun x _ => ?_
    cases kind with
    | sorted =>
      have hw : HasType env t ((dictGet x.1 kvs).getD (t.default env)) := by
        cases e : dictGet x.1 kvs with
        | none => exact default_typed D t
        | some v => exact dictGet_typed ho.1 e
      exact leaves_into (h1 _ _ _ hw) (fun w d hw => ⟨_, rfl, dictSet_typed hw ho.1, Props.ascending_dictSet ho.2⟩) (fun _ => rfl)
        fun v p hv => h4 _ _ _ _ ⟨dictSet_typed hv ho.1, Props.ascending_dictSet ho.2⟩
    | multi =>
      exact leaves_into (h1 _ _ _ (default_typed D t)) (fun w d hw => ⟨_, rfl, ho⟩) (fun _ => rfl)
        fun v p hv => h4 _ _ _ _ ⟨multiInsert_typed hv ho.1, Props.order_multi ho.2⟩
    | unordered =>
      exact leaves_into (h1 _ _ _ (default_typed D t)) (fun w d hw => ⟨_, rfl, ho⟩) (fun _ => rfl)
        fun v p hv => h4 _ _ _ _ ⟨uniqueInsert_typed hv ho.1, Props.nodup_unique ho.2⟩
  · intro fD ff h1 h5 tyAt i vs p ho
    refine leaves_step (yields_any _) ⟨_, rfl, rfl, ho⟩ (fun _ => rfl) fun x _ => ?_
    dsimp only
    split
    · exact .ok ⟨_, rfl, rfl, ho⟩
    split
    · rename_i t w ht hw
      refine leaves_into (h1 _ _ _ (ho _ _ _ ht hw)) (fun w d hw => ⟨_, rfl, by simp, fixHas_set ho ht hw⟩) (fun _ => rfl) fun v p hv => ?_
      refine (h5 _ _ _ _ (fixHas_set ho ht hv)).mono fun z hz => hz.mono fun u hu => ?_
      obtain ⟨ws, e, hl, h⟩ := hu
      exact ⟨ws, e, by simpa using hl, h⟩
    · exact .ub
  · intro fD fv h1 h6 c t vs p ho
    refine leaves_step (yields_any _) ⟨_, rfl, ho⟩ (fun _ => rfl) fun x _ => ?_
    dsimp only
    split
    · exact .ok ⟨_, rfl, ho⟩
    · refine leaves_into (h1 _ _ _ (default_typed D t)) (fun w d hw => ?_) (fun w => ?_) fun v p hv => h6 _ _ _ _ (seqInsert_typed c ho.1 ho.2 hv)
      · split
        · rename_i hp
          cases c with
          | back => exact ⟨_, rfl, seqInsert_typed .back ho.1 ho.2 hw⟩
          | _ => simp [Mess.inPlace] at hp
        · exact ⟨_, rfl, ho⟩
      · split <;> rfl

/-- The object after an import, whatever became of it. -/
theorem objectAfter_typed (R : Ranged o) (D : DefaultsTyped env) (cfg : Cfg) (m : Mess σ) (ty : Ty) (old : Val) (p : PI σ) (ho : HasType env ty old) :
    Yields (fun x => HasType env ty x.1 ∧ ((∀ t, m.raw t = false) → x.2 = false)) (objectAfter o env cfg m ty old p) := by
  unfold objectAfter
  have h : Yields (Leaves m (HasType env ty)) (step (p.getToken o) old false fun (k, p) =>
      if k ≠ .DocStart then .ok (.threw .std old false) else deserE o env cfg m ty old p) := by
    refine leaves_step (yields_any _) ho (fun _ => rfl) fun x _ => ?_
    dsimp only
    split
    · exact .ok ⟨ho, fun _ => rfl⟩
    · exact deserE_typed R D cfg m ty old _ ho
  refine h.bind fun r hr => ?_
  cases r with
  | done v p => exact .ok ⟨hr, fun _ => rfl⟩
  | threw e w d => exact .ok hr

end Thors
