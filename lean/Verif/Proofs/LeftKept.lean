import Verif.Proofs.Left
import Verif.Proofs.LeftTyped
import Verif.Proofs.Touch
/-
A name that is nowhere in the text: what is under it is left alone.
-/
namespace Thors
open Lean.Order StrIn Thors.Spec

variable {σ : Type} {env : Env} {o : POps σ}

/-- An invariant of the concrete parser under which the name `k` is never a key. -/
structure Avoids (o : POps σ) (I : σ → Prop) (k : Bytes) : Prop where
  next : ∀ s, I s → Yields (fun x => I x.2) (o.next s)
  getKey : ∀ s, I s → Yields (fun x => x.1 ≠ k ∧ I x.2) (o.getKey s)
  getInt : ∀ i s, I s → Yields (fun x => I x.2) (o.getInt i s)
  getFlt : ∀ f s, I s → Yields (fun x => I x.2) (o.getFlt f s)
  getBool : ∀ s, I s → Yields (fun x => I x.2) (o.getBool s)
  getStr : ∀ s, I s → Yields (fun x => I x.2) (o.getStr s)
  ignoreData : ∀ s, I s → Yields I (o.ignoreData s)

section
variable {I : σ → Prop} {k : Bytes} (A : Avoids o I k)
include A

theorem Avoids.token {p : PI σ} (h : I p.inner) : Yields (fun x => I x.2.inner) (p.getToken o) := by
  unfold PI.getToken
  split
  · exact .ok h
  split
  · exact .ok h
  · exact (A.next _ h).bind fun x hx => .ok hx

omit A in
theorem pushBack_inner (p : PI σ) (t : Tok) : (p.pushBackToken t).inner = p.inner := by
  unfold PI.pushBackToken
  split
  · rfl
  split <;> rfl

omit A in
theorem lift_inner {α : Type} {P : α → σ → Prop} {p : PI σ} {r : Res (α × σ)} (h : Yields (fun x => P x.1 x.2) r) : Yields (fun x => P x.1 x.2.inner) (p.lift r) := by
  unfold PI.lift
  exact h.bind fun x hx => .ok hx

theorem Avoids.watch : Watch o I (fun _ => True) (fun _ => True) where
  next s h := (A.next s h).mono fun x hx => ⟨hx, trivial, fun _ => trivial⟩
  getKey s h := (A.getKey s h).mono fun x hx => hx.2
  getInt i s h _ := A.getInt i s h
  getFlt f s h _ := A.getFlt f s h
  getBool s h _ := A.getBool s h
  getStr s h _ := A.getStr s h
  ignoreData s h := A.ignoreData s h
  error := trivial
  mapStart := trivial

theorem Avoids.ignoreValue {p : PI σ} (h : I p.inner) (strict : ParseType) : Yields (fun p => I p.inner) (p.ignoreValue o strict) := by
  unfold PI.ignoreValue
  split
  · exact .throwStd
  · exact ((ignore_watch A.watch).1 _ h).bind fun x hx => .ok hx

theorem Avoids.polyName {p : PI σ} (h : I p.inner) (marker : Bytes) : Yields (fun x => I x.2.inner) (polyClassName o marker p) := by
  unfold polyClassName
  refine (A.token h).bind ?_
  rintro ⟨_, _⟩ h
  dsimp only at h ⊢
  split
  · exact .throwStd
  refine (A.token h).bind ?_
  rintro ⟨_, _⟩ h
  dsimp only at h ⊢
  split
  · exact .throwStd
  refine (lift_inner (P := fun a s => a ≠ k ∧ I s) (A.getKey _ h)).bind ?_
  rintro ⟨_, _⟩ h
  dsimp only at h ⊢
  split
  · exact .throwStd
  refine (A.token h.2).bind ?_
  rintro ⟨_, _⟩ h
  dsimp only at h ⊢
  split
  · exact .throwStd
  refine (lift_inner (P := fun _ s => I s) (A.getStr _ h)).bind ?_
  rintro ⟨_, _⟩ h
  exact .ok (by rw [pushBack_inner]; exact h)

theorem Avoids.pointer {p : PI σ} (h : I p.inner) : Yields (fun x => I x.2.inner) (pointerE o p) := by
  unfold pointerE
  refine (A.token h).bind fun x h => ?_
  dsimp only
  split
  · exact (A.ignoreData _ h).bind fun x hx => .ok hx
  · exact .ok h

theorem Avoids.scalar {α : Type} {g : σ → Res (α × σ)} {p : PI σ} (h : I p.inner) (hg : ∀ s, I s → Yields (fun x => I x.2) (g s)) :
    Yields (fun x => I x.2.inner) (scalarE o g p) := by
  unfold scalarE
  refine (A.token h).bind fun x h => ?_
  dsimp only
  split
  · exact .throwStd
  · exact lift_inner (P := fun _ s => I s) (hg _ h)
end

/-- How the object ends, and that the parser keeps its invariant. -/
def EndsIn (I : σ → Prop) (P : Val → Prop) : Eff σ → Prop
  | .done v p => P v ∧ I p.inner
  | .threw _ w _ => P w

theorem EndsIn.mono {I : σ → Prop} {P Q : Val → Prop} {r : Eff σ} (h : EndsIn I P r) (hq : ∀ v, P v → Q v) : EndsIn I Q r := by
  cases r with
  | done v p => exact ⟨hq _ h.1, h.2⟩
  | threw e w d => exact hq _ h

theorem endsIn_step {α : Type} {I : σ → Prop} {P : Val → Prop} {Q : α → Prop} {r : Res α} {now : Val} {d : Bool} {k : α → Res (Eff σ)} (hr : Yields Q r) (hn : P now)
    (hk : ∀ a, Q a → Yields (EndsIn I P) (k a)) : Yields (EndsIn I P) (step r now d k) := by
  unfold step
  cases r with
  | ok a => exact hk a (hr a rfl)
  | throw e => exact .ok hn
  | ub => exact .ub

theorem endsIn_into {I : σ → Prop} {P Q : Val → Prop} {r : Res (Eff σ)} {back : Val → Bool → Val × Bool} {k : Val → PI σ → Res (Eff σ)} (hr : Yields (EndsIn I Q) r)
    (hb : ∀ w d, Q w → P (back w d).1) (hk : ∀ v p, Q v → I p.inner → Yields (EndsIn I P) (k v p)) :
    Yields (EndsIn I P) (into r back k) := by
  unfold into
  cases r with
  | ok a =>
    have ha := hr a rfl
    cases a with
    | done v p => exact hk v p ha.1 ha.2
    | threw e w d => exact .ok (hb w d ha)
  | throw e => exact .throw
  | ub => exact .ub

/-- What is under the name `k` is in the new value as it was in the old one. -/
def Kept (env : Env) (k : Bytes) (ty : Ty) (old new : Val) : Prop :=
  ∀ p x, Step.key k ∈ p → look env p ty old = some x → look env p ty new = some x

/-- The same for the members of a class, -/
def KeptC (env : Env) (k : Bytes) (d : StructDef) (old new : Val) : Prop :=
  ∀ k' slot p x w, d.find k' = some slot → k = k' ∨ Step.key k ∈ p → old.field slot.path slot.index = some w → look env p slot.ty w = some x →
    ∃ w', new.field slot.path slot.index = some w' ∧ look env p slot.ty w' = some x

/-- the entries of a `std::map`, -/
def KeptD (env : Env) (k : Bytes) (kind : DictKind) (t : Ty) (kvs : List (Bytes × Val)) (new : Val) : Prop :=
  ∃ kvs', new = .dict kvs' ∧ (kind = .sorted → ∀ k' p x w, k = k' ∨ Step.key k ∈ p → dictGet k' kvs = some w → look env p t w = some x →
    ∃ w', dictGet k' kvs' = some w' ∧ look env p t w' = some x)

/-- and the elements of an array or tuple. -/
def KeptF (env : Env) (k : Bytes) (tyAt : Nat → Option Ty) (vs : List Val) (new : Val) : Prop :=
  ∃ ws, new = .list ws ∧ ∀ i t w p x, Step.key k ∈ p → tyAt i = some t → vs[i]? = some w → look env p t w = some x →
    ∃ w', ws[i]? = some w' ∧ look env p t w' = some x

variable {k : Bytes}

theorem Kept.refl (ty : Ty) (v : Val) : Kept env k ty v v := fun _ _ _ h => h

theorem KeptC.refl (d : StructDef) (v : Val) : KeptC env k d v v := fun _ _ _ _ w _ _ h h' => ⟨w, h, h'⟩

theorem KeptD.refl (kind : DictKind) (t : Ty) (kvs : List (Bytes × Val)) : KeptD env k kind t kvs (.dict kvs) :=
  ⟨_, rfl, fun _ _ _ _ w _ h h' => ⟨w, h, h'⟩⟩

theorem KeptF.refl (tyAt : Nat → Option Ty) (vs : List Val) : KeptF env k tyAt vs (.list vs) := ⟨_, rfl, fun _ _ w _ _ _ _ h h' => ⟨w, h, h'⟩⟩

/-- There is nothing under a name in a value without parts. -/
theorem kept_atom {ty : Ty} {old new : Val} (h : ∀ s, part env (unwrap ty old).1 (unwrap ty old).2 s = none) : Kept env k ty old new := by
  intro p x hk hl
  cases p with
  | nil => cases hk
  | cons s p =>
    rw [look, h s] at hl
    cases hl

theorem kept_opt {t : Ty} {old new : Val} (h : Kept env k t (old.contentOr (t.default env)) new) : Kept env k (.opt t) old (.some new) := by
  intro p x hk hl
  cases p with
  | nil => cases hk
  | cons s p =>
    cases old with
    | some w =>
      have e : ∀ w, look env (s :: p) (.opt t) (.some w) = look env (s :: p) t w := fun w => by simp only [look, unwrap]
      rw [e] at hl ⊢
      exact h _ _ hk hl
    | _ => simp [look, unwrap, part] at hl

theorem kept_cls {i : Nat} {d : ClassDef} (hd : env.defs i = .cls d) {old new : Val} (h : KeptC env k d.traits old new) : Kept env k (.named i) old new := by
  intro p x hk hl
  cases p with
  | nil => cases hk
  | cons s p =>
    cases s with
    | index n => cases old <;> simp [look, unwrap, part, hd] at hl
    | key k' =>
      simp only [look, unwrap, part, hd] at hl ⊢
      cases hf : d.traits.find k' with
      | none => rw [hf] at hl; simp at hl
      | some slot =>
      rw [hf] at hl
      dsimp only at hl ⊢
      cases hw : old.field slot.path slot.index with
      | none => rw [hw] at hl; simp at hl
      | some w =>
      rw [hw] at hl
      have hk : k = k' ∨ Step.key k ∈ p := by simpa using hk
      obtain ⟨w', h1, h2⟩ := h k' slot p x w hf hk hw hl
      rw [h1]
      exact h2

theorem kept_smap {t : Ty} {kvs : List (Bytes × Val)} {new : Val} (h : KeptD env k .sorted t kvs new) : Kept env k (.smap t) (.dict kvs) new := by
  obtain ⟨kvs', rfl, h⟩ := h
  intro p x hk hl
  cases p with
  | nil => cases hk
  | cons s p =>
    cases s with
    | index n => simp [look, unwrap, part] at hl
    | key k' =>
      simp only [look, unwrap, part] at hl ⊢
      cases hw : dictGet k' kvs with
      | none => rw [hw] at hl; simp at hl
      | some w =>
      rw [hw] at hl
      have hk : k = k' ∨ Step.key k ∈ p := by simpa using hk
      obtain ⟨w', h1, h2⟩ := h rfl k' p x w hk hw hl
      rw [h1]
      exact h2

theorem kept_arr {n : Nat} {t : Ty} {vs : List Val} {new : Val} (h : KeptF env k (fun i => if i < n then some t else none) vs new) :
    Kept env k (.arr n t) (.list vs) new := by
  obtain ⟨ws, rfl, h⟩ := h
  intro p x hk hl
  cases p with
  | nil => cases hk
  | cons s p =>
    cases s with
    | key k' => simp [look, unwrap, part] at hl
    | index i =>
      simp only [look, unwrap, part] at hl ⊢
      by_cases hi : i < n
      · rw [if_pos hi] at hl ⊢
        cases hw : vs[i]? with
        | none => rw [hw] at hl; simp at hl
        | some w =>
        rw [hw] at hl
        have hk : Step.key k ∈ p := by simpa using hk
        obtain ⟨w', h1, h2⟩ := h i t w p x hk (if_pos hi) hw hl
        rw [h1]
        exact h2
      · rw [if_neg hi] at hl; simp at hl

theorem kept_tuple {c : Nat} {ts : List Ty} (hd : env.defs c = .tuple ts) {vs : List Val} {new : Val} (h : KeptF env k (fun i => ts[i]?) vs new) :
    Kept env k (.named c) (.list vs) new := by
  obtain ⟨ws, rfl, h⟩ := h
  intro p x hk hl
  cases p with
  | nil => cases hk
  | cons s p =>
    cases s with
    | key k' => simp [look, unwrap, part, hd] at hl
    | index i =>
      simp only [look, unwrap, part, hd] at hl ⊢
      cases ht : ts[i]? with
      | none => rw [ht] at hl; simp at hl
      | some t =>
      cases hw : vs[i]? with
      | none => rw [ht, hw] at hl; simp at hl
      | some w =>
      rw [ht, hw] at hl
      have hk : Step.key k ∈ p := by simpa using hk
      obtain ⟨w', h1, h2⟩ := h i t w p x hk ht hw hl
      rw [h1]
      exact h2

/-- A member that is not called `k`. -/
theorem keptC_set {d : StructDef} {key : Bytes} {slot : StructDef.Slot} {old w v : Val} (hf : d.find key = some slot) (hk : key ≠ k)
    (hw : old.field slot.path slot.index = some w) (hv : Kept env k slot.ty w v) : KeptC env k d old (old.setField slot.path slot.index v) := by
  intro k' slot' p x w' hf' hp hw' hl
  by_cases e : key = k'
  · subst e
    rw [hf] at hf'
    cases hf'
    rw [hw] at hw'
    cases hw'
    refine ⟨v, field_set_eq v _ hw, hv p x ?_ hl⟩
    rcases hp with rfl | hp
    · exact absurd rfl hk
    · exact hp
  · exact ⟨w', by rw [field_set_ne v _ _ _ _ _ (find_ne hf hf' e)]; exact hw', hl⟩

theorem KeptC.trans {d : StructDef} {a b c : Val} (h : KeptC env k d a b) (h' : KeptC env k d b c) : KeptC env k d a c := by
  intro k' slot p x w hf hp hw hl
  obtain ⟨w', h1, h2⟩ := h k' slot p x w hf hp hw hl
  exact h' k' slot p x w' hf hp h1 h2

theorem keptD_set {t : Ty} {key : Bytes} {kvs : List (Bytes × Val)} {v : Val} (hk : key ≠ k)
    (hv : Kept env k t ((dictGet key kvs).getD (t.default env)) v) : KeptD env k .sorted t kvs (.dict (dictSet key v kvs)) := by
  refine ⟨_, rfl, fun _ k' p x w hp hw hl => ?_⟩
  by_cases e : key = k'
  · subst e
    refine ⟨v, dictGet_set_eq _ _ _, hv p x ?_ ?_⟩
    · rcases hp with rfl | hp
      · exact absurd rfl hk
      · exact hp
    · rw [hw]; exact hl
  · exact ⟨w, by rw [dictGet_set_ne v e]; exact hw, hl⟩

theorem KeptD.trans {kind : DictKind} {t : Ty} {kvs kvs' : List (Bytes × Val)} {c : Val} (h : KeptD env k kind t kvs (.dict kvs')) (h' : KeptD env k kind t kvs' c) :
    KeptD env k kind t kvs c := by
  obtain ⟨_, e, h⟩ := h
  cases e
  obtain ⟨ws, rfl, h'⟩ := h'
  refine ⟨_, rfl, fun hs k' p x w hp hw hl => ?_⟩
  obtain ⟨w', h1, h2⟩ := h hs k' p x w hp hw hl
  exact h' hs k' p x w' hp h1 h2

theorem keptF_set {tyAt : Nat → Option Ty} {i : Nat} {vs : List Val} {t : Ty} {w v : Val} (ht : tyAt i = some t) (hw : vs[i]? = some w) (hv : Kept env k t w v) :
    KeptF env k tyAt vs (.list (vs.set i v)) := by
  refine ⟨_, rfl, fun j t' w' p x hp ht' hw' hl => ?_⟩
  by_cases e : i = j
  · subst e
    rw [ht] at ht'
    cases ht'
    rw [hw] at hw'
    cases hw'
    have hlt : i < vs.length := by
      rw [List.getElem?_eq_some_iff] at hw
      exact hw.1
    exact ⟨v, by simp [hlt], hv p x hp hl⟩
  · exact ⟨w', by rw [List.getElem?_set_ne e]; exact hw', hl⟩

theorem KeptF.trans {tyAt : Nat → Option Ty} {vs ws : List Val} {c : Val} (h : KeptF env k tyAt vs (.list ws)) (h' : KeptF env k tyAt ws c) : KeptF env k tyAt vs c := by
  obtain ⟨_, e, h⟩ := h
  cases e
  obtain ⟨us, rfl, h'⟩ := h'
  refine ⟨_, rfl, fun i t w p x hp ht hw hl => ?_⟩
  obtain ⟨w', h1, h2⟩ := h i t w p x hp ht hw hl
  exact h' i t w' p x hp ht h1 h2

theorem blockStart_any (q : Option Tok) (p : PI σ) : Yields (fun _ => True) (blockStart o q p) := fun _ _ => trivial

set_option maxHeartbeats 1000000 in
theorem deserE_kept {I : σ → Prop} (A : Avoids o I k) (cfg : Cfg) (m : Mess σ) :
    ∀ ty old p, I p.inner → Yields (EndsIn I (Kept env k ty old)) (deserE o env cfg m ty old p) := by
  refine (deserE.mutual_fixpoint_induct o env cfg m
    (fun f => ∀ ty old p, I p.inner → Yields (EndsIn I (Kept env k ty old)) (f ty old p))
    (fun f => ∀ d old p, I p.inner → Yields (EndsIn I (KeptC env k d old)) (f d old p))
    (fun f => ∀ d found old p, I p.inner → Yields (EndsIn I (KeptC env k d old)) (f d found old p))
    (fun f => ∀ kind t kvs p, I p.inner → Yields (EndsIn I (KeptD env k kind t kvs)) (f kind t kvs p))
    (fun f => ∀ tyAt i vs p, I p.inner → Yields (EndsIn I (KeptF env k tyAt vs)) (f tyAt i vs p))
    (fun f => ∀ c t vs p, I p.inner → Yields (EndsIn I fun _ => True) (f c t vs p))
    ?_ ?_ ?_ ?_ ?_ ?_ ?_ ?_ ?_ ?_ ?_ ?_).1
  · exact typAdm3 (fun ty old _ (x : Eff σ) => EndsIn I (Kept env k ty old) x) (fun _ _ (p : PI σ) => I p.inner)
  · exact typAdm3 (fun d old _ (x : Eff σ) => EndsIn I (KeptC env k d old) x) (fun _ _ (p : PI σ) => I p.inner)
  · exact typAdm4 (fun d _ old _ (x : Eff σ) => EndsIn I (KeptC env k d old) x) (fun _ _ _ (p : PI σ) => I p.inner)
  · exact typAdm4 (fun kind t kvs _ (x : Eff σ) => EndsIn I (KeptD env k kind t kvs) x) (fun _ _ _ (p : PI σ) => I p.inner)
  · exact typAdm4 (fun tyAt _ vs _ (x : Eff σ) => EndsIn I (KeptF env k tyAt vs) x) (fun _ _ _ (p : PI σ) => I p.inner)
  · exact typAdm4 (fun _ _ _ _ (x : Eff σ) => EndsIn I (fun _ => True) x) (fun _ _ _ (p : PI σ) => I p.inner)
  · intro fD fc fd ff fv h1 h2 h4 h5 h6 ty old p hi
    have atom : (∀ s v, part env (unwrap ty old).1 v s = none) → ∀ new, Kept env k ty old new := fun h new => kept_atom fun s => h s _
    cases ty with
    | int j => exact endsIn_step (A.scalar hi (A.getInt j)) (.refl _ _) fun x hx => .ok ⟨atom (by intro s v; simp [unwrap, part]) _, hx⟩
    | flt f => exact endsIn_step (A.scalar hi (A.getFlt f)) (.refl _ _) fun x hx => .ok ⟨atom (by intro s v; simp [unwrap, part]) _, hx⟩
    | bool => exact endsIn_step (A.scalar hi A.getBool) (.refl _ _) fun x hx => .ok ⟨atom (by intro s v; simp [unwrap, part]) _, hx⟩
    | str =>
      have ha := atom (by intro s v; simp [unwrap, part])
      refine endsIn_step (A.token hi) (.refl _ _) fun x hx => ?_
      dsimp only
      split
      · exact .ok (ha _)
      exact endsIn_step (lift_inner (P := fun _ s => I s) (A.getStr _ hx)) (ha _) fun x hx => .ok ⟨ha _, hx⟩
    | seq c t =>
      have ha := atom (by intro s v; simp [unwrap, part])
      refine endsIn_step (A.token hi) (.refl _ _) fun x hx => ?_
      dsimp only
      split
      · exact .ok (ha _)
      split
      · exact (h6 _ _ _ _ hx).mono fun x h => h.mono fun v _ => ha v
      · exact .ub
    | arr n t =>
      refine endsIn_step (A.token hi) (.refl _ _) fun x hx => ?_
      dsimp only
      split
      · exact .ok (.refl _ _)
      split
      · exact (h5 _ _ _ _ hx).mono fun x h => h.mono fun v hv => kept_arr hv
      · exact .ub
    | smap t =>
      refine endsIn_step (A.token hi) (.refl _ _) fun x hx => ?_
      dsimp only
      split
      · exact .ok (.refl _ _)
      split
      · exact (h4 .sorted _ _ _ hx).mono fun x h => h.mono fun v hv => kept_smap hv
      · exact .ub
    | mmap t =>
      have ha := atom (by intro s v; simp [unwrap, part])
      refine endsIn_step (A.token hi) (.refl _ _) fun x hx => ?_
      dsimp only
      split
      · exact .ok (.refl _ _)
      split
      · exact (h4 .multi _ _ _ hx).mono fun x h => h.mono fun v hv => ha v
      · exact .ub
    | umap t =>
      have ha := atom (by intro s v; simp [unwrap, part])
      refine endsIn_step (A.token hi) (.refl _ _) fun x hx => ?_
      dsimp only
      split
      · exact .ok (.refl _ _)
      split
      · exact (h4 .unordered _ _ _ hx).mono fun x h => h.mono fun v hv => ha v
      · exact .ub
    | opt t =>
      refine endsIn_step (blockStart_any _ _) (.refl _ _) fun x _ => ?_
      exact endsIn_into (h1 _ _ _ hi) (fun w d hw => kept_opt hw) fun v p hv hp => .ok ⟨kept_opt hv, hp⟩
    | uptr t =>
      have ha := atom (by intro s v; simp [unwrap, part])
      refine endsIn_step (A.pointer hi) (ha _) fun x hx => ?_
      dsimp only
      split
      · exact .ok ⟨ha _, hx⟩
      · exact endsIn_into (h1 _ _ _ (by rw [pushBack_inner]; exact hx)) (fun w d hw => ha _) fun v p hv hp => .ok ⟨ha _, hp⟩
    | pptr b =>
      have ha := atom (by intro s v; simp [unwrap, part])
      refine endsIn_step (A.pointer hi) (ha _) fun x hx => ?_
      dsimp only
      split
      · exact .ok ⟨ha _, hx⟩
      refine endsIn_step (A.polyName (by rw [pushBack_inner]; exact hx) _) (ha _) fun x hx => ?_
      split
      · exact .ok (ha _)
      split
      · exact .ub
      split
      · exact endsIn_into (h2 _ _ _ hx) (fun w d hw => ha _) fun v p hv hp => .ok ⟨ha _, hp⟩
      · exact .ub
    | named i =>
      dsimp only
      split
      · rename_i d hc
        exact (h2 _ _ _ hi).mono fun x hx => hx.mono fun v hv => kept_cls hc hv
      · rename_i ts hc
        refine endsIn_step (A.token hi) (.refl _ _) fun x hx => ?_
        split
        · exact .ok (.refl _ _)
        split
        · exact (h5 _ _ _ _ hx).mono fun x h => h.mono fun v hv => kept_tuple hc hv
        · exact .ub
      · rename_i table hc
        have ha := atom (by intro s v; cases v <;> cases s <;> simp [unwrap, part, hc])
        refine endsIn_step (A.scalar hi A.getStr) (.refl _ _) fun x hx => ?_
        split
        · exact .ok ⟨ha _, hx⟩
        · exact .ok (ha _)
      · rename_i alts hc
        have ha := atom (by intro s v; cases v <;> cases s <;> simp [unwrap, part, hc])
        refine endsIn_step (A.polyName hi _) (.refl _ _) fun x hx => ?_
        split
        · split
          · exact endsIn_into (h2 _ _ _ hx) (fun w d hw => ha _) fun v p hv hp => .ok ⟨ha _, hp⟩
          · exact .ub
        · exact endsIn_step (A.ignoreValue hx _) (.refl _ _) fun p hp => .ok ⟨.refl _ _, hp⟩
  · intro fm h3 d old p hi
    refine endsIn_step (A.token hi) (.refl _ _) fun x hx => ?_
    dsimp only
    split
    · exact .ok (.refl _ _)
    · exact h3 _ _ _ _ hx
  · intro fD fm h1 h3 d found old p hi
    refine endsIn_step (A.token hi) (.refl _ _) fun x hx => ?_
    dsimp only
    split
    · split
      · exact .ok (.refl _ _)
      · exact .ok ⟨.refl _ _, hx⟩
    refine endsIn_step (lift_inner (P := fun a s => a ≠ k ∧ I s) (A.getKey _ hx)) (.refl _ _) fun x hx => ?_
    split
    · exact endsIn_step (A.ignoreValue hx.2 _) (.refl _ _) fun p hp => h3 _ _ _ _ hp
    rename_i slot hs
    split
    · exact .ub
    · rename_i w hw
      refine endsIn_into (h1 _ _ _ hx.2) (fun w' d h => keptC_set hs hx.1 hw h) fun v p hv hp => ?_
      exact (h3 _ _ _ _ hp).mono fun x h => h.mono fun u hu => (keptC_set hs hx.1 hw hv).trans hu
  · intro fD fd h1 h4 kind t kvs p hi
    refine endsIn_step (A.token hi) (.refl _ _ _) fun x hx => ?_
    dsimp only
    split
    · exact .ok ⟨.refl _ _ _, hx⟩
    refine endsIn_step (lift_inner (P := fun a s => a ≠ k ∧ I s) (A.getKey _ hx)) (.refl _ _ _) fun x hx => ?_
    have nd : ∀ {kind kvs kvs'}, kind ≠ .sorted → KeptD env k kind t kvs (.dict kvs') := fun h => ⟨_, rfl, fun e => absurd e h⟩
    cases kind with
    | sorted =>
      refine endsIn_into (h1 _ _ _ hx.2) (fun w d h => keptD_set hx.1 h) fun v p hv hp => ?_
      exact (h4 .sorted _ _ _ hp).mono fun x h => h.mono fun u hu => (keptD_set hx.1 hv).trans hu
    | multi =>
      refine endsIn_into (h1 _ _ _ hx.2) (fun w d h => .refl _ _ _) fun v p hv hp => ?_
      exact (h4 .multi _ _ _ hp).mono fun x h => h.mono fun u hu => (nd (by simp)).trans hu
    | unordered =>
      refine endsIn_into (h1 _ _ _ hx.2) (fun w d h => .refl _ _ _) fun v p hv hp => ?_
      exact (h4 .unordered _ _ _ hp).mono fun x h => h.mono fun u hu => (nd (by simp)).trans hu
  · intro fD ff h1 h5 tyAt i vs p hi
    refine endsIn_step (A.token hi) (.refl _ _) fun x hx => ?_
    dsimp only
    split
    · exact .ok ⟨.refl _ _, hx⟩
    split
    · rename_i t w ht hw
      refine endsIn_into (h1 _ _ _ (by rw [pushBack_inner]; exact hx)) (fun w d h => keptF_set ht hw h) fun v p hv hp => ?_
      exact (h5 _ _ _ _ hp).mono fun z hz => hz.mono fun u hu => (keptF_set ht hw hv).trans hu
    · exact .ub
  · intro fD fv h1 h6 c t vs p hi
    refine endsIn_step (A.token hi) trivial fun x hx => ?_
    dsimp only
    split
    · exact .ok ⟨trivial, hx⟩
    · exact endsIn_into (h1 _ _ _ (by rw [pushBack_inner]; exact hx)) (fun _ _ _ => trivial) fun v p _ hp => h6 _ _ _ _ hp

theorem objectAfter_kept {I : σ → Prop} (A : Avoids o I k) (cfg : Cfg) (m : Mess σ) (ty : Ty) (old : Val) (p : PI σ) (hi : I p.inner) :
    Yields (fun x => Kept env k ty old x.1) (objectAfter o env cfg m ty old p) := by
  unfold objectAfter
  have h : Yields (EndsIn I (Kept env k ty old)) (step (p.getToken o) old false fun (k, p) =>
      if k ≠ .DocStart then .ok (.threw .std old false) else deserE o env cfg m ty old p) := by
    refine endsIn_step (A.token hi) (.refl _ _) fun x hx => ?_
    dsimp only
    split
    · exact .ok (.refl _ _)
    · exact deserE_kept A cfg m ty old _ hx
  refine h.bind fun r hr => ?_
  cases r with
  | done v p => exact .ok hr.1
  | threw e w d => exact .ok hr

end Thors
