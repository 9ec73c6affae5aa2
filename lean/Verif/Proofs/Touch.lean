import Verif.Spec.Touch
import Verif.Proofs.ImpOrder
import Verif.Proofs.Alike
/-
What a document does not mention stays as it was (C97).
-/
namespace Thors
open Thors.Spec

theorem dictGet_set_eq (k : Bytes) (v : Val) : ∀ kvs : List (Bytes × Val), dictGet k (dictSet k v kvs) = some v
  | [] => by simp [dictSet, dictGet]
  | (k', w) :: kvs => by
    rw [dictSet]
    by_cases h : k' = k
    · simp [h, dictGet]
    · simp only [h, if_false]
      split
      · simp [dictGet]
      · simp [dictGet, h, dictGet_set_eq k v kvs]

theorem dictGet_set_ne {k k' : Bytes} (v : Val) (hne : k' ≠ k) : ∀ kvs : List (Bytes × Val), dictGet k (dictSet k' v kvs) = dictGet k kvs
  | [] => by simp [dictSet, dictGet, hne]
  | (k₁, w) :: kvs => by
    rw [dictSet]
    split
    · rename_i h
      subst h
      simp [dictGet, hne]
    · split
      · simp [dictGet, hne]
      · simp [dictGet, dictGet_set_ne v hne kvs]

variable {K X : Type} (sem : ScalarSem K X) (env : Env) (cfg : Cfg)

/-- Importing `t` leaves what it does not mention alone. -/
def Keeps (t : Tr K X) : Prop :=
  ∀ ty old new, imp sem env cfg t ty old = .ok new → ∀ p x, ¬ Mentions sem t p → look env p ty old = some x → look env p ty new = some x

/-- An import function does so for a place. -/
def KeepsAt (f : Imp) (p : List Step) : Prop :=
  ∀ ty old new, f ty old = .ok new → ∀ x, look env p ty old = some x → look env p ty new = some x

theorem keepsAt_opt {f : Imp} {s : Step} {p : List Step} {t : Ty} {old new : Val}
    (ih : ∀ w new, f t w = .ok new → ∀ x, look env (s :: p) t w = some x → look env (s :: p) t new = some x)
    (h : (do let v ← f t (old.contentOr (t.default env)); return Val.some v : Res Val) = .ok new) (x : Val)
    (hl : look env (s :: p) (.opt t) old = some x) : look env (s :: p) (.opt t) new = some x := by
  obtain ⟨v, h1, h2⟩ := Res.bind_eq_ok.1 h
  cases h2
  have e : ∀ w, look env (s :: p) (.opt t) (.some w) = look env (s :: p) t w := fun w => by simp only [look, unwrap]
  rw [e]
  cases old with
  | some w =>
    rw [e] at hl
    exact ih _ _ h1 x hl
  | _ => simp [look, unwrap, part] at hl

theorem keeps_scalar (y : X) (s : Step) (p : List Step) : KeepsAt env (impScalar sem env y) (s :: p) := by
  intro ty
  induction ty with
  | opt t ih =>
    intro old new h x hl
    rw [impScalar] at h
    exact keepsAt_opt env ih h x hl
  | named c =>
    intro old new h x hl
    rw [impScalar] at h
    cases hd : env.defs c with
    | enum tb =>
      simp only [look, unwrap] at hl
      cases s with
      | key k => simp [part, hd] at hl
      | index n => cases old <;> simp [part, hd] at hl
    | cls _ => rw [hd] at h; simp [throwStd] at h
    | tuple _ => rw [hd] at h; simp [throwStd] at h
    | variant _ => rw [hd] at h; simp [throwStd] at h
  | smap t _ =>
    intro old new h x hl
    simp [impScalar, throwStd] at h
  | arr n t _ =>
    intro old new h x hl
    simp [impScalar, throwStd] at h
  | _ =>
    intros
    rename_i hl
    simp [look, unwrap, part] at hl

/-- Elements of a fixed size container. -/
theorem keeps_fix (tyAt : Nat → Option Ty) : ∀ (es : List Imp) (b : Nat) (vs : List Val) (new : Val), impFix tyAt es b vs = .ok new →
    ∃ vs', new = .list vs' ∧ ∀ (i : Nat) (w : Val), vs[i]? = some w →
      ((i < b ∨ b + es.length ≤ i) → vs'[i]? = some w) ∧
      (∀ f, b ≤ i → es[i - b]? = some f → ∃ t v, tyAt i = some t ∧ f t w = .ok v ∧ vs'[i]? = some v) := by
  intro es
  induction es with
  | nil =>
    intro b vs new h
    cases h
    exact ⟨vs, rfl, fun i w hw => ⟨fun _ => hw, fun f _ hf => by simp at hf⟩⟩
  | cons e es ih =>
    intro b vs new h
    rw [impFix] at h
    cases ht : tyAt b with
    | none => rw [ht] at h; cases h
    | some t =>
    cases hv : vs[b]? with
    | none => rw [ht, hv] at h; cases h
    | some w₀ =>
    rw [ht, hv] at h
    obtain ⟨v, h1, h2⟩ := Res.bind_eq_ok.1 h
    obtain ⟨vs', rfl, hk⟩ := ih _ _ _ h2
    have hlt : b < vs.length := (List.getElem?_eq_some_iff.1 hv).1
    refine ⟨vs', rfl, fun i w hw => ?_⟩
    by_cases hi : i = b
    · subst hi
      rw [hv] at hw
      cases hw
      have hs : (vs.set i v)[i]? = some v := List.getElem?_set_self hlt
      refine ⟨fun hr => ?_, fun f _ hf => ?_⟩
      · simp only [List.length_cons] at hr
        omega
      · simp only [Nat.sub_self, List.getElem?_cons_zero, Option.some.injEq] at hf
        subst hf
        exact ⟨t, v, ht, h1, (hk i v hs).1 (.inl (by omega))⟩
    · have hs : (vs.set b v)[i]? = some w := by rw [List.getElem?_set_ne (by omega)]; exact hw
      refine ⟨fun hr => (hk i w hs).1 ?_, fun f hb hf => ?_⟩
      · simp only [List.length_cons] at hr
        omega
      · have : i - b = (i - (b + 1)) + 1 := by omega
        rw [this, List.getElem?_cons_succ] at hf
        exact (hk i w hs).2 f (by omega) hf

/-- Arrays: the place is an element, or a part of one, that the array does not have or does not mention. -/
theorem keeps_arr (es : List Imp) (s : Step) (p : List Step) (hes : ∀ i f, s = .index i → es[i]? = some f → KeepsAt env f p) :
    KeepsAt env (impArr env es) (s :: p) := by
  intro ty
  induction ty with
  | opt t ih =>
    intro old new h x hl
    rw [impArr] at h
    exact keepsAt_opt env ih h x hl
  | arr n t _ =>
    intro old new h x hl
    cases old with
    | list vs =>
      rw [impArr] at h
      obtain ⟨vs', rfl, hk⟩ := keeps_fix _ es 0 vs new h
      cases s with
      | key k => simp [look, unwrap, part] at hl
      | index i =>
        simp only [look, unwrap, part] at hl ⊢
        by_cases hi : i < n
        · simp only [hi, if_true] at hl ⊢
          cases hw : vs[i]? with
          | none => rw [hw] at hl; simp at hl
          | some w =>
          rw [hw] at hl
          simp only [Option.map_some] at hl
          cases hf : es[i]? with
          | none =>
            rw [(hk i w hw).1 (.inr (by have := List.getElem?_eq_none_iff.1 hf; omega))]
            exact hl
          | some f =>
            obtain ⟨t', v, h1, h2, h3⟩ := (hk i w hw).2 f (Nat.zero_le _) hf
            simp only [hi, if_true, Option.some.injEq] at h1
            subst h1
            rw [h3]
            exact hes i f rfl hf _ _ _ h2 x hl
        · simp [hi] at hl
    | _ => simp [impArr] at h
  | named c =>
    intro old new h x hl
    rw [impArr] at h
    cases hd : env.defs c with
    | tuple ts =>
      rw [hd] at h
      cases old with
      | list vs =>
        obtain ⟨vs', rfl, hk⟩ := keeps_fix _ es 0 vs new h
        cases s with
        | key k => simp [look, unwrap, part, hd] at hl
        | index i =>
          simp only [look, unwrap, part, hd] at hl ⊢
          cases ht : ts[i]? with
          | none => rw [ht] at hl; simp at hl
          | some t =>
          cases hw : vs[i]? with
          | none => rw [ht, hw] at hl; simp at hl
          | some w =>
          rw [ht, hw] at hl
          dsimp only at hl
          cases hf : es[i]? with
          | none =>
            rw [(hk i w hw).1 (.inr (by have := List.getElem?_eq_none_iff.1 hf; omega))]
            exact hl
          | some f =>
            obtain ⟨t', v, h1, h2, h3⟩ := (hk i w hw).2 f (Nat.zero_le _) hf
            rw [ht] at h1
            cases h1
            rw [h3]
            exact hes i f rfl hf _ _ _ h2 x hl
      | _ => cases h
    | cls _ => rw [hd] at h; simp [throwStd] at h
    | enum _ => rw [hd] at h; simp [throwStd] at h
    | variant _ => rw [hd] at h; simp [throwStd] at h
  | smap t _ =>
    intro old new h x hl
    simp [impArr, throwStd] at h
  | _ =>
    intros
    rename_i hl
    simp [look, unwrap, part] at hl

/-- Entries of a `std::map`. -/
theorem keeps_dict (t : Ty) (k : Bytes) (p : List Step) (x : Val) : ∀ (ms : List (Mem K X)) (kvs : List (Bytes × Val)) (new : Val),
    (∀ m ∈ ms, sem.key m.key = k → KeepsAt env m.imp p) → impDict sem env .sorted t ms kvs = .ok new →
    ∀ w, dictGet k kvs = some w → look env p t w = some x → ∃ kvs' w', new = .dict kvs' ∧ dictGet k kvs' = some w' ∧ look env p t w' = some x := by
  intro ms
  induction ms with
  | nil =>
    intro kvs new _ h w hw hl
    cases h
    exact ⟨kvs, w, rfl, hw, hl⟩
  | cons m ms ih =>
    intro kvs new hm h w hw hl
    rw [impDict] at h
    obtain ⟨v, h1, h2⟩ := Res.bind_eq_ok.1 h
    by_cases hk : sem.key m.key = k
    · rw [hk] at h1 h2
      rw [hw] at h1
      exact ih _ new (fun m' hm' => hm m' (List.mem_cons_of_mem _ hm')) h2 v (dictGet_set_eq k v kvs)
        (hm m List.mem_cons_self hk _ _ _ h1 x hl)
    · exact ih _ new (fun m' hm' => hm m' (List.mem_cons_of_mem _ hm')) h2 w (by rw [dictGet_set_ne v hk]; exact hw) hl

/-- Members of a class. -/
theorem keeps_members (d : StructDef) (k : Bytes) (slot : StructDef.Slot) (hs : d.find k = some slot) (p : List Step) (x : Val) :
    ∀ (ms : List (Mem K X)) (found : List Bytes) (old new : Val), (∀ m ∈ ms, sem.key m.key = k → KeepsAt env m.imp p) →
    impMembers sem cfg d ms found old = .ok new → ∀ w, old.field slot.path slot.index = some w → look env p slot.ty w = some x →
    ∃ w', new.field slot.path slot.index = some w' ∧ look env p slot.ty w' = some x := by
  intro ms
  induction ms with
  | nil =>
    intro found old new _ h w hw hl
    rw [impMembers] at h
    split at h
    · cases h
    · cases h
      exact ⟨w, hw, hl⟩
  | cons m ms ih =>
    intro found old new hm h w hw hl
    have hm' : ∀ m' ∈ ms, sem.key m'.key = k → KeepsAt env m'.imp p := fun m' h => hm m' (List.mem_cons_of_mem _ h)
    rw [impMembers] at h
    cases hf : d.find (sem.key m.key) with
    | none =>
      rw [hf] at h
      dsimp only at h
      split at h
      · cases h
      · split at h
        · cases h
        · exact ih _ _ _ hm' h w hw hl
    | some slot' =>
      rw [hf] at h
      dsimp only at h
      cases hw' : old.field slot'.path slot'.index with
      | none => rw [hw'] at h; cases h
      | some w₁ =>
      rw [hw'] at h
      obtain ⟨v, h1, h2⟩ := Res.bind_eq_ok.1 h
      by_cases hk : sem.key m.key = k
      · rw [hk, hs] at hf
        cases hf
        rw [hw] at hw'
        cases hw'
        exact ih _ _ _ hm' h2 v (field_set_eq v _ hw) (hm m List.mem_cons_self hk _ _ _ h1 x hl)
      · exact ih _ _ _ hm' h2 w (by rw [field_set_ne v _ _ _ _ _ (find_ne hf hs hk)]; exact hw) hl

/-- Objects. -/
theorem keeps_obj (ms : List (Mem K X)) (s : Step) (p : List Step) (hms : ∀ m ∈ ms, s = .key (sem.key m.key) → KeepsAt env m.imp p) :
    KeepsAt env (impObj sem env cfg ms) (s :: p) := by
  intro ty
  induction ty with
  | opt t ih =>
    intro old new h x hl
    rw [impObj] at h
    exact keepsAt_opt env ih h x hl
  | smap t _ =>
    intro old new h x hl
    cases old with
    | dict kvs =>
      rw [impObj] at h
      cases s with
      | index i => simp [look, unwrap, part] at hl
      | key k =>
        simp only [look, unwrap, part] at hl ⊢
        cases hw : dictGet k kvs with
        | none => rw [hw] at hl; simp at hl
        | some w =>
        rw [hw] at hl
        obtain ⟨kvs', w', rfl, h1, h2⟩ := keeps_dict sem env t k p x ms kvs new (fun m hm e => hms m hm (by rw [e])) h w hw hl
        simp only [part, h1, Option.map_some]
        exact h2
    | _ => simp [impObj] at h
  | named c =>
    intro old new h x hl
    rw [impObj] at h
    cases hd : env.defs c with
    | cls d =>
      rw [hd] at h
      cases s with
      | index i => cases old <;> simp [look, unwrap, part, hd] at hl
      | key k =>
        simp only [look, unwrap, part, hd] at hl ⊢
        cases hf : d.traits.find k with
        | none => rw [hf] at hl; simp at hl
        | some slot =>
        rw [hf] at hl
        dsimp only at hl ⊢
        cases hw : old.field slot.path slot.index with
        | none => rw [hw] at hl; simp at hl
        | some w =>
        rw [hw] at hl
        obtain ⟨w', h1, h2⟩ := keeps_members sem env cfg d.traits k slot hf p x ms [] old new (fun m hm e => hms m hm (by rw [e])) h w hw hl
        rw [h1]
        exact h2
    | variant _ =>
      simp only [look, unwrap] at hl
      cases s with
      | key k => simp [part, hd] at hl
      | index n => cases old <;> simp [part, hd] at hl
    | enum _ => rw [hd] at h; simp [throwStd] at h
    | tuple _ => rw [hd] at h; simp [throwStd] at h
  | arr n t _ =>
    intro old new h x hl
    simp [impObj, throwStd] at h
  | _ =>
    intros
    rename_i hl
    simp [look, unwrap, part] at hl

mutual
theorem imp_keeps : ∀ t : Tr K X, Keeps sem env cfg t
  | .scalar y => by
    intro ty old new h p x hm hl
    cases p with
    | nil => exact absurd (.here _) hm
    | cons s p => exact keeps_scalar sem env y s p ty old new h x hl
  | .arr ts => by
    intro ty old new h p x hm hl
    cases p with
    | nil => exact absurd (.here _) hm
    | cons s p =>
      rw [imp] at h
      refine keeps_arr env _ s p (fun i f e hf => ?_) ty old new h x hl
      obtain ⟨t, h1, h2⟩ := elems_keeps ts i f hf
      intro ty old new h x hl
      exact h2 ty old new h p x (fun c => hm (by rw [e]; exact .elem h1 c)) hl
  | .obj ms => by
    intro ty old new h p x hm hl
    cases p with
    | nil => exact absurd (.here _) hm
    | cons s p =>
      rw [imp] at h
      refine keeps_obj sem env cfg _ s p (fun m hmem e => ?_) ty old new h x hl
      obtain ⟨t, h1, h2⟩ := members_keeps ms m hmem
      intro ty old new h x hl
      exact h2 ty old new h p x (fun c => hm (by rw [e]; exact .member h1 c)) hl
theorem elems_keeps : ∀ (ts : List (Tr K X)) (i : Nat) (f : Imp), (imp.elems sem env cfg ts)[i]? = some f →
    ∃ t, ts[i]? = some t ∧ ∀ ty old new, f ty old = .ok new → ∀ p x, ¬ Mentions sem t p → look env p ty old = some x → look env p ty new = some x
  | [], i, f, h => by simp [imp.elems] at h
  | t :: ts, 0, f, h => by
    rw [imp.elems] at h
    simp only [List.getElem?_cons_zero, Option.some.injEq] at h
    subst h
    exact ⟨t, rfl, imp_keeps t⟩
  | t :: ts, i + 1, f, h => by
    rw [imp.elems] at h
    simp only [List.getElem?_cons_succ] at h
    exact elems_keeps ts i f h
theorem members_keeps : ∀ (ms : List (K × Tr K X)) (m : Mem K X), m ∈ imp.members sem env cfg ms →
    ∃ t, (m.key, t) ∈ ms ∧ ∀ ty old new, m.imp ty old = .ok new → ∀ p x, ¬ Mentions sem t p → look env p ty old = some x → look env p ty new = some x
  | [], m, h => by simp [imp.members] at h
  | (k, t) :: ms, m, h => by
    rw [imp.members] at h
    rcases List.mem_cons.1 h with rfl | h
    · exact ⟨t, List.mem_cons_self, imp_keeps t⟩
    · obtain ⟨t', h1, h2⟩ := members_keeps ms m h
      exact ⟨t', List.mem_cons_of_mem _ h1, h2⟩
end

end Thors
