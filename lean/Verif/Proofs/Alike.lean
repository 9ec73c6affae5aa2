import Verif.Spec.Alike
import Verif.Proofs.Lower
import Verif.Proofs.ImpOrder
import Verif.Proofs.RoundTripBase
/-
In Exact mode the result of an import does not depend on the numbers the target held before.
-/
namespace Thors
open Spec StrIn Lean.Order

variable {env : Env}

theorem alike_own_at : ∀ {ms : List Member} {fs gs : List Val} {i : Nat} {m : Member}, AlikeOwn env ms fs gs → ms[i]? = some m →
    ∃ a b, fs[i]? = some a ∧ gs[i]? = some b ∧ Alike env m.ty a b
  | _, _, _, _, _, .nil, h => by simp at h
  | _, _, _, 0, _, .cons h1 _, h => by simp at h; subst h; exact ⟨_, _, rfl, rfl, h1⟩
  | _, _, _, i + 1, _, .cons _ h2, h => alike_own_at (i := i) h2 (by simpa using h)

theorem alike_parents_at : ∀ {ps : List StructDef} {fs gs : List Val} {i : Nat} {p : StructDef}, AlikeParents env ps fs gs → ps[i]? = some p →
    ∃ a b, fs[i]? = some a ∧ gs[i]? = some b ∧ AlikeObj env p a b
  | _, _, _, _, _, .nil, h => by simp at h
  | _, _, _, 0, _, .cons h1 _, h => by simp at h; subst h; exact ⟨_, _, rfl, rfl, h1⟩
  | _, _, _, i + 1, _, .cons _ h2, h => alike_parents_at (i := i) h2 (by simpa using h)

theorem alike_own_set (x : Val) : ∀ {ms : List Member} {fs gs : List Val} {i : Nat}, AlikeOwn env ms fs gs → AlikeOwn env ms (fs.set i x) (gs.set i x)
  | _, _, _, _, .nil => .nil
  | _, _, _, 0, .cons _ h2 => .cons (.same _ _) h2
  | _, _, _, i + 1, .cons h1 h2 => .cons h1 (alike_own_set x (i := i) h2)

theorem alike_parents_set {x y : Val} : ∀ {ps : List StructDef} {fs gs : List Val} {i : Nat} {p : StructDef}, AlikeParents env ps fs gs → ps[i]? = some p →
    AlikeObj env p x y → AlikeParents env ps (fs.set i x) (gs.set i y)
  | _, _, _, _, _, .nil, _, _ => .nil
  | _, _, _, 0, _, .cons _ h2, h, hx => by simp at h; subst h; exact .cons hx h2
  | _, _, _, i + 1, _, .cons h1 h2, h, hx => .cons h1 (alike_parents_set (i := i) h2 (by simpa using h) hx)

/-- A member in two alike objects. -/
theorem alike_field : ∀ (path : List Nat) {d : StructDef} {v w : Val} {i : Nat} {m : Member}, AlikeObj env d v w → memberAt d path i = some m →
    ∃ a b, v.field path i = some a ∧ w.field path i = some b ∧ Alike env m.ty a b
  | [], _, _, _, i, m, .obj h1 h2, h => by
    rw [memberAt] at h
    rw [Val.field, Val.field]
    exact alike_own_at h1 h
  | p :: path, _, _, _, i, m, .obj (ps := ps) h1 h2, h => by
    rw [memberAt] at h
    cases hp : ps[p]? with
    | none => rw [hp] at h; cases h
    | some d =>
      rw [hp] at h
      obtain ⟨a, b, e1, e2, hab⟩ := alike_parents_at h2 hp
      rw [Val.field, Val.field, e1, e2]
      exact alike_field path hab h

theorem alike_setField (x : Val) : ∀ (path : List Nat) {d : StructDef} {v w : Val} {i : Nat} {m : Member}, AlikeObj env d v w → memberAt d path i = some m →
    AlikeObj env d (v.setField path i x) (w.setField path i x)
  | [], _, _, _, i, m, .obj h1 h2, h => by
    rw [Val.setField, Val.setField]
    exact .obj (alike_own_set x h1) h2
  | p :: path, _, _, _, i, m, .obj (ps := ps) h1 h2, h => by
    rw [memberAt] at h
    cases hp : ps[p]? with
    | none => rw [hp] at h; cases h
    | some d =>
      rw [hp] at h
      obtain ⟨a, b, e1, e2, hab⟩ := alike_parents_at h2 hp
      rw [Val.setField, Val.setField, e1, e2]
      exact .obj h1 (alike_parents_set h2 hp (alike_setField x path hab h))

theorem field_set_eq (x : Val) : ∀ (path : List Nat) {v : Val} {i : Nat} {a : Val}, v.field path i = some a → (v.setField path i x).field path i = some x
  | [], v, i, a, h => by
    cases v with
    | obj ps fs =>
      rw [Val.field] at h
      rw [Val.setField, Val.field]
      obtain ⟨hlt, -⟩ := List.getElem?_eq_some_iff.1 h
      rw [List.getElem?_set_self hlt]
    | _ => simp [Val.field] at h
  | p :: path, v, i, a, h => by
    cases v with
    | obj ps fs =>
      rw [Val.field] at h
      rw [Val.setField]
      cases hp : ps[p]? with
      | none => rw [hp] at h; cases h
      | some w =>
        rw [hp] at h
        dsimp only
        obtain ⟨hlt, -⟩ := List.getElem?_eq_some_iff.1 hp
        rw [Val.field, List.getElem?_set_self hlt]
        exact field_set_eq x path h
    | _ => simp [Val.field] at h

mutual
/-- Objects with the same members are the same. -/
theorem alike_ext : ∀ {d : StructDef} {v w : Val}, AlikeObj env d v w → (∀ path i m, memberAt d path i = some m → v.field path i = w.field path i) → v = w
  | _, _, _, .obj (ps := ps) (ms := ms) (f := f) (bs := bs) (cs := cs) (fs := fs) (gs := gs) h1 h2, h => by
    have e1 : fs = gs := alike_own_ext h1 fun i m hm => by
      have := h [] i m (by rw [memberAt]; exact hm)
      rwa [Val.field, Val.field] at this
    have e2 : bs = cs := alike_parents_ext h2 fun j p hp path i m hm => by
      have := h (j :: path) i m (by rw [memberAt, hp]; exact hm)
      rwa [Val.field, Val.field] at this
    rw [e1, e2]
theorem alike_own_ext : ∀ {ms : List Member} {fs gs : List Val}, AlikeOwn env ms fs gs → (∀ (i : Nat) (m : Member), ms[i]? = some m → fs[i]? = gs[i]?) → fs = gs
  | _, _, _, .nil, _ => rfl
  | _, _, _, .cons (fs := fs) (gs := gs) h1 h2, h => by
    have e := h 0 _ rfl
    simp only [List.getElem?_cons_zero, Option.some.injEq] at e
    have e2 : fs = gs := alike_own_ext h2 fun i m hm => by simpa using h (i + 1) m (by simpa using hm)
    rw [e, e2]
theorem alike_parents_ext : ∀ {ps : List StructDef} {fs gs : List Val}, AlikeParents env ps fs gs →
    (∀ (j : Nat) (p : StructDef), ps[j]? = some p → ∀ (path : List Nat) (i : Nat) (m : Member), memberAt p path i = some m →
      (match fs[j]? with | some v => v.field path i | none => none) = (match gs[j]? with | some v => v.field path i | none => none)) → fs = gs
  | _, _, _, .nil, _ => rfl
  | _, _, _, .cons (a := a) (b := b) (bs := fs) (cs := gs) h1 h2, h => by
    have e : a = b := alike_ext h1 fun path i m hm => by simpa using h 0 _ rfl path i m hm
    have e2 : fs = gs := alike_parents_ext h2 fun j p hp path i m hm => by simpa using h (j + 1) p (by simpa using hp) path i m hm
    rw [e, e2]
end

mutual
theorem memberAt_slots : ∀ (d : StructDef) (path : List Nat) (i : Nat) (m : Member), memberAt d path i = some m → (m.out, (⟨path, i, m.ty⟩ : StructDef.Slot)) ∈ slots d
  | .mk ps ms f, [], i, m, h => by
    rw [memberAt] at h
    rw [slots, List.mem_append]
    have := own_mem m ms 0 i h
    rw [Nat.zero_add] at this
    exact .inr this
  | .mk ps ms f, p :: path, i, m, h => by
    rw [memberAt] at h
    rw [slots, List.mem_append]
    cases hp : ps[p]? with
    | none => rw [hp] at h; cases h
    | some d =>
      rw [hp] at h
      have := memberAt_slotsIn ps p d path i m 0 hp h
      rw [Nat.zero_add] at this
      exact .inl this
theorem memberAt_slotsIn : ∀ (ps : List StructDef) (p : Nat) (d : StructDef) (path : List Nat) (i : Nat) (m : Member) (k : Nat), ps[p]? = some d →
    memberAt d path i = some m → (m.out, (⟨(k + p) :: path, i, m.ty⟩ : StructDef.Slot)) ∈ slots.inParents ps k
  | [], p, d, path, i, m, k, h, _ => by simp at h
  | q :: ps, 0, d, path, i, m, k, h, hm => by
    simp only [List.getElem?_cons_zero, Option.some.injEq] at h
    subst h
    rw [slots.inParents, List.mem_append]
    exact .inl (List.mem_map.2 ⟨_, memberAt_slots q path i m hm, rfl⟩)
  | q :: ps, p + 1, d, path, i, m, k, h, hm => by
    rw [slots.inParents, List.mem_append]
    have := memberAt_slotsIn ps p d path i m (k + 1) (by simpa using h) hm
    rw [show k + 1 + p = k + (p + 1) by omega] at this
    exact .inr this
end

/-- A class with distinct names. -/
def NamesApart (d : StructDef) : Prop := ((allMembers d).map Member.name).Nodup ∧ ((allMembers d).map Member.out).Nodup

theorem find_place {d : StructDef} (h : NamesApart d) {path : List Nat} {i : Nat} {m : Member} (hm : memberAt d path i = some m) :
    d.find m.out = some ⟨path, i, m.ty⟩ := by
  rw [find_slots]
  exact lookup_of_mem ((slots_keys d).nodup_iff.2 h.2) (memberAt_slots d path i m hm)

/-- Two objects while their members are being read: the ones already read are the same. -/
def Reading (env : Env) (d : StructDef) (found : List Bytes) (v w : Val) : Prop :=
  AlikeObj env d v w ∧ ∀ key ∈ found, ∃ slot, d.find key = some slot ∧ v.field slot.path slot.index = w.field slot.path slot.index

theorem Reading.step {d : StructDef} {found : List Bytes} {v w : Val} (h : Reading env d found v w) {key : Bytes} {slot : StructDef.Slot}
    (hs : d.find key = some slot) (x : Val) : Reading env d (key :: found) (v.setField slot.path slot.index x) (w.setField slot.path slot.index x) := by
  obtain ⟨m, hm, hk, ht⟩ := find_at key d slot hs
  obtain ⟨a, b, ea, eb, -⟩ := alike_field slot.path h.1 hm
  refine ⟨alike_setField x slot.path h.1 hm, ?_⟩
  intro key' hk'
  by_cases e : key' = key
  · subst e
    exact ⟨slot, hs, by rw [field_set_eq x _ ea, field_set_eq x _ eb]⟩
  · obtain ⟨s', hs', h'⟩ := h.2 key' (by simpa [e] using hk')
    have hne := find_ne hs hs' (fun e' => e e'.symm)
    exact ⟨s', hs', by rw [field_set_ne _ _ _ _ _ _ hne, field_set_ne _ _ _ _ _ _ hne]; exact h'⟩

theorem Reading.done {d : StructDef} (hd : NamesApart d) {found : List Bytes} {v w : Val} (h : Reading env d found v w) (hh : d.heed found = true) : v = w := by
  refine alike_ext h.1 fun path i m hm => ?_
  have hname := (heed_iff found d).1 hh
  have hsub : ∀ x ∈ (allMembers d).map Member.name, x ∈ (allMembers d).map Member.out := by
    intro x hx
    obtain ⟨n, hn, rfl⟩ := List.mem_map.mp hx
    obtain ⟨slot, hs, -⟩ := h.2 _ (hname n hn)
    obtain ⟨n', hn', e', -⟩ := find_out hs
    exact List.mem_map.mpr ⟨n', hn', e'⟩
  have hsup := subset_of_nodup _ _ hd.1 hsub (by simp)
  obtain ⟨n, hn, e⟩ := List.mem_map.mp (hsup m.out (List.mem_map.mpr ⟨m, memberAt_mem _ _ _ _ hm, rfl⟩))
  obtain ⟨slot, hs, he⟩ := h.2 _ (hname n hn)
  rw [e, find_place hd hm] at hs
  cases hs
  exact he

theorem LowOps.refl {σ : Type} (o : POps σ) : LowOps o o := ⟨fun _ => .same _, fun _ => .same _, fun _ _ => .same _, fun _ _ => .same _, fun _ => .same _,
  fun _ => .same _, fun _ => rfl, fun _ => .same _⟩

/-- The same object, or two alike ones of a class with distinct names. -/
def Pair (env : Env) (d : StructDef) (found : List Bytes) (v w : Val) : Prop := v = w ∨ (NamesApart d ∧ Reading env d found v w)

section
variable {σ : Type}

theorem relAdm {A B C D R : Type} (P : A → B → R → C → Prop) (g : A → R → C → Res D) : admissible (fun f : A → B → C → Res D => ∀ a b r c, P a b r c → Low (f a b c) (g a r c)) :=
  admissible_pi _ fun a => admissible_pi _ fun b => admissible_pi _ fun r => admissible_pi _ fun c => admissible_pi _ fun _ =>
    admissible_apply (fun (_ : A) (f : B → C → Res D) => Low (f b c) (g a r c)) a
      (admissible_apply (fun (_ : B) (f : C → Res D) => Low (f c) (g a r c)) b (admissible_apply (fun (_ : C) (r' : Res D) => Low r' (g a r c)) c (Low.admissible _)))

theorem relAdm4 {A A' B C D R : Type} (P : A → A' → B → R → C → Prop) (g : A → A' → R → C → Res D) :
    admissible (fun f : A → A' → B → C → Res D => ∀ a a' b r c, P a a' b r c → Low (f a a' b c) (g a a' r c)) :=
  admissible_pi _ fun a => admissible_apply (fun (a : A) (f : A' → B → C → Res D) => ∀ a' b r c, P a a' b r c → Low (f a' b c) (g a a' r c)) a (relAdm (P a) (g a))

set_option maxHeartbeats 1000000 in
theorem deser_alike_low (o : POps σ) (env : Env) (cfg : Cfg) (hx : cfg.strict = .Exact) (hn : Distinct env) :
    ∀ ty v w p, Alike env ty v w → Low (deser o env cfg ty v p) (deser o env cfg ty w p) := by
  have L := LowOps.refl o
  refine (deser.mutual_fixpoint_induct o env cfg
    (fun f => ∀ ty v w p, Alike env ty v w → Low (f ty v p) (deser o env cfg ty w p))
    (fun f => ∀ d v w p, Pair env d [] v w → Low (f d v p) (deserClass o env cfg d w p))
    (fun f => ∀ d found v w p, Pair env d found v w → Low (f d found v p) (deserMembers o env cfg d found w p))
    (fun f => ∀ kind t kvs p, Low (f kind t kvs p) (deserDict o env cfg kind t kvs p))
    (fun f => ∀ tyAt i vs p, Low (f tyAt i vs p) (deserFix o env cfg tyAt i vs p))
    (fun f => ∀ c t vs p, Low (f c t vs p) (deserVec o env cfg c t vs p))
    ?_ ?_ ?_ ?_ ?_ ?_ ?_ ?_ ?_ ?_ ?_ ?_).1
  · exact relAdm (fun ty v w _ => Alike env ty v w) _
  · exact relAdm (fun d v w _ => Pair env d [] v w) _
  · exact relAdm4 (fun d found v w _ => Pair env d found v w) _
  · exact lowAdm4 _
  · exact lowAdm4 _
  · exact lowAdm4 _
  · intro fD fc fd ff fv hD hc hd hf hv ty v w p h
    rw [deser.eq_def o env cfg ty w]
    cases ty with
    | int k => exact scalar_low L p _ _ (L.getInt k) fun i p => .ok (.int i, p)
    | flt k => exact scalar_low L p _ _ (L.getFlt k) fun i p => .ok (.flt i, p)
    | bool => exact scalar_low L p _ _ L.getBool fun i p => .ok (.bool i, p)
    | str => exact scalar_low L p _ _ L.getStr fun i p => .ok (.str i, p)
    | seq c t =>
      cases h
      exact (getToken_low L p).bind fun ⟨k, p⟩ => .ite (.same _) (by cases v <;> first | exact .same _ | exact hv _ _ _ _)
    | arr n t =>
      cases h
      exact (getToken_low L p).bind fun ⟨k, p⟩ => .ite (.same _) (by cases v <;> first | exact .same _ | exact hf _ _ _ _)
    | smap t =>
      cases h
      exact (getToken_low L p).bind fun ⟨k, p⟩ => .ite (.same _) (by cases v <;> first | exact .same _ | exact hd _ _ _ _)
    | mmap t =>
      cases h
      exact (getToken_low L p).bind fun ⟨k, p⟩ => .ite (.same _) (by cases v <;> first | exact .same _ | exact hd _ _ _ _)
    | umap t =>
      cases h
      exact (getToken_low L p).bind fun ⟨k, p⟩ => .ite (.same _) (by cases v <;> first | exact .same _ | exact hd _ _ _ _)
    | opt t =>
      cases h
      exact (hD _ _ _ _ (.same _ _)).bind fun _ => .same _
    | uptr t =>
      refine (getToken_low L p).bind fun ⟨k, p⟩ => ?_
      exact .ite ((L.ignoreData _).bind fun _ => .same _) ((hD _ _ _ _ (.same _ _)).bind fun _ => .same _)
    | pptr b =>
      refine (getToken_low L p).bind fun ⟨k, p⟩ => ?_
      refine .ite ((L.ignoreData _).bind fun _ => .same _) ((polyName_low L _ _).bind fun ⟨name, p⟩ => ?_)
      dsimp only
      cases env.registry.lookup name with
      | none => exact .same _
      | some c =>
        refine .ite (.same _) ?_
        cases env.defs c with
        | cls d => exact (hc _ _ _ _ (.inl rfl)).bind fun _ => .same _
        | _ => exact .same _
    | named i =>
      dsimp only
      cases he : env.defs i with
      | cls d =>
        refine hc _ _ _ _ ?_
        cases h with
        | same => exact .inl rfl
        | enum _ _ hd => rw [he] at hd; cases hd
        | cls hd h => rw [he] at hd; cases hd; exact .inr ⟨hn i _ he, h, by simp⟩
      | tuple ts =>
        cases h with
        | same => exact (getToken_low L p).bind fun ⟨k, p⟩ => .ite (.same _) (by cases v <;> first | exact .same _ | exact hf _ _ _ _)
        | enum _ _ hd => rw [he] at hd; cases hd
        | cls hd h => rw [he] at hd; cases hd
      | enum table => exact scalar_low L p _ _ L.getStr fun s p => match enumOf table s with | some v => .ok (.enum v, p) | none => throwStd
      | variant alts =>
        have hvw : v = w := by
          cases h with
          | same => rfl
          | enum _ _ hd => rw [he] at hd; cases hd
          | cls hd h => rw [he] at hd; cases hd
        subst hvw
        refine (polyName_low L _ _).bind fun ⟨name, p⟩ => ?_
        dsimp only
        cases pickAlt env cfg (polyMarker env cfg.marker (alts.headD 0)) name alts with
        | none => exact (ignoreValue_low L _ _).bind fun _ => .same _
        | some c =>
          dsimp only
          cases env.defs c with
          | cls d => exact (hc _ _ _ _ (.inl rfl)).bind fun _ => .same _
          | _ => exact .same _
  · intro fm hm d v w p h
    rw [deserClass.eq_def o env cfg d w]
    exact open_low L p _ _ _ fun p => hm _ _ _ _ _ h
  · intro fD fm hD hm d found v w p h
    rw [deserMembers.eq_def o env cfg d found w]
    refine (getToken_low L p).bind fun ⟨k, p⟩ => ?_
    dsimp only
    by_cases hk : k = .MapEnd
    · rw [if_pos hk, if_pos hk]
      by_cases hh : cfg.strict = .Exact ∧ d.heed found = false
      · rw [if_pos hh, if_pos hh]
        exact .same _
      · rw [if_neg hh, if_neg hh]
        have : v = w := by
          rcases h with h | ⟨ha, hr⟩
          · exact h
          · exact hr.done ha (by simpa [hx] using hh)
        rw [this]
        exact .same _
    · rw [if_neg hk, if_neg hk]
      refine (lift_low p (L.getKey _)).bind fun ⟨key, p⟩ => ?_
      dsimp only
      cases hs : d.find key with
      | none => exact (ignoreValue_low L _ _).bind fun p => hm _ _ _ _ _ h
      | some slot =>
        dsimp only
        rcases h with rfl | ⟨ha, hr⟩
        · cases v.field slot.path slot.index with
          | none => exact .same _
          | some w => exact (hD _ _ _ _ (.same _ _)).bind fun ⟨v, p⟩ => hm _ _ _ _ _ (.inl rfl)
        · obtain ⟨m, hmem, -, ht⟩ := find_at key d slot hs
          obtain ⟨a, b, ea, eb, hab⟩ := alike_field slot.path hr.1 hmem
          rw [ea, eb]
          rw [ht] at hab
          exact (hD _ _ _ _ hab).bind fun ⟨x, p⟩ => hm _ _ _ _ _ (.inr ⟨ha, hr.step hs x⟩)
  · intro fD fd hD hd kind t kvs p
    rw [deserDict.eq_def o]
    refine (getToken_low L p).bind fun ⟨k, p⟩ => .ite (.same _) ?_
    refine (lift_low p (L.getKey _)).bind fun ⟨key, p⟩ => ?_
    exact (hD _ _ _ _ (.same _ _)).bind fun ⟨v, p⟩ => hd _ _ _ _
  · intro fD ff hD hf tyAt i vs p
    rw [deserFix.eq_def o]
    refine (getToken_low L p).bind fun ⟨k, p⟩ => .ite (.same _) ?_
    dsimp only
    cases tyAt i with
    | none => exact .same _
    | some t =>
      cases vs[i]? with
      | none => exact .same _
      | some w => exact (hD _ _ _ _ (.same _ _)).bind fun ⟨v, p⟩ => hf _ _ _ _
  · intro fD fv hD hv c t vs p
    rw [deserVec.eq_def o]
    refine (getToken_low L p).bind fun ⟨k, p⟩ => .ite (.same _) ?_
    exact (hD _ _ _ _ (.same _ _)).bind fun ⟨v, p⟩ => hv _ _ _ _
end

mutual
theorem alike_symm : ∀ {ty : Ty} {v w : Val}, Alike env ty v w → Alike env ty w v
  | _, _, _, .same _ _ => .same _ _
  | _, _, _, .int k a b => .int k b a
  | _, _, _, .flt k a b => .flt k b a
  | _, _, _, .bool a b => .bool b a
  | _, _, _, .enum a b h => .enum b a h
  | _, _, _, .cls h h2 => .cls h (alikeObj_symm h2)
theorem alikeObj_symm : ∀ {d : StructDef} {v w : Val}, AlikeObj env d v w → AlikeObj env d w v
  | _, _, _, .obj h1 h2 => .obj (alikeOwn_symm h1) (alikeParents_symm h2)
theorem alikeOwn_symm : ∀ {d : List Member} {v w : List Val}, AlikeOwn env d v w → AlikeOwn env d w v
  | _, _, _, .nil => .nil
  | _, _, _, .cons h1 h2 => .cons (alike_symm h1) (alikeOwn_symm h2)
theorem alikeParents_symm : ∀ {d : List StructDef} {v w : List Val}, AlikeParents env d v w → AlikeParents env d w v
  | _, _, _, .nil => .nil
  | _, _, _, .cons h1 h2 => .cons (alikeObj_symm h1) (alikeParents_symm h2)
end

/-- In Exact mode an import gives the same whatever numbers were in the target. -/
theorem deser_alike {σ : Type} (o : POps σ) {cfg : Cfg} (hx : cfg.strict = .Exact) (hn : Distinct env) {ty : Ty} {v w : Val} (h : Alike env ty v w) (p : PI σ) :
    deser o env cfg ty v p = deser o env cfg ty w p := by
  rcases deser_alike_low o env cfg hx hn ty v w p h with e | e
  · rcases deser_alike_low o env cfg hx hn ty w v p (alike_symm h) with e' | e'
    · rw [e, e']
    · exact e'.symm
  · exact e

end Thors
