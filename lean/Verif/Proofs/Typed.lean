import Verif.Spec.Typed
import Verif.Proofs.Watch
import Verif.Model.Importer
import Verif.Proofs.Sets
import Verif.Props.Containers
/-
What an import delivers is a value of the type.
-/
namespace Thors
open Thors.Spec Lean.Order StrIn

variable {env : Env}

theorem have_iff {t : Ty} : ∀ {vs : List Val}, HaveType env t vs ↔ ∀ v ∈ vs, HasType env t v
  | [] => by simp [HaveType]
  | v :: vs => by simp [HaveType, have_iff (vs := vs)]

theorem dictHas_iff {t : Ty} : ∀ {kvs : List (Bytes × Val)}, DictHas env t kvs ↔ ∀ p ∈ kvs, HasType env t p.2
  | [] => by simp [DictHas]
  | (k, v) :: kvs => by simp [DictHas, dictHas_iff (kvs := kvs)]

/-! ### containers -/

theorem seqInsert_typed {t : Ty} {v : Val} (c : SeqKind) {vs : List Val} (h : HaveType env t vs) (ho : InSeqOrder env c vs) (hv : HasType env t v) :
    HaveType env t (c.insert env vs v) ∧ InSeqOrder env c (c.insert env vs v) := by
  rw [have_iff] at h ⊢
  cases c with
  | back =>
    refine ⟨fun x hx => ?_, trivial⟩
    rcases List.mem_append.1 hx with hx | hx
    · exact h x hx
    · rw [List.mem_singleton.1 hx]; exact hv
  | sorted c =>
    refine ⟨fun x hx => ?_, fun hc => (setInsert_spec hc v vs (ho hc)).1⟩
    have : x = v ∨ x ∈ vs := by
      clear h ho
      simp only [SeqKind.insert] at hx
      induction vs with
      | nil => simp only [setInsert, List.mem_singleton] at hx; exact .inl hx
      | cons a vs ih =>
        rw [setInsert] at hx
        split at hx
        · rcases List.mem_cons.1 hx with rfl | hx
          · exact .inr (by simp)
          · exact (ih hx).imp id fun h => by simp [h]
        · split at hx
          · exact List.mem_cons.1 hx
          · exact .inr hx
    rcases this with rfl | hx
    · exact hv
    · exact h x hx
  | multi c =>
    refine ⟨fun x hx => ?_, fun hc => (multisetInsert_spec hc v vs (ho hc)).1⟩
    have : x = v ∨ x ∈ vs := by
      clear h ho
      simp only [SeqKind.insert] at hx
      induction vs with
      | nil => simp only [multisetInsert, List.mem_singleton] at hx; exact .inl hx
      | cons a vs ih =>
        rw [multisetInsert] at hx
        split at hx
        · exact List.mem_cons.1 hx
        · rcases List.mem_cons.1 hx with rfl | hx
          · exact .inr (by simp)
          · exact (ih hx).imp id fun h => by simp [h]
    rcases this with rfl | hx
    · exact hv
    · exact h x hx
  | hashed c =>
    refine ⟨fun x hx => ?_, (hashInsert_spec vs v ho).1⟩
    rcases ((hashInsert_spec vs v ho).2 x).1 hx with hx | ⟨rfl, -⟩
    · exact h x hx
    · exact hv

/-- The keys of an associative container are in its order. -/
def InKeyOrder : DictKind → List (Bytes × Val) → Prop
  | .sorted, kvs => kvs.Pairwise fun p q => keyLt p.1 q.1 = true
  | .multi, kvs => kvs.Pairwise fun p q => keyLt q.1 p.1 = false
  | .unordered, kvs => (kvs.map Prod.fst).Nodup

theorem dictGet_typed {t : Ty} {key : Bytes} {v : Val} : ∀ {kvs : List (Bytes × Val)}, DictHas env t kvs → dictGet key kvs = some v → HasType env t v
  | [], _, h => by simp [dictGet] at h
  | (k, x) :: kvs, hs, h => by
    simp only [DictHas] at hs
    unfold dictGet at h
    split at h
    · injection h with h; subst h; exact hs.1
    · exact dictGet_typed hs.2 h

theorem dictSet_typed {t : Ty} {key : Bytes} {v : Val} (hv : HasType env t v) : ∀ {kvs : List (Bytes × Val)}, DictHas env t kvs → DictHas env t (dictSet key v kvs)
  | [], _ => by simp only [dictSet, DictHas]; exact ⟨hv, trivial⟩
  | (k, x) :: kvs, hs => by
    simp only [DictHas] at hs
    unfold dictSet
    split
    · exact ⟨hv, hs.2⟩
    · split
      · exact ⟨hv, hs.1, hs.2⟩
      · exact ⟨hs.1, dictSet_typed hv hs.2⟩

theorem multiInsert_typed {t : Ty} {key : Bytes} {v : Val} (hv : HasType env t v) : ∀ {kvs : List (Bytes × Val)}, DictHas env t kvs → DictHas env t (multiInsert key v kvs)
  | [], _ => by simp only [multiInsert, DictHas]; exact ⟨hv, trivial⟩
  | (k, x) :: kvs, hs => by
    simp only [DictHas] at hs
    unfold multiInsert
    split
    · exact ⟨hv, hs.1, hs.2⟩
    · exact ⟨hs.1, multiInsert_typed hv hs.2⟩

theorem uniqueInsert_typed {t : Ty} {key : Bytes} {v : Val} (hv : HasType env t v) {kvs : List (Bytes × Val)} (hs : DictHas env t kvs) :
    DictHas env t (uniqueInsert key v kvs) := by
  unfold uniqueInsert
  split
  · exact hs
  · rw [dictHas_iff] at hs ⊢
    intro p hp
    rcases List.mem_append.1 hp with hp | hp
    · exact hs p hp
    · rw [List.mem_singleton.1 hp]; exact hv

theorem default_typed (D : DefaultsTyped env) : ∀ t : Ty, HasType env t (t.default env)
  | .int k => by
    simp only [Ty.default, HasType, InRange]
    intro h
    have : (0 : Int) < 2 ^ (k.bits - 1) := Int.pow_pos (by omega)
    have : (0 : Int) < 2 ^ k.bits := Int.pow_pos (by omega)
    split <;> omega
  | .flt f => by
    simp only [Ty.default, HasType, IsFlt, Canon]
    intro _
    exact ⟨⟨Nat.two_pow_pos _, .inl trivial⟩, Nat.zero_le _⟩
  | .bool => by simp [Ty.default, HasType]
  | .str => by simp [Ty.default, HasType]
  | .seq c t => by cases c <;> simp [Ty.default, HasType, HaveType, InSeqOrder]
  | .arr n t => by
    simp only [Ty.default, HasType, List.length_replicate, true_and, have_iff]
    intro v hv
    rw [List.eq_of_mem_replicate hv]
    exact default_typed D t
  | .smap t => by simp [Ty.default, HasType, DictHas]
  | .mmap t => by simp [Ty.default, HasType, DictHas]
  | .umap t => by simp [Ty.default, HasType, DictHas]
  | .opt t => by simp [Ty.default, HasType]
  | .uptr t => by simp [Ty.default, HasType]
  | .pptr b => by simp [Ty.default, HasType]
  | .named i => D i

/-! ### objects of class type -/

/-- An object of class type. -/
def ClsHas (env : Env) : StructDef → Val → Prop
  | .mk dps ms _, .obj ps fs => OwnHave env ms fs ∧ ParentsHave env dps ps
  | _, _ => False

theorem hasType_cls {i : Nat} {d : ClassDef} (h : env.defs i = .cls d) (v : Val) : HasType env (.named i) v ↔ ClsHas env d.traits v := by
  obtain ⟨⟨dps, ms, f⟩, n, tf⟩ := d
  cases v <;> simp [HasType, ClsHas, h]

theorem parentsHave_cons {d : StructDef} {ds : List StructDef} {vs : List Val} (h : ParentsHave env (d :: ds) vs) :
    ∃ v vs', vs = v :: vs' ∧ ClsHas env d v ∧ ParentsHave env ds vs' := by
  obtain ⟨dps, ms, f⟩ := d
  cases vs with
  | nil => simp [ParentsHave] at h
  | cons v vs' =>
    cases v <;> simp only [ParentsHave] at h
    exact ⟨_, _, rfl, ⟨h.1, h.2.1⟩, h.2.2⟩

theorem parentsHave_mk {d : StructDef} {ds : List StructDef} {v : Val} {vs : List Val} (h1 : ClsHas env d v) (h2 : ParentsHave env ds vs) :
    ParentsHave env (d :: ds) (v :: vs) := by
  obtain ⟨dps, ms, f⟩ := d
  cases v <;> simp only [ClsHas] at h1
  exact ⟨h1.1, h1.2, h2⟩

/-- The place a key leads to. -/
def PlaceOf (env : Env) (t : Ty) (get : Option Val) (set : Val → Prop) : Prop := ∃ x, get = some x ∧ HasType env t x ∧ ∀ y, HasType env t y → set y

theorem findMember_typed {key : Bytes} : ∀ (ms : List Member) (fs : List Val) (j : Nat) (slot : StructDef.Slot),
    OwnHave env ms fs → StructDef.findMember key ms j = some slot →
    ∃ i, slot.path = [] ∧ slot.index = j + i ∧ PlaceOf env slot.ty fs[i]? (fun y => OwnHave env ms (fs.set i y))
  | [], _, _, _, _, h => by simp [StructDef.findMember] at h
  | mb :: ms, [], _, _, hs, _ => by simp [OwnHave] at hs
  | mb :: ms, f :: fs, j, slot, hs, h => by
    simp only [OwnHave] at hs
    unfold StructDef.findMember at h
    split at h
    · injection h with h
      subst h
      exact ⟨0, rfl, rfl, f, rfl, hs.1, fun y hy => by simp only [List.set_cons_zero, OwnHave]; exact ⟨hy, hs.2⟩⟩
    · obtain ⟨i, h1, h2, x, h4, h5, h6⟩ := findMember_typed ms fs (j + 1) slot hs.2 h
      refine ⟨i + 1, h1, by omega, x, by simpa using h4, h5, fun y hy => ?_⟩
      simp only [List.set_cons_succ, OwnHave]
      exact ⟨hs.1, h6 y hy⟩

mutual
theorem find_typed {key : Bytes} : ∀ (d : StructDef) (v : Val) (slot : StructDef.Slot), ClsHas env d v →
    d.find key = some slot → PlaceOf env slot.ty (v.field slot.path slot.index) (fun y => ClsHas env d (v.setField slot.path slot.index y))
  | .mk dps ms f, v, slot, hs, h => by
    cases v <;> simp only [ClsHas] at hs
    rename_i ps fs
    unfold StructDef.find at h
    split at h
    · next s hp =>
      injection h with h
      subst h
      obtain ⟨i, rest, h1, x, h3, h4, h5⟩ := findParents_typed dps ps 0 s hs.2 hp
      obtain ⟨pa, ix, ty⟩ := s
      dsimp only at h1 h3 h4 h5 ⊢
      subst h1
      simp only [Nat.zero_add, Val.field, Val.setField]
      cases hpi : ps[i]? with
      | none => simp [hpi] at h3
      | some q =>
        simp only [hpi] at h3 h5 ⊢
        exact ⟨x, h3, h4, fun y hy => ⟨hs.1, h5 y hy⟩⟩
    · obtain ⟨i, h1, h2, x, h4, h5, h6⟩ := findMember_typed ms fs 0 slot hs.1 h
      rw [h1, h2]
      simp only [Nat.zero_add, Val.field, Val.setField]
      exact ⟨x, h4, h5, fun y hy => ⟨h6 y hy, hs.2⟩⟩
theorem findParents_typed {key : Bytes} : ∀ (ds : List StructDef) (vs : List Val) (j : Nat) (slot : StructDef.Slot),
    ParentsHave env ds vs → StructDef.find.findInParents key ds j = some slot →
    ∃ i rest, slot.path = (j + i) :: rest ∧ PlaceOf env slot.ty (match vs[i]? with | .some v => v.field rest slot.index | .none => .none)
      (fun y => ParentsHave env ds (match vs[i]? with | .some v => vs.set i (v.setField rest slot.index y) | .none => vs))
  | [], _, _, _, _, h => by simp [StructDef.find.findInParents] at h
  | d :: ds, vs, j, slot, hs, h => by
    obtain ⟨v, vs', rfl, hs1, hs2⟩ := parentsHave_cons hs
    unfold StructDef.find.findInParents at h
    split at h
    · next s hf =>
      injection h with h
      subst h
      obtain ⟨x, h4, h5, h6⟩ := find_typed d v s hs1 hf
      refine ⟨0, s.path, rfl, x, by simpa using h4, h5, fun y hy => ?_⟩
      simp only [List.getElem?_cons_zero, List.set_cons_zero]
      exact parentsHave_mk (h6 y hy) hs2
    · obtain ⟨i, rest, h1, x, h3, h4, h5⟩ := findParents_typed ds vs' (j + 1) slot hs2 h
      refine ⟨i + 1, rest, by rw [h1]; congr 1; omega, x, by simpa using h3, h4, fun y hy => ?_⟩
      have := h5 y hy
      simp only [List.getElem?_cons_succ, List.set_cons_succ]
      cases hq : vs'[i]? with
      | none => simp only [hq] at this ⊢; exact parentsHave_mk hs1 this
      | some q => simp only [hq] at this ⊢; exact parentsHave_mk hs1 this
end

/-! ### tuples and arrays -/

/-- The elements of a fixed size container. -/
def FixHas (env : Env) (tyAt : Nat → Option Ty) (vs : List Val) : Prop := ∀ (j : Nat) (t : Ty) (w : Val), tyAt j = some t → vs[j]? = some w → HasType env t w

theorem fixHas_set {tyAt : Nat → Option Ty} {vs : List Val} {i : Nat} {t : Ty} {v : Val} (h : FixHas env tyAt vs) (ht : tyAt i = some t) (hv : HasType env t v) :
    FixHas env tyAt (vs.set i v) := by
  intro j u w hj hw
  rw [List.getElem?_set] at hw
  split at hw
  · next e =>
    subst e
    split at hw
    · cases hw; rw [ht] at hj; cases hj; exact hv
    · cases hw
  · exact h j u w hj hw

theorem fixHas_arr {n : Nat} {t : Ty} {vs : List Val} (hn : vs.length = n) : FixHas env (fun i => if i < n then some t else none) vs ↔ HaveType env t vs := by
  rw [have_iff]
  constructor
  · intro h v hv
    obtain ⟨j, hj, rfl⟩ := List.getElem_of_mem hv
    exact h j t _ (if_pos (by omega)) (List.getElem?_eq_getElem hj)
  · intro h j u w hj hw
    dsimp only at hj
    split at hj
    · cases hj; exact h w (List.mem_of_getElem? hw)
    · cases hj

theorem fixHas_tuple : ∀ {ts : List Ty} {vs : List Val}, (vs.length = ts.length ∧ FixHas env (fun i => ts[i]?) vs) ↔ TupleHas env ts vs
  | [], [] => by simp [TupleHas, FixHas]
  | [], v :: vs => by simp [TupleHas]
  | t :: ts, [] => by simp [TupleHas]
  | t :: ts, v :: vs => by
    rw [TupleHas, ← fixHas_tuple (ts := ts) (vs := vs)]
    constructor
    · rintro ⟨h1, h2⟩
      exact ⟨h2 0 t v rfl rfl, by simpa using h1, fun j u w hj hw => h2 (j + 1) u w (by simpa using hj) (by simpa using hw)⟩
    · rintro ⟨h1, h2, h3⟩
      refine ⟨by simpa using h2, fun j u w hj hw => ?_⟩
      cases j with
      | zero => simp only [List.getElem?_cons_zero, Option.some.injEq] at hj hw; subst hj; subst hw; exact h1
      | succ j => exact h3 j u w (by simpa using hj) (by simpa using hw)

/-! ### the deserialiser -/

/-- The numbers a parser hands out are in the range of the type that was asked for. -/
structure Ranged {σ : Type} (o : POps σ) : Prop where
  int : ∀ k s, 0 < k.bits → Yields (fun x => InRange k x.1) (o.getInt k s)
  flt : ∀ f s, f ∈ [f32, f64, f80] → Yields (fun x => IsFlt f x.1) (o.getFlt f s)

theorem typAdm3 {A B C D : Type} (P : A → B → C → D → Prop) (H : A → B → C → Prop) :
    admissible (fun f : A → B → C → Res D => ∀ a b c, H a b c → Yields (P a b c) (f a b c)) :=
  admissible_pi _ fun a => admissible_pi _ fun b => admissible_pi _ fun c => admissible_pi _ fun _ =>
    admissible_apply (fun (_ : A) (f : B → C → Res D) => Yields (P a b c) (f b c)) a
      (admissible_apply (fun (_ : B) (f : C → Res D) => Yields (P a b c) (f c)) b (admissible_apply (fun (_ : C) (r : Res D) => Yields (P a b c) r) c (Yields.admissible _)))

theorem typAdm4 {A B C D E : Type} (P : A → B → C → D → E → Prop) (H : A → B → C → D → Prop) :
    admissible (fun f : A → B → C → D → Res E => ∀ a b c d, H a b c d → Yields (P a b c d) (f a b c d)) :=
  admissible_pi _ fun a => admissible_pi _ fun b => admissible_pi _ fun c => admissible_pi _ fun d => admissible_pi _ fun _ =>
    admissible_apply (fun (_ : A) (f : B → C → D → Res E) => Yields (P a b c d) (f b c d)) a
      (admissible_apply (fun (_ : B) (f : C → D → Res E) => Yields (P a b c d) (f c d)) b
        (admissible_apply (fun (_ : C) (f : D → Res E) => Yields (P a b c d) (f d)) c (admissible_apply (fun (_ : D) (r : Res E) => Yields (P a b c d) r) d (Yields.admissible _))))

theorem yields_any {α : Type} (r : Res α) : Yields (fun _ => True) r := fun _ _ => trivial

variable {σ : Type} {o : POps σ}

theorem lift_yields {α : Type} {P : α → Prop} {p : PI σ} {r : Res (α × σ)} (h : Yields (fun x => P x.1) r) : Yields (fun x => P x.1) (p.lift r) := by
  unfold PI.lift
  exact h.bind fun x hx => .ok hx

theorem pickAlt_among {cfg : Cfg} {key name : Bytes} {c : Nat} : ∀ {alts : List Nat}, pickAlt env cfg key name alts = some c → c ∈ alts
  | [], h => by simp [pickAlt] at h
  | a :: alts, h => by
    unfold pickAlt at h
    split at h
    · split at h
      · exact List.mem_cons_of_mem _ (pickAlt_among h)
      · cases h; simp
    · exact List.mem_cons_of_mem _ (pickAlt_among h)

theorem enumOf_mem {table : List (Int × Bytes)} {s : Bytes} {v : Int} (h : enumOf table s = some v) : v ∈ table.map Prod.fst := by
  unfold enumOf at h
  cases hf : table.find? (fun e => decide (e.2 = s)) with
  | none => rw [hf] at h; cases h
  | some e => rw [hf] at h; cases h; exact List.mem_map_of_mem (List.mem_of_find?_eq_some hf)

set_option maxHeartbeats 1000000 in
theorem deser_typed (R : Ranged o) (D : DefaultsTyped env) (cfg : Cfg) :
    ∀ ty old p, HasType env ty old → Yields (fun x => HasType env ty x.1) (deser o env cfg ty old p) := by
  refine (deser.mutual_fixpoint_induct o env cfg
    (fun f => ∀ ty old p, HasType env ty old → Yields (fun x => HasType env ty x.1) (f ty old p))
    (fun f => ∀ d old p, ClsHas env d old → Yields (fun x => ClsHas env d x.1) (f d old p))
    (fun f => ∀ d found old p, ClsHas env d old → Yields (fun x => ClsHas env d x.1) (f d found old p))
    (fun f => ∀ kind t kvs p, DictHas env t kvs ∧ InKeyOrder kind kvs → Yields (fun x => ∃ kvs, x.1 = .dict kvs ∧ DictHas env t kvs ∧ InKeyOrder kind kvs) (f kind t kvs p))
    (fun f => ∀ tyAt i vs p, FixHas env tyAt vs → Yields (fun x => ∃ ws, x.1 = .list ws ∧ ws.length = vs.length ∧ FixHas env tyAt ws) (f tyAt i vs p))
    (fun f => ∀ c t vs p, HaveType env t vs ∧ InSeqOrder env c vs → Yields (fun x => ∃ ws, x.1 = .list ws ∧ HaveType env t ws ∧ InSeqOrder env c ws) (f c t vs p))
    ?_ ?_ ?_ ?_ ?_ ?_ ?_ ?_ ?_ ?_ ?_ ?_).1
  · exact typAdm3 (fun ty _ _ (x : Val × PI σ) => HasType env ty x.1) (fun ty old _ => HasType env ty old)
  · exact typAdm3 (fun d _ _ (x : Val × PI σ) => ClsHas env d x.1) (fun d old _ => ClsHas env d old)
  · exact typAdm4 (fun d _ _ _ (x : Val × PI σ) => ClsHas env d x.1) (fun d _ old _ => ClsHas env d old)
  · exact typAdm4 (fun kind t _ _ (x : Val × PI σ) => ∃ kvs, x.1 = .dict kvs ∧ DictHas env t kvs ∧ InKeyOrder kind kvs) (fun kind t kvs _ => DictHas env t kvs ∧ InKeyOrder kind kvs)
  · exact typAdm4 (fun tyAt _ vs _ (x : Val × PI σ) => ∃ ws, x.1 = .list ws ∧ ws.length = vs.length ∧ FixHas env tyAt ws) (fun tyAt _ vs _ => FixHas env tyAt vs)
  · exact typAdm4 (fun c t _ _ (x : Val × PI σ) => ∃ ws, x.1 = .list ws ∧ HaveType env t ws ∧ InSeqOrder env c ws) (fun c t vs _ => HaveType env t vs ∧ InSeqOrder env c vs)
  · intro deser deserClass deserDict deserFix deserVec h1 h2 h4 h5 h6 ty old p ho
    cases ty with
    | int k =>
      refine (yields_any _).bind fun x _ => ?_
      dsimp only
      split
      · exact .throwStd
      by_cases hk : 0 < k.bits
      · exact (lift_yields (P := fun i => InRange k i) (R.int k _ hk)).bind fun y hy => .ok (by simp only [HasType]; exact fun _ => hy)
      · exact (yields_any _).bind fun y _ => .ok (by simp only [HasType]; exact fun h => absurd h hk)
    | flt f =>
      refine (yields_any _).bind fun x _ => ?_
      dsimp only
      split
      · exact .throwStd
      by_cases hf : f ∈ [f32, f64, f80]
      · exact (lift_yields (P := fun i => IsFlt f i) (R.flt f _ hf)).bind fun y hy => .ok (by simp only [HasType]; exact fun _ => hy)
      · exact (yields_any _).bind fun y _ => .ok (by simp only [HasType]; exact fun h => absurd h hf)
    | bool =>
      refine (yields_any _).bind fun x _ => ?_
      dsimp only
      split
      · exact .throwStd
      exact (yields_any _).bind fun y _ => .ok (by simp only [HasType])
    | str =>
      refine (yields_any _).bind fun x _ => ?_
      dsimp only
      split
      · exact .throwStd
      exact (yields_any _).bind fun y _ => .ok (by simp only [HasType])
    | seq c t =>
      refine (yields_any _).bind fun x _ => ?_
      dsimp only
      split
      · exact .throwStd
      split
      · rename_i vs
        simp only [HasType] at ho
        refine (h6 _ _ _ _ ho).mono fun x hx => ?_
        obtain ⟨ws, e, hw⟩ := hx
        rw [e, HasType]
        exact hw
      · exact .ub
    | arr n t =>
      refine (yields_any _).bind fun x _ => ?_
      dsimp only
      split
      · exact .throwStd
      split
      · rename_i vs
        simp only [HasType] at ho
        refine (h5 _ _ _ _ ((fixHas_arr ho.1).2 ho.2)).mono fun x hx => ?_
        obtain ⟨ws, e, hl, hw⟩ := hx
        rw [e, HasType]
        have hl : ws.length = n := hl.trans ho.1
        exact ⟨hl, (fixHas_arr hl).1 hw⟩
      · exact .ub
    | smap t =>
      refine (yields_any _).bind fun x _ => ?_
      dsimp only
      split
      · exact .throwStd
      split
      · rename_i vs
        simp only [HasType] at ho
        refine (h4 .sorted _ _ _ ho).mono fun x hx => ?_
        obtain ⟨ws, e, hw⟩ := hx
        rw [e, HasType]
        exact hw
      · exact .ub
    | mmap t =>
      refine (yields_any _).bind fun x _ => ?_
      dsimp only
      split
      · exact .throwStd
      split
      · rename_i vs
        simp only [HasType] at ho
        refine (h4 .multi _ _ _ ho).mono fun x hx => ?_
        obtain ⟨ws, e, hw⟩ := hx
        rw [e, HasType]
        exact hw
      · exact .ub
    | umap t =>
      refine (yields_any _).bind fun x _ => ?_
      dsimp only
      split
      · exact .throwStd
      split
      · rename_i vs
        simp only [HasType] at ho
        refine (h4 .unordered _ _ _ ho).mono fun x hx => ?_
        obtain ⟨ws, e, hw⟩ := hx
        rw [e, HasType]
        exact hw
      · exact .ub
    | opt t =>
      have hc : HasType env t (old.contentOr (t.default env)) := by
        cases old <;> simp only [HasType] at ho
        · exact default_typed D t
        · exact ho
      exact (h1 _ _ _ hc).bind fun x hx => .ok (by simp only [HasType]; exact hx)
    | uptr t =>
      refine (yields_any _).bind fun x _ => ?_
      dsimp only
      split
      · exact (yields_any _).bind fun s _ => .ok (by simp only [HasType])
      · exact (h1 _ _ _ (default_typed D t)).bind fun x hx => .ok (by simp only [HasType]; exact hx)
    | pptr b =>
      refine (yields_any _).bind fun x _ => ?_
      dsimp only
      split
      · exact (yields_any _).bind fun s _ => .ok (by simp only [HasType])
      · refine (yields_any _).bind fun x _ => ?_
        split
        · exact .throwStd
        rename_i c _
        split
        · exact .ub
        rename_i hd
        split
        · rename_i d hc
          refine (h2 _ _ _ ((hasType_cls hc _).1 (D c))).bind fun x hx => .ok ?_
          simp only [HasType]
          exact ⟨by simpa using hd, (hasType_cls hc _).2 hx⟩
        · exact .ub
    | named i =>
      dsimp only
      split
      · rename_i d hc
        exact (h2 _ _ _ ((hasType_cls hc _).1 ho)).mono fun x hx => (hasType_cls hc _).2 hx
      · rename_i ts hc
        refine (yields_any _).bind fun x _ => ?_
        split
        · exact .throwStd
        split
        · rename_i vs
          simp only [HasType, hc] at ho
          obtain ⟨hl, hf⟩ := fixHas_tuple.2 ho
          refine (h5 _ _ _ _ hf).mono fun x hx => ?_
          obtain ⟨ws, e, hl', hw⟩ := hx
          rw [e]
          simp only [HasType, hc]
          exact fixHas_tuple.1 ⟨hl'.trans hl, hw⟩
        · exact .ub
      · rename_i table hc
        refine (yields_any _).bind fun x _ => ?_
        split
        · exact .throwStd
        refine (yields_any _).bind fun x _ => ?_
        split
        · rename_i v hv
          exact .ok (by simp only [HasType, hc]; exact enumOf_mem hv)
        · exact .throwStd
      · rename_i alts hc
        refine (yields_any _).bind fun x _ => ?_
        split
        · rename_i c hp
          split
          · rename_i d hd
            refine (h2 _ _ _ ((hasType_cls hd _).1 (D c))).bind fun x hx => .ok ?_
            simp only [HasType, hc]
            exact ⟨pickAlt_among hp, (hasType_cls hd _).2 hx⟩
          · exact .ub
        · exact (yields_any _).bind fun p _ => .ok ho
  · intro deserMembers h3 d old p ho
    refine (yields_any _).bind fun x _ => ?_
    dsimp only
    split
    · exact .throwStd
    · exact h3 _ _ _ _ ho
  · intro deser deserMembers h1 h3 d found old p ho
    refine (yields_any _).bind fun x _ => ?_
    dsimp only
    split
    · split
      · exact .throwStd
      · exact .ok ho
    refine (yields_any _).bind fun x _ => ?_
    split
    · exact (yields_any _).bind fun p _ => h3 _ _ _ _ ho
    rename_i slot hs
    obtain ⟨w, e, hw, hset⟩ := find_typed d old slot ho hs
    split
    · exact .ub
    · rename_i w' e'
      rw [e] at e'
      cases e'
      exact (h1 _ _ _ hw).bind fun x hx => h3 _ _ _ _ (hset _ hx)
  · intro deser deserDict h1 h4 kind t kvs p ho
    refine (yields_any _).bind fun x _ => ?_
    dsimp only
    split
    · exact .ok ⟨_, rfl, ho⟩
    refine (yields_any _).bind fun x _ => ?_
    cases kind with
    | sorted =>
      have hw : HasType env t ((dictGet x.1 kvs).getD (t.default env)) := by
        cases e : dictGet x.1 kvs with
        | none => exact default_typed D t
        | some v => exact dictGet_typed ho.1 e
      exact (h1 _ _ _ hw).bind fun y hy => h4 _ _ _ _ ⟨dictSet_typed hy ho.1, Props.ascending_dictSet ho.2⟩
    | multi => exact (h1 _ _ _ (default_typed D t)).bind fun y hy => h4 _ _ _ _ ⟨multiInsert_typed hy ho.1, Props.order_multi ho.2⟩
    | unordered => exact (h1 _ _ _ (default_typed D t)).bind fun y hy => h4 _ _ _ _ ⟨uniqueInsert_typed hy ho.1, Props.nodup_unique ho.2⟩
  · intro deser deserFix h1 h5 tyAt i vs p ho
    refine (yields_any _).bind fun x _ => ?_
    dsimp only
    split
    · exact .ok ⟨_, rfl, rfl, ho⟩
    split
    · rename_i t w ht hw
      refine (h1 _ _ _ (ho _ _ _ ht hw)).bind fun y hy => (h5 _ _ _ _ (fixHas_set ho ht hy)).mono fun z hz => ?_
      obtain ⟨ws, e, hl, h⟩ := hz
      exact ⟨ws, e, by simpa using hl, h⟩
    · exact .ub
  · intro deser deserVec h1 h6 c t vs p ho
    refine (yields_any _).bind fun x _ => ?_
    dsimp only
    split
    · exact .ok ⟨_, rfl, ho⟩
    · exact (h1 _ _ _ (default_typed D t)).bind fun y hy => h6 _ _ _ _ (seqInsert_typed c ho.1 ho.2 hy)

/-- What is stored when an import ends is of the type. -/
theorem extract_typed {io : InOps σ} (R : Ranged io.ops) (D : DefaultsTyped env) (cfg : Cfg) (pol : Policy) (ty : Ty) (old : Val) (p : PI σ) (ho : HasType env ty old)
    {r : Bool} {v : Val} (h : (extract io env cfg pol ty old p).fate = .returned r (some v)) : HasType env ty v := by
  have hc : ∀ e : Exc, (pol.handle e : Report Val).fate ≠ .returned r (some v) := by
    intro e
    cases e <;> simp only [Policy.handle] <;> (try split) <;> simp
  unfold extract at h
  have key : Yields (fun x => HasType env ty x.1) (do
      let (k, p) ← p.getToken io.ops
      if k ≠ Tok.DocStart then throwStd else
      deser io.ops env cfg ty old p : Res (Val × PI σ)) := by
    refine (yields_any _).bind fun x _ => ?_
    dsimp only
    split
    · exact .throwStd
    · exact deser_typed R D cfg ty old _ ho
  split at h
  · cases h
  · exact absurd h (hc _)
  · rename_i w p' e
    have hw := key _ e
    dsimp only at h hw
    split at h
    · cases h
    · split at h
      · cases h
      · exact absurd h (hc _)
    · split at h
      · split at h
        · cases h
        · exact absurd h (hc _)
      · split at h
        · exact absurd h (hc _)
        · cases h
          exact hw

theorem import_typed (R : Ranged o) (D : DefaultsTyped env) (cfg : Cfg) (ty : Ty) (old : Val) (p : PI σ) (ho : HasType env ty old) :
    Yields (fun x => HasType env ty x.1) (importValue o env cfg ty old p) := by
  unfold importValue
  refine (yields_any _).bind fun x _ => ?_
  dsimp only
  split
  · exact .throwStd
  refine (deser_typed R D cfg ty old _ ho).bind fun y hy => (yields_any _).bind fun x _ => ?_
  split
  · exact .throwStd
  · exact .ok hy

end Thors
