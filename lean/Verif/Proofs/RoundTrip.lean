import Verif.Proofs.RoundTripBase
/-
Importing the document of a value gives the value back, for any format whose scalars and keys are read back
faithfully.
-/
namespace Thors
open Spec StrIn

section
variable {K X : Type} (ek : Bytes → K) (ea : Atom → X)

/-- A document in the terms of a format. -/
def enc : Doc → Tr K X
  | .scalar a => .scalar (ea a)
  | .arr ts => .arr (elems ts)
  | .obj ms => .obj (members ms)
where
  elems : List Doc → List (Tr K X)
  | [] => []
  | t :: ts => enc t :: elems ts
  members : List (Bytes × Doc) → List (K × Tr K X)
  | [] => []
  | (k, t) :: ms => (ek k, enc t) :: members ms

theorem enc_members_append (a b : List (Bytes × Doc)) : enc.members ek ea (a ++ b) = enc.members ek ea a ++ enc.members ek ea b := by
  induction a with
  | nil => rfl
  | cons m a ih => obtain ⟨k, t⟩ := m; simp [enc.members, ih]

theorem allKeys_append {P : Bytes → Prop} (a b : List (Bytes × Doc)) : AllKeys.members P (a ++ b) ↔ AllKeys.members P a ∧ AllKeys.members P b := by
  induction a with
  | nil => simp [AllKeys.members]
  | cons m a ih => obtain ⟨k, t⟩ := m; simp [AllKeys.members, ih, and_assoc]

theorem allScalars_append {P : Atom → Prop} (a b : List (Bytes × Doc)) : AllScalars.members P (a ++ b) ↔ AllScalars.members P a ∧ AllScalars.members P b := by
  induction a with
  | nil => simp [AllScalars.members]
  | cons m a ih => obtain ⟨k, t⟩ := m; simp [AllScalars.members, ih, and_assoc]

/-- The format reads keys and scalars back as they were. -/
structure Faithful (sem : ScalarSem K X) (okKey : Bytes → Prop) (okAtom : Atom → Prop) : Prop where
  key : ∀ k, okKey k → sem.key (ek k) = k
  null : ∀ a, okAtom a → (sem.isNull (ea a) = true ↔ a = .null)
  int : ∀ k i, okAtom (.int k i) → InRange k i → sem.readInt k (ea (.int k i)) = .ok i
  flt : ∀ f x, okAtom (.flt f x) → IsFlt f x → sem.readFlt f (ea (.flt f x)) = .ok x
  bool : ∀ b, okAtom (.bool b) → sem.readBool (ea (.bool b)) = .ok b
  str : ∀ s, okAtom (.str s) → sem.readStr (ea (.str s)) = .ok s

section
variable (env : Env) (mk : Bytes)

theorem doc_not_null : ∀ (t : Ty) (v : Val) (d : Doc), nullable t = false → docOf env mk t v = .ok d → d ≠ .scalar .null
  | t, .int i, d, _, h => by cases t <;> simp [docOf] at h; subst h; simp
  | t, .flt x, d, _, h => by cases t <;> simp [docOf] at h; subst h; simp
  | t, .bool i, d, _, h => by cases t <;> simp [docOf] at h; subst h; simp
  | t, .str i, d, _, h => by cases t <;> simp [docOf] at h; subst h; simp
  | t, .none, d, _, h => by cases t <;> simp [docOf] at h
  | t, .null, d, hn, h => by cases t <;> simp [docOf] at h <;> simp [nullable] at hn
  | t, .some v, d, hn, h => by
    cases t <;> simp [docOf] at h
    exact doc_not_null _ v d (by simpa [nullable] using hn) h
  | t, .ptr v, d, hn, h => by cases t <;> simp [docOf] at h; simp [nullable] at hn
  | t, .list vs, d, _, h => by
    cases t <;> simp only [docOf] at h <;> try (cases h; done)
    · obtain ⟨a, -, h⟩ := Res.bind_eq_ok.1 h; cases h; simp
    · obtain ⟨a, -, h⟩ := Res.bind_eq_ok.1 h; cases h; simp
    · split at h
      · obtain ⟨a, -, h⟩ := Res.bind_eq_ok.1 h; cases h; simp
      · cases h
  | t, .dict kvs, d, _, h => by
    cases t <;> simp only [docOf] at h <;> try (cases h; done)
    all_goals obtain ⟨a, -, h⟩ := Res.bind_eq_ok.1 h; cases h; simp
  | t, .enum e, d, _, h => by
    cases t <;> simp only [docOf] at h <;> try (cases h; done)
    split at h
    · split at h
      · cases h; simp
      · cases h
    · cases h
  | t, .obj ps fs, d, _, h => by
    cases t <;> simp only [docOf] at h <;> try (cases h; done)
    split at h
    · obtain ⟨a, -, h⟩ := Res.bind_eq_ok.1 h
      obtain ⟨b, -, h⟩ := Res.bind_eq_ok.1 h
      cases h; simp
    · cases h
  | t, .dyn c v, d, hn, h => by cases t <;> first | (simp [nullable] at hn; done) | (simp [docOf] at h; done)
  | t, .alt c v, d, _, h => by
    cases t with
    | named i =>
      cases v with
      | obj ps fs =>
        simp only [docOf] at h
        split at h
        · obtain ⟨a, -, h⟩ := Res.bind_eq_ok.1 h
          obtain ⟨b, -, h⟩ := Res.bind_eq_ok.1 h
          cases h; simp
        · cases h
      | _ => simp [docOf] at h
    | _ => simp [docOf] at h

theorem enumOf_lookup {table : List (Int × Bytes)} (hn : (table.map Prod.snd).Nodup) {e : Int} {s : Bytes} (h : table.lookup e = some s) :
    enumOf table s = some e := by
  induction table with
  | nil => cases h
  | cons x table ih =>
    obtain ⟨e', s'⟩ := x
    rw [List.map_cons, List.nodup_cons] at hn
    unfold enumOf
    by_cases he : e = e'
    · subst he
      simp at h
      subst h
      simp
    · rw [List.lookup_cons, show (e == e') = false by simp [he]] at h
      simp only at h
      have ih' := ih hn.2 h
      unfold enumOf at ih'
      have : s' ≠ s := by
        rintro rfl
        apply hn.1
        simp only [Option.map_eq_some_iff] at ih'
        obtain ⟨x, hx, -⟩ := ih'
        have h1 := List.mem_of_find?_eq_some hx
        have h2 := List.find?_some hx
        simp at h2
        exact List.mem_map.2 ⟨x, h1, h2⟩
      rw [List.find?_cons_of_neg (by simpa using this)]
      exact ih'

theorem pickAlt_eq {cfg : Cfg} {alts : List Nat} {c : Nat} {d : ClassDef} (hc : c ∈ alts) (hd : env.defs c = .cls d) {key : Bytes}
    (hk : polyMarker env cfg.marker c = key) (hu : ∀ a d', a ∈ alts → env.defs a = .cls d' → d'.serName = d.serName → a = c) :
    pickAlt env cfg key d.serName alts = some c := by
  induction alts with
  | nil => cases hc
  | cons a alts ih =>
    rw [pickAlt]
    by_cases hac : a = c
    · subst hac
      simp [hd, hk]
    · have hc' : c ∈ alts := by
        rcases List.mem_cons.1 hc with h | h
        · exact absurd h.symm hac
        · exact h
      have ih' := ih hc' (fun a' d' ha => hu a' d' (by simp [ha]))
      split
      · rename_i d' hd'
        rw [if_pos]
        · exact ih'
        · right
          intro e
          exact hac (hu a d' (by simp) hd' e.symm)
      · exact ih'

end

variable (sem : ScalarSem K X) (env : Env) (cfg : Cfg) (mk : Bytes) {okKey : Bytes → Prop} {okAtom : Atom → Prop}

/-- All members shown: their names are the keys written. -/
theorem own_keys {self : Val} : ∀ (ms : List Member) (vs : List Val) (ds : List (Bytes × Doc)), (∀ m ∈ ms, ∀ t, m.ty ≠ .opt t) →
    docOwn env mk none self ms vs = .ok ds → ∀ m ∈ ms, m.out ∈ ds.map Prod.fst
  | [], _, _, _, _, m, hm => by cases hm
  | m :: ms, [], ds, _, h, _, _ => by simp [docOwn] at h
  | m :: ms, v :: vs, ds, ho, h, m', hm' => by
    have hsh : shown none self m v := by
      rintro ⟨⟨t, ht⟩, -⟩
      exact ho m (by simp) t ht
    simp only [docOwn, if_pos hsh] at h
    obtain ⟨a, -, h⟩ := Res.bind_eq_ok.1 h
    obtain ⟨b, hb, h⟩ := Res.bind_eq_ok.1 h
    cases h
    rcases List.mem_cons.1 hm' with rfl | hm'
    · simp
    · have := own_keys ms vs b (fun m hm => ho m (by simp [hm])) hb m' hm'
      simp only [List.map_cons, List.mem_cons]
      exact .inr this

theorem parents_keys : ∀ (dps : List StructDef) (vs : List Val) (ds : List (Bytes × Doc)), NoFilter.all dps →
    (∀ m ∈ allMembers.inherited dps, ∀ t, m.ty ≠ .opt t) →
    docParents env mk dps vs = .ok ds → ∀ m ∈ allMembers.inherited dps, m.out ∈ ds.map Prod.fst
  | [], _, _, _, _, _, m, hm => by cases hm
  | .mk dps ms f :: dss, vs, ds, hf, ho, h, m', hm' => by
    cases vs with
    | nil => simp [docParents] at h
    | cons v vs =>
      cases v with
      | obj ps fs =>
        simp only [docParents] at h
        obtain ⟨a, ha, h⟩ := Res.bind_eq_ok.1 h
        obtain ⟨b, hb, h⟩ := Res.bind_eq_ok.1 h
        obtain ⟨c, hc, h⟩ := Res.bind_eq_ok.1 h
        cases h
        rw [NoFilter.all, NoFilter] at hf
        obtain ⟨⟨rfl, hf1⟩, hf2⟩ := hf
        simp only [allMembers.inherited, allMembers, List.mem_append] at hm' ho
        rw [List.map_append, List.map_append, List.mem_append, List.mem_append]
        rcases hm' with (hm' | hm') | hm'
        · exact .inl (.inl (own_keys env mk ms fs a (fun m hm => ho m (.inl (.inl hm))) ha m' hm'))
        · exact .inl (.inr (parents_keys dps ps b hf1 (fun m hm => ho m (.inl (.inr hm))) hb m' hm'))
        · exact .inr (parents_keys dss vs c hf2 (fun m hm => ho m (.inr hm)) hc m' hm')
      | _ => simp [docParents] at h

variable (hx : cfg.strict = .Exact → ExactTypes env) in
include hx in
theorem exact_ok {i : Nat} {dps : List StructDef} {ms : List Member} {f : Option (Val → Bytes → Bool)} {name : Bytes} {field : Option Bytes}
    {ps fs : List Val} {self : Val} {own up : List (Bytes × Doc)} {found : List Bytes} (hd : env.defs i = .cls ⟨.mk dps ms f, name, field⟩)
    (hown : docOwn env mk f self ms fs = .ok own) (hup : docParents env mk dps ps = .ok up)
    (h1 : ∀ k ∈ own.map Prod.fst, k ∈ found) (h2 : ∀ k ∈ up.map Prod.fst, k ∈ found) :
    ¬ (cfg.strict = .Exact ∧ (StructDef.mk dps ms f).heed found = false) := by
  rintro ⟨hex, hheed⟩
  have hxt := hx hex i _ hd
  rw [NoFilter] at hxt
  obtain ⟨⟨rfl, hxf⟩, hxm⟩ := hxt
  rw [Bool.eq_false_iff] at hheed
  apply hheed
  rw [heed_iff]
  intro m hmm
  rw [(hxm m hmm).1]
  simp only [allMembers, List.mem_append] at hmm
  rcases hmm with hmm | hmm
  · exact h1 _ (own_keys env mk ms fs own (fun m hm => (hxm m (by simp [allMembers, hm])).2) hown m hmm)
  · exact h2 _ (parents_keys env mk dps ps up hxf (fun m hm => (hxm m (by simp [allMembers, hm])).2) hup m hmm)

variable (F : Faithful ek ea sem okKey okAtom) in
include F in
theorem className_enc {key marker name : Bytes} {own up : List (Bytes × Doc)} (hkey : marker = key) (hk : okKey key) (ha : okAtom (.str name)) :
    className sem marker (imp.members sem env cfg (enc.members ek ea ((key, .scalar (.str name)) :: (own ++ up)))) =
      .ok (name, imp.members sem env cfg (enc.members ek ea own) ++ imp.members sem env cfg (enc.members ek ea up)) := by
  subst hkey
  rw [enc.members, imp.members, className, F.key _ hk, if_neg (by simp)]
  simp [enc, F.str _ ha, enc_members_append, members_eq]

variable (F : Faithful ek ea sem okKey okAtom) (hg : GoodTypes env) (hm : cfg.marker = mk) (hx : cfg.strict = .Exact → ExactTypes env)
include F hg hm hx

set_option maxHeartbeats 1000000

mutual
theorem rt_val : ∀ (v : Val) (ty : Ty) (old : Val) (d : Doc), docOf env mk ty v = .ok d → Storable env mk ty v → Fresh env ty old →
    AllKeys okKey d → AllScalars okAtom d → imp sem env cfg (enc ek ea d) ty old = .ok (restored env ty old v)
  | .int i, ty, old, d, h, hs, hf, hk, ha => by
    cases ty <;> simp [docOf] at h
    subst h
    rw [Storable] at hs
    simp [enc, imp, impScalar, F.int _ _ ha hs, restored]
  | .flt x, ty, old, d, h, hs, hf, hk, ha => by
    cases ty <;> simp [docOf] at h
    subst h
    rw [Storable] at hs
    simp [enc, imp, impScalar, F.flt _ _ ha hs, restored]
  | .bool b, ty, old, d, h, hs, hf, hk, ha => by
    cases ty <;> simp [docOf] at h
    subst h
    simp [enc, imp, impScalar, F.bool _ ha, restored]
  | .str s, ty, old, d, h, hs, hf, hk, ha => by
    cases ty <;> simp [docOf] at h
    subst h
    simp [enc, imp, impScalar, F.str _ ha, restored]
  | .none, ty, old, d, h, hs, hf, hk, ha => by cases ty <;> simp [docOf] at h
  | .null, ty, old, d, h, hs, hf, hk, ha => by
    cases ty <;> simp [docOf] at h
    · subst h; simp [enc, imp, impScalar, (F.null .null ha).2 rfl, restored]
    · subst h; simp [enc, imp, impScalar, (F.null .null ha).2 rfl, restored]
  | .some v, ty, old, d, h, hs, hf, hk, ha => by
    cases ty with
    | opt t =>
      rw [docOf] at h
      rw [Storable] at hs
      have ho : old = .none := by
        cases old with
        | none => rfl
        | _ => exact absurd hf (by simp [Fresh])
      subst ho
      rw [imp_opt, rt_val v t ((Val.none).contentOr (t.default env)) d h hs (default_fresh env hg t) hk ha]
      rw [restored]; rfl
    | _ => simp [docOf] at h
  | .ptr v, ty, old, d, h, hs, hf, hk, ha => by
    cases ty with
    | uptr t =>
      rw [docOf] at h
      rw [Storable] at hs
      have hnn : isNullTree sem (enc ek ea d) = false := by
        have := doc_not_null env mk t v d hs.1 h
        cases d with
        | scalar a =>
          simp only [enc, isNullTree]
          cases hn : sem.isNull (ea a) with
          | false => rfl
          | true => rw [F.null _ ha] at hn; subst hn; exact absurd rfl this
        | _ => rfl
      rw [imp_uptr, if_neg (by simp [hnn]), rt_val v t (t.default env) d h hs.2 (default_fresh env hg t) hk ha]
      rw [restored]; rfl
    | _ => simp [docOf] at h
  | .list vs, ty, old, d, h, hs, hf, hk, ha => by
    cases ty with
    | seq k t =>
      rw [docOf] at h
      obtain ⟨ds, hds, h⟩ := Res.bind_eq_ok.1 h
      cases h
      rw [Storable] at hs
      have ho : old = .list [] := by
        cases old with
        | list os => cases os with
          | nil => rfl
          | cons _ _ => exact absurd hf (by simp [Fresh])
        | _ => exact absurd hf (by simp [Fresh])
      subst ho
      rw [enc, imp, impArr, rt_list vs k t ds [] hs.1 hds hs.2 hk ha, restored]
      rfl
    | arr n t =>
      rw [docOf] at h
      obtain ⟨ds, hds, h⟩ := Res.bind_eq_ok.1 h
      cases h
      rw [Storable] at hs
      obtain ⟨hn, hs⟩ := hs
      cases old with
      | list os =>
        rw [Fresh] at hf
        rw [enc, imp, impArr]
        have := rt_fix vs t ds os [] (fun i => if i < n then some t else none) hds hs hk ha hf.2 (by rw [hf.1, hn])
          (by intro j hj; simp at *; omega)
        rw [List.nil_append] at this
        simp only [List.length_nil] at this
        rw [this, restored]
        rfl
      | _ => exact absurd hf (by simp [Fresh])
    | named i =>
      rw [docOf] at h
      rw [Storable] at hs
      cases hd : env.defs i with
      | tuple ts =>
        rw [hd] at h hs
        obtain ⟨ds, hds, h⟩ := Res.bind_eq_ok.1 h
        cases h
        obtain ⟨os, rfl, hf'⟩ := fresh_tuple env hd hf
        have := rt_tuple vs ts ds os [] (fun i => ts[i]?) hds hs hk ha hf' (by intro j; simp)
        rw [List.nil_append] at this
        simp only [List.length_nil] at this
        simp only [enc, imp, impArr, hd]
        rw [this]
        simp only [restored, hd]
        rfl
      | _ => rw [hd] at h; cases h
    | _ => simp [docOf] at h
  | .dict kvs, ty, old, d, h, hs, hf, hk, ha => by
    cases ty with
    | smap t =>
      rw [docOf] at h
      obtain ⟨ds, hds, h⟩ := Res.bind_eq_ok.1 h
      cases h
      rw [Storable] at hs
      have ho : old = .dict [] := by
        cases old with
        | dict os => cases os with
          | nil => rfl
          | cons _ _ => exact absurd hf (by simp [Fresh])
        | _ => exact absurd hf (by simp [Fresh])
      subst ho
      rw [enc, imp, impObj, rt_dict kvs t ds .sorted [] hds hs.2 hk ha (by simpa using hs.1), restored]
      rfl
    | mmap t =>
      rw [docOf] at h
      obtain ⟨ds, hds, h⟩ := Res.bind_eq_ok.1 h
      cases h
      rw [Storable] at hs
      have ho : old = .dict [] := by
        cases old with
        | dict os => cases os with
          | nil => rfl
          | cons _ _ => exact absurd hf (by simp [Fresh])
        | _ => exact absurd hf (by simp [Fresh])
      subst ho
      rw [enc, imp, impObj, rt_dict kvs t ds .multi [] hds hs.2 hk ha (by simpa using hs.1), restored]
      rfl
    | umap t =>
      rw [docOf] at h
      obtain ⟨ds, hds, h⟩ := Res.bind_eq_ok.1 h
      cases h
      rw [Storable] at hs
      have ho : old = .dict [] := by
        cases old with
        | dict os => cases os with
          | nil => rfl
          | cons _ _ => exact absurd hf (by simp [Fresh])
        | _ => exact absurd hf (by simp [Fresh])
      subst ho
      rw [enc, imp, impObj, rt_dict kvs t ds .unordered [] hds hs.2 hk ha (by simpa using hs.1), restored]
      rfl
    | _ => simp [docOf] at h
  | .enum e, ty, old, d, h, hs, hf, hk, ha => by
    cases ty with
    | named i =>
      simp only [docOf] at h
      cases hd : env.defs i with
      | enum table =>
        rw [hd] at h
        simp only at h
        cases hl : table.lookup e with
        | none => rw [hl] at h; cases h
        | some s =>
          rw [hl] at h
          cases h
          simp [enc, imp, impScalar, hd, F.str _ ha, enumOf_lookup (hg.enums i table hd) hl, restored]
      | _ => rw [hd] at h; cases h
    | _ => simp [docOf] at h
  | .obj ps fs, ty, old, d, h, hs, hf, hk, ha => by
    cases ty with
    | named i =>
      simp only [docOf] at h
      rw [Storable] at hs
      cases hd : env.defs i with
      | cls c =>
        obtain ⟨⟨dps, ms, f⟩, name, field⟩ := c
        rw [hd] at h hs
        obtain ⟨own, hown, h⟩ := Res.bind_eq_ok.1 h
        obtain ⟨up, hup, h⟩ := Res.bind_eq_ok.1 h
        obtain ⟨rfl, hs1, hs2⟩ := hs
        cases h
        obtain ⟨ops, ofs, rfl, hf1, hf2⟩ := fresh_cls env hd hf
        have hn := finds_self (hg.names i _ hd)
        simp only [Option.isSome, Bool.false_eq_true, if_false, List.nil_append] at hk ha ⊢
        rw [AllKeys, allKeys_append] at hk
        rw [AllScalars, allScalars_append] at ha
        obtain ⟨found1, hf1', e1⟩ := rt_own fs (.mk dps ms f) f (.obj ps fs) ms own hown hs1 ofs hf1 hk.1 ha.1 id [] .here ops []
          (fun j m hj => by simpa using hn.1 j m hj) (imp.members sem env cfg (enc.members ek ea up)) []
        obtain ⟨found2, hf2', e2⟩ := rt_parents ps (.mk dps ms f) dps up hup hs2 ops hf2 hk.2 ha.2 id [] .here []
          (restoredOwn env f (.obj ps fs) ms ofs fs) hn.2 [] found1
        simp only [enc, imp, impObj, hd, enc_members_append, members_eq, List.map_append] at e1 e2 ⊢
        simp only [id, List.nil_append, List.append_nil] at e1 e2
        rw [e1, e2, impMembers, if_neg]
        · simp only [restored, hd]
        · exact exact_ok env cfg mk hx hd hown hup (fun k h => hf2' _ (.inl (hf1' _ (.inr h)))) (fun k h => hf2' _ (.inr h))
      | _ => rw [hd] at h; cases h
    | _ => simp [docOf] at h
  | .dyn c w, ty, old, d, h, hs, hf, hk, ha => by
    cases ty with
    | pptr b =>
      cases w with
      | obj ps fs =>
        simp only [docOf] at h
        rw [Storable] at hs
        cases hd : env.defs c with
        | cls cd =>
          obtain ⟨⟨dps, ms, f⟩, name, field⟩ := cd
          rw [hd] at h hs
          obtain ⟨own, hown, h⟩ := Res.bind_eq_ok.1 h
          obtain ⟨up, hup, h⟩ := Res.bind_eq_ok.1 h
          obtain ⟨hreg, hder, hmark, hs1, hs2⟩ := hs
          cases h
          obtain ⟨ops, ofs, hdf, hf1, hf2⟩ := fresh_cls env hd (hg.fresh c)
          have hn := finds_self (hg.names c _ hd)
          rw [AllKeys, AllKeys.members, allKeys_append] at hk
          rw [AllScalars, AllScalars.members, allScalars_append] at ha
          obtain ⟨hk0, -, hk1, hk2⟩ := hk
          obtain ⟨ha0, ha1, ha2⟩ := ha
          rw [AllScalars] at ha0
          obtain ⟨found1, hf1', e1⟩ := rt_own fs (.mk dps ms f) f (.obj ps fs) ms own hown hs1 ofs hf1 hk1 ha1 id [] .here ops []
            (fun j m hj => by simpa using hn.1 j m hj) (imp.members sem env cfg (enc.members ek ea up)) []
          obtain ⟨found2, hf2', e2⟩ := rt_parents ps (.mk dps ms f) dps up hup hs2 ops hf2 hk2 ha2 id [] .here []
            (restoredOwn env f (.obj ps fs) ms ofs fs) hn.2 [] found1
          have hcn : className sem (polyMarker env cfg.marker b)
              (imp.members sem env cfg (enc.members ek ea ((polyMarker env mk c, .scalar (.str name)) :: (own ++ up)))) =
              .ok (name, imp.members sem env cfg (enc.members ek ea own) ++ imp.members sem env cfg (enc.members ek ea up)) :=
            className_enc ek ea sem env cfg F (by rw [hm, hmark]) hk0 ha0
          simp only [enc, imp, impObj, hcn, Res.ok_bind, hreg, hder, hd, hdf, Bool.true_eq_false, if_false]
          simp only [id, List.nil_append, List.append_nil] at e1 e2
          rw [e1, e2, impMembers, if_neg]
          · simp only [restored, hd, hdf]; rfl
          · exact exact_ok env cfg mk hx hd hown hup (fun k h => hf2' _ (.inl (hf1' _ (.inr h)))) (fun k h => hf2' _ (.inr h))
        | _ => rw [hd] at h; cases h
      | _ => simp [docOf] at h
    | _ => simp [docOf] at h
  | .alt c w, ty, old, d, h, hs, hf, hk, ha => by
    cases ty with
    | named i =>
      cases w with
      | obj ps fs =>
        simp only [docOf] at h
        rw [Storable] at hs
        cases hi : env.defs i with
        | variant alts =>
          rw [hi] at hs
          obtain ⟨hmem, hs⟩ := hs
          cases hd : env.defs c with
          | cls cd =>
            obtain ⟨⟨dps, ms, f⟩, name, field⟩ := cd
            rw [hd] at h hs
            obtain ⟨own, hown, h⟩ := Res.bind_eq_ok.1 h
            obtain ⟨up, hup, h⟩ := Res.bind_eq_ok.1 h
            obtain ⟨hmark, huniq, hs1, hs2⟩ := hs
            cases h
            obtain ⟨ops, ofs, hdf, hf1, hf2⟩ := fresh_cls env hd (hg.fresh c)
            have hn := finds_self (hg.names c _ hd)
            rw [AllKeys, AllKeys.members, allKeys_append] at hk
            rw [AllScalars, AllScalars.members, allScalars_append] at ha
            obtain ⟨hk0, -, hk1, hk2⟩ := hk
            obtain ⟨ha0, ha1, ha2⟩ := ha
            rw [AllScalars] at ha0
            obtain ⟨found1, hf1', e1⟩ := rt_own fs (.mk dps ms f) f (.obj ps fs) ms own hown hs1 ofs hf1 hk1 ha1 id [] .here ops []
              (fun j m hj => by simpa using hn.1 j m hj) (imp.members sem env cfg (enc.members ek ea up)) []
            obtain ⟨found2, hf2', e2⟩ := rt_parents ps (.mk dps ms f) dps up hup hs2 ops hf2 hk2 ha2 id [] .here []
              (restoredOwn env f (.obj ps fs) ms ofs fs) hn.2 [] found1
            have hcn : className sem (polyMarker env cfg.marker (alts.headD 0))
                (imp.members sem env cfg (enc.members ek ea ((polyMarker env mk c, .scalar (.str name)) :: (own ++ up)))) =
                .ok (name, imp.members sem env cfg (enc.members ek ea own) ++ imp.members sem env cfg (enc.members ek ea up)) :=
            className_enc ek ea sem env cfg F (by rw [hm, hmark]) hk0 ha0
            have hpick := pickAlt_eq env (cfg := cfg) hmem hd (by rw [hm]; exact hmark) (key := polyMarker env cfg.marker (alts.headD 0)) (fun a d' h1 h2 h3 => huniq a d' h1 h2 h3)
            simp only at hpick
            simp only [enc, imp, impObj, hi, hcn, Res.ok_bind, hpick, hd, hdf]
            simp only [id, List.nil_append, List.append_nil] at e1 e2
            rw [e1, e2, impMembers, if_neg]
            · simp only [restored, hd, hdf]; rfl
            · exact exact_ok env cfg mk hx hd hown hup (fun k h => hf2' _ (.inl (hf1' _ (.inr h)))) (fun k h => hf2' _ (.inr h))
          | _ => rw [hd] at h; cases h
        | _ => rw [hi] at hs; exact hs.elim
      | _ => simp [docOf] at h
    | _ => simp [docOf] at h
theorem rt_list : ∀ (vs : List Val) (k : SeqKind) (t : Ty) (ds : List Doc) (acc : List Val), elemsOrdered env k (acc ++ restoredList env t vs) → docList env mk t vs = .ok ds → StorableList env mk t vs →
    AllKeys.elems okKey ds → AllScalars.elems okAtom ds →
    impVec env k t (imp.elems sem env cfg (enc.elems ek ea ds)) acc = .ok (.list (acc ++ restoredList env t vs))
  | [], k, t, ds, acc, _, h, _, _, _ => by
    simp only [docList, Res.ok.injEq] at h
    subst h
    simp [enc.elems, imp.elems, impVec, restoredList]
  | v :: vs, k, t, ds, acc, ho, h, hs, hk, ha => by
    rw [docList] at h
    obtain ⟨a, hda, h⟩ := Res.bind_eq_ok.1 h
    obtain ⟨b, hdb, h⟩ := Res.bind_eq_ok.1 h
    cases h
    rw [StorableList] at hs
    rw [AllKeys.elems] at hk
    rw [AllScalars.elems] at ha
    rw [enc.elems, imp.elems, impVec, rt_val v t (t.default env) a hda hs.1 (default_fresh env hg t) hk.1 ha.1]
    simp only [Res.ok_bind]
    rw [restoredList, ← List.singleton_append, ← List.append_assoc] at ho ⊢
    rw [insert_ordered env k acc _ (elemsOrdered_left env ho)]
    exact rt_list vs k t b _ ho hdb hs.2 hk.2 ha.2
theorem rt_fix : ∀ (vs : List Val) (t : Ty) (ds : List Doc) (os done : List Val) (tyAt : Nat → Option Ty), docList env mk t vs = .ok ds →
    StorableList env mk t vs → AllKeys.elems okKey ds → AllScalars.elems okAtom ds → FreshList env t os → os.length = vs.length →
    (∀ j, j < vs.length → tyAt (done.length + j) = some t) →
    impFix tyAt (imp.elems sem env cfg (enc.elems ek ea ds)) done.length (done ++ os) = .ok (.list (done ++ restoredFix env t os vs))
  | [], t, ds, os, done, tyAt, h, _, _, _, _, hl, _ => by
    simp only [docList, Res.ok.injEq] at h
    subst h
    have : os = [] := by simpa using hl
    subst this
    simp [enc.elems, imp.elems, impFix, restoredFix]
  | v :: vs, t, ds, os, done, tyAt, h, hs, hk, ha, hf, hl, ht => by
    rw [docList] at h
    obtain ⟨a, hda, h⟩ := Res.bind_eq_ok.1 h
    obtain ⟨b, hdb, h⟩ := Res.bind_eq_ok.1 h
    cases h
    rw [StorableList] at hs
    rw [AllKeys.elems] at hk
    rw [AllScalars.elems] at ha
    cases os with
    | nil => simp at hl
    | cons o os =>
      rw [FreshList] at hf
      have h0 : tyAt done.length = some t := by simpa using ht 0 (by simp)
      have h1 : (done ++ o :: os)[done.length]? = some o := by simp
      rw [enc.elems, imp.elems, impFix]
      simp only [h0, h1]
      rw [rt_val v t o a hda hs.1 hf.1 hk.1 ha.1]
      simp only [Res.ok_bind]
      have := rt_fix vs t b os (done ++ [restored env t o v]) tyAt hdb hs.2 hk.2 ha.2 hf.2 (by simpa using hl)
        (by intro j hj; rw [← ht (j + 1) (by simpa using hj)]; simp; congr 1; omega)
      simp only [List.length_append, List.length_singleton, List.append_assoc, List.singleton_append] at this
      rw [show (done ++ o :: os).set done.length (restored env t o v) = done ++ restored env t o v :: os by simp, this, restoredFix]
theorem rt_tuple : ∀ (vs : List Val) (ts : List Ty) (ds : List Doc) (os done : List Val) (tyAt : Nat → Option Ty), docTuple env mk ts vs = .ok ds →
    StorableTuple env mk ts vs → AllKeys.elems okKey ds → AllScalars.elems okAtom ds → FreshTuple env ts os →
    (∀ j, tyAt (done.length + j) = ts[j]?) →
    impFix tyAt (imp.elems sem env cfg (enc.elems ek ea ds)) done.length (done ++ os) = .ok (.list (done ++ restoredTuple env ts os vs))
  | [], ts, ds, os, done, tyAt, h, _, _, _, hf, _ => by
    cases ts with
    | cons _ _ => simp [docTuple] at h
    | nil =>
      simp only [docTuple, Res.ok.injEq] at h
      subst h
      cases os with
      | cons _ _ => exact absurd hf (by simp [FreshTuple])
      | nil => simp [enc.elems, imp.elems, impFix, restoredTuple]
  | v :: vs, ts, ds, os, done, tyAt, h, hs, hk, ha, hf, ht => by
    cases ts with
    | nil => simp [docTuple] at h
    | cons t ts =>
      rw [docTuple] at h
      obtain ⟨a, hda, h⟩ := Res.bind_eq_ok.1 h
      obtain ⟨b, hdb, h⟩ := Res.bind_eq_ok.1 h
      cases h
      rw [StorableTuple] at hs
      rw [AllKeys.elems] at hk
      rw [AllScalars.elems] at ha
      cases os with
      | nil => exact absurd hf (by simp [FreshTuple])
      | cons o os =>
        rw [FreshTuple] at hf
        have h0 : tyAt done.length = some t := by simpa using ht 0
        have h1 : (done ++ o :: os)[done.length]? = some o := by simp
        rw [enc.elems, imp.elems, impFix]
        simp only [h0, h1]
        rw [rt_val v t o a hda hs.1 hf.1 hk.1 ha.1]
        simp only [Res.ok_bind]
        have := rt_tuple vs ts b os (done ++ [restored env t o v]) tyAt hdb hs.2 hk.2 ha.2 hf.2
          (by intro j; have := ht (j + 1); simp at this ⊢; rw [← this]; congr 1; omega)
        simp only [List.length_append, List.length_singleton, List.append_assoc, List.singleton_append] at this
        rw [show (done ++ o :: os).set done.length (restored env t o v) = done ++ restored env t o v :: os by simp, this, restoredTuple]
theorem rt_dict : ∀ (kvs : List (Bytes × Val)) (t : Ty) (ds : List (Bytes × Doc)) (kind : DictKind) (acc : List (Bytes × Val)),
    docDict env mk t kvs = .ok ds → StorableDict env mk t kvs → AllKeys.members okKey ds → AllScalars.members okAtom ds →
    keysOrdered kind (acc.map Prod.fst ++ kvs.map Prod.fst) →
    impDict sem env kind t (imp.members sem env cfg (enc.members ek ea ds)) acc = .ok (.dict (acc ++ restoredDict env t kvs))
  | [], t, ds, kind, acc, h, _, _, _, _ => by
    simp only [docDict, Res.ok.injEq] at h
    subst h
    simp [enc.members, imp.members, impDict, restoredDict]
  | (k, v) :: kvs, t, ds, kind, acc, h, hs, hk, ha, ho => by
    rw [docDict] at h
    obtain ⟨a, hda, h⟩ := Res.bind_eq_ok.1 h
    obtain ⟨b, hdb, h⟩ := Res.bind_eq_ok.1 h
    cases h
    rw [StorableDict] at hs
    rw [AllKeys.members] at hk
    rw [AllScalars.members] at ha
    have hv := rt_val v t (t.default env) a hda hs.1 (default_fresh env hg t) hk.2.1 ha.1
    have hrec := rt_dict kvs t b kind (acc ++ [(k, restored env t (t.default env) v)]) hdb hs.2 hk.2.2 ha.2 (by simpa using ho)
    rw [enc.members, imp.members, restoredDict]
    cases kind with
    | sorted =>
      simp only [keysOrdered, List.map_cons, List.pairwise_append, List.mem_cons] at ho
      have hlt : ∀ k' ∈ acc.map Prod.fst, keyLt k' k = true := fun k' h' => ho.2.2 k' h' k (.inl rfl)
      simp only [impDict, F.key _ hk.1, dictGet_none k acc (fun k' h' => keyLt_ne (hlt k' h')), Option.getD_none, hv, Res.ok_bind,
        dictSet_last k _ acc hlt]
      rw [hrec]; simp
    | multi =>
      simp only [keysOrdered, List.map_cons, List.pairwise_append, List.mem_cons] at ho
      simp only [impDict, F.key _ hk.1, hv, Res.ok_bind, multiInsert_last k _ acc (fun k' h' => ho.2.2 k' h' k (.inl rfl))]
      rw [hrec]; simp
    | unordered =>
      simp only [keysOrdered, List.map_cons, List.pairwise_append, List.mem_cons] at ho
      simp only [impDict, F.key _ hk.1, hv, Res.ok_bind, uniqueInsert, dictGet_none k acc (fun k' h' => ho.2.2 k' h' k (.inl rfl)),
        Option.isSome_none, Bool.false_eq_true, if_false]
      rw [hrec]; simp
theorem rt_own : ∀ (vs : List Val) (d : StructDef) (f : Option (Val → Bytes → Bool)) (self : Val) (ms : List Member) (ds : List (Bytes × Doc)),
    docOwn env mk f self ms vs = .ok ds → StorableOwn env mk ms vs → ∀ (os : List Val), FreshOwn env ms os →
    AllKeys.members okKey ds → AllScalars.members okAtom ds → ∀ (C : Val → Val) (path : List Nat), Holds C path →
    ∀ (ps done : List Val), (∀ j m, ms[j]? = some m → d.find m.out = some ⟨path, done.length + j, m.ty⟩) →
    ∀ (rest : List (Mem K X)) (found : List Bytes), ∃ found', (∀ k, k ∈ found ∨ k ∈ ds.map Prod.fst → k ∈ found') ∧
      impMembers sem cfg d (imp.members sem env cfg (enc.members ek ea ds) ++ rest) found (C (.obj ps (done ++ os))) =
        impMembers sem cfg d rest found' (C (.obj ps (done ++ restoredOwn env f self ms os vs)))
  | [], d, f, self, ms, ds, h, _, os, hf, _, _, C, path, hC, ps, done, _, rest, found => by
    cases ms with
    | cons _ _ => simp [docOwn] at h
    | nil =>
      simp only [docOwn, Res.ok.injEq] at h
      subst h
      cases os with
      | cons _ _ => exact absurd hf (by simp [FreshOwn])
      | nil => exact ⟨found, by simp, by simp [enc.members, imp.members, restoredOwn]⟩
  | v :: vs, d, f, self, ms, ds, h, hs, os, hf, hk, ha, C, path, hC, ps, done, hfind, rest, found => by
    cases ms with
    | nil => simp [docOwn] at h
    | cons m ms =>
      cases os with
      | nil => exact absurd hf (by simp [FreshOwn])
      | cons o os =>
        rw [StorableOwn] at hs
        rw [FreshOwn] at hf
        have hfind' : ∀ x : Val, ∀ j m', ms[j]? = some m' → d.find m'.out = some ⟨path, (done ++ [x]).length + j, m'.ty⟩ := by
          intro x j m' hj
          rw [hfind (j + 1) m' (by simpa using hj)]
          simp; omega
        by_cases hsh : shown f self m v
        · rw [docOwn, if_pos hsh] at h
          obtain ⟨a, hda, h⟩ := Res.bind_eq_ok.1 h
          obtain ⟨b, hdb, h⟩ := Res.bind_eq_ok.1 h
          cases h
          rw [AllKeys.members] at hk
          rw [AllScalars.members] at ha
          have hv := rt_val v m.ty o a hda hs.1 hf.1 hk.2.1 ha.1
          obtain ⟨found', hfd, e⟩ := rt_own vs d f self ms b hdb hs.2 os hf.2 hk.2.2 ha.2 C path hC ps (done ++ [restored env m.ty o v])
            (hfind' _) rest (m.out :: found)
          refine ⟨found', ?_, ?_⟩
          · intro k hk
            apply hfd
            simp only [List.map_cons, List.mem_cons] at hk ⊢
            rcases hk with hk | hk | hk
            · exact .inl (.inr hk)
            · exact .inl (.inl hk)
            · exact .inr hk
          · have h0 := hfind 0 m rfl
            have h1 := hC.field (.obj ps (done ++ o :: os)) [] done.length
            have h2 := hC.set (.obj ps (done ++ o :: os)) [] done.length (restored env m.ty o v)
            rw [List.append_nil, Val.field] at h1
            rw [List.append_nil, Val.setField] at h2
            simp at h1
            simp at h2
            rw [enc.members, imp.members, List.cons_append, impMembers]
            simp only [F.key _ hk.1, h0, Nat.add_zero, h1, hv, Res.ok_bind, h2]
            rw [restoredOwn, if_pos hsh]
            simp only [List.append_assoc, List.singleton_append] at e
            exact e
        · rw [docOwn, if_neg hsh] at h
          obtain ⟨found', hfd, e⟩ := rt_own vs d f self ms ds h hs.2 os hf.2 hk ha C path hC ps (done ++ [o]) (hfind' _) rest found
          refine ⟨found', hfd, ?_⟩
          rw [restoredOwn, if_neg hsh]
          simp only [List.append_assoc, List.singleton_append] at e
          exact e
theorem rt_parents : ∀ (vs : List Val) (d : StructDef) (dps : List StructDef) (ds : List (Bytes × Doc)),
    docParents env mk dps vs = .ok ds → StorableParents env mk dps vs → ∀ (os : List Val), FreshParents env dps os →
    AllKeys.members okKey ds → AllScalars.members okAtom ds → ∀ (C : Val → Val) (path : List Nat), Holds C path →
    ∀ (done fs : List Val), FindsIn d dps path done.length →
    ∀ (rest : List (Mem K X)) (found : List Bytes), ∃ found', (∀ k, k ∈ found ∨ k ∈ ds.map Prod.fst → k ∈ found') ∧
      impMembers sem cfg d (imp.members sem env cfg (enc.members ek ea ds) ++ rest) found (C (.obj (done ++ os) fs)) =
        impMembers sem cfg d rest found' (C (.obj (done ++ restoredParents env dps os vs) fs))
  | [], d, dps, ds, h, _, os, hf, _, _, C, path, hC, done, fs, _, rest, found => by
    cases dps with
    | cons p _ => cases p; simp [docParents] at h
    | nil =>
      simp only [docParents, Res.ok.injEq] at h
      subst h
      cases os with
      | cons _ _ => exact absurd hf (by simp [FreshParents])
      | nil => exact ⟨found, by simp, by simp [enc.members, imp.members, restoredParents]⟩
  | v :: vs, d, dps, ds, h, hs, os, hf, hk, ha, C, path, hC, done, fs, hfind, rest, found => by
    cases dps with
    | nil => simp [docParents] at h
    | cons p dss =>
      obtain ⟨dps, ms, f⟩ := p
      cases v with
      | obj ps vfs =>
        cases os with
        | nil => exact absurd hf (by simp [FreshParents])
        | cons o os =>
          cases o with
          | obj ops ofs =>
            rw [StorableParents] at hs
            rw [FreshParents] at hf
            rw [FindsIn, Finds] at hfind
            obtain ⟨⟨hfo, hfp⟩, hfr⟩ := hfind
            rw [docParents] at h
            obtain ⟨a, hda, h⟩ := Res.bind_eq_ok.1 h
            obtain ⟨b, hdb, h⟩ := Res.bind_eq_ok.1 h
            obtain ⟨c, hdc, h⟩ := Res.bind_eq_ok.1 h
            cases h
            rw [allKeys_append, allKeys_append] at hk
            rw [allScalars_append, allScalars_append] at ha
            have hC' := hC.parent done os fs
            obtain ⟨f1, hf1, e1⟩ := rt_own vfs d f (.obj ps vfs) ms a hda hs.1 ofs hf.1 hk.1.1 ha.1.1 _ _ hC' ops []
              (fun j m hj => by simpa using hfo j m hj)
              (imp.members sem env cfg (enc.members ek ea b) ++ (imp.members sem env cfg (enc.members ek ea c) ++ rest)) found
            obtain ⟨f2, hf2, e2⟩ := rt_parents ps d dps b hdb hs.2.1 ops hf.2.1 hk.1.2 ha.1.2 _ _ hC' [] (restoredOwn env f (.obj ps vfs) ms ofs vfs) hfp
              (imp.members sem env cfg (enc.members ek ea c) ++ rest) f1
            obtain ⟨f3, hf3, e3⟩ := rt_parents vs d dss c hdc hs.2.2 os hf.2.2 hk.2 ha.2 C path hC
              (done ++ [.obj (restoredParents env dps ops ps) (restoredOwn env f (.obj ps vfs) ms ofs vfs)]) fs (by simpa using hfr) rest f2
            refine ⟨f3, ?_, ?_⟩
            · intro k hk
              rw [List.map_append, List.map_append, List.mem_append, List.mem_append] at hk
              apply hf3
              rcases hk with hk | (hk | hk) | hk
              · exact .inl (hf2 _ (.inl (hf1 _ (.inl hk))))
              · exact .inl (hf2 _ (.inl (hf1 _ (.inr hk))))
              · exact .inl (hf2 _ (.inr hk))
              · exact .inr hk
            · simp only [List.nil_append, List.append_assoc, List.singleton_append] at e1 e2 e3
              rw [restoredParents]
              simp only [enc_members_append, members_eq, List.map_append, List.append_assoc] at e1 e2 e3 ⊢
              rw [e1, e2, e3]
          | _ => exact absurd hf (by simp [FreshParents])
      | _ => simp [docParents] at h
end

end
end Thors
