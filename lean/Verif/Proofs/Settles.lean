import Verif.Proofs.Layers
/-
Reading a document a second time changes nothing.
-/
namespace Thors
open StrIn Thors.Spec

variable {K X : Type} {sem : ScalarSem K X} {env : Env} {cfg : Cfg} {ok : Nat → Prop}

/-- What has been read is left as it is when read again. -/
def Again (f : Imp) (ty : Ty) : Prop := ∀ old v, f ty old = .ok v → f ty v = .ok v

theorem again_const {f : Imp} {ty : Ty} (h : ∀ old old', f ty old = f ty old') : Again f ty := fun old v e => (h v old).trans e

theorem again_opt {f : Imp} {t : Ty} (hf : ∀ old, f (.opt t) old = (f t (old.contentOr (t.default env)) >>= fun v => .ok (.some v))) (h : Again f t) : Again f (.opt t) := by
  intro old v e
  rw [hf] at e
  obtain ⟨w, e1, e2⟩ := Res.bind_eq_ok.1 e
  cases e2
  rw [hf]
  exact Res.bind_eq_ok.2 ⟨w, h _ _ e1, rfl⟩

theorem again_scalar (x : X) : ∀ ty, Again (impScalar sem env x) ty := by
  intro ty
  induction ty with
  | opt t ih => exact again_opt (fun old => by rw [impScalar]; rfl) ih
  | _ => exact again_const fun old old' => by simp only [impScalar]

theorem impFix_before {tyAt : Nat → Option Ty} : ∀ (es : List Imp) (i : Nat) (vs : List Val) (v : Val), impFix tyAt es i vs = .ok v →
    ∃ ws, v = .list ws ∧ ∀ j, j < i → ws[j]? = vs[j]?
  | [], i, vs, v, h => by cases h; exact ⟨vs, rfl, fun _ _ => rfl⟩
  | e :: es, i, vs, v, h => by
    unfold impFix at h
    split at h
    · obtain ⟨x, -, h2⟩ := Res.bind_eq_ok.1 h
      obtain ⟨ws, e, hw⟩ := impFix_before es _ _ v h2
      refine ⟨ws, e, fun j hj => (hw j (by omega)).trans ?_⟩
      rw [List.getElem?_set_ne (by omega)]
    · cases h

theorem set_self {vs : List Val} {i : Nat} {v : Val} (h : vs[i]? = some v) : vs.set i v = vs := by
  apply List.ext_getElem?
  intro j
  by_cases hj : i = j
  · subst hj
    rw [List.getElem?_set_self (by rw [List.getElem?_eq_some_iff] at h; exact h.1), h]
  · rw [List.getElem?_set_ne hj]

theorem again_fix {tyAt : Nat → Option Ty} : ∀ (es : List Imp) (i : Nat) (vs ws : List Val), (∀ e ∈ es, ∀ j t, tyAt j = some t → Again e t) →
    impFix tyAt es i vs = .ok (.list ws) → impFix tyAt es i ws = .ok (.list ws)
  | [], i, vs, ws, _, h => rfl
  | e :: es, i, vs, ws, he, h => by
    unfold impFix at h
    split at h
    · rename_i t w ht hw
      obtain ⟨x, h1, h2⟩ := Res.bind_eq_ok.1 h
      obtain ⟨ws', e', hb⟩ := impFix_before es _ _ _ h2
      cases e'
      have hx : ws[i]? = some x := by
        rw [hb i (by omega), List.getElem?_set_self]
        rw [List.getElem?_eq_some_iff] at hw
        exact hw.1
      unfold impFix
      rw [ht, hx]
      dsimp only
      refine Res.bind_eq_ok.2 ⟨x, he e (by simp) i t ht _ _ h1, ?_⟩
      rw [set_self hx]
      exact again_fix es _ _ ws (fun e h => he e (by simp [h])) h2
    · cases h

theorem again_fix' {tyAt : Nat → Option Ty} {es : List Imp} (he : ∀ e ∈ es, ∀ j t, tyAt j = some t → Again e t) {vs : List Val} {v : Val}
    (h : impFix tyAt es 0 vs = .ok v) : ∃ ws, v = .list ws ∧ impFix tyAt es 0 ws = .ok v := by
  obtain ⟨ws, rfl, -⟩ := impFix_before es 0 vs v h
  exact ⟨ws, rfl, again_fix es 0 vs ws he h⟩

theorem setInsert_twice {lt : Val → Val → Bool} (h : StrictWeak lt) (v : Val) : ∀ l, setInsert lt v (setInsert lt v l) = setInsert lt v l
  | [] => by simp [setInsert, h.irrefl]
  | x :: xs => by
    rw [setInsert]
    by_cases h1 : lt x v = true
    · rw [if_pos h1, setInsert, if_pos h1, setInsert_twice h v xs]
    · rw [if_neg h1]
      by_cases h2 : lt v x = true
      · rw [if_pos h2, setInsert, h.irrefl]; simp
      · rw [if_neg h2, setInsert, if_neg h1, if_neg h2]

theorem setInsert_stays {lt : Val → Val → Bool} (h : StrictWeak lt) {v : Val} (w : Val) : ∀ l, setInsert lt v l = l → setInsert lt v (setInsert lt w l) = setInsert lt w l
  | [], e => by simp [setInsert] at e
  | x :: xs, e => by
    rw [setInsert] at e
    by_cases h1 : lt x v = true
    · rw [if_pos h1] at e
      injection e with _ e
      rw [setInsert]
      by_cases h2 : lt x w = true
      · rw [if_pos h2, setInsert, if_pos h1, setInsert_stays h w xs e]
      · rw [if_neg h2]
        by_cases h3 : lt w x = true
        · rw [if_pos h3, setInsert, if_pos (h.trans _ _ _ h3 h1), setInsert, if_pos h1, e]
        · rw [if_neg h3, setInsert, if_pos h1, e]
    · rw [if_neg h1] at e
      by_cases h4 : lt v x = true
      · rw [if_pos h4] at e
        have := congrArg List.length e
        simp at this
      · rw [setInsert]
        by_cases h2 : lt x w = true
        · rw [if_pos h2, setInsert, if_neg h1, if_neg h4]
        · rw [if_neg h2]
          by_cases h3 : lt w x = true
          · have h5 : lt w v = true := by
              cases hw : lt w v with
              | true => rfl
              | false => rw [h.incomparable w v x hw (by simpa using h4)] at h3; cases h3
            rw [if_pos h3, setInsert, if_pos h5, setInsert, if_neg h1, if_neg h4]
          · rw [if_neg h3, setInsert, if_neg h1, if_neg h4]

theorem hashInsert_twice {eq : Val → Val → Bool} (h : Equality eq) (v : Val) (l : List Val) : hashInsert eq v (hashInsert eq v l) = hashInsert eq v l := by
  unfold hashInsert
  by_cases h1 : l.any (fun x => eq x v) = true
  · rw [if_pos h1, if_pos h1]
  · rw [if_neg h1, if_pos (by simp [h.refl])]

theorem hashInsert_stays {eq : Val → Val → Bool} {v : Val} (w : Val) (l : List Val) (e : hashInsert eq v l = l) : hashInsert eq v (hashInsert eq w l) = hashInsert eq w l := by
  unfold hashInsert at e ⊢
  have h1 : l.any (fun x => eq x v) = true := by
    by_cases h1 : l.any (fun x => eq x v) = true
    · exact h1
    · rw [if_neg h1] at e
      have := congrArg List.length e
      simp at this
  by_cases h2 : l.any (fun x => eq x w) = true
  · rw [if_pos h2, if_pos h1]
  · rw [if_neg h2, if_pos (by rw [List.any_append, h1]; rfl)]

/-- Inserting into a set what was inserted before changes nothing. -/
structure Idle (env : Env) (c : SeqKind) : Prop where
  twice : ∀ l v, c.insert env (c.insert env l v) v = c.insert env l v
  stays : ∀ l v w, c.insert env l v = l → c.insert env (c.insert env l w) v = c.insert env l w

theorem settles_idle {c : SeqKind} {t : Ty} (h : Settles env ok (.seq c t)) : Idle env c := by
  cases c with
  | sorted c => exact ⟨fun l v => setInsert_twice h v l, fun l v w e => setInsert_stays h w l e⟩
  | hashed c => exact ⟨fun l v => hashInsert_twice h v l, fun l v w e => hashInsert_stays w l e⟩
  | back | multi c => cases h

theorem impVec_keeps {c : SeqKind} (hc : Idle env c) {t : Ty} {x : Val} : ∀ (es : List Imp) (vs : List Val) (v : Val), c.insert env vs x = vs → impVec env c t es vs = .ok v →
    ∃ ws, v = .list ws ∧ c.insert env ws x = ws
  | [], vs, v, hx, h => by cases h; exact ⟨vs, rfl, hx⟩
  | e :: es, vs, v, hx, h => by
    unfold impVec at h
    obtain ⟨y, -, h2⟩ := Res.bind_eq_ok.1 h
    exact impVec_keeps hc es _ v (hc.stays _ _ _ hx) h2

theorem again_vec {c : SeqKind} (hc : Idle env c) {t : Ty} : ∀ (es : List Imp) (vs : List Val) (v : Val), impVec env c t es vs = .ok v →
    ∃ ws, v = .list ws ∧ impVec env c t es ws = .ok v
  | [], vs, v, h => by cases h; exact ⟨vs, rfl, rfl⟩
  | e :: es, vs, v, h => by
    unfold impVec at h
    obtain ⟨y, h1, h2⟩ := Res.bind_eq_ok.1 h
    obtain ⟨ws, rfl, h3⟩ := again_vec hc es _ v h2
    obtain ⟨ws', e', h4⟩ := impVec_keeps hc es _ _ (hc.twice _ _) h2
    cases e'
    refine ⟨ws, rfl, ?_⟩
    unfold impVec
    refine Res.bind_eq_ok.2 ⟨y, h1, ?_⟩
    rw [h4]
    exact h3

theorem again_arr (hA : SettlesAll env ok) (es : List Imp) (he : ∀ e ∈ es, ∀ t, Settles env ok t → Again e t) : ∀ ty, Settles env ok ty → Again (impArr env es) ty := by
  intro ty
  induction ty with
  | seq c t _ =>
    intro hs old v h
    cases old with
    | list vs =>
      simp only [impArr] at h
      obtain ⟨ws, rfl, h2⟩ := again_vec (settles_idle hs) es vs v h
      simp only [impArr]
      exact h2
    | _ => simp [impArr] at h
  | mmap t _ => intro h; cases h
  | arr n t _ =>
    intro hs old v h
    cases old with
    | list vs =>
      simp only [impArr] at h
      obtain ⟨ws, rfl, h2⟩ := again_fix' (fun e hm j t' ht => by
        split at ht
        · cases ht; exact he e hm _ hs
        · cases ht) h
      exact h2
    | _ => cases h
  | opt t ih => exact fun hs => again_opt (fun old => by rw [impArr]; rfl) (ih hs)
  | named i =>
    intro hs old v h
    have hA := hA i hs
    cases hd : env.defs i with
    | tuple ts =>
      rw [hd] at hA
      simp only [impArr, hd] at h ⊢
      cases old with
      | list vs =>
        obtain ⟨ws, rfl, h2⟩ := again_fix' (fun e hm j t' ht => he e hm _ (hA t' (List.mem_of_getElem? ht))) h
        exact h2
      | _ => cases h
    | _ => simp only [impArr, hd] at h; cases h
  | _ => intro _; exact again_const fun old old' => by simp only [impArr]

theorem field_of_set : ∀ (path : List Nat) (v : Val) (i : Nat) (x : Val), v.field path i = some x → v.setField path i x = v := by
  intro path
  induction path with
  | nil =>
    intro v i x h
    cases v with
    | obj ps fs =>
      simp only [Val.field] at h
      simp only [Val.setField, set_self h]
    | _ => rfl
  | cons p path ih =>
    intro v i x h
    cases v with
    | obj ps fs =>
      simp only [Val.field] at h
      simp only [Val.setField]
      cases hp : ps[p]? with
      | none => simp [hp] at h
      | some w =>
        rw [hp] at h
        dsimp only at h ⊢
        rw [ih w i x h, set_self hp]
    | _ => rfl

/-- Members under other names leave a member alone. -/
theorem impMembers_other (d : StructDef) (k : Bytes) (slot : StructDef.Slot) (hs : d.find k = some slot) : ∀ (ms : List (Mem K X)) (found : List Bytes) (old v : Val),
    k ∉ ms.map (fun m => sem.key m.key) → impMembers sem cfg d ms found old = .ok v → v.field slot.path slot.index = old.field slot.path slot.index
  | [], found, old, v, _, h => by
    unfold impMembers at h
    split at h
    · cases h
    · cases h; rfl
  | m :: ms, found, old, v, hk, h => by
    rw [List.map_cons, List.mem_cons, not_or] at hk
    unfold impMembers at h
    split at h
    · split at h
      · cases h
      · split at h
        · cases h
        · exact impMembers_other d k slot hs ms _ _ v hk.2 h
    · rename_i slot' hs'
      split at h
      · cases h
      · obtain ⟨x, -, h2⟩ := Res.bind_eq_ok.1 h
        rw [impMembers_other d k slot hs ms _ _ v hk.2 h2]
        exact field_set_ne _ _ _ _ _ _ (find_ne hs' hs (fun e => hk.1 e.symm))

theorem again_members (d : StructDef) : ∀ (ms : List (Mem K X)) (found : List Bytes) (old v : Val), (ms.map fun m => sem.key m.key).Nodup →
    (∀ m ∈ ms, ∀ k slot, d.find k = some slot → Again m.imp slot.ty) → impMembers sem cfg d ms found old = .ok v → impMembers sem cfg d ms found v = .ok v
  | [], found, old, v, _, _, h => by
    unfold impMembers at h ⊢
    split at h
    · cases h
    · rename_i hc; rw [if_neg hc]
  | m :: ms, found, old, v, hn, hm, h => by
    rw [List.map_cons, List.nodup_cons] at hn
    have hm' : ∀ m' ∈ ms, ∀ k slot, d.find k = some slot → Again m'.imp slot.ty := fun m' h => hm m' (by simp [h])
    unfold impMembers at h ⊢
    cases hs : d.find (sem.key m.key) with
    | none =>
      rw [hs] at h
      dsimp only at h ⊢
      split at h
      · cases h
      · rename_i h1
        rw [if_neg h1]
        split at h
        · cases h
        · rename_i h2
          rw [if_neg h2]
          exact again_members d ms found old v hn.2 hm' h
    | some slot =>
      rw [hs] at h
      dsimp only at h ⊢
      cases hf : old.field slot.path slot.index with
      | none => rw [hf] at h; cases h
      | some w =>
        rw [hf] at h
        obtain ⟨x, h1, h2⟩ := Res.bind_eq_ok.1 h
        have hx : v.field slot.path slot.index = some x := by
          rw [impMembers_other d _ slot hs ms _ _ v hn.1 h2]
          exact field_set_eq x _ hf
        rw [hx]
        dsimp only
        refine Res.bind_eq_ok.2 ⟨x, hm m (by simp) _ slot hs _ _ h1, ?_⟩
        rw [field_of_set _ _ _ _ hx]
        exact again_members d ms _ _ v hn.2 hm' h2

theorem keyLt_chain : ∀ {a b c : Bytes}, keyLt a b = true → keyLt b c = true → keyLt a c = true
  | [], [], _, h1, _ => by simp [keyLt] at h1
  | [], _ :: _, [], _, h2 => by simp [keyLt] at h2
  | [], _ :: _, _ :: _, _, _ => rfl
  | _ :: _, [], _, h1, _ => by simp [keyLt] at h1
  | _ :: _, _ :: _, [], _, h2 => by simp [keyLt] at h2
  | a :: as, b :: bs, c :: cs, h1, h2 => by
    simp only [keyLt, Bool.or_eq_true, Bool.and_eq_true, decide_eq_true_eq, UInt8.lt_iff_toNat_lt] at *
    rcases h1 with h1 | ⟨rfl, h1⟩
    · rcases h2 with h2 | ⟨rfl, h2⟩
      · exact .inl (by omega)
      · exact .inl h1
    · rcases h2 with h2 | ⟨rfl, h2⟩
      · exact .inl h2
      · exact .inr ⟨rfl, keyLt_chain h1 h2⟩

theorem dictSet_twice (k : Bytes) (w : Val) : ∀ kvs, dictSet k w (dictSet k w kvs) = dictSet k w kvs
  | [] => by simp [dictSet]
  | (a, x) :: kvs => by
    simp only [dictSet]
    by_cases h1 : a = k
    · rw [if_pos h1, dictSet, if_pos h1]
    · rw [if_neg h1]
      by_cases h2 : keyLt k a = true
      · rw [if_pos h2, dictSet, if_pos rfl]
      · rw [if_neg h2, dictSet, if_neg h1, if_neg h2, dictSet_twice k w kvs]

theorem dictSet_stays {k k' : Bytes} {w : Val} (w' : Val) (hne : k' ≠ k) : ∀ kvs, dictSet k w kvs = kvs → dictSet k w (dictSet k' w' kvs) = dictSet k' w' kvs
  | [], h => by simp [dictSet] at h
  | (a, x) :: kvs, h => by
    simp only [dictSet] at h
    by_cases h1 : a = k
    · subst h1
      rw [if_pos rfl] at h
      injection h with h _
      injection h with _ h
      subst h
      simp only [dictSet]
      rw [if_neg (fun e => hne e.symm)]
      by_cases h2 : keyLt k' a = true
      · rw [if_pos h2]
        simp only [dictSet]
        rw [if_neg hne, if_neg (by rw [keyLt_asymm _ _ h2]; simp), if_pos trivial]
      · rw [if_neg h2, dictSet, if_pos rfl]
    · rw [if_neg h1] at h
      by_cases h2 : keyLt k a = true
      · rw [if_pos h2] at h
        have := congrArg List.length h
        simp at this
      · rw [if_neg h2] at h
        injection h with _ h
        simp only [dictSet]
        by_cases h3 : a = k'
        · rw [if_pos h3, dictSet, if_neg h1, if_neg h2, h]
        · rw [if_neg h3]
          by_cases h4 : keyLt k' a = true
          · rw [if_pos h4]
            simp only [dictSet]
            rw [if_neg hne, if_neg (fun h5 => h2 (keyLt_chain h5 h4)), if_neg h1, if_neg h2, h]
          · rw [if_neg h4, dictSet, if_neg h1, if_neg h2, dictSet_stays w' hne kvs h]

/-- What the import of other members leaves of an entry. -/
theorem impDict_other (t : Ty) (k : Bytes) (x : Val) : ∀ (ms : List (Mem K X)) (kvs : List (Bytes × Val)) (v : Val), k ∉ ms.map (fun m => sem.key m.key) →
    dictSet k x kvs = kvs → impDict sem env .sorted t ms kvs = .ok v → ∃ ws, v = .dict ws ∧ dictSet k x ws = ws
  | [], kvs, v, _, hk, h => by cases h; exact ⟨kvs, rfl, hk⟩
  | m :: ms, kvs, v, hn, hk, h => by
    rw [List.map_cons, List.mem_cons, not_or] at hn
    unfold impDict at h
    obtain ⟨y, -, h2⟩ := Res.bind_eq_ok.1 h
    exact impDict_other t k x ms _ v hn.2 (dictSet_stays y (fun e => hn.1 e.symm) _ hk) h2

theorem impDict_dict (kind : DictKind) (t : Ty) : ∀ (ms : List (Mem K X)) (kvs : List (Bytes × Val)) (v : Val), impDict sem env kind t ms kvs = .ok v → ∃ ws, v = .dict ws
  | [], kvs, v, h => by cases h; exact ⟨kvs, rfl⟩
  | m :: ms, kvs, v, h => by
    unfold impDict at h
    cases kind <;> obtain ⟨y, -, h2⟩ := Res.bind_eq_ok.1 h <;> exact impDict_dict _ t ms _ v h2

theorem again_smap (t : Ty) : ∀ (ms : List (Mem K X)) (kvs ws : List (Bytes × Val)), (ms.map fun m => sem.key m.key).Nodup → (∀ m ∈ ms, Again m.imp t) →
    impDict sem env .sorted t ms kvs = .ok (.dict ws) → impDict sem env .sorted t ms ws = .ok (.dict ws)
  | [], kvs, ws, _, _, h => rfl
  | m :: ms, kvs, ws, hn, hm, h => by
    rw [List.map_cons, List.nodup_cons] at hn
    unfold impDict at h ⊢
    obtain ⟨y, h1, h2⟩ := Res.bind_eq_ok.1 h
    obtain ⟨ws', e, hs⟩ := impDict_other t _ y ms _ _ hn.1 (dictSet_twice _ _ _) h2
    cases e
    have hg : dictGet (sem.key m.key) ws = some y := by rw [← hs]; exact dictGet_set_eq _ _ _
    dsimp only
    rw [hg]
    refine Res.bind_eq_ok.2 ⟨y, hm m (by simp) _ _ h1, ?_⟩
    rw [hs]
    exact again_smap t ms _ ws hn.2 (fun m h => hm m (by simp [h])) h2

theorem unique_has {k k' : Bytes} {w : Val} {kvs : List (Bytes × Val)} (h : (dictGet k kvs).isSome = true) : (dictGet k (uniqueInsert k' w kvs)).isSome = true := by
  unfold uniqueInsert
  split
  · exact h
  · rename_i hx; clear hx
    induction kvs with
    | nil => cases h
    | cons a kvs ih =>
      obtain ⟨a, x⟩ := a
      simp only [List.cons_append, dictGet] at h ⊢
      split
      · rfl
      · rename_i hne
        rw [if_neg hne] at h
        exact ih h

theorem unique_new (k : Bytes) (w : Val) (kvs : List (Bytes × Val)) : (dictGet k (uniqueInsert k w kvs)).isSome = true := by
  unfold uniqueInsert
  split
  · assumption
  · rename_i hx; clear hx
    induction kvs with
    | nil => simp [dictGet]
    | cons a kvs ih =>
      obtain ⟨a, x⟩ := a
      simp only [List.cons_append, dictGet]
      split
      · rfl
      · exact ih

theorem umap_has (t : Ty) (k : Bytes) : ∀ (ms : List (Mem K X)) (kvs ws : List (Bytes × Val)), (dictGet k kvs).isSome = true →
    impDict sem env .unordered t ms kvs = .ok (.dict ws) → (dictGet k ws).isSome = true
  | [], kvs, ws, hk, h => by cases h; exact hk
  | m :: ms, kvs, ws, hk, h => by
    unfold impDict at h
    obtain ⟨y, -, h2⟩ := Res.bind_eq_ok.1 h
    exact umap_has t k ms _ ws (unique_has hk) h2

theorem again_umap (t : Ty) : ∀ (ms : List (Mem K X)) (kvs ws : List (Bytes × Val)),
    impDict sem env .unordered t ms kvs = .ok (.dict ws) → impDict sem env .unordered t ms ws = .ok (.dict ws)
  | [], kvs, ws, h => rfl
  | m :: ms, kvs, ws, h => by
    unfold impDict at h ⊢
    obtain ⟨y, h1, h2⟩ := Res.bind_eq_ok.1 h
    refine Res.bind_eq_ok.2 ⟨y, h1, ?_⟩
    have hg := umap_has t _ ms _ ws (unique_new (sem.key m.key) y kvs) h2
    have e : uniqueInsert (sem.key m.key) y ws = ws := by unfold uniqueInsert; rw [if_pos hg]
    rw [e]
    exact again_umap t ms _ ws h2

theorem again_obj (hA : SettlesAll env ok) (ms : List (Mem K X)) (hn : (ms.map fun m => sem.key m.key).Nodup) (hm : ∀ m ∈ ms, ∀ t, Settles env ok t → Again m.imp t) :
    ∀ ty, Settles env ok ty → Again (impObj sem env cfg ms) ty := by
  intro ty
  induction ty with
  | mmap t _ => intro h; cases h
  | smap t _ =>
    intro hs old v h
    cases old with
    | dict kvs =>
      simp only [impObj] at h
      obtain ⟨ws, rfl⟩ := impDict_dict _ _ _ _ _ h
      simp only [impObj]
      exact again_smap t ms kvs ws hn (fun m h => hm m h t hs) h
    | _ => simp [impObj] at h
  | umap t _ =>
    intro hs old v h
    cases old with
    | dict kvs =>
      simp only [impObj] at h
      obtain ⟨ws, rfl⟩ := impDict_dict _ _ _ _ _ h
      simp only [impObj]
      exact again_umap t ms kvs ws h
    | _ => simp [impObj] at h
  | opt t ih => exact fun hs => again_opt (fun old => by rw [impObj]; rfl) (ih hs)
  | named i =>
    intro hs
    have hA := hA i hs
    cases hd : env.defs i with
    | cls d =>
      rw [hd] at hA
      intro old v h
      simp only [impObj, hd] at h ⊢
      refine again_members _ ms [] old v hn (fun m hmem k slot hf => ?_) h
      obtain ⟨mem, h1, -, h2⟩ := find_out hf
      rw [← h2]
      exact hm m hmem _ (hA mem h1)
    | _ => exact again_const fun old old' => by simp only [impObj, hd]
  | _ => intro _; exact again_const fun old old' => by simp only [impObj]

theorem keys_members : ∀ ms : List (K × Tr K X), (imp.members sem env cfg ms).map (fun m => sem.key m.key) = ms.map fun m => sem.key m.1
  | [] => rfl
  | (k, t) :: ms => by simp only [imp.members, List.map_cons, keys_members ms]

mutual
/-- A document read a second time changes nothing. -/
theorem imp_again (hA : SettlesAll env ok) : ∀ t : Tr K X, NoRepeats sem t → ∀ ty, Settles env ok ty → Again (imp sem env cfg t) ty
  | .scalar x, _, ty, _ => by
    unfold imp
    exact again_scalar x ty
  | .arr ts, hn, ty, hs => by
    unfold imp
    rw [NoRepeats] at hn
    exact again_arr hA _ (elems_again hA ts hn) ty hs
  | .obj ms, hn, ty, hs => by
    unfold imp
    rw [NoRepeats] at hn
    exact again_obj hA _ (by rw [keys_members]; exact hn.1) (members_again hA ms hn.2) ty hs

theorem elems_again (hA : SettlesAll env ok) : ∀ ts : List (Tr K X), NoRepeatsL sem ts → ∀ e ∈ imp.elems sem env cfg ts, ∀ ty, Settles env ok ty → Again e ty
  | [], _, e, he => by simp [imp.elems] at he
  | t :: ts, hn, e, he => by
    rw [NoRepeatsL] at hn
    rw [imp.elems, List.mem_cons] at he
    rcases he with rfl | he
    · exact imp_again hA t hn.1
    · exact elems_again hA ts hn.2 e he

theorem members_again (hA : SettlesAll env ok) : ∀ ms : List (K × Tr K X), NoRepeatsM sem ms → ∀ m ∈ imp.members sem env cfg ms, ∀ ty, Settles env ok ty → Again m.imp ty
  | [], _, m, hm => by simp [imp.members] at hm
  | (k, t) :: ms, hn, m, hm => by
    rw [NoRepeatsM] at hn
    rw [imp.members, List.mem_cons] at hm
    rcases hm with rfl | hm
    · exact imp_again hA t hn.1
    · exact members_again hA ms hn.2 m hm
end

end Thors
