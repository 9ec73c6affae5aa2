import Verif.Proofs.ImpMembers
/-
Order of members, and dropping unknown members.
-/
namespace Thors
open Spec StrIn

/-! ### Places in an object -/

/-- The member at a place. -/
def memberAt : StructDef → List Nat → Nat → Option Member
  | .mk _ ms _, [], i => ms[i]?
  | .mk ps _ _, p :: path, i => match ps[p]? with
    | some d => memberAt d path i
    | none => none

theorem findMember_at (key : Bytes) : ∀ (ms : List Member) (i : Nat) (slot : StructDef.Slot), StructDef.findMember key ms i = some slot →
    slot.path = [] ∧ ∃ j m, slot.index = i + j ∧ ms[j]? = some m ∧ m.out = key ∧ m.ty = slot.ty := by
  intro ms
  induction ms with
  | nil => intro i slot h; cases h
  | cons m ms ih =>
    intro i slot h
    rw [StructDef.findMember] at h
    split at h
    · rename_i hk
      cases h
      exact ⟨rfl, 0, m, rfl, rfl, hk.symm, rfl⟩
    · obtain ⟨h1, j, m', h2, h3, h4⟩ := ih _ _ h
      exact ⟨h1, j + 1, m', by omega, by simpa using h3, h4⟩

mutual
theorem find_at (key : Bytes) : ∀ (d : StructDef) (slot : StructDef.Slot), d.find key = some slot →
    ∃ m, memberAt d slot.path slot.index = some m ∧ m.out = key ∧ m.ty = slot.ty
  | .mk ps ms f, slot, h => by
    rw [StructDef.find] at h
    cases hp : StructDef.find.findInParents key ps 0 with
    | some s =>
      rw [hp] at h
      simp only [Option.some.injEq] at h
      subst h
      obtain ⟨j, d, path, h1, h2, m, h3, h4⟩ := findIn_at key ps 0 s hp
      refine ⟨m, ?_, h4⟩
      rw [h1, memberAt]
      simp only [Nat.zero_add, h2]
      exact h3
    | none =>
      rw [hp] at h
      obtain ⟨h1, j, m, h2, h3, h4⟩ := findMember_at key ms 0 slot h
      exact ⟨m, by rw [h1, memberAt, h2, Nat.zero_add]; exact h3, h4⟩
theorem findIn_at (key : Bytes) : ∀ (ps : List StructDef) (i : Nat) (slot : StructDef.Slot), StructDef.find.findInParents key ps i = some slot →
    ∃ j d path, slot.path = (i + j) :: path ∧ ps[j]? = some d ∧ ∃ m, memberAt d path slot.index = some m ∧ m.out = key ∧ m.ty = slot.ty
  | [], i, slot, h => by simp [StructDef.find.findInParents] at h
  | p :: ps, i, slot, h => by
    rw [StructDef.find.findInParents] at h
    cases hp : p.find key with
    | some s =>
      rw [hp] at h
      simp only [Option.some.injEq] at h
      subst h
      exact ⟨0, p, s.path, rfl, rfl, find_at key p s hp⟩
    | none =>
      rw [hp] at h
      obtain ⟨j, d, path, h1, h2, h3⟩ := findIn_at key ps (i + 1) slot h
      exact ⟨j + 1, d, path, by rw [h1]; congr 1; omega, by simpa using h2, h3⟩
end

/-- Different keys live at different places. -/
theorem find_ne {d : StructDef} {k k' : Bytes} {s s' : StructDef.Slot} (h : d.find k = some s) (h' : d.find k' = some s') (hne : k ≠ k') :
    ¬ (s.path = s'.path ∧ s.index = s'.index) := by
  rintro ⟨e1, e2⟩
  obtain ⟨m, h1, h2, -⟩ := find_at k d s h
  obtain ⟨m', h1', h2', -⟩ := find_at k' d s' h'
  rw [e1, e2, h1'] at h1
  cases h1
  exact hne (h2.symm.trans h2')

theorem field_set_ne (a : Val) : ∀ (p q : List Nat) (i j : Nat) (w : Val), ¬ (p = q ∧ i = j) → (w.setField p i a).field q j = w.field q j := by
  intro p
  induction p with
  | nil =>
    intro q i j w h
    cases w with
    | obj ps fs =>
      rw [Val.setField]
      cases q with
      | nil =>
        rw [Val.field, Val.field, List.getElem?_set_ne]
        intro e; exact h ⟨rfl, e⟩
      | cons q0 q => rw [Val.field, Val.field]
    | _ => rw [Val.setField] <;> simp
  | cons p0 p ih =>
    intro q i j w h
    cases w with
    | obj ps fs =>
      rw [Val.setField]
      cases hp : ps[p0]? with
      | none => simp only [hp]
      | some v =>
        simp only [hp]
        cases q with
        | nil => rw [Val.field, Val.field]
        | cons q0 q =>
          rw [Val.field, Val.field]
          by_cases e : p0 = q0
          · subst e
            have hlt : p0 < ps.length := by
              rcases Nat.lt_or_ge p0 ps.length with h | h
              · exact h
              · rw [List.getElem?_eq_none h] at hp; cases hp
            rw [List.getElem?_set_self hlt, hp]
            simp only
            exact ih q i j v fun ⟨e1, e2⟩ => h ⟨by rw [e1], e2⟩
          · rw [List.getElem?_set_ne e]
    | _ => rw [Val.setField] <;> simp

theorem setField_comm (a b : Val) : ∀ (p q : List Nat) (i j : Nat) (w : Val), ¬ (p = q ∧ i = j) →
    (w.setField p i a).setField q j b = (w.setField q j b).setField p i a := by
  intro p
  induction p with
  | nil =>
    intro q i j w h
    cases w with
    | obj ps fs =>
      cases q with
      | nil =>
        simp only [Val.setField]
        rw [List.set_comm]
        intro e; exact h ⟨rfl, e⟩
      | cons q0 q =>
        simp only [Val.setField]
        cases ps[q0]? <;> simp only [Val.setField]
    | _ => cases q <;> simp [Val.setField]
  | cons p0 p ih =>
    intro q i j w h
    cases w with
    | obj ps fs =>
      have lt_of : ∀ {n : Nat} {v : Val}, ps[n]? = some v → n < ps.length := by
        intro n v hn
        rcases Nat.lt_or_ge n ps.length with h | h
        · exact h
        · rw [List.getElem?_eq_none h] at hn; cases hn
      cases q with
      | nil =>
        simp only [Val.setField]
        cases ps[p0]? <;> simp only [Val.setField]
      | cons q0 q =>
        simp only [Val.setField]
        by_cases e : p0 = q0
        · subst e
          cases hp : ps[p0]? with
          | none => simp only [Val.setField, hp]
          | some v =>
            simp only [Val.setField, List.getElem?_set_self (lt_of hp), List.set_set]
            rw [ih q i j v fun ⟨e1, e2⟩ => h ⟨by rw [e1], e2⟩]
        · cases hp : ps[p0]? with
          | none =>
            cases hq : ps[q0]? with
            | none => simp only [Val.setField, hp, hq]
            | some u => simp only [Val.setField, hq, List.getElem?_set_ne (Ne.symm e), hp]
          | some v =>
            cases hq : ps[q0]? with
            | none => simp only [Val.setField, hp, List.getElem?_set_ne e, hq]
            | some u =>
              simp only [Val.setField, List.getElem?_set_ne e, List.getElem?_set_ne (Ne.symm e), hp, hq]
              rw [List.set_comm _ _ e]
    | _ => cases q <;> simp [Val.setField]

section
variable {K X : Type} (sem : ScalarSem K X) (env : Env) (cfg : Cfg)

/-! ### Order -/

theorem found_congr (d : StructDef) (ms : List (Mem K X)) : ∀ (found found' : List Bytes) (old : Val), (∀ n, n ∈ found ↔ n ∈ found') →
    impMembers sem cfg d ms found old = impMembers sem cfg d ms found' old := by
  induction ms with
  | nil =>
    intro found found' old h
    rw [impMembers, impMembers]
    have : d.heed found = d.heed found' := by
      rw [Bool.eq_iff_iff, heed_iff, heed_iff]
      exact ⟨fun h1 m hm => (h _).mp (h1 m hm), fun h1 m hm => (h _).mpr (h1 m hm)⟩
    rw [this]
  | cons m ms ih =>
    intro found found' old h
    rw [impMembers, impMembers]
    cases d.find (sem.key m.key) with
    | none => simp only; rw [ih _ _ _ h]
    | some slot =>
      simp only
      cases old.field slot.path slot.index with
      | none => rfl
      | some w =>
        simp only
        congr 1; funext v
        exact ih _ _ _ fun n => by simp [h n]

/-- Two known members with different keys may change places. -/
theorem impMembers_swap (d : StructDef) (a b : Mem K X) (hne : sem.key a.key ≠ sem.key b.key) (ms : List (Mem K X)) (found : List Bytes) (old v : Val)
    (h : impMembers sem cfg d (a :: b :: ms) found old = .ok v) : impMembers sem cfg d (b :: a :: ms) found old = .ok v := by
  rw [impMembers] at h ⊢
  cases ha : d.find (sem.key a.key) with
  | none =>
    simp only [ha] at h
    split at h
    · cases h
    · rename_i hw
      split at h
      · cases h
      · rename_i hsk
        rw [impMembers] at h
        cases hb : d.find (sem.key b.key) with
        | none =>
          simp only [hb] at h ⊢
          rw [if_neg hw] at h ⊢
          split at h
          · cases h
          · rw [if_neg (by assumption), impMembers]
            simp only [ha]
            rw [if_neg hw, if_neg hsk]
            exact h
        | some sb =>
          simp only [hb] at h ⊢
          cases hf : old.field sb.path sb.index with
          | none => simp only [hf] at h; cases h
          | some w =>
            simp only [hf] at h ⊢
            obtain ⟨x, hx, h⟩ := Res.bind_eq_ok.mp h
            rw [hx, Res.ok_bind, impMembers]
            simp only [ha]
            rw [if_neg hw, if_neg hsk]
            exact h
  | some sa =>
    simp only [ha] at h
    cases hfa : old.field sa.path sa.index with
    | none => simp only [hfa] at h; cases h
    | some wa =>
      simp only [hfa] at h
      obtain ⟨x, hx, h⟩ := Res.bind_eq_ok.mp h
      rw [impMembers] at h
      cases hb : d.find (sem.key b.key) with
      | none =>
        simp only [hb] at h ⊢
        split at h
        · cases h
        · rename_i hw
          split at h
          · cases h
          · rename_i hsk
            rw [if_neg hw, if_neg hsk, impMembers]
            simp only [ha, hfa, hx, Res.ok_bind]
            exact h
      | some sb =>
        have hpl := find_ne ha hb hne
        simp only [hb] at h ⊢
        rw [field_set_ne _ _ _ _ _ _ hpl] at h
        cases hfb : old.field sb.path sb.index with
        | none => simp only [hfb] at h; cases h
        | some wb =>
          simp only [hfb] at h ⊢
          obtain ⟨y, hy, h⟩ := Res.bind_eq_ok.mp h
          rw [hy, Res.ok_bind, impMembers]
          simp only [ha]
          rw [field_set_ne _ _ _ _ _ _ (fun ⟨e1, e2⟩ => hpl ⟨e1.symm, e2.symm⟩)]
          simp only [hfa, hx, Res.ok_bind]
          rw [setField_comm _ _ _ _ _ _ _ hpl] at h
          rw [found_congr sem cfg d ms _ (sem.key b.key :: sem.key a.key :: found) _ (fun n => by
            simp only [List.mem_cons]; exact or_left_comm)]
          exact h

theorem impMembers_perm (d : StructDef) {ms ms' : List (Mem K X)} (hp : ms.Perm ms') : (ms.map (fun m => sem.key m.key)).Nodup →
    ∀ (found : List Bytes) (old v : Val), impMembers sem cfg d ms found old = .ok v → impMembers sem cfg d ms' found old = .ok v := by
  induction hp with
  | nil => intro _ found old v h; exact h
  | cons m hp ih =>
    intro hn found old v h
    simp only [List.map_cons, List.nodup_cons] at hn
    rw [impMembers] at h ⊢
    cases hd : d.find (sem.key m.key) with
    | none =>
      simp only [hd] at h ⊢
      split
      · rename_i hw; rw [if_pos hw] at h; cases h
      · rename_i hw
        rw [if_neg hw] at h
        split
        · rename_i hs; rw [if_pos hs] at h; cases h
        · rename_i hs; rw [if_neg hs] at h; exact ih hn.2 _ _ _ h
    | some slot =>
      simp only [hd] at h ⊢
      cases hf : old.field slot.path slot.index with
      | none => simp only [hf] at h; cases h
      | some w =>
        simp only [hf] at h ⊢
        obtain ⟨x, hx, h⟩ := Res.bind_eq_ok.mp h
        rw [hx, Res.ok_bind]
        exact ih hn.2 _ _ _ h
  | swap a b l =>
    intro hn found old v h
    simp only [List.map_cons, List.nodup_cons, List.mem_cons, not_or] at hn
    exact impMembers_swap sem cfg d b a hn.1.1 l found old v h
  | trans h1 h2 ih1 ih2 =>
    intro hn found old v h
    exact ih2 ((h1.map _).nodup_iff.mp hn) _ _ _ (ih1 hn _ _ _ h)

/-- Replacing the document of one known member. -/
theorem impMembers_replace (d : StructDef) (m m' : Mem K X) (hk : m'.key = m.key) (slot : StructDef.Slot) (hs : d.find (sem.key m.key) = some slot)
    (hi : ∀ old v, m.imp slot.ty old = .ok v → m'.imp slot.ty old = .ok v) (b : List (Mem K X)) : ∀ (a : List (Mem K X)) (found : List Bytes) (old v : Val),
    impMembers sem cfg d (a ++ m :: b) found old = .ok v → impMembers sem cfg d (a ++ m' :: b) found old = .ok v := by
  intro a
  induction a with
  | nil =>
    intro found old v h
    simp only [List.nil_append] at h ⊢
    rw [impMembers] at h ⊢
    rw [hk]
    simp only [hs] at h ⊢
    cases hf : old.field slot.path slot.index with
    | none => simp only [hf] at h; cases h
    | some w =>
      simp only [hf] at h ⊢
      obtain ⟨x, hx, h⟩ := Res.bind_eq_ok.mp h
      rw [hi _ _ hx, Res.ok_bind]
      exact h
  | cons c a ih =>
    intro found old v h
    simp only [List.cons_append] at h ⊢
    rw [impMembers] at h ⊢
    cases hd : d.find (sem.key c.key) with
    | none =>
      simp only [hd] at h ⊢
      split
      · rename_i hw; rw [if_pos hw] at h; cases h
      · rename_i hw
        rw [if_neg hw] at h
        split
        · rename_i hs; rw [if_pos hs] at h; cases h
        · rename_i hs; rw [if_neg hs] at h; exact ih _ _ _ h
    | some slot =>
      simp only [hd] at h ⊢
      cases hf : old.field slot.path slot.index with
      | none => simp only [hf] at h; cases h
      | some w =>
        simp only [hf] at h ⊢
        obtain ⟨x, hx, h⟩ := Res.bind_eq_ok.mp h
        rw [hx, Res.ok_bind]
        exact ih _ _ _ h

theorem impVec_replace (k : SeqKind) (t : Ty) (m m' : Imp) (hi : ∀ old v, m t old = .ok v → m' t old = .ok v) (b : List Imp) : ∀ (a : List Imp) (vs : List Val) (v : Val),
    impVec env k t (a ++ m :: b) vs = .ok v → impVec env k t (a ++ m' :: b) vs = .ok v := by
  intro a
  induction a with
  | nil =>
    intro vs v h
    simp only [List.nil_append] at h ⊢
    rw [impVec] at h ⊢
    obtain ⟨x, hx, h⟩ := Res.bind_eq_ok.mp h
    rw [hi _ _ hx]; exact h
  | cons c a ih =>
    intro vs v h
    simp only [List.cons_append] at h ⊢
    rw [impVec] at h ⊢
    obtain ⟨x, hx, h⟩ := Res.bind_eq_ok.mp h
    rw [hx]; exact ih _ _ h

theorem impDict_replace (kind : DictKind) (t : Ty) (m m' : Mem K X) (hk : m'.key = m.key) (hi : ∀ old v, m.imp t old = .ok v → m'.imp t old = .ok v)
    (b : List (Mem K X)) : ∀ (a : List (Mem K X)) (kvs : List (Bytes × Val)) (v : Val),
    impDict sem env kind t (a ++ m :: b) kvs = .ok v → impDict sem env kind t (a ++ m' :: b) kvs = .ok v := by
  intro a
  induction a with
  | nil =>
    intro vs v h
    simp only [List.nil_append] at h ⊢
    cases kind <;>
    · rw [impDict] at h ⊢
      obtain ⟨x, hx, h⟩ := Res.bind_eq_ok.mp h
      rw [hk, hi _ _ hx]; exact h
  | cons c a ih =>
    intro vs v h
    simp only [List.cons_append] at h ⊢
    cases kind <;>
    · rw [impDict] at h ⊢
      obtain ⟨x, hx, h⟩ := Res.bind_eq_ok.mp h
      rw [hx]; exact ih _ _ h

theorem reord_null {ty : Ty} {v v' : Tr K X} (h : Reord sem env ty v v') : isNullTree sem v' = isNullTree sem v := by
  induction h with
  | refl v => rfl
  | trans _ _ h1 h2 => rw [h2, h1]
  | opt _ ih => exact ih
  | uptr _ ih => exact ih
  | _ => rfl

/-- Documents that differ only in the order of struct members are imported to the same value. -/
theorem imp_reord {ty : Ty} {v v' : Tr K X} (h : Reord sem env ty v v') : ∀ old w, imp sem env cfg v ty old = .ok w → imp sem env cfg v' ty old = .ok w := by
  induction h with
  | refl v => intro old w h; exact h
  | trans _ _ h1 h2 => intro old w h; exact h2 _ _ (h1 _ _ h)
  | perm hd hp hn =>
    intro old w h
    simp only [imp] at h ⊢
    rw [impObj, hd] at h ⊢
    simp only at h ⊢
    rw [members_eq] at h ⊢
    refine impMembers_perm sem cfg _ (hp.map _) ?_ _ _ _ h
    rw [List.map_map]; exact hn
  | member hd hs _ ih =>
    intro old w h
    simp only [imp] at h ⊢
    rw [impObj, hd] at h ⊢
    simp only at h ⊢
    rw [members_eq, List.map_append, List.map_cons] at h ⊢
    refine impMembers_replace sem cfg _ _ _ ?hk ?sl ?hs ?hi _ _ _ _ _ h
    case hk => rfl
    case hs => exact hs
    case hi => exact ih
  | vec _ ih =>
    intro old w h
    simp only [imp] at h ⊢
    cases old with
    | list vs =>
      rw [impArr] at h ⊢
      rw [elems_eq, List.map_append, List.map_cons] at h ⊢
      exact impVec_replace env _ _ _ _ ih _ _ _ _ h
    | _ => simp [impArr] at h
  | smap _ ih | mmap _ ih | umap _ ih =>
    intro old w h
    simp only [imp] at h ⊢
    cases old with
    | dict vs =>
      rw [impObj] at h ⊢
      rw [members_eq, List.map_append, List.map_cons] at h ⊢
      refine impDict_replace sem env _ _ _ _ ?_ ?_ _ _ _ _ h
      · rfl
      · exact ih
    | _ => simp [impObj] at h
  | opt _ ih =>
    intro old w h
    rw [imp_opt] at h ⊢
    obtain ⟨x, hx, h⟩ := Res.bind_eq_ok.mp h
    rw [ih _ _ hx]; exact h
  | uptr hr ih =>
    intro old w h
    rw [imp_uptr] at h ⊢
    rw [reord_null sem env hr]
    split at h
    · rw [if_pos (by assumption)]; exact h
    · rw [if_neg (by assumption)]
      obtain ⟨x, hx, h⟩ := Res.bind_eq_ok.mp h
      rw [ih _ _ hx]; exact h


/-! ### Dropping unknown members -/

theorem prune_elems_congr {ty ty' : Ty} (h : ∀ i, elemTy env ty i = elemTy env ty' i) (ts : List (Tr K X)) : ∀ i,
    prune.elems sem env ts ty i = prune.elems sem env ts ty' i := by
  induction ts with
  | nil => intro i; rfl
  | cons t ts ih => intro i; rw [prune.elems, prune.elems, h, ih]

theorem prune_members_congr {ty ty' : Ty} (h : ∀ k : K, memberTy sem env ty k = memberTy sem env ty' k) (ms : List (K × Tr K X)) :
    prune.members sem env ms ty = prune.members sem env ms ty' := by
  induction ms with
  | nil => rfl
  | cons m ms ih => obtain ⟨k, t⟩ := m; rw [prune.members, prune.members, h, ih]

theorem prune_peel {ty ty' : Ty} (h : peel ty = peel ty') (v : Tr K X) : prune sem env v ty = prune sem env v ty' := by
  cases v with
  | scalar x => rfl
  | arr ts => rw [prune, prune, prune_elems_congr sem env (ty' := ty') (fun i => by rw [elemTy, elemTy, h])]
  | obj ms => rw [prune, prune, prune_members_congr sem env (ty' := ty') (fun i => by rw [memberTy, memberTy, h])]

theorem prune_null (v : Tr K X) (ty : Ty) : isNullTree sem (prune sem env v ty) = isNullTree sem v := by
  cases v <;> rfl

theorem skippable_all {ts : List (Tr K X)} (h : Tr.skippable.all sem ts = true) {t : Tr K X} (ht : t ∈ ts) : t.skippable sem = true := by
  induction ts with
  | nil => cases ht
  | cons a ts ih =>
    simp only [Tr.skippable.all, Bool.and_eq_true] at h
    rcases List.mem_cons.mp ht with rfl | ht
    · exact h.1
    · exact ih h.2 ht

theorem skippable_allM {ms : List (K × Tr K X)} (h : Tr.skippable.allM sem ms = true) {m : K × Tr K X} (ht : m ∈ ms) : m.2.skippable sem = true := by
  induction ms with
  | nil => cases ht
  | cons a ts ih =>
    obtain ⟨k, a⟩ := a
    simp only [Tr.skippable.allM, Bool.and_eq_true] at h
    rcases List.mem_cons.mp ht with rfl | ht
    · exact h.1.2
    · exact ih h.2 ht

/-- The statement for one tree. -/
def Prunes (t : Tr K X) : Prop :=
  t.skippable sem = true → ∀ ty old, imp sem env cfg (prune sem env t ty) ty old = imp sem env cfg t ty old

theorem impVec_prune (k : SeqKind) (t : Ty) (ts : List (Tr K X)) (ih : ∀ x ∈ ts, Prunes sem env cfg x) (hk : Tr.skippable.all sem ts = true) : ∀ i vs,
    impVec env k t (imp.elems sem env cfg (prune.elems sem env ts (.seq k t) i)) vs = impVec env k t (imp.elems sem env cfg ts) vs := by
  induction ts with
  | nil => intro i vs; rfl
  | cons x ts ih2 =>
    intro i vs
    simp only [Tr.skippable.all, Bool.and_eq_true] at hk
    rw [prune.elems, imp.elems, imp.elems, impVec, impVec]
    simp only [elemTy, peel]
    rw [ih x (by simp) hk.1]
    congr 1; funext v
    exact ih2 (fun x hx => ih x (by simp [hx])) hk.2 _ _

theorem impFix_prune (ty : Ty) (tyAt : Nat → Option Ty) (ht : ∀ i t, tyAt i = some t → elemTy env ty i = some t) (ts : List (Tr K X))
    (ih : ∀ x ∈ ts, Prunes sem env cfg x) (hk : Tr.skippable.all sem ts = true) : ∀ i vs,
    impFix tyAt (imp.elems sem env cfg (prune.elems sem env ts ty i)) i vs = impFix tyAt (imp.elems sem env cfg ts) i vs := by
  induction ts with
  | nil => intro i vs; rfl
  | cons x ts ih2 =>
    intro i vs
    simp only [Tr.skippable.all, Bool.and_eq_true] at hk
    rw [prune.elems, imp.elems, imp.elems, impFix, impFix]
    cases h1 : tyAt i with
    | none => rfl
    | some t =>
      cases vs[i]? with
      | none => rfl
      | some w =>
        simp only [ht i t h1]
        rw [ih x (by simp) hk.1]
        congr 1; funext v
        exact ih2 (fun x hx => ih x (by simp [hx])) hk.2 _ _

theorem impDict_prune (kind : DictKind) (t ty : Ty) (hty : ∀ k : K, memberTy sem env ty k = some (some t)) (ms : List (K × Tr K X))
    (ih : ∀ x ∈ ms, Prunes sem env cfg x.2) (hk : Tr.skippable.allM sem ms = true) : ∀ kvs,
    impDict sem env kind t (imp.members sem env cfg (prune.members sem env ms ty)) kvs = impDict sem env kind t (imp.members sem env cfg ms) kvs := by
  induction ms with
  | nil => intro kvs; rfl
  | cons x ms ih2 =>
    obtain ⟨k, x⟩ := x
    intro kvs
    simp only [Tr.skippable.allM, Bool.and_eq_true] at hk
    rw [prune.members, hty]
    simp only
    cases kind <;>
    · rw [imp.members, imp.members, impDict, impDict]
      simp only
      rw [ih (k, x) (by simp) hk.1.2]
      congr 1; funext v
      exact ih2 (fun x hx => ih x (by simp [hx])) hk.2 _

theorem impMembers_prune (hw : cfg.strict = .Weak) (d : StructDef) (ty : Ty)
    (hty : ∀ k : K, memberTy sem env ty k = some ((d.find (sem.key k)).map StructDef.Slot.ty)) (ms : List (K × Tr K X))
    (ih : ∀ x ∈ ms, Prunes sem env cfg x.2) (hk : Tr.skippable.allM sem ms = true) : ∀ found old,
    impMembers sem cfg d (imp.members sem env cfg (prune.members sem env ms ty)) found old = impMembers sem cfg d (imp.members sem env cfg ms) found old := by
  induction ms with
  | nil => intro _ _; rfl
  | cons x ms ih2 =>
    obtain ⟨k, x⟩ := x
    intro found old
    simp only [Tr.skippable.allM, Bool.and_eq_true] at hk
    have ih2' := ih2 (fun x hx => ih x (by simp [hx])) hk.2
    rw [prune.members, hty]
    cases hf : d.find (sem.key k) with
    | none =>
      simp only [Option.map_none]
      conv => rhs; rw [imp.members, impMembers]
      simp only [hf]
      rw [if_neg (by simp [hw]), if_neg (by simp [hk.1.2])]
      exact ih2' _ _
    | some slot =>
      simp only [Option.map_some]
      rw [imp.members, imp.members, impMembers, impMembers]
      simp only [hf]
      cases old.field slot.path slot.index with
      | none => rfl
      | some w =>
        simp only
        rw [ih (k, x) (by simp) hk.1.2]
        congr 1; funext v
        exact ih2' _ _

theorem prune_members_none (ty : Ty) (h : ∀ k : K, memberTy sem env ty k = none) (ms : List (K × Tr K X)) : prune.members sem env ms ty = ms := by
  induction ms with
  | nil => rfl
  | cons m ms ih => obtain ⟨k, t⟩ := m; rw [prune.members, h, ih]

/-- In Weak mode, dropping the unknown members makes no difference. -/
theorem imp_prune (hw : cfg.strict = .Weak) (v : Tr K X) : Prunes sem env cfg v := by
  induction v using Spec.Tr.induct with
  | hs x => intro _ ty old; rfl
  | ha ts ih =>
    intro hk ty
    have hk' : Tr.skippable.all sem ts = true := by simpa [Tr.skippable] using hk
    induction ty with
    | opt t iht => intro old; rw [imp_opt, imp_opt, prune_peel sem env (ty := .opt t) (ty' := t) rfl, iht]
    | uptr t iht => intro old; rw [imp_uptr, imp_uptr, prune_null, prune_peel sem env (ty := .uptr t) (ty' := t) rfl, iht]
    | seq k t _ =>
      intro old
      simp only [prune, imp]
      cases old with
      | list vs => rw [impArr, impArr]; exact impVec_prune sem env cfg k t ts ih hk' 0 vs
      | _ => simp [impArr]
    | arr n t _ =>
      intro old
      simp only [prune, imp]
      cases old with
      | list vs =>
        rw [impArr, impArr]
        refine impFix_prune sem env cfg _ _ ?_ ts ih hk' 0 vs
        intro i t' h
        split at h
        · exact h
        · cases h
      | _ => simp [impArr]
    | named n =>
      intro old
      simp only [prune, imp]
      rw [impArr, impArr]
      cases hd : env.defs n with
      | tuple tys =>
        cases old with
        | list vs =>
          simp only
          refine impFix_prune sem env cfg _ _ ?_ ts ih hk' 0 vs
          intro i t' h
          simp only [elemTy, peel, hd]
          exact h
        | _ => rfl
      | _ => rfl
    | _ => intro old; simp only [prune, imp]; rw [impArr, impArr] <;> simp
  | ho ms ih =>
    intro hk ty
    have hk' : Tr.skippable.allM sem ms = true := by simpa [Tr.skippable] using hk
    induction ty with
    | opt t iht => intro old; rw [imp_opt, imp_opt, prune_peel sem env (ty := .opt t) (ty' := t) rfl, iht]
    | uptr t iht => intro old; rw [imp_uptr, imp_uptr, prune_null, prune_peel sem env (ty := .uptr t) (ty' := t) rfl, iht]
    | smap t _ | mmap t _ | umap t _ =>
      intro old
      simp only [prune, imp]
      cases old with
      | dict vs => rw [impObj, impObj]; exact impDict_prune sem env cfg _ t _ (fun _ => rfl) ms ih hk' vs
      | _ => simp [impObj]
    | named n =>
      intro old
      cases hd : env.defs n with
      | cls c =>
        simp only [prune, imp]
        rw [impObj, impObj]
        simp only [hd]
        exact impMembers_prune sem env cfg hw c.traits (.named n) (fun k => by simp [memberTy, peel, hd]) ms ih hk' [] old
      | _ =>
        simp only [prune]
        rw [prune_members_none]
        intro k
        simp [memberTy, peel, hd]
    | _ =>
      intro old
      simp only [prune]
      rw [prune_members_none]
      intro k
      simp [memberTy, peel]

end
end Thors

namespace Thors
open Spec StrIn

mutual
theorem memberAt_mem : ∀ (d : StructDef) (path : List Nat) (i : Nat) (m : Member), memberAt d path i = some m → m ∈ allMembers d
  | .mk ps ms f, [], i, m, h => by
    rw [memberAt] at h
    rw [allMembers]
    exact List.mem_append_left _ (List.mem_of_getElem? h)
  | .mk ps ms f, p :: path, i, m, h => by
    rw [memberAt] at h
    rw [allMembers]
    refine List.mem_append_right _ (inherited_mem ps p path i m ?_)
    cases hp : ps[p]? with
    | none => rw [hp] at h; cases h
    | some d => rw [hp] at h; exact ⟨d, rfl, h⟩
theorem inherited_mem : ∀ (ps : List StructDef) (p : Nat) (path : List Nat) (i : Nat) (m : Member),
    (∃ d, ps[p]? = some d ∧ memberAt d path i = some m) → m ∈ allMembers.inherited ps
  | [], p, path, i, m, h => by obtain ⟨d, h, -⟩ := h; simp at h
  | d :: ps, 0, path, i, m, h => by
    obtain ⟨d', h1, h2⟩ := h
    simp only [List.getElem?_cons_zero, Option.some.injEq] at h1
    subst h1
    rw [allMembers.inherited]
    exact List.mem_append_left _ (memberAt_mem d path i m h2)
  | d :: ps, p + 1, path, i, m, h => by
    rw [allMembers.inherited]
    exact List.mem_append_right _ (inherited_mem ps p path i m (by simpa using h))
end

/-- A key that is found is the document name of a member. -/
theorem find_out {d : StructDef} {key : Bytes} {slot : StructDef.Slot} (h : d.find key = some slot) : ∃ m ∈ allMembers d, m.out = key ∧ m.ty = slot.ty := by
  obtain ⟨m, h1, h2⟩ := find_at key d slot h
  exact ⟨m, memberAt_mem _ _ _ _ h1, h2⟩

theorem subset_of_nodup {α : Type} [DecidableEq α] : ∀ (a b : List α), a.Nodup → (∀ x ∈ a, x ∈ b) → b.length ≤ a.length → ∀ x ∈ b, x ∈ a := by
  intro a
  induction a with
  | nil => intro b _ _ hl x hx; have := List.length_pos_of_mem hx; simp only [List.length_nil] at hl; omega
  | cons y a ih =>
    intro b hn hs hl x hx
    simp only [List.nodup_cons] at hn
    by_cases hxy : x = y
    · simp [hxy]
    · have hy : y ∈ b := hs y (by simp)
      have := ih (b.erase y) hn.2 (fun z hz => (List.mem_erase_of_ne (by rintro rfl; exact hn.1 hz)).mpr (hs z (by simp [hz])))
        (by rw [List.length_erase_of_mem hy]; simp at hl; omega) x ((List.mem_erase_of_ne hxy).mpr hx)
      simp [this]

section
variable {K X : Type} (sem : ScalarSem K X) (env : Env) (cfg : Cfg)

mutual
theorem skippable_prune : ∀ (v : Tr K X) (ty : Ty), v.skippable sem = true → (prune sem env v ty).skippable sem = true
  | .scalar x, ty, h => by rw [prune]; exact h
  | .arr ts, ty, h => by
    rw [prune, Tr.skippable]
    exact skippable_prune_elems ts ty 0 (by simpa [Tr.skippable] using h)
  | .obj ms, ty, h => by
    rw [prune, Tr.skippable]
    exact skippable_prune_members ms ty (by simpa [Tr.skippable] using h)
theorem skippable_prune_elems : ∀ (ts : List (Tr K X)) (ty : Ty) (i : Nat), Tr.skippable.all sem ts = true →
    Tr.skippable.all sem (prune.elems sem env ts ty i) = true
  | [], ty, i, h => h
  | t :: ts, ty, i, h => by
    simp only [Tr.skippable.all, Bool.and_eq_true] at h
    rw [prune.elems, Tr.skippable.all, skippable_prune_elems ts ty (i + 1) h.2, Bool.and_true]
    cases elemTy env ty i with
    | none => exact h.1
    | some e => exact skippable_prune t e h.1
theorem skippable_prune_members : ∀ (ms : List (K × Tr K X)) (ty : Ty), Tr.skippable.allM sem ms = true →
    Tr.skippable.allM sem (prune.members sem env ms ty) = true
  | [], ty, h => h
  | (k, t) :: ms, ty, h => by
    simp only [Tr.skippable.allM, Bool.and_eq_true] at h
    have h2 := skippable_prune_members ms ty h.2
    rw [prune.members]
    cases memberTy sem env ty k with
    | none => simp only [Tr.skippable.allM, h.1.1, h.1.2, h2, Bool.and_self]
    | some o =>
      cases o with
      | none => exact h2
      | some e => simp only [Tr.skippable.allM, h.1.1, skippable_prune t e h.1.2, h2, Bool.and_self]
end

/-- An unknown member behind members that could be imported is an exception. -/
theorem unknown_throws (hs : cfg.strict ≠ .Weak) (d : StructDef) (m : Mem K X) (hm : d.find (sem.key m.key) = none) (b : List (Mem K X)) :
    ∀ (a : List (Mem K X)) (found : List Bytes) (old v : Val), impMembers sem cfg d a found old = .ok v →
      impMembers sem cfg d (a ++ m :: b) found old = .throw .std := by
  intro a
  induction a with
  | nil => intro found old v h; rw [List.nil_append, impMembers, hm]; simp only; rw [if_pos hs]
  | cons c a ih =>
    intro found old v h
    rw [List.cons_append, impMembers]
    rw [impMembers] at h
    cases hd : d.find (sem.key c.key) with
    | none => simp only [hd] at h ⊢; rw [if_pos hs]
    | some slot =>
      simp only [hd] at h ⊢
      cases hf : old.field slot.path slot.index with
      | none => simp only [hf] at h; cases h
      | some w =>
        simp only [hf] at h ⊢
        obtain ⟨x, hx, h⟩ := Res.bind_eq_ok.mp h
        rw [hx, Res.ok_bind]
        exact ih _ _ _ h

/-- Success in Exact mode: the keys of every struct position cover all its members. -/
theorem exact_covers (hs : cfg.strict = .Exact) {d : StructDef} {ms : List (K × Tr K X)} {ty : Ty} {v : Tr K X} (hi : Inside sem env cfg d ms ty v)
    (hn : ((allMembers d).map Member.name).Nodup) {old w : Val} (h : imp sem env cfg v ty old = .ok w) :
    ∀ m ∈ allMembers d, ∃ k t, (k, t) ∈ ms ∧ sem.key k = m.out := by
  have hfail : ¬ ∀ old, Fails (impMembers sem cfg d (imp.members sem env cfg ms) [] old) := by
    intro hf
    exact inside_fails sem env cfg hf hi old w h
  have hname : ∀ n ∈ allMembers d, ∃ m ∈ imp.members sem env cfg ms, sem.key m.key = n.name := by
    intro n hmem
    refine Classical.byContradiction fun hc => hfail fun old => missing_fails sem cfg hs d _ n hmem [] old (by simp) fun m hm e => hc ⟨m, hm, e⟩
  have hknown : ∀ m ∈ imp.members sem env cfg ms, ∃ slot, d.find (sem.key m.key) = some slot := by
    intro m hm
    cases hf : d.find (sem.key m.key) with
    | some s => exact ⟨s, rfl⟩
    | none => exact absurd (fun old => unknown_fails sem cfg (by rw [hs]; simp) d _ m hm hf [] old) hfail
  have hsub : ∀ x ∈ (allMembers d).map Member.name, x ∈ (allMembers d).map Member.out := by
    intro x hx
    obtain ⟨n, hn, rfl⟩ := List.mem_map.mp hx
    obtain ⟨m, hm, e⟩ := hname n hn
    obtain ⟨slot, hsl⟩ := hknown m hm
    obtain ⟨n', hn', e', -⟩ := find_out hsl
    exact List.mem_map.mpr ⟨n', hn', e'.trans e⟩
  have hsup := subset_of_nodup _ _ hn hsub (by simp)
  intro m hm
  obtain ⟨n, hn, e⟩ := List.mem_map.mp (hsup m.out (List.mem_map.mpr ⟨m, hm, rfl⟩))
  obtain ⟨x, hx, e'⟩ := hname n hn
  rw [members_eq] at hx
  obtain ⟨⟨k, t⟩, hkt, rfl⟩ := List.mem_map.mp hx
  exact ⟨k, t, hkt, e'.trans e⟩

end
end Thors
