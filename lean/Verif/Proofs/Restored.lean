import Verif.Proofs.RoundTripBase
/-
Without user filters, what comes back is the value itself.
-/
namespace Thors
open Spec

variable (env : Env) (mk : Bytes) (hg : GoodTypes env) (hnf : ∀ i c, env.defs i = .cls c → NoFilter c.traits)
include hg hnf

set_option maxHeartbeats 1000000

mutual
theorem restored_val : ∀ (v : Val) (ty : Ty) (old : Val), Storable env mk ty v → Fresh env ty old → restored env ty old v = v
  | .int i, ty, old, _, _ => by cases ty <;> simp [restored]
  | .flt x, ty, old, _, _ => by cases ty <;> simp [restored]
  | .bool i, ty, old, _, _ => by cases ty <;> simp [restored]
  | .str i, ty, old, _, _ => by cases ty <;> simp [restored]
  | .none, ty, old, _, _ => by cases ty <;> simp [restored]
  | .null, ty, old, _, _ => by cases ty <;> simp [restored]
  | .enum e, ty, old, _, _ => by cases ty <;> simp [restored]
  | .some v, ty, old, hs, hf => by
    cases ty with
    | opt t =>
      rw [Storable] at hs
      have ho : old = .none := by
        cases old with
        | none => rfl
        | _ => exact absurd hf (by simp [Fresh])
      subst ho
      rw [restored, restored_val v t ((Val.none).contentOr (t.default env)) hs (default_fresh env hg t)]
    | _ => simp [restored]
  | .ptr v, ty, old, hs, hf => by
    cases ty with
    | uptr t =>
      rw [Storable] at hs
      rw [restored, restored_val v t _ hs.2 (default_fresh env hg t)]
    | _ => simp [restored]
  | .list vs, ty, old, hs, hf => by
    cases ty with
    | seq k t =>
      rw [Storable] at hs
      rw [restored, restored_list vs t hs.2]
    | arr n t =>
      rw [Storable] at hs
      cases old with
      | list os =>
        rw [Fresh] at hf
        rw [restored, restored_fix vs t os hs.2 hf.2 (by rw [hf.1, hs.1])]
      | _ => exact absurd hf (by simp [Fresh])
    | named i =>
      rw [Storable] at hs
      cases hd : env.defs i with
      | tuple ts =>
        rw [hd] at hs
        obtain ⟨os, rfl, hf'⟩ := fresh_tuple env hd hf
        simp only [restored, hd]
        rw [restored_tuple vs ts os hs hf']
      | _ => simp [restored, hd]
    | _ => simp [restored]
  | .dict kvs, ty, old, hs, hf => by
    cases ty with
    | smap t => rw [Storable] at hs; rw [restored, restored_dict kvs t hs.2]
    | mmap t => rw [Storable] at hs; rw [restored, restored_dict kvs t hs.2]
    | umap t => rw [Storable] at hs; rw [restored, restored_dict kvs t hs.2]
    | _ => simp [restored]
  | .obj ps fs, ty, old, hs, hf => by
    cases ty with
    | named i =>
      rw [Storable] at hs
      cases hd : env.defs i with
      | cls c =>
        obtain ⟨⟨dps, ms, f⟩, name, field⟩ := c
        rw [hd] at hs
        have hn := hnf i _ hd
        rw [NoFilter] at hn
        obtain ⟨rfl, hn⟩ := hn
        obtain ⟨ops, ofs, rfl, hf1, hf2⟩ := fresh_cls env hd hf
        simp only [restored, hd]
        rw [restored_own fs ms ofs (.obj ps fs) hs.2.1 hf1, restored_parents ps dps ops hn hs.2.2 hf2]
      | _ => simp [restored, hd]
    | _ => simp [restored]
  | .dyn c w, ty, old, hs, hf => by
    cases ty with
    | pptr b =>
      cases w with
      | obj ps fs =>
        rw [Storable] at hs
        cases hd : env.defs c with
        | cls cd =>
          obtain ⟨⟨dps, ms, f⟩, name, field⟩ := cd
          rw [hd] at hs
          have hn := hnf c _ hd
          rw [NoFilter] at hn
          obtain ⟨rfl, hn⟩ := hn
          obtain ⟨ops, ofs, hdf, hf1, hf2⟩ := fresh_cls env hd (hg.fresh c)
          simp only [restored, hd, hdf]
          rw [restored_own fs ms ofs (.obj ps fs) hs.2.2.2.1 hf1, restored_parents ps dps ops hn hs.2.2.2.2 hf2]
        | _ => simp [restored, hd]
      | _ => simp [restored]
    | _ => simp [restored]
  | .alt c w, ty, old, hs, hf => by
    cases ty with
    | named i =>
      cases w with
      | obj ps fs =>
        rw [Storable] at hs
        cases hi : env.defs i with
        | variant alts =>
          rw [hi] at hs
          cases hd : env.defs c with
          | cls cd =>
            obtain ⟨⟨dps, ms, f⟩, name, field⟩ := cd
            rw [hd] at hs
            have hn := hnf c _ hd
            rw [NoFilter] at hn
            obtain ⟨rfl, hn⟩ := hn
            obtain ⟨ops, ofs, hdf, hf1, hf2⟩ := fresh_cls env hd (hg.fresh c)
            simp only [restored, hd, hdf]
            rw [restored_own fs ms ofs (.obj ps fs) hs.2.2.2.1 hf1, restored_parents ps dps ops hn hs.2.2.2.2 hf2]
          | _ => simp [restored, hd]
        | _ => rw [hi] at hs; exact hs.elim
      | _ => simp [restored]
    | _ => simp [restored]
theorem restored_list : ∀ (vs : List Val) (t : Ty), StorableList env mk t vs → restoredList env t vs = vs
  | [], t, _ => by rw [restoredList]
  | v :: vs, t, hs => by
    rw [StorableList] at hs
    rw [restoredList, restored_val v t _ hs.1 (default_fresh env hg t), restored_list vs t hs.2]
theorem restored_fix : ∀ (vs : List Val) (t : Ty) (os : List Val), StorableList env mk t vs → FreshList env t os → os.length = vs.length →
    restoredFix env t os vs = vs
  | [], t, os, _, _, hl => by simp [restoredFix]
  | v :: vs, t, os, hs, hf, hl => by
    cases os with
    | nil => simp at hl
    | cons o os =>
      rw [StorableList] at hs
      rw [FreshList] at hf
      rw [restoredFix, restored_val v t _ hs.1 hf.1, restored_fix vs t os hs.2 hf.2 (by simpa using hl)]
theorem restored_tuple : ∀ (vs : List Val) (ts : List Ty) (os : List Val), StorableTuple env mk ts vs → FreshTuple env ts os →
    restoredTuple env ts os vs = vs
  | [], ts, os, _, _ => by simp [restoredTuple]
  | v :: vs, ts, os, hs, hf => by
    cases ts with
    | nil => exact absurd hs (by simp [StorableTuple])
    | cons t ts =>
      cases os with
      | nil => exact absurd hf (by simp [FreshTuple])
      | cons o os =>
        rw [StorableTuple] at hs
        rw [FreshTuple] at hf
        rw [restoredTuple, restored_val v t _ hs.1 hf.1, restored_tuple vs ts os hs.2 hf.2]
theorem restored_dict : ∀ (kvs : List (Bytes × Val)) (t : Ty), StorableDict env mk t kvs → restoredDict env t kvs = kvs
  | [], t, _ => by rw [restoredDict]
  | (k, v) :: kvs, t, hs => by
    rw [StorableDict] at hs
    rw [restoredDict, restored_val v t _ hs.1 (default_fresh env hg t), restored_dict kvs t hs.2]
theorem restored_own : ∀ (vs : List Val) (ms : List Member) (os : List Val) (self : Val), StorableOwn env mk ms vs → FreshOwn env ms os →
    restoredOwn env none self ms os vs = vs
  | [], ms, os, self, _, _ => by simp [restoredOwn]
  | v :: vs, ms, os, self, hs, hf => by
    cases ms with
    | nil => exact absurd hs (by simp [StorableOwn])
    | cons m ms =>
      cases os with
      | nil => exact absurd hf (by simp [FreshOwn])
      | cons o os =>
        rw [StorableOwn] at hs
        rw [FreshOwn] at hf
        rw [restoredOwn, restored_own vs ms os self hs.2 hf.2]
        by_cases hsh : shown none self m v
        · rw [if_pos hsh, restored_val v m.ty o hs.1 hf.1]
        · rw [if_neg hsh]
          have : (∃ t, m.ty = .opt t) ∧ v = .none := Classical.not_not.1 (show ¬ ¬ ((∃ t, m.ty = .opt t) ∧ v = .none) from hsh)
          obtain ⟨⟨t, ht⟩, rfl⟩ := this
          rw [ht] at hf
          have ho : o = .none := by
            have := hf.1
            cases o with
            | none => rfl
            | _ => exact absurd this (by simp [Fresh])
          rw [ho]
theorem restored_parents : ∀ (vs : List Val) (ds : List StructDef) (os : List Val), NoFilter.all ds → StorableParents env mk ds vs →
    FreshParents env ds os → restoredParents env ds os vs = vs
  | [], ds, os, _, _, _ => by
    cases ds with
    | nil => simp [restoredParents]
    | cons d _ => cases d; simp [restoredParents]
  | v :: vs, ds, os, hn, hs, hf => by
    cases ds with
    | nil => exact absurd hs (by simp [StorableParents])
    | cons d ds =>
      obtain ⟨dps, ms, f⟩ := d
      cases v with
      | obj ps fs =>
        cases os with
        | nil => exact absurd hf (by simp [FreshParents])
        | cons o os =>
          cases o with
          | obj ops ofs =>
            rw [StorableParents] at hs
            rw [FreshParents] at hf
            rw [NoFilter.all, NoFilter] at hn
            obtain ⟨⟨rfl, hn1⟩, hn2⟩ := hn
            rw [restoredParents, restored_own fs ms ofs (.obj ps fs) hs.1 hf.1, restored_parents ps dps ops hn1 hs.2.1 hf.2.1,
              restored_parents vs ds os hn2 hs.2.2 hf.2.2]
          | _ => exact absurd hf (by simp [FreshParents])
      | _ => exact absurd hs (by simp [StorableParents])
end

end Thors
