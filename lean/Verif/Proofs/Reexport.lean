import Verif.Spec.Reexport
import Verif.Proofs.Restored
/-
Every value of a solid type has a document and can be brought back from it.
-/
namespace Thors
open Spec

variable (env : Env) (mk : Bytes) (hg : GoodTypes env) (hS : SolidTypes env mk)

set_option maxHeartbeats 1000000


include hS in
theorem solid_cls {dps : List StructDef} {ms : List Member} {f : Option (Val → Bytes → Bool)} {name : Bytes} {field : Option Bytes} {i : Nat}
    (hd : env.defs i = .cls ⟨.mk dps ms f, name, field⟩) : f = none ∧ NoFilter.all dps ∧ (∀ m ∈ ms, Solid env mk true m.ty) ∧
      ∀ m ∈ allMembers.inherited dps, Solid env mk true m.ty := by
  have hn := hS.filters i _ hd
  have hm := hS.members i _ hd
  rw [NoFilter] at hn
  exact ⟨hn.1, hn.2, fun m h => hm m (by simp [allMembers, h]), fun m h => hm m (by simp [allMembers, h])⟩

include hg hS

mutual
theorem back_val : ∀ (v : Val) (ty : Ty) (b : Bool), Solid env mk b ty → (b = true → ¬ ((∃ t, ty = .opt t) ∧ v = .none)) → HasType env ty v →
    Storable env mk ty v ∧ ∃ d, docOf env mk ty v = .ok d
  | .int i, ty, b, hs, hn, ht => by
    cases ty <;> simp only [HasType] at ht
    case int k => exact ⟨by rw [Storable]; exact ht (by simpa [Solid] using hs), _, by rw [docOf]⟩
  | .flt x, ty, b, hs, hn, ht => by
    cases ty <;> simp only [HasType] at ht
    case flt f => exact ⟨by rw [Storable]; exact ht (by simpa only [Solid] using hs), _, by rw [docOf]⟩
  | .bool i, ty, b, hs, hn, ht => by
    cases ty <;> simp only [HasType] at ht
    exact ⟨by simp [Storable], _, by rw [docOf]⟩
  | .str i, ty, b, hs, hn, ht => by
    cases ty <;> simp only [HasType] at ht
    exact ⟨by simp [Storable], _, by rw [docOf]⟩
  | .none, ty, b, hs, hn, ht => by
    cases ty <;> simp only [HasType] at ht
    case opt t =>
      rw [Solid] at hs
      exact absurd ⟨⟨t, rfl⟩, rfl⟩ (hn hs.1)
  | .null, ty, b, hs, hn, ht => by
    cases ty <;> simp only [HasType] at ht
    · exact ⟨by simp [Storable], _, by rw [docOf]⟩
    · exact ⟨by simp [Storable], _, by rw [docOf]⟩
  | .enum e, ty, b, hs, hn, ht => by
    cases ty <;> simp only [HasType] at ht
    case named i =>
      cases hd : env.defs i with
      | enum table =>
        rw [hd] at ht
        obtain ⟨p, hp, rfl⟩ := List.mem_map.1 ht
        refine ⟨by rw [Storable, hd]; exact ⟨p.2, hp⟩, ?_⟩
        cases hl : table.lookup p.1 with
        | some s => exact ⟨.scalar (.str s), by simp only [docOf, hd, hl]⟩
        | none =>
          have := List.lookup_eq_none_iff.1 hl p hp
          simp at this
      | _ => rw [hd] at ht; exact ht.elim
  | .some v, ty, b, hs, hn, ht => by
    cases ty <;> simp only [HasType] at ht
    case opt t =>
      rw [Solid] at hs
      obtain ⟨h1, d, h2⟩ := back_val v t false hs.2 (by simp) ht
      exact ⟨by rw [Storable]; exact h1, d, by rw [docOf]; exact h2⟩
  | .ptr v, ty, b, hs, hn, ht => by
    cases ty <;> simp only [HasType] at ht
    case uptr t =>
      rw [Solid] at hs
      obtain ⟨h1, d, h2⟩ := back_val v t false hs.2 (by simp) ht
      exact ⟨by rw [Storable]; exact ⟨hs.1, h1⟩, d, by rw [docOf]; exact h2⟩
  | .list vs, ty, b, hs, hn, ht => by
    cases ty <;> simp only [HasType] at ht
    case seq k t =>
      rw [Solid] at hs
      obtain ⟨h1, ds, h2⟩ := back_list vs t hs.2 ht.1
      refine ⟨?_, .arr ds, by rw [docOf, h2]; rfl⟩
      rw [Storable, restored_list env mk hg hS.filters vs t h1]
      refine ⟨?_, h1⟩
      have := ht.2
      cases k with
      | back => trivial
      | sorted c => exact this hs.1
      | multi c => exact this hs.1
      | hashed c => exact this
    case arr n t =>
      rw [Solid] at hs
      obtain ⟨h1, ds, h2⟩ := back_list vs t hs ht.2
      exact ⟨by rw [Storable]; exact ⟨ht.1, h1⟩, .arr ds, by rw [docOf, h2]; rfl⟩
    case named i =>
      cases hd : env.defs i with
      | tuple ts =>
        rw [hd] at ht
        obtain ⟨h1, ds, h2⟩ := back_tuple vs ts (hS.tuples i ts hd) ht
        exact ⟨by rw [Storable, hd]; exact h1, .arr ds, by simp only [docOf, hd]; rw [h2]; rfl⟩
      | _ => rw [hd] at ht; exact ht.elim
  | .dict kvs, ty, b, hs, hn, ht => by
    cases ty <;> simp only [HasType] at ht
    case smap t =>
      rw [Solid] at hs
      obtain ⟨h1, ds, h2⟩ := back_dict kvs t hs ht.1
      exact ⟨by rw [Storable]; exact ⟨List.pairwise_map.2 ht.2, h1⟩, .obj ds, by rw [docOf, h2]; rfl⟩
    case mmap t =>
      rw [Solid] at hs
      obtain ⟨h1, ds, h2⟩ := back_dict kvs t hs ht.1
      exact ⟨by rw [Storable]; exact ⟨List.pairwise_map.2 ht.2, h1⟩, .obj ds, by rw [docOf, h2]; rfl⟩
    case umap t =>
      rw [Solid] at hs
      obtain ⟨h1, ds, h2⟩ := back_dict kvs t hs ht.1
      exact ⟨by rw [Storable]; exact ⟨ht.2, h1⟩, .obj ds, by rw [docOf, h2]; rfl⟩
  | .obj ps fs, ty, b, hs, hn, ht => by
    cases ty <;> simp only [HasType] at ht
    case named i =>
      cases hd : env.defs i with
      | cls c =>
        obtain ⟨⟨dps, ms, f⟩, name, field⟩ := c
        rw [hd] at ht
        rw [Solid, hd] at hs
        obtain ⟨rfl, n1, n2, n3⟩ := solid_cls env mk hS hd
        obtain ⟨h1, ds, h3⟩ := back_own fs ms (.obj ps fs) n2 ht.1
        obtain ⟨h2, us, h4⟩ := back_parents ps dps n3 n1 ht.2
        exact ⟨by rw [Storable, hd]; exact ⟨hs, h1, h2⟩, _, by simp only [docOf, hd]; rw [h3, h4]; rfl⟩
      | _ => rw [hd] at ht; exact ht.elim
  | .dyn c w, ty, b, hs, hn, ht => by
    cases ty <;> simp only [HasType] at ht
    case pptr n =>
      rw [Solid] at hs
      obtain ⟨cd, hd, hr, hm⟩ := hs c ht.1
      obtain ⟨⟨dps, ms, f⟩, name, field⟩ := cd
      have ht2 := ht.2
      cases w with
      | obj ps fs =>
        rw [HasType, hd] at ht2
        obtain ⟨rfl, n1, n2, n3⟩ := solid_cls env mk hS hd
        obtain ⟨h1, ds, h3⟩ := back_own fs ms (.obj ps fs) n2 ht2.1
        obtain ⟨h2, us, h4⟩ := back_parents ps dps n3 n1 ht2.2
        exact ⟨by rw [Storable, hd]; exact ⟨hr, ht.1, hm, h1, h2⟩, _, by simp only [docOf, hd]; rw [h3, h4]; rfl⟩
      | _ => simp [HasType, hd] at ht2
  | .alt c w, ty, b, hs, hn, ht => by
    cases ty <;> simp only [HasType] at ht
    case named i =>
      cases hi : env.defs i with
      | variant alts =>
        rw [hi] at ht
        rw [Solid, hi] at hs
        obtain ⟨cd, hd, hm, hr⟩ := hs c ht.1
        obtain ⟨⟨dps, ms, f⟩, name, field⟩ := cd
        have ht2 := ht.2
        cases w with
        | obj ps fs =>
          rw [HasType, hd] at ht2
          obtain ⟨rfl, n1, n2, n3⟩ := solid_cls env mk hS hd
          obtain ⟨h1, ds, h3⟩ := back_own fs ms (.obj ps fs) n2 ht2.1
          obtain ⟨h2, us, h4⟩ := back_parents ps dps n3 n1 ht2.2
          exact ⟨by simp only [Storable, hi, hd]; exact ⟨ht.1, hm, hr, h1, h2⟩, _, by simp only [docOf, hd]; rw [h3, h4]; rfl⟩
        | _ => simp [HasType, hd] at ht2
      | _ => rw [hi] at ht; exact ht.elim
theorem back_list : ∀ (vs : List Val) (t : Ty), Solid env mk false t → HaveType env t vs → StorableList env mk t vs ∧ ∃ ds, docList env mk t vs = .ok ds
  | [], t, _, _ => ⟨by simp [StorableList], [], by rw [docList]⟩
  | v :: vs, t, hs, ht => by
    rw [HaveType] at ht
    obtain ⟨h1, d, h2⟩ := back_val v t false hs (by simp) ht.1
    obtain ⟨h3, ds, h4⟩ := back_list vs t hs ht.2
    exact ⟨by rw [StorableList]; exact ⟨h1, h3⟩, d :: ds, by rw [docList, h2, Res.ok_bind, h4]; rfl⟩
theorem back_tuple : ∀ (vs : List Val) (ts : List Ty), (∀ t ∈ ts, Solid env mk false t) → TupleHas env ts vs →
    StorableTuple env mk ts vs ∧ ∃ ds, docTuple env mk ts vs = .ok ds
  | [], ts, hs, ht => by
    cases ts with
    | nil => exact ⟨by simp [StorableTuple], [], by rw [docTuple]⟩
    | cons t ts => exact absurd ht (by simp [TupleHas])
  | v :: vs, ts, hs, ht => by
    cases ts with
    | nil => exact absurd ht (by simp [TupleHas])
    | cons t ts =>
      rw [TupleHas] at ht
      obtain ⟨h1, d, h2⟩ := back_val v t false (hs t List.mem_cons_self) (by simp) ht.1
      obtain ⟨h3, ds, h4⟩ := back_tuple vs ts (fun t h => hs t (List.mem_cons_of_mem _ h)) ht.2
      exact ⟨by rw [StorableTuple]; exact ⟨h1, h3⟩, d :: ds, by rw [docTuple, h2, Res.ok_bind, h4]; rfl⟩
theorem back_dict : ∀ (kvs : List (Bytes × Val)) (t : Ty), Solid env mk false t → DictHas env t kvs →
    StorableDict env mk t kvs ∧ ∃ ds, docDict env mk t kvs = .ok ds
  | [], t, _, _ => ⟨by simp [StorableDict], [], by rw [docDict]⟩
  | (k, v) :: kvs, t, hs, ht => by
    rw [DictHas] at ht
    obtain ⟨h1, d, h2⟩ := back_val v t false hs (by simp) ht.1
    obtain ⟨h3, ds, h4⟩ := back_dict kvs t hs ht.2
    exact ⟨by rw [StorableDict]; exact ⟨h1, h3⟩, (k, d) :: ds, by rw [docDict, h2, Res.ok_bind, h4]; rfl⟩
theorem back_own : ∀ (vs : List Val) (ms : List Member) (self : Val), (∀ m ∈ ms, Solid env mk true m.ty) → OwnHave env ms vs →
    StorableOwn env mk ms vs ∧ ∃ ds, docOwn env mk none self ms vs = .ok ds
  | [], ms, self, hs, ht => by
    cases ms with
    | nil => exact ⟨by simp [StorableOwn], [], by rw [docOwn]⟩
    | cons t ts => exact absurd ht (by simp [OwnHave])
  | v :: vs, ms, self, hs, ht => by
    cases ms with
    | nil => exact absurd ht (by simp [OwnHave])
    | cons m ms =>
      rw [OwnHave] at ht
      obtain ⟨h3, ds, h4⟩ := back_own vs ms self (fun t h => hs t (List.mem_cons_of_mem _ h)) ht.2
      by_cases hsh : shown none self m v
      · obtain ⟨h1, d, h2⟩ := back_val v m.ty true (hs m List.mem_cons_self) (fun _ => hsh) ht.1
        exact ⟨by rw [StorableOwn]; exact ⟨h1, h3⟩, (m.out, d) :: ds, by rw [docOwn, if_pos hsh, h2, Res.ok_bind, h4]; rfl⟩
      · have : (∃ t, m.ty = .opt t) ∧ v = .none := Classical.not_not.1 (show ¬ ¬ ((∃ t, m.ty = .opt t) ∧ v = .none) from hsh)
        obtain ⟨⟨t, e⟩, rfl⟩ := this
        exact ⟨by rw [StorableOwn]; exact ⟨by rw [e]; simp [Storable], h3⟩, ds, by rw [docOwn, if_neg hsh, h4]⟩
theorem back_parents : ∀ (vs : List Val) (dps : List StructDef), (∀ m ∈ allMembers.inherited dps, Solid env mk true m.ty) → NoFilter.all dps →
    ParentsHave env dps vs → StorableParents env mk dps vs ∧ ∃ ds, docParents env mk dps vs = .ok ds
  | [], dps, hs, hn, ht => by
    cases dps with
    | nil => exact ⟨by simp [StorableParents], [], by rw [docParents]⟩
    | cons d ds => cases d; exact absurd ht (by simp [ParentsHave])
  | v :: vs, dps, hs, hn, ht => by
    cases dps with
    | nil => exact absurd ht (by simp [ParentsHave])
    | cons d ds =>
      obtain ⟨dps, ms, f⟩ := d
      cases v with
      | obj ps fs =>
        rw [ParentsHave] at ht
        rw [NoFilter.all, NoFilter] at hn
        obtain ⟨⟨rfl, hn1⟩, hn2⟩ := hn
        have hs1 : ∀ m ∈ ms, Solid env mk true m.ty := fun m h => hs m (by simp [allMembers.inherited, allMembers, h])
        have hs2 : ∀ m ∈ allMembers.inherited dps, Solid env mk true m.ty := fun m h => hs m (by simp [allMembers.inherited, allMembers, h])
        have hs3 : ∀ m ∈ allMembers.inherited ds, Solid env mk true m.ty := fun m h => hs m (by simp [allMembers.inherited, h])
        obtain ⟨h1, a, h2⟩ := back_own fs ms (.obj ps fs) hs1 ht.1
        obtain ⟨h3, b, h4⟩ := back_parents ps dps hs2 hn1 ht.2.1
        obtain ⟨h5, c, h6⟩ := back_parents vs ds hs3 hn2 ht.2.2
        exact ⟨by rw [StorableParents]; exact ⟨h1, h3, h5⟩, _, by rw [docParents, h2, Res.ok_bind, h4, Res.ok_bind, h6]; rfl⟩
      | _ => exact absurd ht (by simp [ParentsHave])
end

end Thors
