import Verif.Spec.RoundTrip
import Verif.Proofs.ImpOrder
/-
Round trips, preparations: key order, places of members, contexts, fresh objects.
-/
namespace Thors
open Spec StrIn

/-! ### Key order -/

theorem keyLt_asymm : ∀ a b : Bytes, keyLt a b = true → keyLt b a = false
  | [], [], h => by simp [keyLt] at h
  | [], _ :: _, _ => rfl
  | _ :: _, [], h => by simp [keyLt] at h
  | a :: as, b :: bs, h => by
    simp only [keyLt, Bool.or_eq_true, Bool.and_eq_true, decide_eq_true_eq] at h
    simp only [keyLt, Bool.or_eq_false_iff, Bool.and_eq_false_iff, decide_eq_false_iff_not]
    rcases h with h | ⟨rfl, h⟩
    · exact ⟨fun h' => absurd h' (by simp only [UInt8.lt_iff_toNat_lt] at *; omega), .inl fun e => by subst e; simp only [UInt8.lt_iff_toNat_lt] at h; omega⟩
    · exact ⟨fun h' => by simp only [UInt8.lt_iff_toNat_lt] at h'; omega, .inr (keyLt_asymm as bs h)⟩

theorem keyLt_irrefl (a : Bytes) : keyLt a a = false := by
  cases h : keyLt a a with
  | false => rfl
  | true => rw [keyLt_asymm a a h] at h; cases h

theorem keyLt_ne {a b : Bytes} (h : keyLt a b = true) : a ≠ b := by
  rintro rfl
  rw [keyLt_irrefl] at h
  cases h

theorem dictGet_none (key : Bytes) : ∀ kvs : List (Bytes × Val), (∀ k ∈ kvs.map Prod.fst, k ≠ key) → dictGet key kvs = none
  | [], _ => rfl
  | (k, v) :: kvs, h => by
    rw [dictGet, if_neg (h k (by simp)), dictGet_none key kvs (fun k hk => h k (by simp only [List.map_cons, List.mem_cons]; exact .inr hk))]

theorem dictSet_last (key : Bytes) (v : Val) : ∀ kvs : List (Bytes × Val), (∀ k ∈ kvs.map Prod.fst, keyLt k key = true) →
    dictSet key v kvs = kvs ++ [(key, v)]
  | [], _ => rfl
  | (k, w) :: kvs, h => by
    have h1 := h k (by simp)
    have h2 := keyLt_asymm _ _ h1
    rw [dictSet, if_neg (keyLt_ne h1), if_neg (by simp [h2]),
      dictSet_last key v kvs (fun k hk => h k (by simp only [List.map_cons, List.mem_cons]; exact .inr hk))]
    rfl

theorem multiInsert_last (key : Bytes) (v : Val) : ∀ kvs : List (Bytes × Val), (∀ k ∈ kvs.map Prod.fst, keyLt key k = false) →
    multiInsert key v kvs = kvs ++ [(key, v)]
  | [], _ => rfl
  | (k, w) :: kvs, h => by
    have h1 := h k (by simp)
    rw [multiInsert, if_neg (by simp [h1]),
      multiInsert_last key v kvs (fun k hk => h k (by simp only [List.map_cons, List.mem_cons]; exact .inr hk))]
    rfl

/-! ### Places of members -/

/-- A place seen from a derived class. -/
def downTo (i : Nat) (s : StructDef.Slot) : StructDef.Slot := { s with path := i :: s.path }

/-- The document names of a class with their places, in the order in which they are searched. -/
def slots : StructDef → List (Bytes × StructDef.Slot)
  | .mk ps ms _ => inParents ps 0 ++ own ms 0
where
  inParents : List StructDef → Nat → List (Bytes × StructDef.Slot)
  | [], _ => []
  | p :: ps, i => (slots p).map (fun s => (s.1, downTo i s.2)) ++ inParents ps (i + 1)
  own : List Member → Nat → List (Bytes × StructDef.Slot)
  | [], _ => []
  | m :: ms, i => (m.out, ⟨[], i, m.ty⟩) :: own ms (i + 1)

theorem find_cons {α : Type} (key : Bytes) (k : Bytes) (x : α) (l : List (Bytes × α)) :
    List.lookup key ((k, x) :: l) = if key = k then some x else l.lookup key := by
  rw [List.lookup_cons]
  by_cases h : key = k
  · simp [h]
  · rw [show (key == k) = false by simp [h], if_neg h]

theorem lookup_append' {α : Type} (key : Bytes) (a b : List (Bytes × α)) : (a ++ b).lookup key = (a.lookup key).or (b.lookup key) := by
  induction a with
  | nil => rfl
  | cons x a ih => rw [List.cons_append, find_cons, find_cons, ih]; split <;> rfl

theorem lookup_map_snd {α β : Type} (key : Bytes) (f : α → β) (a : List (Bytes × α)) :
    (a.map (fun s => (s.1, f s.2))).lookup key = (a.lookup key).map f := by
  induction a with
  | nil => rfl
  | cons x a ih => rw [List.map_cons, find_cons, find_cons, ih]; split <;> rfl

theorem findMember_slots (key : Bytes) : ∀ (ms : List Member) (i : Nat), StructDef.findMember key ms i = (slots.own ms i).lookup key
  | [], _ => rfl
  | m :: ms, i => by rw [StructDef.findMember, slots.own, find_cons, findMember_slots key ms]

mutual
theorem find_slots (key : Bytes) : ∀ d : StructDef, d.find key = (slots d).lookup key
  | .mk ps ms f => by
    rw [StructDef.find, slots, lookup_append', findIn_slots key ps 0, findMember_slots]
    cases (slots.inParents ps 0).lookup key <;> rfl
theorem findIn_slots (key : Bytes) : ∀ (ps : List StructDef) (i : Nat), StructDef.find.findInParents key ps i = (slots.inParents ps i).lookup key
  | [], _ => rfl
  | p :: ps, i => by
    rw [StructDef.find.findInParents, slots.inParents, lookup_append', find_slots key p, findIn_slots key ps (i + 1),
      lookup_map_snd key (downTo i)]
    cases (slots p).lookup key <;> rfl
end

mutual
theorem slots_keys : ∀ d : StructDef, ((slots d).map Prod.fst).Perm ((allMembers d).map Member.out)
  | .mk ps ms f => by
    rw [slots, allMembers, List.map_append, List.map_append]
    refine (List.Perm.append (inParents_keys ps 0) (.of_eq ?_)).trans List.perm_append_comm
    generalize 0 = i
    induction ms generalizing i with
    | nil => rfl
    | cons m ms ih => simp [slots.own, ih]
theorem inParents_keys : ∀ (ps : List StructDef) (i : Nat), ((slots.inParents ps i).map Prod.fst).Perm ((allMembers.inherited ps).map Member.out)
  | [], _ => .refl _
  | p :: ps, i => by
    rw [slots.inParents, allMembers.inherited, List.map_append, List.map_append, List.map_map]
    exact List.Perm.append (slots_keys p) (inParents_keys ps (i + 1))
end

theorem lookup_of_mem {α : Type} {key : Bytes} {x : α} : ∀ {l : List (Bytes × α)}, (l.map Prod.fst).Nodup → (key, x) ∈ l → l.lookup key = some x
  | [], _, h => by simp at h
  | (k, y) :: l, hn, h => by
    rw [List.map_cons, List.nodup_cons] at hn
    rw [find_cons]
    rcases List.mem_cons.1 h with h | h
    · cases h; rw [if_pos rfl]
    · have : key ∈ l.map Prod.fst := List.mem_map.2 ⟨_, h, rfl⟩
      rw [if_neg, lookup_of_mem hn.2 h]
      rintro rfl
      exact hn.1 this

mutual
/-- Every member of `sd`, which is at `path` in `d`, is found at its place. -/
def Finds (d : StructDef) : StructDef → List Nat → Prop
  | .mk ps ms _, path => (∀ j m, ms[j]? = some m → d.find m.out = some ⟨path, j, m.ty⟩) ∧ FindsIn d ps path 0
def FindsIn (d : StructDef) : List StructDef → List Nat → Nat → Prop
  | [], _, _ => True
  | p :: ps, path, i => Finds d p (path ++ [i]) ∧ FindsIn d ps path (i + 1)
end

theorem own_mem (m : Member) : ∀ (ms : List Member) (i j : Nat), ms[j]? = some m → (m.out, (⟨[], i + j, m.ty⟩ : StructDef.Slot)) ∈ slots.own ms i
  | [], _, _, h => by simp at h
  | m' :: ms, i, 0, h => by simp at h; subst h; simp [slots.own]
  | m' :: ms, i, j + 1, h => by
    have := own_mem m ms (i + 1) j (by simpa using h)
    rw [slots.own, List.mem_cons]
    exact .inr (by rw [show i + (j + 1) = i + 1 + j by omega]; exact this)

mutual
theorem finds_sub (d : StructDef) (hn : ((slots d).map Prod.fst).Nodup) : ∀ (sd : StructDef) (path : List Nat),
    (∀ k s, (k, s) ∈ slots sd → (k, { s with path := path ++ s.path }) ∈ slots d) → Finds d sd path
  | .mk ps ms f, path, h => by
    refine ⟨fun j m hm => ?_, findsIn_sub d hn ps path 0 fun k s hs => h k s (by rw [slots, List.mem_append]; exact .inl hs)⟩
    have := h m.out ⟨[], 0 + j, m.ty⟩ (by rw [slots, List.mem_append]; exact .inr (own_mem m ms 0 j hm))
    rw [find_slots, lookup_of_mem hn this]
    simp
theorem findsIn_sub (d : StructDef) (hn : ((slots d).map Prod.fst).Nodup) : ∀ (ps : List StructDef) (path : List Nat) (i : Nat),
    (∀ k s, (k, s) ∈ slots.inParents ps i → (k, { s with path := path ++ s.path }) ∈ slots d) → FindsIn d ps path i
  | [], _, _, _ => trivial
  | p :: ps, path, i, h => by
    refine ⟨finds_sub d hn p (path ++ [i]) fun k s hs => ?_, findsIn_sub d hn ps path (i + 1) fun k s hs => ?_⟩
    · have := h k (downTo i s) (by
        rw [slots.inParents, List.mem_append]
        exact .inl (List.mem_map.2 ⟨(k, s), hs, rfl⟩))
      simpa [downTo] using this
    · exact h k s (by rw [slots.inParents, List.mem_append]; exact .inr hs)
end

theorem finds_self {d : StructDef} (h : ((allMembers d).map Member.out).Nodup) : Finds d d [] :=
  finds_sub d ((slots_keys d).nodup_iff.2 h) d [] (fun k s hs => by simpa using hs)

/-! ### Contexts -/

/-- `C w` is an object with the subobject `w` at `path`. -/
structure Holds (C : Val → Val) (path : List Nat) : Prop where
  field : ∀ w q i, (C w).field (path ++ q) i = w.field q i
  set : ∀ w q i x, (C w).setField (path ++ q) i x = C (w.setField q i x)

theorem Holds.here : Holds id [] := ⟨fun _ _ _ => rfl, fun _ _ _ _ => rfl⟩

theorem Holds.parent {C : Val → Val} {path : List Nat} (h : Holds C path) (done tl : List Val) (fs : List Val) :
    Holds (fun w => C (.obj (done ++ w :: tl) fs)) (path ++ [done.length]) := by
  constructor
  · intro w q i
    rw [List.append_assoc, h.field, List.singleton_append, Val.field]
    simp
  · intro w q i x
    rw [List.append_assoc, h.set, List.singleton_append, Val.setField]
    simp

/-! ### Fresh objects -/

section
variable (env : Env)

theorem freshList_replicate {t : Ty} {v : Val} (h : Fresh env t v) : ∀ n, FreshList env t (List.replicate n v)
  | 0 => by simp [FreshList]
  | n + 1 => by rw [List.replicate_succ, FreshList]; exact ⟨h, freshList_replicate h n⟩

theorem elemsOrdered_left {k : SeqKind} {a b : List Val} (h : elemsOrdered env k (a ++ b)) : elemsOrdered env k a := by
  cases k with
  | back => trivial
  | _ => exact (List.pairwise_append.1 h).1

/-- An element that belongs behind all others is put there. -/
theorem insert_ordered (k : SeqKind) : ∀ (vs : List Val) (v : Val), elemsOrdered env k (vs ++ [v]) → k.insert env vs v = vs ++ [v] := by
  intro vs v h
  cases k with
  | back => rfl
  | sorted c =>
    simp only [SeqKind.insert]
    induction vs with
    | nil => rfl
    | cons x vs ih =>
      have h' : ∀ y ∈ vs ++ [v], env.less c x y = true := (List.pairwise_cons.1 h).1
      rw [setInsert, if_pos (h' v (by simp)), ih (List.pairwise_cons.1 h).2]; rfl
  | multi c =>
    simp only [SeqKind.insert]
    induction vs with
    | nil => rfl
    | cons x vs ih =>
      have h' : ∀ y ∈ vs ++ [v], env.less c y x = false := (List.pairwise_cons.1 h).1
      rw [multisetInsert, if_neg (by simp [h' v (by simp)]), ih (List.pairwise_cons.1 h).2]; rfl
  | hashed c =>
    simp only [SeqKind.insert]
    have h' : ∀ x ∈ vs, env.less c x v = false := fun x hx => (List.pairwise_append.1 h).2.2 x hx v (by simp)
    rw [hashInsert, if_neg]
    simp only [List.any_eq_true, not_exists, not_and]
    intro x hx; simp [h' x hx]

theorem default_fresh (hg : GoodTypes env) : ∀ t : Ty, Fresh env t (t.default env)
  | .int _ => by simp [Ty.default, Fresh]
  | .flt _ => by simp [Ty.default, Fresh]
  | .bool => by simp [Ty.default, Fresh]
  | .str => by simp [Ty.default, Fresh]
  | .seq _ _ => by simp [Ty.default, Fresh]
  | .arr n t => by simp only [Ty.default, Fresh]; exact ⟨by simp, freshList_replicate env (default_fresh hg t) n⟩
  | .smap _ => by simp [Ty.default, Fresh]
  | .mmap _ => by simp [Ty.default, Fresh]
  | .umap _ => by simp [Ty.default, Fresh]
  | .opt _ => by simp [Ty.default, Fresh]
  | .uptr _ => by simp [Ty.default, Fresh]
  | .pptr _ => by simp [Ty.default, Fresh]
  | .named i => hg.fresh i

/-- A fresh object of a class is an object. -/
theorem fresh_cls {i : Nat} {dps : List StructDef} {ms : List Member} {f : Option (Val → Bytes → Bool)} {name : Bytes} {field : Option Bytes} {old : Val}
    (hd : env.defs i = .cls ⟨.mk dps ms f, name, field⟩) (h : Fresh env (.named i) old) :
    ∃ ops ofs, old = .obj ops ofs ∧ FreshOwn env ms ofs ∧ FreshParents env dps ops := by
  cases old with
  | obj ops ofs => rw [Fresh, hd] at h; exact ⟨ops, ofs, rfl, h⟩
  | list vs => rw [Fresh, hd] at h; exact absurd h (by simp)
  | _ => simp [Fresh, hd] at h

theorem fresh_tuple {i : Nat} {ts : List Ty} {old : Val} (hd : env.defs i = .tuple ts) (h : Fresh env (.named i) old) :
    ∃ os, old = .list os ∧ FreshTuple env ts os := by
  cases old with
  | obj ops ofs => rw [Fresh, hd] at h; exact absurd h (by simp)
  | list vs => rw [Fresh, hd] at h; exact ⟨vs, rfl, h⟩
  | _ => simp [Fresh, hd] at h

end

end Thors
