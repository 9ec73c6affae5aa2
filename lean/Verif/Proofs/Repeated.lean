import Verif.Spec.Repeated
import Verif.Proofs.ImpOrder
import Verif.Proofs.Alike
/-
Members that are given again later do not count.
-/
namespace Thors
open Spec StrIn

/-- Of two values stored at one place the second stays. -/
theorem setField_again (a b : Val) : ∀ (p : List Nat) (i : Nat) (w : Val), (w.setField p i a).setField p i b = w.setField p i b
  | [], i, w => by cases w <;> simp [Val.setField]
  | q :: p, i, w => by
    cases w with
    | obj ps fs =>
      rw [Val.setField]
      cases hq : ps[q]? with
      | none => rfl
      | some x =>
        have hlt := (List.getElem?_eq_some_iff.1 hq).1
        simp only [Val.setField, hq, List.getElem?_set_self hlt, List.set_set, setField_again a b p i x]
    | _ => simp [Val.setField]

section
variable {K X : Type} (sem : ScalarSem K X) (env : Env) (cfg : Cfg)

/-- The old value does not matter. -/
theorem imp_replaced (v : Tr K X) (ty : Ty) (h : Replaced env ty) (a b : Val) : imp sem env cfg v ty a = imp sem env cfg v ty b := by
  cases ty with
  | named i =>
    obtain ⟨table, ht⟩ := h
    cases v with
    | scalar x => simp only [imp, impScalar]
    | arr ts => simp only [imp, impArr, ht]
    | obj ms => simp only [imp, impObj, ht]
  | int | flt | bool | str | uptr | pptr =>
    cases v with
    | scalar x => simp only [imp, impScalar]
    | arr ts => simp only [imp, impArr]
    | obj ms => simp only [imp, impObj]
  | _ => exact absurd h (by simp [Replaced])

/-- A member that comes again is as good as not there. -/
theorem impMembers_again (d : StructDef) (k : Bytes) (s : StructDef.Slot) (hs : d.find k = some s) (y : Val) : ∀ (ms : List (Mem K X)) (found : List Bytes) (old w : Val),
    old.field s.path s.index = some w → (∃ m ∈ ms, sem.key m.key = k) → (∀ m ∈ ms, sem.key m.key = k → ∀ o o', m.imp s.ty o = m.imp s.ty o') →
    impMembers sem cfg d ms (k :: found) (old.setField s.path s.index y) = impMembers sem cfg d ms found old
  | [], _, _, _, _, he, _ => by obtain ⟨m, h, -⟩ := he; cases h
  | m :: ms, found, old, w, hw, he, hi => by
    rw [impMembers, impMembers]
    cases hf : d.find (sem.key m.key) with
    | none =>
      have hne : sem.key m.key ≠ k := by rintro rfl; rw [hs] at hf; cases hf
      have he' : ∃ m ∈ ms, sem.key m.key = k := by
        obtain ⟨n, hn, e⟩ := he
        rcases List.mem_cons.1 hn with rfl | hn
        · exact absurd e hne
        · exact ⟨n, hn, e⟩
      dsimp only
      rw [impMembers_again d k s hs y ms found old w hw he' fun n hn => hi n (.tail _ hn)]
    | some s' =>
      dsimp only
      by_cases hk : sem.key m.key = k
      · rw [hk] at hf ⊢
        cases hs.symm.trans hf
        rw [field_set_eq y s.path hw, hw]
        dsimp only
        rw [hi m (.head _) hk y w]
        congr 1
        funext v
        rw [setField_again]
        exact found_congr sem cfg d ms _ _ _ (by simp)
      · have he' : ∃ m ∈ ms, sem.key m.key = k := by
          obtain ⟨n, hn, e⟩ := he
          rcases List.mem_cons.1 hn with rfl | hn
          · exact absurd e hk
          · exact ⟨n, hn, e⟩
        have hne := find_ne hs hf (fun e => hk e.symm)
        rw [field_set_ne y _ _ _ _ old hne]
        cases old.field s'.path s'.index with
        | none => rfl
        | some u =>
          dsimp only
          congr 1
          funext v
          rw [setField_comm y v _ _ _ _ old hne]
          rw [found_congr sem cfg d ms (sem.key m.key :: k :: found) (k :: sem.key m.key :: found) _ (by intro n; simp; exact or_left_comm)]
          exact impMembers_again d k s hs y ms _ _ w (by rw [field_set_ne v _ _ _ _ old (fun h => hne ⟨h.1.symm, h.2.symm⟩)]; exact hw) he' fun n hn => hi n (.tail _ hn)

/-- … wherever it is. -/
theorem impMembers_drop (d : StructDef) (m : Mem K X) (s : StructDef.Slot) (hs : d.find (sem.key m.key) = some s) (b : List (Mem K X))
    (he : ∃ n ∈ b, sem.key n.key = sem.key m.key) (hi : ∀ n ∈ b, sem.key n.key = sem.key m.key → ∀ o o', n.imp s.ty o = n.imp s.ty o') :
    ∀ (a : List (Mem K X)) (found : List Bytes) (old w : Val), impMembers sem cfg d (a ++ m :: b) found old = .ok w → impMembers sem cfg d (a ++ b) found old = .ok w
  | [], found, old, w, h => by
    rw [List.nil_append, impMembers, hs] at h
    dsimp only at h
    cases hf : old.field s.path s.index with
    | none => rw [hf] at h; cases h
    | some u =>
      rw [hf] at h
      obtain ⟨v, -, h⟩ := Res.bind_eq_ok.mp h
      rwa [impMembers_again sem cfg d _ s hs v b found old u hf he hi] at h
  | n :: a, found, old, w, h => by
    rw [List.cons_append, impMembers] at h ⊢
    cases hn : d.find (sem.key n.key) with
    | none =>
      rw [hn] at h
      dsimp only at h ⊢
      split at h
      · cases h
      · rw [if_neg (by assumption)]
        split at h
        · cases h
        · rw [if_neg (by assumption)]
          exact impMembers_drop d m s hs b he hi a found old w h
    | some s' =>
      rw [hn] at h
      dsimp only at h ⊢
      cases hf : old.field s'.path s'.index with
      | none => rw [hf] at h; cases h
      | some u =>
        rw [hf] at h
        dsimp only at h ⊢
        obtain ⟨v, hv, h⟩ := Res.bind_eq_ok.mp h
        rw [hv]
        exact impMembers_drop d m s hs b he hi a _ _ w h

theorem lastOnly_null {ty : Ty} {v v' : Tr K X} (h : LastOnly sem env ty v v') : isNullTree sem v' = isNullTree sem v := by
  induction h with
  | refl v => rfl
  | trans _ _ h1 h2 => rw [h2, h1]
  | opt _ ih => exact ih
  | uptr _ ih => exact ih
  | _ => rfl

/-- Leaving out members that come again does not change what is imported. -/
theorem imp_lastOnly {ty : Ty} {v v' : Tr K X} (h : LastOnly sem env ty v v') : ∀ old w, imp sem env cfg v ty old = .ok w → imp sem env cfg v' ty old = .ok w := by
  induction h with
  | refl v => intro old w h; exact h
  | trans _ _ h1 h2 => intro old w h; exact h2 _ _ (h1 _ _ h)
  | drop hd hs hr he =>
    intro old w h
    simp only [imp] at h ⊢
    rw [impObj, hd] at h ⊢
    simp only at h ⊢
    rw [members_eq, List.map_append, List.map_cons] at h
    rw [members_eq, List.map_append]
    refine impMembers_drop sem cfg _ _ _ hs _ ?_ ?_ _ _ _ _ h
    · obtain ⟨m, hm, e⟩ := he
      exact ⟨_, List.mem_map_of_mem hm, e⟩
    · intro n hn _ o o'
      obtain ⟨m, -, rfl⟩ := List.mem_map.1 hn
      exact imp_replaced sem env cfg m.2 _ hr o o'
  | member hd hs _ ih =>
    intro old w h
    simp only [imp] at h ⊢
    rw [impObj, hd] at h ⊢
    simp only at h ⊢
    rw [members_eq, List.map_append, List.map_cons] at h ⊢
    refine impMembers_replace sem cfg _ _ _ ?hk ?sl ?hs ?hi _ _ _ _ _ h
    case hk => rfl
    case hs => exact hs
    case hi => exact ih
  | vec _ ih =>
    intro old w h
    simp only [imp] at h ⊢
    cases old with
    | list vs =>
      rw [impArr] at h ⊢
      rw [elems_eq, List.map_append, List.map_cons] at h ⊢
      exact impVec_replace env _ _ _ _ ih _ _ _ _ h
    | _ => simp [impArr] at h
  | smap _ ih | mmap _ ih | umap _ ih =>
    intro old w h
    simp only [imp] at h ⊢
    cases old with
    | dict vs =>
      rw [impObj] at h ⊢
      rw [members_eq, List.map_append, List.map_cons] at h ⊢
      refine impDict_replace sem env _ _ _ _ ?_ ?_ _ _ _ _ h
      · rfl
      · exact ih
    | _ => simp [impObj] at h
  | opt _ ih =>
    intro old w h
    rw [imp_opt] at h ⊢
    obtain ⟨x, hx, h⟩ := Res.bind_eq_ok.mp h
    rw [ih _ _ hx]; exact h
  | uptr hr ih =>
    intro old w h
    rw [imp_uptr] at h ⊢
    rw [lastOnly_null sem env hr]
    split at h
    · rw [if_pos (by assumption)]; exact h
    · rw [if_neg (by assumption)]
      obtain ⟨x, hx, h⟩ := Res.bind_eq_ok.mp h
      rw [ih _ _ hx]; exact h

end
end Thors
