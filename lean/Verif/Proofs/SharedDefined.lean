import Verif.Proofs.SharedTree
/-
What `impS` says about documents whose handles have numbers: no undefined behaviour.
-/
namespace Thors
open Spec StrIn

variable {K X : Type} {sem : ScalarSem K X} {S : SEnv} {cfg : Cfg}

theorem Res.bind_ne {α β : Type} {r : Res α} {f : α → Res β} (h : r ≠ .ub) (hf : ∀ a, r = .ok a → f a ≠ .ub) : (r >>= f) ≠ .ub := by
  cases r with
  | ok a => exact hf a rfl
  | throw e => simp
  | ub => exact absurd rfl h

theorem pointer_defined (t : STy) (n : Int) (d : Option (Option Nat)) (st : Loaded) : pointer t ⟨some n, d⟩ st ≠ .ub := by
  unfold pointer
  cases d with
  | some target => simp
  | none =>
    dsimp only
    cases st.saved.lookup n with
    | none => simp
    | some r => dsimp only; split <;> simp

section
variable (sem S cfg)

/-- No undefined behaviour for one tree. -/
def SafeTree (tr : Tr K X) : Prop := ∀ t st, Defined sem S cfg tr t → Numbered sem S tr t → impS sem S cfg tr t st ≠ .ub
end

theorem elems_defined (ts : List (Tr K X)) (ih : ∀ t ∈ ts, SafeTree sem S cfg t) (t : STy) : ∀ (vs : List SVal) (st : Loaded),
    Defined.elems sem S cfg ts t → Handles.elems sem S (fun ms => 0 < times sem infoName ms) ts t → impS.elems sem S cfg ts t vs st ≠ .ub := by
  induction ts with
  | nil => intro vs st _ _; simp [impS.elems]
  | cons tr ts ih2 =>
    intro vs st hd hn
    rw [impS.elems]
    exact Res.bind_ne (ih tr (by simp) t st hd.1 hn.1) fun r _ => ih2 (fun t ht => ih t (by simp [ht])) _ _ hd.2 hn.2

theorem members_defined (ms : List (K × Tr K X)) (ih : ∀ m ∈ ms, SafeTree sem S cfg m.2) (decl : List (Bytes × STy)) : ∀ (found : List Bytes) (fs : List SVal) (st : Loaded),
    Defined.members sem S cfg ms decl → Handles.members sem S (fun ms => 0 < times sem infoName ms) ms decl → impS.members sem S cfg ms decl found fs st ≠ .ub := by
  induction ms with
  | nil => intro found fs st _ _; rw [impS.members]; split <;> simp
  | cons m ms ih2 =>
    obtain ⟨k, tr⟩ := m
    intro found fs st hd hn
    have ih2 := fun found fs st => ih2 (fun t ht => ih t (by simp [ht])) found fs st hd.2.2 hn.2
    rw [impS.members]
    cases he : smemberAt (sem.key k) decl 0 with
    | none =>
      dsimp only
      split
      · simp
      · next hw =>
        rw [if_neg (by rw [hd.2.1 he (by simpa using hw)]; simp)]
        exact ih2 _ _ _
    | some r => exact Res.bind_ne (ih (k, tr) (by simp) r.2 st (hd.1 r.1 r.2 he) (hn.1 r.1 r.2 he)) fun v _ => ih2 _ _ _

theorem times_cons (n : Bytes) (k : K) (tr : Tr K X) (ms : List (K × Tr K X)) :
    times sem n ((k, tr) :: ms) = (if sem.key k = n then 1 else 0) + times sem n ms := by
  unfold times
  by_cases h : sem.key k = n
  · rw [List.filter_cons_of_pos (by simp [h])]; simp [h]; omega
  · rw [List.filter_cons_of_neg (by simp [h])]; simp [h]

theorem times_nil (n : Bytes) : times sem n ([] : List (K × Tr K X)) = 0 := rfl

theorem info_defined (ms : List (K × Tr K X)) (ih : ∀ m ∈ ms, SafeTree sem S cfg m.2) (t : STy) : ∀ (found : List Bytes) (h : Handle) (st : Loaded),
    Defined.info sem S cfg ms t → Handles.info sem S (fun ms => 0 < times sem infoName ms) ms t → h.name ≠ none ∨ 0 < times sem infoName ms →
    impS.info sem S cfg ms t found h st ≠ .ub := by
  induction ms with
  | nil =>
    intro found h st _ _ hh
    rw [impS.info]
    split
    · simp
    · obtain ⟨n, d⟩ := h
      cases n with
      | none => rcases hh with hh | hh <;> simp [times] at hh
      | some n => exact pointer_defined t n d st
  | cons m ms ih2 =>
    obtain ⟨k, tr⟩ := m
    intro found h st hd hn hh
    obtain ⟨d1, d2, d3, d4⟩ := hd
    have ih2 := fun found h st hh => ih2 (fun t ht => ih t (by simp [ht])) found h st d4 hn.2 hh
    rw [times_cons] at hh
    rw [impS.info]
    split
    · next hk => exact Res.bind_ne (d1 hk) fun n _ => ih2 _ _ _ (.inl (by simp))
    · next hk =>
      simp only [hk, if_false, Nat.zero_add] at hh
      split
      · next hk2 =>
        split
        · exact ih2 _ _ _ hh
        · next hnull => exact Res.bind_ne (ih (k, tr) (by simp) t (h.deleted st) (d2 hk2 (by simpa using hnull)) (hn.1 hk2)) fun v _ => ih2 _ _ _ hh
      · next hk2 =>
        split
        · simp
        · next hw =>
          rw [if_neg (by rw [d3 hk hk2 (by simpa using hw)]; simp)]
          exact ih2 _ _ _ hh

/-- Documents whose handles have numbers lead to no undefined behaviour, if their other parts do not. -/
theorem impS_defined (tr : Tr K X) : SafeTree sem S cfg tr := by
  have plain : ∀ (tr : Tr K X) (t : Ty) (st : Loaded), imp sem S.env cfg tr t (t.default S.env) ≠ .ub → impPlain sem S cfg tr t st ≠ .ub := by
    intro tr t st h
    exact Res.bind_ne h fun v _ => by simp
  induction tr using Spec.Tr.induct with
  | hs x =>
    intro t st hd hn
    cases t with
    | plain t => rw [impS]; exact plain _ _ _ hd
    | vec t | cls c => rw [impS]; simp
    | shared t => rw [impS]; split <;> simp
  | ha ts ih =>
    intro t st hd hn
    cases t with
    | plain t => rw [impS]; exact plain _ _ _ hd
    | vec t => rw [impS]; exact elems_defined ts ih t [] st hd hn
    | cls c | shared t => rw [impS]; simp
  | ho ms ih =>
    intro t st hd hn
    cases t with
    | plain t => rw [impS]; exact plain _ _ _ hd
    | vec t => rw [impS]; simp
    | cls c => rw [impS]; exact members_defined ms ih _ [] _ st hd hn
    | shared t => rw [impS]; exact info_defined ms ih t [] _ st hd hn.2 (.inr hn.1)

/-! The clauses of `Handles`, as equivalences. -/

section
variable (ok : List (K × Tr K X) → Prop)

theorem handles_scalar (x : X) (t : STy) : Handles sem S ok (.scalar x) t ↔ True := by cases t <;> rw [Handles]
theorem handles_plain (tr : Tr K X) (t : Ty) : Handles sem S ok tr (.plain t) ↔ True := by cases tr <;> rw [Handles]
theorem handles_vec (ts : List (Tr K X)) (t : STy) : Handles sem S ok (.arr ts) (.vec t) ↔ Handles.elems sem S ok ts t := by rw [Handles]
theorem handles_cls (ms : List (K × Tr K X)) (c : Nat) : Handles sem S ok (.obj ms) (.cls c) ↔ Handles.members sem S ok ms (S.classes c) := by rw [Handles]
theorem handles_shared (ms : List (K × Tr K X)) (t : STy) : Handles sem S ok (.obj ms) (.shared t) ↔ ok ms ∧ Handles.info sem S ok ms t := by rw [Handles]
theorem handles_elems_nil (t : STy) : Handles.elems sem S ok [] t ↔ True := by rw [Handles.elems]
theorem handles_elems_cons (tr : Tr K X) (ts : List (Tr K X)) (t : STy) :
    Handles.elems sem S ok (tr :: ts) t ↔ Handles sem S ok tr t ∧ Handles.elems sem S ok ts t := by rw [Handles.elems]
theorem handles_members_nil (decl : List (Bytes × STy)) : Handles.members sem S ok [] decl ↔ True := by rw [Handles.members]
theorem handles_members_cons (k : K) (tr : Tr K X) (ms : List (K × Tr K X)) (decl : List (Bytes × STy)) :
    Handles.members sem S ok ((k, tr) :: ms) decl ↔
      (∀ i t, smemberAt (sem.key k) decl 0 = some (i, t) → Handles sem S ok tr t) ∧ Handles.members sem S ok ms decl := by rw [Handles.members]
theorem handles_info_nil (t : STy) : Handles.info sem S ok [] t ↔ True := by rw [Handles.info]
theorem handles_info_cons (k : K) (tr : Tr K X) (ms : List (K × Tr K X)) (t : STy) :
    Handles.info sem S ok ((k, tr) :: ms) t ↔ (sem.key k = infoData → Handles sem S ok tr t) ∧ Handles.info sem S ok ms t := by rw [Handles.info]
end

/-! The clauses of `Defined`. -/

theorem defined_plain (tr : Tr K X) (t : Ty) : Defined sem S cfg tr (.plain t) ↔ imp sem S.env cfg tr t (t.default S.env) ≠ .ub := by cases tr <;> rw [Defined]
theorem defined_scalar (x : X) (t : STy) : Defined sem S cfg (.scalar x) (.shared t) ↔ True := by rw [Defined]
theorem defined_vec (ts : List (Tr K X)) (t : STy) : Defined sem S cfg (.arr ts) (.vec t) ↔ Defined.elems sem S cfg ts t := by rw [Defined]
theorem defined_cls (ms : List (K × Tr K X)) (c : Nat) : Defined sem S cfg (.obj ms) (.cls c) ↔ Defined.members sem S cfg ms (S.classes c) := by rw [Defined]
theorem defined_shared (ms : List (K × Tr K X)) (t : STy) : Defined sem S cfg (.obj ms) (.shared t) ↔ Defined.info sem S cfg ms t := by rw [Defined]
theorem defined_elems_nil (t : STy) : Defined.elems sem S cfg [] t ↔ True := by rw [Defined.elems]
theorem defined_elems_cons (tr : Tr K X) (ts : List (Tr K X)) (t : STy) :
    Defined.elems sem S cfg (tr :: ts) t ↔ Defined sem S cfg tr t ∧ Defined.elems sem S cfg ts t := by rw [Defined.elems]
theorem defined_members_nil (decl : List (Bytes × STy)) : Defined.members sem S cfg [] decl ↔ True := by rw [Defined.members]
theorem defined_members_cons (k : K) (tr : Tr K X) (ms : List (K × Tr K X)) (decl : List (Bytes × STy)) :
    Defined.members sem S cfg ((k, tr) :: ms) decl ↔
      (∀ i t, smemberAt (sem.key k) decl 0 = some (i, t) → Defined sem S cfg tr t) ∧
      (smemberAt (sem.key k) decl 0 = none → cfg.strict = .Weak → tr.skippable sem = true) ∧ Defined.members sem S cfg ms decl := by rw [Defined.members]
theorem defined_info_nil (t : STy) : Defined.info sem S cfg [] t ↔ True := by rw [Defined.info]
theorem defined_info_cons (k : K) (tr : Tr K X) (ms : List (K × Tr K X)) (t : STy) :
    Defined.info sem S cfg ((k, tr) :: ms) t ↔
      (sem.key k = infoName → number sem tr ≠ .ub) ∧ (sem.key k = infoData → tr.isNull sem = false → Defined sem S cfg tr t) ∧
      (sem.key k ≠ infoName → sem.key k ≠ infoData → cfg.strict = .Weak → tr.skippable sem = true) ∧ Defined.info sem S cfg ms t := by rw [Defined.info]

end Thors
