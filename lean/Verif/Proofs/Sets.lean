import Verif.Spec.Sets
import Verif.Spec.Tree
import Verif.Proofs.ImpMembers
/-
Inserting elements one by one into sorted and hashed containers.
-/
namespace Thors
open Spec

theorem equivalent_equality {lt : Val → Val → Bool} (h : StrictWeak lt) : Equality (equivalent lt) where
  refl a := by simp [equivalent, h.irrefl]
  symm a b hab := by simp only [equivalent, Bool.and_eq_true, Bool.not_eq_true'] at hab ⊢; exact ⟨hab.2, hab.1⟩
  trans a b c hab hbc := by
    simp only [equivalent, Bool.and_eq_true, Bool.not_eq_true'] at hab hbc ⊢
    exact ⟨h.incomparable _ _ _ hab.1 hbc.1, h.incomparable _ _ _ hbc.2 hab.2⟩

theorem strictWeak_asymm {lt : Val → Val → Bool} (h : StrictWeak lt) {a b : Val} (hab : lt a b = true) : lt b a = false := by
  cases hba : lt b a with
  | false => rfl
  | true => have := h.trans _ _ _ hab hba; rw [h.irrefl] at this; cases this

theorem firstOf_snoc {like : Val → Val → Bool} {x v : Val} {l : List Val} :
    FirstOf like x (l ++ [v]) ↔ FirstOf like x l ∨ (x = v ∧ ∀ y ∈ l, like y v = false) := by
  constructor
  · rintro ⟨pre, post, e, h⟩
    rcases List.eq_nil_or_concat post with rfl | ⟨post, w, rfl⟩
    · obtain ⟨e1, e2⟩ := List.append_inj' e rfl
      simp only [List.cons.injEq, and_true] at e2
      subst e1 e2
      exact .inr ⟨rfl, h⟩
    · have : l ++ [v] = (pre ++ x :: post) ++ [w] := by simpa using e
      obtain ⟨rfl, -⟩ := List.append_inj' this rfl
      exact .inl ⟨pre, post, rfl, h⟩
  · rintro (⟨pre, post, rfl, h⟩ | ⟨rfl, h⟩)
    · exact ⟨pre, post ++ [v], by simp, h⟩
    · exact ⟨l, [], rfl, h⟩

theorem firstOf_mem {like : Val → Val → Bool} {x : Val} {l : List Val} (h : FirstOf like x l) : x ∈ l := by
  obtain ⟨pre, post, rfl, -⟩ := h; simp

/-- Everything in a list is like some element that has nothing like it before. -/
theorem firstOf_exists {like : Val → Val → Bool} (hl : Equality like) : ∀ (n : Nat) (l : List Val), l.length = n → ∀ y ∈ l, ∃ z, FirstOf like z l ∧ like z y = true := by
  intro n
  induction n with
  | zero => intro l hn y hy; cases l with
    | nil => cases hy
    | cons _ _ => cases hn
  | succ n ih =>
    intro l hn y hy
    rcases List.eq_nil_or_concat l with rfl | ⟨l, w, rfl⟩
    · cases hy
    have hlen : l.length = n := by simpa using hn
    simp only [List.concat_eq_append] at hy ⊢
    have old : ∀ y ∈ l, ∃ z, FirstOf like z (l ++ [w]) ∧ like z y = true := fun y hy => by
      obtain ⟨z, h1, h2⟩ := ih l hlen y hy
      exact ⟨z, firstOf_snoc.2 (.inl h1), h2⟩
    rcases List.mem_append.1 hy with hy | hy
    · exact old y hy
    · simp only [List.mem_singleton] at hy
      subst hy
      by_cases hex : ∃ y' ∈ l, like y' y = true
      · obtain ⟨y', hy', hl'⟩ := hex
        obtain ⟨z, h1, h2⟩ := old y' hy'
        exact ⟨z, h1, hl.trans _ _ _ h2 hl'⟩
      · refine ⟨y, firstOf_snoc.2 (.inr ⟨rfl, fun y' hy' => ?_⟩), hl.refl y⟩
        cases hc : like y' y with
        | false => rfl
        | true => exact absurd ⟨y', hy', hc⟩ hex

theorem firstOf_distinct {like : Val → Val → Bool} {l : List Val} (h : l.Pairwise (fun a b => like a b = false)) (x : Val) : FirstOf like x l ↔ x ∈ l := by
  constructor
  · exact firstOf_mem
  · intro hx
    obtain ⟨pre, post, rfl⟩ := List.append_of_mem hx
    exact ⟨pre, post, rfl, fun y hy => (List.pairwise_append.1 h).2.2 y hy x (by simp)⟩

/-- Containers that refuse an element when they have one like it. -/
theorem insertAll_firstOf {like : Val → Val → Bool} (hl : Equality like) (ins : List Val → Val → List Val) (Inv : List Val → Prop)
    (hinv : ∀ acc v, Inv acc → Inv (ins acc v))
    (hins : ∀ acc v, Inv acc → ∀ x, x ∈ ins acc v ↔ x ∈ acc ∨ (x = v ∧ ∀ y ∈ acc, like y v = false)) :
    ∀ (vs acc l : List Val), Inv acc → (∀ x, x ∈ acc ↔ FirstOf like x l) →
      Inv (vs.foldl ins acc) ∧ ∀ x, x ∈ vs.foldl ins acc ↔ FirstOf like x (l ++ vs) := by
  intro vs
  induction vs with
  | nil => intro acc l hi h; simpa using ⟨hi, h⟩
  | cons v vs ih =>
    intro acc l hi h
    have := ih (ins acc v) (l ++ [v]) (hinv acc v hi) (fun x => by
      rw [hins acc v hi, firstOf_snoc, h]
      refine or_congr Iff.rfl (and_congr Iff.rfl ⟨fun hn y hy => ?_, fun hn y hy => hn y (firstOf_mem ((h y).1 hy))⟩)
      obtain ⟨z, hz, hzy⟩ := firstOf_exists hl _ l rfl y hy
      cases hc : like y v with
      | false => rfl
      | true => have := hn z ((h z).2 hz); rw [hl.trans _ _ _ hzy hc] at this; cases this)
    simpa using this

theorem setInsert_spec {lt : Val → Val → Bool} (h : StrictWeak lt) (v : Val) : ∀ xs : List Val, xs.Pairwise (fun a b => lt a b = true) →
    (setInsert lt v xs).Pairwise (fun a b => lt a b = true) ∧
    ∀ x, x ∈ setInsert lt v xs ↔ x ∈ xs ∨ (x = v ∧ ∀ y ∈ xs, equivalent lt y v = false)
  | [], _ => by simp [setInsert]
  | a :: xs, hp => by
    obtain ⟨ha, hp⟩ := List.pairwise_cons.1 hp
    obtain ⟨i1, i2⟩ := setInsert_spec h v xs hp
    rw [setInsert]
    by_cases h1 : lt a v = true
    · rw [if_pos h1]
      refine ⟨List.pairwise_cons.2 ⟨fun y hy => ?_, i1⟩, fun x => ?_⟩
      · rcases (i2 y).1 hy with hy | ⟨rfl, -⟩
        · exact ha y hy
        · exact h1
      · have : equivalent lt a v = false := by simp [equivalent, h1]
        simp [i2, this, or_assoc]
    · rw [if_neg h1]
      by_cases h2 : lt v a = true
      · rw [if_pos h2]
        have hv : ∀ y ∈ a :: xs, lt v y = true := fun y hy => by
          rcases List.mem_cons.1 hy with rfl | hy
          · exact h2
          · exact h.trans _ _ _ h2 (ha y hy)
        refine ⟨List.pairwise_cons.2 ⟨hv, List.pairwise_cons.2 ⟨ha, hp⟩⟩, fun x => ?_⟩
        have : ∀ y ∈ a :: xs, equivalent lt y v = false := fun y hy => by simp [equivalent, hv y hy]
        rw [List.mem_cons]
        constructor
        · rintro (rfl | hx)
          · exact .inr ⟨rfl, this⟩
          · exact .inl hx
        · rintro (hx | ⟨rfl, -⟩)
          · exact .inr hx
          · exact .inl rfl
      · rw [if_neg h2]
        refine ⟨List.pairwise_cons.2 ⟨ha, hp⟩, fun x => ⟨.inl, ?_⟩⟩
        rintro (hx | ⟨rfl, hx⟩)
        · exact hx
        · have := hx a (by simp)
          simp only [Bool.not_eq_true] at h1 h2
          simp [equivalent, h1, h2] at this

theorem hashInsert_spec {eq : Val → Val → Bool} (xs : List Val) (v : Val) (hp : xs.Pairwise (fun a b => eq a b = false)) :
    (hashInsert eq v xs).Pairwise (fun a b => eq a b = false) ∧
    ∀ x, x ∈ hashInsert eq v xs ↔ x ∈ xs ∨ (x = v ∧ ∀ y ∈ xs, eq y v = false) := by
  rw [hashInsert]
  by_cases h : xs.any (fun x => eq x v) = true
  · rw [if_pos h]
    refine ⟨hp, fun x => ⟨.inl, ?_⟩⟩
    rintro (hx | ⟨rfl, hx⟩)
    · exact hx
    · obtain ⟨y, hy, e⟩ := List.any_eq_true.1 h
      rw [hx y hy] at e; cases e
  · rw [if_neg h]
    have hn : ∀ y ∈ xs, eq y v = false := fun y hy => by
      cases e : eq y v with
      | false => rfl
      | true => exact absurd (List.any_eq_true.2 ⟨y, hy, e⟩) h
    refine ⟨List.pairwise_append.2 ⟨hp, by simp, fun a ha b hb => ?_⟩, fun x => ?_⟩
    · simp only [List.mem_singleton] at hb; subst hb; exact hn a ha
    · rw [List.mem_append, List.mem_singleton]
      exact ⟨fun hx => hx.imp id fun hx => ⟨hx, hn⟩, fun hx => hx.imp id fun hx => hx.1⟩

theorem multisetInsert_spec {lt : Val → Val → Bool} (h : StrictWeak lt) (v : Val) : ∀ xs : List Val, xs.Pairwise (fun a b => lt b a = false) →
    (multisetInsert lt v xs).Pairwise (fun a b => lt b a = false) ∧ (multisetInsert lt v xs).Perm (xs ++ [v]) ∧
    ∀ x, (multisetInsert lt v xs).filter (equivalent lt x) = (xs ++ [v]).filter (equivalent lt x)
  | [], _ => by simp [multisetInsert]
  | a :: xs, hp => by
    obtain ⟨ha, hp⟩ := List.pairwise_cons.1 hp
    obtain ⟨i1, i2, i3⟩ := multisetInsert_spec h v xs hp
    rw [multisetInsert]
    by_cases h1 : lt v a = true
    · rw [if_pos h1]
      have hv : ∀ y ∈ a :: xs, lt v y = true := fun y hy => by
        rcases List.mem_cons.1 hy with rfl | hy
        · exact h1
        · cases hc : lt v y with
          | true => rfl
          | false => have := h.incomparable _ _ _ hc (ha y hy); rw [h1] at this; cases this
      refine ⟨List.pairwise_cons.2 ⟨fun y hy => strictWeak_asymm h (hv y hy), List.pairwise_cons.2 ⟨ha, hp⟩⟩, ?_, fun x => ?_⟩
      · exact (List.perm_append_singleton v (a :: xs)).symm
      · rw [List.filter_cons]
        by_cases hx : equivalent lt x v = true
        · rw [if_pos hx]
          have : (a :: xs).filter (equivalent lt x) = [] := by
            rw [List.filter_eq_nil_iff]
            intro y hy he
            have := (equivalent_equality h).trans _ _ _ ((equivalent_equality h).symm _ _ hx) he
            simp [equivalent, hv y hy] at this
          rw [List.filter_append, this]
          simp [hx]
        · rw [if_neg hx, List.filter_append]
          simp [List.filter_cons, hx]
    · rw [if_neg h1]
      simp only [Bool.not_eq_true] at h1
      refine ⟨List.pairwise_cons.2 ⟨fun y hy => ?_, i1⟩, i2.cons a, fun x => ?_⟩
      · rcases List.mem_append.1 (i2.mem_iff.1 hy) with hy | hy
        · exact ha y hy
        · simp only [List.mem_singleton] at hy; subst hy; exact h1
      · rw [List.cons_append, List.filter_cons, List.filter_cons, i3]

theorem multisetInsert_all {lt : Val → Val → Bool} (h : StrictWeak lt) : ∀ (vs acc : List Val), acc.Pairwise (fun a b => lt b a = false) →
    (vs.foldl (fun acc v => multisetInsert lt v acc) acc).Pairwise (fun a b => lt b a = false) ∧
    (vs.foldl (fun acc v => multisetInsert lt v acc) acc).Perm (acc ++ vs) ∧
    ∀ x, (vs.foldl (fun acc v => multisetInsert lt v acc) acc).filter (equivalent lt x) = (acc ++ vs).filter (equivalent lt x)
  | [], acc, hp => by simp [hp]
  | v :: vs, acc, hp => by
    obtain ⟨i1, i2, i3⟩ := multisetInsert_spec h v acc hp
    obtain ⟨j1, j2, j3⟩ := multisetInsert_all h vs _ i1
    refine ⟨j1, ?_, fun x => ?_⟩
    · have := j2.trans (i2.append_right vs)
      simpa using this
    · rw [List.foldl_cons, j3, List.filter_append, i3, ← List.filter_append]
      simp

/-- Reading an array into a container: its elements are inserted one by one. -/
theorem impVec_fold {K X : Type} (sem : ScalarSem K X) (env : Env) (cfg : Cfg) (k : SeqKind) (t : Ty) : ∀ (es : List (Tr K X × Val))
    (_ : ∀ e ∈ es, imp sem env cfg e.1 t (t.default env) = .ok e.2) (acc : List Val),
    impVec env k t (imp.elems sem env cfg (es.map Prod.fst)) acc = .ok (.list ((es.map Prod.snd).foldl (k.insert env) acc))
  | [], _, acc => by simp [imp.elems, impVec]
  | e :: es, h, acc => by
    simp only [List.map_cons, imp.elems, impVec, h e (by simp), Res.ok_bind, List.foldl_cons]
    exact impVec_fold sem env cfg k t es (fun e he => h e (by simp [he])) _

end Thors
