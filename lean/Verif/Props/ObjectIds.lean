import Verif.Model.ObjectIds
/-
C78: the ObjectIDs one program makes.
-/
namespace Thors.Props
open Thors

theorem makeAll_counter : ∀ {env : List (Int × Int)} {n n' : Int} {os : List ObjectID}, ObjectID.makeAll n env = .ok (os, n') → 0 ≤ n →
    os.length = env.length ∧ n' = n + env.length ∧ ∀ (i : Nat) (o : ObjectID), os[i]? = some o → o.counter = (n + i) % 4095
  | [], n, n', os, h, _ => by
    simp only [ObjectID.makeAll, Res.ok.injEq, Prod.mk.injEq] at h
    obtain ⟨rfl, rfl⟩ := h
    exact ⟨rfl, by simp, by simp⟩
  | (t, r) :: env, n, n', os, h, hn => by
    simp only [ObjectID.makeAll, ObjectID.make, ObjectID.nextCounter] at h
    split at h
    · simp only [Res.ok_bind, Res.pure_eq] at h
      obtain ⟨⟨os', n2⟩, h1, h2⟩ := Res.bind_eq_ok.1 h
      simp only [Res.ok.injEq, Prod.mk.injEq] at h2
      obtain ⟨rfl, rfl⟩ := h2
      obtain ⟨e1, e2, e3⟩ := makeAll_counter h1 (by omega)
      refine ⟨by simp [e1], by simp only [e2, List.length_cons]; omega, ?_⟩
      intro i o ho
      cases i with
      | zero =>
        simp only [List.getElem?_cons_zero, Option.some.injEq] at ho
        subst ho
        simp only [Int.tmod_eq_emod_of_nonneg hn]
        simp
      | succ i =>
        rw [List.getElem?_cons_succ] at ho
        rw [e3 i o ho]
        congr 1
        omega
    · cases h

/-- C78 in part: whatever the clock and `std::rand()` give, two default constructed ObjectIDs with fewer than 4094 others made in
between are different. -/
theorem C78_distinct_partial (env : List (Int × Int)) (rand n n' : Int) (os : List ObjectID) (hr : 0 ≤ rand) (hs : ObjectID.startCounter rand = .ok n)
    (h : ObjectID.makeAll n env = .ok (os, n')) (i j : Nat) (a b : ObjectID) (ha : os[i]? = some a) (hb : os[j]? = some b) (hij : i < j)
    (hd : j < i + 4095) : a.eq b = false := by
  unfold ObjectID.startCounter at hs
  split at hs
  · cases hs
    obtain ⟨-, -, hc⟩ := makeAll_counter h (by omega)
    have h1 := hc i a ha
    have h2 := hc j b hb
    have : a.counter ≠ b.counter := by rw [h1, h2]; omega
    simp [ObjectID.eq, this]
  · cases hs

/-- Making ObjectIDs works as long as the counter does not overflow. -/
theorem C78_made (env : List (Int × Int)) (rand n : Int) (hr : 0 ≤ rand) (hs : ObjectID.startCounter rand = .ok n) (hf : n + env.length < 2 ^ 31) :
    ∃ os, ObjectID.makeAll n env = .ok (os, n + env.length) := by
  clear hs hr
  induction env generalizing n with
  | nil => exact ⟨[], by simp [ObjectID.makeAll]⟩
  | cons tr env ih =>
    obtain ⟨t, r⟩ := tr
    simp only [List.length_cons] at hf
    obtain ⟨os, e⟩ := ih (n + 1) (by omega)
    refine ⟨⟨t, r, n.tmod 0xFFF, []⟩ :: os, ?_⟩
    rw [ObjectID.makeAll, ObjectID.make, ObjectID.nextCounter, if_pos (by omega)]
    simp only [Res.ok_bind, Res.pure_eq, e, List.length_cons]
    congr 2
    omega

example : ∃ n os, ObjectID.startCounter 7 = .ok n ∧ ObjectID.makeAll n (List.replicate 4095 (1, 2)) = .ok (os, n + 4095) := by
  refine ⟨32776, ?_⟩
  obtain ⟨os, h⟩ := C78_made (List.replicate 4095 (1, 2)) 7 32776 (by decide) rfl (by rw [List.length_replicate]; decide)
  exact ⟨os, rfl, by rw [h, List.length_replicate]; rfl⟩

/-- C78 does not hold: with the same time and random number, the 4096th ObjectID is the first one again (the remainder is taken by
0xFFF, not by 0x1000000). -/
theorem C78_false : ∃ (n : Int) (os : List ObjectID) (a b : ObjectID), ObjectID.startCounter 7 = .ok n ∧
    ObjectID.makeAll n (List.replicate 4096 (1, 2)) = .ok (os, n + 4096) ∧ os[0]? = some a ∧ os[4095]? = some b ∧ a.eq b = true := by
  obtain ⟨os, h⟩ := C78_made (List.replicate 4096 (1, 2)) 7 32776 (by decide) rfl (by rw [List.length_replicate]; decide)
  rw [List.length_replicate] at h
  obtain ⟨e1, -, e3⟩ := makeAll_counter h (by decide)
  rw [List.length_replicate] at e1
  have h0 : os[0]? = some os[0] := List.getElem?_eq_getElem (by omega)
  have h1 : os[4095]? = some os[4095] := List.getElem?_eq_getElem (by omega)
  refine ⟨32776, os, os[0], os[4095], rfl, h, h0, h1, ?_⟩
  have c0 := e3 0 _ h0
  have c1 := e3 4095 _ h1
  have hf : ∀ (k : Nat) (n n' : Int) (os : List ObjectID), ObjectID.makeAll n (List.replicate k (1, 2)) = .ok (os, n') →
      ∀ o ∈ os, o.timestamp = 1 ∧ o.random = 2 := by
    intro k
    induction k with
    | zero =>
      intro n n' os h o ho
      simp only [List.replicate_zero, ObjectID.makeAll, Res.ok.injEq, Prod.mk.injEq] at h
      rw [← h.1] at ho
      cases ho
    | succ k ih =>
      intro n n' os h o ho
      simp only [List.replicate_succ, ObjectID.makeAll, ObjectID.make, ObjectID.nextCounter] at h
      split at h
      · simp only [Res.ok_bind, Res.pure_eq] at h
        obtain ⟨⟨os', n2⟩, h1, h2⟩ := Res.bind_eq_ok.1 h
        simp only [Res.ok.injEq, Prod.mk.injEq] at h2
        rw [← h2.1] at ho
        rcases List.mem_cons.1 ho with rfl | ho
        · exact ⟨rfl, rfl⟩
        · exact ih _ _ _ h1 o ho
      · cases h
  have f0 := hf _ _ _ _ h os[0] (List.getElem_mem _)
  have f1 := hf _ _ _ _ h os[4095] (List.getElem_mem _)
  simp [ObjectID.eq, f0, f1, c0, c1]

/-- Nor with threads: two threads get the same counter. -/
theorem C78_false_threads : ∃ schedule : List Nat, ((⟨40000, [(none, []), (none, [])]⟩ : ObjectID.Taking).run schedule).threads = [(none, [3145]), (none, [3145])] :=
  ⟨[0, 1, 0, 1], by decide⟩

/-- And the counter's start value can overflow: `std::rand()` gives numbers up to 2147483647. -/
theorem C78_start_undefined : ObjectID.startCounter 2147483647 = .ub ∧ ∀ rand : Int, ObjectID.startCounter rand = .ub ↔ 2147450879 ≤ rand := by
  refine ⟨by decide, fun rand => ?_⟩
  unfold ObjectID.startCounter
  split <;> simp <;> omega

end Thors.Props
