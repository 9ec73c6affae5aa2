import Verif.Spec.EnumFlag
/-
Enums of flags.
-/
namespace Thors
open Spec

theorem and_flag (v i : Nat) : (v &&& (1 <<< i) ≠ 0) ↔ v.testBit i = true := by
  rw [Nat.shiftLeft_eq, Nat.one_mul]
  constructor
  · intro h
    obtain ⟨j, hj⟩ := Nat.exists_testBit_of_ne_zero h
    rw [Nat.testBit_and, Nat.testBit_two_pow] at hj
    simp only [Bool.and_eq_true, decide_eq_true_eq] at hj
    rw [hj.2]; exact hj.1
  · intro h e
    have := congrArg (Nat.testBit · i) e
    simp [Nat.testBit_and, Nat.testBit_two_pow_self, h] at this

theorem two_pow_inj {i j : Nat} (h : 2 ^ i = 2 ^ j) : i = j := (Nat.pow_right_inj (by decide)).1 h

theorem ok_eq {α : Type} {a b : α} (h : Res.ok a = Res.ok b) : a = b := by cases h; rfl

theorem FlagEnum.name_eq {E : FlagEnum} (hE : FlagEnum.Proper E) {i : Nat} {n : Bytes} (h : Flag E i n) : E.name (1 <<< i) = .ok n := by
  unfold FlagEnum.name
  cases hf : E.values.find? (fun e => e.1 == 1 <<< i) with
  | none => exact absurd (List.find?_eq_none.1 hf _ h) (by simp [Nat.shiftLeft_eq])
  | some e =>
    have h1 := List.mem_of_find?_eq_some hf
    have h2 := List.find?_some hf
    simp only [beq_iff_eq, Nat.shiftLeft_eq, Nat.one_mul] at h2
    have := (hE.values e h1 _ h).1 h2
    simp [this]

theorem flag_bit {v : Nat} (hv : v < 2 ^ 32) {j : Nat} (hj : 32 ≤ j) : v.testBit j = false :=
  Nat.testBit_lt_two_pow (Nat.lt_of_lt_of_le hv (Nat.pow_le_pow_right (by decide) hj))

theorem FlagEnum.loop_eq {E : FlagEnum} (hE : FlagEnum.Proper E) {v : Nat} (hv : v < 2 ^ 32) (hn : FlagEnum.Named E v) : ∀ (k i : Nat), i + k = 32 → ∃ ns, FlagNames E v i ns ∧
    E.loop v (List.range' i k) true = .ok (barred ns) ∧ E.loop v (List.range' i k) false = .ok (ns.map (b!" | " ++ ·)).flatten
  | 0, i, hi => ⟨[], .done (fun j hj => flag_bit hv (by omega)), rfl, rfl⟩
  | k + 1, i, hi => by
    obtain ⟨ns, h1, h2, h3⟩ := loop_eq hE hv hn k (i + 1) (by omega)
    rw [List.range'_succ]
    by_cases hb : v.testBit i = true
    · obtain ⟨n, hn⟩ := hn i hb
      have hc : FlagEnum.and v (1 <<< i) ≠ E.empty := by rw [hE.empty]; exact (and_flag v i).2 hb
      refine ⟨n :: ns, .set hb hn h1, ?_, ?_⟩
      · rw [FlagEnum.loop, if_pos hc, FlagEnum.name_eq hE hn, h3]
        simp only [Res.ok_bind, if_true, List.nil_append, Res.pure_eq]
        congr 1
        have : ∀ (n : Bytes) (ns : List Bytes), n ++ (ns.map (b!" | " ++ ·)).flatten = barred (n :: ns) := by
          intro n ns
          induction ns generalizing n with
          | nil => simp [barred]
          | cons m ns ih => rw [barred, ← ih]; simp
        exact this n ns
      · rw [FlagEnum.loop, if_pos hc, FlagEnum.name_eq hE hn, h3]
        simp [Res.pure_eq]
    · have hb : v.testBit i = false := by simpa using hb
      have hc : ¬ FlagEnum.and v (1 <<< i) ≠ E.empty := by rw [hE.empty]; intro h; rw [(and_flag v i).1 h] at hb; cases hb
      refine ⟨ns, .unset hb h1, ?_, ?_⟩
      · rw [FlagEnum.loop, if_neg hc, h2]
      · rw [FlagEnum.loop, if_neg hc, h3]

theorem FlagEnum.print_eq {E : FlagEnum} (hE : FlagEnum.Proper E) {v : Nat} (h0 : v ≠ 0) (hv : v < 2 ^ 32) (hn : FlagEnum.Named E v) :
    ∃ ns, FlagNames E v 0 ns ∧ E.print v = .ok (barred ns) := by
  obtain ⟨ns, h1, h2, -⟩ := loop_eq hE hv hn 32 0 rfl
  exact ⟨ns, h1, by rw [FlagEnum.print, if_neg (by rw [hE.empty]; exact h0), List.range_eq_range', h2]⟩

theorem flagNames_mem {E : FlagEnum} {v i : Nat} {ns : List Bytes} (h : FlagNames E v i ns) : ∀ n ∈ ns, ∃ j, i ≤ j ∧ Flag E j n := by
  induction h with
  | done _ => simp
  | unset _ _ ih => intro n hn; obtain ⟨j, hj, hf⟩ := ih n hn; exact ⟨j, by omega, hf⟩
  | set _ hf _ ih =>
    intro n hn
    rcases List.mem_cons.1 hn with rfl | hn
    · exact ⟨_, Nat.le_refl _, hf⟩
    · obtain ⟨j, hj, hf⟩ := ih n hn; exact ⟨j, by omega, hf⟩

/-- The bits are those of the names. -/
theorem flagNames_bit {E : FlagEnum} (hE : FlagEnum.Proper E) {v i : Nat} {ns : List Bytes} (h : FlagNames E v i ns) :
    ∀ j, i ≤ j → (v.testBit j = true ↔ ∃ n ∈ ns, Flag E j n) := by
  induction h with
  | done h => intro j hj; simp [h j hj]
  | @unset i ns hu h ih =>
    intro j hj
    by_cases e : j = i
    · subst e
      rw [hu]
      constructor
      · intro h; cases h
      · rintro ⟨n, hn, hf⟩
        obtain ⟨k, hk, hf'⟩ := flagNames_mem h n hn
        have := (hE.values _ hf _ hf').2 rfl
        have := two_pow_inj this
        omega
    · exact ih j (by omega)
  | @set i n ns hs hf h ih =>
    intro j hj
    by_cases e : j = i
    · subst e
      simp [hs]
      exact .inl hf
    · rw [ih j (by omega)]
      constructor
      · rintro ⟨m, hm, h⟩; exact ⟨m, by simp [hm], h⟩
      · rintro ⟨m, hm, h'⟩
        rcases List.mem_cons.1 hm with rfl | hm
        · have := (hE.values _ hf _ h').2 rfl
          have := two_pow_inj this
          omega
        · exact ⟨m, hm, h'⟩

theorem take_no {a b a' b' : Bytes} {c : Byte} (ha : c ∉ a) (ha' : c ∉ a') (h : a ++ c :: b = a' ++ c :: b') : a = a' ∧ b = b' := by
  induction a generalizing a' with
  | nil =>
    cases a' with
    | nil => simpa using h
    | cons x a' => simp only [List.nil_append, List.cons_append, List.cons.injEq] at h; exact absurd (by simp [h.1]) ha'
  | cons x a ih =>
    cases a' with
    | nil => simp only [List.nil_append, List.cons_append, List.cons.injEq] at h; exact absurd (by simp [h.1]) ha
    | cons y a' =>
      simp only [List.cons_append, List.cons.injEq] at h
      obtain ⟨rfl, h⟩ := h
      obtain ⟨rfl, rfl⟩ := ih (fun h => ha (by simp [h])) (fun h => ha' (by simp [h])) h
      exact ⟨rfl, rfl⟩

/-- Names can be told apart again. -/
theorem barred_inj : ∀ {ns ms : List Bytes}, (∀ n ∈ ns, n ≠ [] ∧ (0x20 : Byte) ∉ n) → (∀ n ∈ ms, n ≠ [] ∧ (0x20 : Byte) ∉ n) → barred ns = barred ms → ns = ms
  | [], [], _, _, _ => rfl
  | [], m :: ms, _, h, e => by
    exfalso
    cases ms with
    | nil => exact (h m (by simp)).1 e.symm
    | cons _ _ => simp [barred] at e
  | n :: ns, [], h, _, e => by
    exfalso
    cases ns with
    | nil => exact (h n (by simp)).1 e
    | cons _ _ => simp [barred] at e
  | [n], [m], _, _, e => by rw [show n = m from e]
  | [n], m :: m' :: ms, h, _, e => by
    exfalso
    exact (h n (by simp)).2 (by rw [show n = _ from e]; exact List.mem_append.2 (.inl (List.mem_append.2 (.inr (by decide)))))
  | n :: n' :: ns, [m], _, h, e => by
    exfalso
    exact (h m (by simp)).2 (by rw [show m = _ from e.symm]; exact List.mem_append.2 (.inl (List.mem_append.2 (.inr (by decide)))))
  | n :: n' :: ns, m :: m' :: ms, h, h', e => by
    simp only [barred, List.append_assoc] at e
    obtain ⟨rfl, e⟩ := take_no (c := 0x20) (b := [0x7C, 0x20] ++ barred (n' :: ns)) (b' := [0x7C, 0x20] ++ barred (m' :: ms)) (h n (by simp)).2 (h' m (by simp)).2 (by simpa using e)
    have e := List.append_cancel_left (List.append_cancel_left (by assumption : n ++ _ = n ++ _))
    rw [barred_inj (ns := n' :: ns) (ms := m' :: ms) (fun n hn => h n (by simp [hn])) (fun n hn => h' n (by simp [hn])) e]

/-- Different values look different. -/
theorem FlagEnum.print_inj {E : FlagEnum} (hE : FlagEnum.Proper E) {v w : Nat} (hv : v < 2 ^ 32) (hw : w < 2 ^ 32) (hn : FlagEnum.Named E v) (hm : FlagEnum.Named E w)
    (h : E.print v = E.print w) : v = w := by
  have ok : ∀ {v ns}, FlagNames E v 0 ns → ∀ n ∈ ns, n ≠ [] ∧ (0x20 : Byte) ∉ n := fun h n hn => by
    obtain ⟨j, -, hf⟩ := flagNames_mem h n hn
    exact ⟨(hE.names _ hf).1, (hE.names _ hf).2.1⟩
  have zero : ∀ {v}, v ≠ 0 → v < 2 ^ 32 → FlagEnum.Named E v → E.print v ≠ .ok b!"empty" := by
    intro v h0 hv hn e
    obtain ⟨ns, h1, h2⟩ := print_eq hE h0 hv hn
    rw [h2] at e
    have e : barred ns = barred [b!"empty"] := ok_eq e
    obtain rfl := barred_inj (ok h1) (by simp) e
    obtain ⟨j, -, hf⟩ := flagNames_mem h1 _ (List.mem_singleton.2 rfl)
    exact absurd ((hE.names _ hf).2.2 rfl) (Nat.pos_iff_ne_zero.1 (Nat.two_pow_pos j))
  have hz : E.print 0 = .ok b!"empty" := by rw [FlagEnum.print, if_pos hE.empty.symm]
  by_cases h0 : v = 0
  · subst h0
    by_cases h1 : w = 0
    · exact h1.symm
    · exact absurd (h.symm.trans hz) (zero h1 hw hm)
  by_cases h1 : w = 0
  · subst h1
    exact absurd (h.trans hz) (zero h0 hv hn)
  obtain ⟨ns, a1, a2⟩ := print_eq hE h0 hv hn
  obtain ⟨ms, b1, b2⟩ := print_eq hE h1 hw hm
  rw [a2, b2] at h
  obtain rfl := barred_inj (ok a1) (ok b1) (ok_eq h)
  refine Nat.eq_of_testBit_eq fun j => ?_
  have x := flagNames_bit hE a1 j (Nat.zero_le _)
  have y := flagNames_bit hE b1 j (Nat.zero_le _)
  have := x.trans y.symm
  cases hx : v.testBit j <;> cases hy : w.testBit j <;> simp_all

end Thors
