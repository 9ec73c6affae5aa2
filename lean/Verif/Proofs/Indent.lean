import Verif.Proofs.JsonPrint
import Verif.Proofs.JsonExport
/-
Exactly when the JSON printer leaves its indentation buffer.
-/
namespace Thors
open Spec
namespace JPrint

/-- Small enough not to wrap around. -/
def Tame (cfg : PrintCfg) (n : Nat) : Prop := cfg.layout ≠ .Stream ∧ 0 ≤ cfg.tabSize ∧ 0 ≤ cfg.blockSize ∧ indentation cfg n < 2 ^ 64

theorem tame_width {cfg : PrintCfg} {n k : Nat} (h : Tame cfg n) (hk : k ≤ n) : (width cfg k : Int) = indentation cfg k := by
  obtain ⟨-, h1, h2, h3⟩ := h
  have hle : indentation cfg k ≤ indentation cfg n := by
    simp only [indentation]
    have ht : 0 ≤ (if cfg.tabSize = 0 then 4 else cfg.tabSize) := by split <;> omega
    have := Int.mul_le_mul_of_nonneg_right (Int.ofNat_le.2 hk) ht
    omega
  have hnn : 0 ≤ indentation cfg k := by
    simp only [indentation]
    have ht : 0 ≤ (if cfg.tabSize = 0 then 4 else cfg.tabSize) := by split <;> omega
    have := Int.mul_nonneg (Int.natCast_nonneg k) ht
    omega
  have : width cfg k = (indentation cfg k % (2 ^ 64 : Nat)).toNat := rfl
  rw [this, Int.emod_eq_of_lt hnn (by have : ((2 ^ 64 : Nat) : Int) = 2 ^ 64 := rfl; omega)]
  omega

theorem tame_mono {cfg : PrintCfg} {n k : Nat} (h : Tame cfg n) (hk : k ≤ n) : Tame cfg k := by
  obtain ⟨h0, h1, h2, h3⟩ := h
  refine ⟨h0, h1, h2, ?_⟩
  simp only [indentation] at h3 ⊢
  have ht : 0 ≤ (if cfg.tabSize = 0 then 4 else cfg.tabSize) := by split <;> omega
  have := Int.mul_le_mul_of_nonneg_right (Int.ofNat_le.2 hk) ht
  omega

/-- The result of printing something that counts as `m` values in its container. -/
def Exactly (r : Res (List Write × List PState)) (P : Prop) (st : PState) (ss : List PState) (m : Nat) : Prop :=
  (P → ∃ w b, r = .ok (w, ⟨st.f0 + m, st.f1, b⟩ :: ss)) ∧ (¬ P → r = .ub)

section
variable (cfg : PrintCfg)

theorem suffix_ok {k : Nat} {c : Byte} (b : Bool) (h : width cfg k ≤ 4003) : ∃ w, indentSuffix cfg k b c = .ok w := by
  unfold indentSuffix
  cases b with
  | false => exact ⟨_, rfl⟩
  | true => rw [if_neg (by decide)]; dsimp only; rw [if_pos h]; exact ⟨_, rfl⟩
theorem suffix_ub {k : Nat} {c : Byte} (h : ¬ width cfg k ≤ 4003) : indentSuffix cfg k true c = .ub := by
  unfold indentSuffix
  rw [if_neg (by decide)]; dsimp only; rw [if_neg h]

mutual
theorem indent_exact : ∀ (d : Doc) (st : PState) (ss : List PState), Tame cfg (ss.length + nesting d) →
    Exactly (run cfg (cmdsOf d) (st :: ss)) (IndentsInside cfg ss.length d) st ss 1
  | .scalar a, st, ss, ht => by
    refine ⟨fun _ => ?_, fun h => absurd trivial h⟩
    cases a <;> simp [cmdsOf, atomCmd, run, step, value]
  | .arr ts, st, ss, ht => by
    simp only [nesting] at ht
    have hw := tame_width ht (k := ss.length) (by omega)
    obtain ⟨i1, i2⟩ := indent_elems ts ⟨0, .Array, false⟩ (st :: ss) (by simpa [Nat.add_assoc, Nat.add_comm 1] using ht)
    have hl : decide (cfg.layout ≠ .Stream) = true := by simpa using ht.1
    simp only [cmdsOf, List.cons_append, run, step, hl]
    constructor
    · intro h
      simp only [IndentsInside] at h
      obtain ⟨w, e⟩ := suffix_ok cfg (c := 0x5B) true (k := ss.length) (by omega)
      obtain ⟨w2, b, e2⟩ := i1 h.2
      simp only [e, e2, Res.ok_bind, Res.pure_eq, prun_append, run, step, ne_eq, not_true_eq_false, if_false]
      obtain ⟨w3, e3⟩ := suffix_ok cfg (c := 0x5D) (decide (¬ cfg.layout = .Stream ∧ b = false)) (k := ss.length) (by omega)
      rw [e3]
      exact ⟨_, _, rfl⟩
    · intro h
      by_cases h1 : width cfg ss.length ≤ 4003
      · obtain ⟨w, e⟩ := suffix_ok cfg (c := 0x5B) true h1
        simp only [e, Res.ok_bind, Res.pure_eq, prun_append]
        rw [i2 (fun h2 => h ⟨by omega, h2⟩)]; rfl
      · rw [suffix_ub cfg h1]; rfl
  | .obj ms, st, ss, ht => by
    simp only [nesting] at ht
    have hw := tame_width ht (k := ss.length) (by omega)
    obtain ⟨i1, i2⟩ := indent_members ms ⟨0, .Map, false⟩ rfl (st :: ss) (by simpa [Nat.add_assoc, Nat.add_comm 1] using ht)
    have hl : decide (cfg.layout ≠ .Stream) = true := by simpa using ht.1
    simp only [cmdsOf, List.cons_append, run, step, hl]
    constructor
    · intro h
      simp only [IndentsInside] at h
      obtain ⟨w, e⟩ := suffix_ok cfg (c := 0x7B) true (k := ss.length) (by omega)
      obtain ⟨w2, b, e2⟩ := i1 h.2
      obtain ⟨w3, e3⟩ := suffix_ok cfg (c := 0x7D) true (k := ss.length) (by omega)
      simp only [e, e2, e3, Res.ok_bind, Res.pure_eq, prun_append, run, step, hl, ne_eq, not_true_eq_false, if_false]
      exact ⟨_, _, rfl⟩
    · intro h
      by_cases h1 : width cfg ss.length ≤ 4003
      · obtain ⟨w, e⟩ := suffix_ok cfg (c := 0x7B) true h1
        simp only [e, Res.ok_bind, Res.pure_eq, prun_append]
        rw [i2 (fun h2 => h ⟨by omega, h2⟩)]; rfl
      · rw [suffix_ub cfg h1]; rfl
theorem indent_elems : ∀ (ts : List Doc) (st : PState) (ss : List PState), Tame cfg (ss.length + nesting.elems ts) →
    Exactly (run cfg (cmdsOf.elems ts) (st :: ss)) (IndentsInside.elems cfg ss.length ts) st ss ts.length
  | [], st, ss, ht => ⟨fun _ => ⟨[], st.f2, rfl⟩, fun h => absurd trivial h⟩
  | t :: ts, st, ss, ht => by
    simp only [nesting.elems] at ht
    obtain ⟨i1, i2⟩ := indent_exact t st ss (tame_mono ht (by omega))
    simp only [cmdsOf.elems, prun_append, IndentsInside.elems]
    refine ⟨fun h => ?_, fun h => ?_⟩
    · obtain ⟨w, b, e⟩ := i1 h.1
      obtain ⟨w2, b2, e2⟩ := (indent_elems ts ⟨st.f0 + 1, st.f1, b⟩ ss (tame_mono ht (by omega))).1 h.2
      rw [e]
      simp only [Res.ok_bind, e2]
      rw [show st.f0 + 1 + ts.length = st.f0 + (t :: ts).length by simp; omega]
      exact ⟨_, b2, rfl⟩
    · by_cases h1 : IndentsInside cfg ss.length t
      · obtain ⟨w, b, e⟩ := i1 h1
        rw [e]
        simp only [Res.ok_bind]
        rw [(indent_elems ts ⟨st.f0 + 1, st.f1, b⟩ ss (tame_mono ht (by omega))).2 fun h2 => h ⟨h1, h2⟩]; rfl
      · rw [i2 h1]; rfl
theorem indent_members : ∀ (ms : List (Bytes × Doc)) (st : PState) (_ : st.f1 = .Map) (ss : List PState), Tame cfg (ss.length + nesting.members ms) →
    Exactly (run cfg (cmdsOf.members ms) (st :: ss)) (IndentsInside.members cfg ss.length ms) st ss ms.length
  | [], st, _, ss, ht => ⟨fun _ => ⟨[], st.f2, rfl⟩, fun h => absurd trivial h⟩
  | (k, t) :: ms, st, hm, ss, ht => by
    simp only [nesting.members] at ht
    have hw := tame_width ht (k := ss.length) (by omega)
    obtain ⟨i1, i2⟩ := indent_exact t st ss (tame_mono ht (by omega))
    have hl : decide (cfg.layout ≠ .Stream) = true := by simpa using ht.1
    simp only [cmdsOf.members, List.cons_append, run, step, hm, ne_eq, not_true_eq_false, if_false, prun_append, IndentsInside.members, indentPlain]
    rw [if_neg (by simpa using ht.1)]
    refine ⟨fun h => ?_, fun h => ?_⟩
    · rw [if_pos (by omega)]
      obtain ⟨w, b, e⟩ := i1 h.2.1
      obtain ⟨w2, b2, e2⟩ := (indent_members ms ⟨st.f0 + 1, st.f1, b⟩ hm ss (tame_mono ht (by omega))).1 h.2.2
      simp only [Res.ok_bind, Res.pure_eq, e, e2]
      rw [show st.f0 + 1 + ms.length = st.f0 + ((k, t) :: ms).length by simp; omega]
      exact ⟨_, b2, rfl⟩
    · by_cases h0 : width cfg ss.length ≤ 4005
      · rw [if_pos h0]
        simp only [Res.ok_bind, Res.pure_eq]
        by_cases h1 : IndentsInside cfg ss.length t
        · obtain ⟨w, b, e⟩ := i1 h1
          rw [e]
          simp only [Res.ok_bind]
          rw [(indent_members ms ⟨st.f0 + 1, st.f1, b⟩ hm ss (tame_mono ht (by omega))).2 fun h2 => h ⟨by omega, h1, h2⟩]; rfl
        · rw [i2 h1]; rfl
      · rw [if_neg h0]; rfl
end
end

end JPrint
end Thors
