import Verif.Proofs.JsonRoundTrip
import Verif.Model.Yaml
/-
Floating point values as YAML scalars.
-/
namespace Thors
open Spec StrIn

theorem number_chars {t : Bytes} {y : Decimal} (h : JsonNumber t y) : ∀ c ∈ t, isDigit c = true ∨ c ∈ b!"-+.eE" := by
  obtain ⟨s, ip, fp, ep, i, len, fr, e, hs, hi, hz, hf, he, rfl, hn, hk⟩ := h
  intro c hc
  have h4 : c ∈ s ∨ c ∈ ip ∨ c ∈ fp ∨ c ∈ ep := by simpa [or_assoc] using hc
  clear hc
  have hdec : ∀ {ds : Bytes} {n : Nat}, Dec ds n → c ∈ ds → isDigit c = true ∨ c ∈ b!"-+.eE" := fun h hc => .inl ((dec_iff.1 h).2.1 c hc)
  rcases h4 with hc | hc | hc | hc
  · unfold SignText at hs
    rw [hs] at hc
    split at hc
    · simp at hc; rw [hc]; decide
    · simp at hc
  · exact hdec hi hc
  · rcases hf with ⟨rfl, -, -⟩ | ⟨ds, rfl, hd, -⟩
    · simp at hc
    · rcases List.mem_cons.1 hc with hc | hc
      · rw [hc]; decide
      · exact hdec hd hc
  · rcases he with ⟨rfl, -⟩ | ⟨b, s', ds, n, hb, hd, rfl, hs'⟩
    · simp at hc
    · have h3 : c = b ∨ c ∈ s' ∨ c ∈ ds := by simpa using hc
      rcases h3 with hc | hc | hc
      · rw [hc]; rcases hb with rfl | rfl <;> decide
      · rcases hs' with ⟨rfl, -⟩ | ⟨rfl, -⟩ | ⟨rfl, -⟩
        · simp at hc
        · simp at hc; rw [hc]; decide
        · simp at hc; rw [hc]; decide
      · exact hdec hd hc

theorem number_char_facts : ∀ c : Byte, (isDigit c = true ∨ c ∈ b!"-+.eE") → lower c ≠ 0x78 ∧ YamlP.isSpaceC c = false ∧ lower c ≠ 0x6E ∧ c ≠ 0x7E :=
  forall_byte (P := fun c => (isDigit c = true ∨ c ∈ b!"-+.eE") → lower c ≠ 0x78 ∧ YamlP.isSpaceC c = false ∧ lower c ≠ 0x6E ∧ c ≠ 0x7E) (by decide +kernel)

theorem not_hex {v : Bytes} (h : ∀ c ∈ v, isDigit c = true ∨ c ∈ b!"-+.eE") :
    ¬ (v.take 2).map lower = b!"0x" := by
  intro e
  have : (0x78 : Byte) ∈ (v.take 2).map lower := by rw [e]; decide
  obtain ⟨c, hc, e⟩ := List.mem_map.1 this
  exact (number_char_facts c (h c (List.mem_of_mem_take hc))).1 e

theorem scanTextFlt_number (f : FKind) {t : Bytes} {y : Decimal} (h : JsonNumber t y) : YamlP.scanTextFlt f t = .ok (y.toFltInf f) := by
  have hch := number_chars h
  have hns : t.dropWhile YamlP.isSpaceC = t := by
    cases t with
    | nil => rfl
    | cons c cs => rw [List.dropWhile_cons, if_neg (by rw [(number_char_facts c (hch c (by simp))).2.1]; simp)]
  have hhead := number_head h
  obtain ⟨s, ip, fp, ep, i, len, fr, e, hs, hi, hz, hf, he, ht, hn, hk⟩ := h
  have hy : y = ⟨y.neg, i * 10 ^ len + fr, e - len⟩ := by
    cases y; simp only at hn hk; simp [hn, hk]
  have hv : (if (decide (t.head? = some 0x2D) : Bool) = true ∨ t.head? = some 0x2B then t.drop 1 else t) = ip ++ (fp ++ ep) := by
    rw [hhead]
    unfold SignText at hs
    cases hneg : y.neg with
    | true => rw [if_pos (.inl rfl), ht, hs, hneg]; rfl
    | false =>
      rw [hneg] at hs
      simp only [Bool.false_eq_true, if_false] at hs
      subst hs
      rw [List.nil_append] at ht
      have hi' := dec_iff.1 hi
      rw [if_neg, ht]
      rintro (h | h)
      · exact absurd h (by simp)
      · cases ip with
        | nil => exact hi'.1 rfl
        | cons c cs =>
          rw [ht] at h
          simp only [List.cons_append, List.head?_cons, Option.some.injEq] at h
          exact (digit_noSign (hi'.2.1 c (by simp))).2 h
  have hsc := scanDecimal_spec (post := []) hi hf he (by simp [numberEnds])
  simp only [List.append_nil] at hsc
  unfold YamlP.scanTextFlt YamlP.scanUnsigned
  simp only [hns, hv]
  rw [if_neg (not_hex fun c hc => hch c (by rw [ht]; exact List.mem_append_right _ hc)), hsc]
  simp only
  rw [if_neg (by simp; omega), hhead, ← hy]

theorem toFltInf_of {f : FKind} {y : Decimal} {v : Flt} (h : y.toFlt f = some v) : y.toFltInf f = v := by
  obtain ⟨rfl, h2, -⟩ := toFlt_some h
  unfold Decimal.toFltInf
  simp only
  rw [if_neg (by omega)]

theorem general6_zero (f : FKind) (neg : Bool) (E : Nat) : JsonNumber (general6 f (.fin neg 0 E)) ⟨neg, 0, 0⟩ := by
  refine ⟨signText neg, b!"0", [], [], 0, 0, 0, 0, rfl, .one (.mk 0 (by omega)), by simp [leadingZero], .inl ⟨rfl, rfl, rfl⟩, .inl ⟨rfl, rfl⟩, ?_, rfl, rfl⟩
  simp [general6]

/-- A value that six digits describe is written as a number that is read as the value. -/
theorem six_general {f : FKind} {x : Flt} (h : Six f x) : ∃ y, JsonNumber (general6 f x) y ∧ y.toFlt f = some x := by
  obtain ⟨hf, h⟩ := h
  have hp := stdKind_prec hf
  rcases h with ⟨neg, rfl⟩ | ⟨neg, D, X, h1, h2, h3, hv⟩
  · refine ⟨⟨neg, 0, 0⟩, general6_zero f neg 0, toFlt_exact (by omega) ?_ (by simp)⟩
    simp only [List.mem_cons, List.not_mem_nil, or_false] at hf
    rcases hf with rfl | rfl | rfl <;> exact ⟨⟨by decide, by decide⟩, by decide⟩
  · obtain ⟨y, g1, g2⟩ := general6_short hp h1 h2 neg h3 hv
    exact ⟨y, g1, (toFlt_same f g2).trans hv⟩

theorem scan_general {f : FKind} {x : Flt} (h : Six f x ∨ ¬ finite x) : YamlP.scanTextFlt f (general6 f x) = .ok x := by
  rcases h with h | h
  · obtain ⟨y, h1, h2⟩ := six_general h
    rw [scanTextFlt_number f h1, toFltInf_of h2]
  · cases x with
    | fin neg m E => exact absurd trivial h
    | inf neg => cases neg <;> rfl
    | nan neg => cases neg <;> rfl

theorem number_not_null {t : Bytes} {y : Decimal} (h : JsonNumber t y) : ¬ (t = b!"null" ∨ t = b!"~") := by
  have hch := number_chars h
  rintro (rfl | rfl)
  · exact absurd (hch 0x6E (by decide)) (by decide)
  · exact absurd (hch 0x7E (by decide)) (by decide)

theorem general_not_null (f : FKind) (x : Flt) : ¬ (general6 f x = b!"null" ∨ general6 f x = b!"~") := by
  cases x with
  | fin neg m E =>
    by_cases hm : m = 0
    · subst hm; exact number_not_null (general6_zero f neg E)
    · obtain ⟨y, h, -⟩ := general6_number f neg hm (E := E)
      exact number_not_null h
  | inf neg =>
    cases neg
    · exact fun h => absurd h (show ¬ (b!"inf" = b!"null" ∨ b!"inf" = b!"~") by decide)
    · exact fun h => absurd h (show ¬ (b!"-inf" = b!"null" ∨ b!"-inf" = b!"~") by decide)
  | nan neg =>
    cases neg
    · exact fun h => absurd h (show ¬ (b!"nan" = b!"null" ∨ b!"nan" = b!"~") by decide)
    · exact fun h => absurd h (show ¬ (b!"-nan" = b!"null" ∨ b!"-nan" = b!"~") by decide)

end Thors
