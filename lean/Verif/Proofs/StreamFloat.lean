import Verif.Model.StreamInput
import Verif.Spec.Stream
import Verif.Proofs.FloatText
/-
What `num_get` takes of the text of a JSON number, and the value it stores.
-/
namespace Thors
open Spec StrIn

theorem extract_step {c : Byte} (hc : isDigit c = true) (dec sci m : Bool) (rest : Bytes) :
    IStr.extractFlt dec sci m (c :: rest) = ((IStr.extractFlt dec sci true rest).1 + 1, c :: (IStr.extractFlt dec sci true rest).2) := by
  conv => lhs; unfold IStr.extractFlt
  rw [if_pos hc]

theorem extract_digits {ds : Bytes} (h : ∀ c ∈ ds, isDigit c = true) (dec sci : Bool) (rest : Bytes) :
    IStr.extractFlt dec sci true (ds ++ rest) = (ds.length + (IStr.extractFlt dec sci true rest).1, ds ++ (IStr.extractFlt dec sci true rest).2) := by
  induction ds with
  | nil => simp
  | cons c cs ih =>
    have hc := h c (by simp)
    rw [List.cons_append, extract_step hc, ih (fun x hx => h x (by simp [hx]))]
    simp only [List.length_cons, List.cons_append, Prod.mk.injEq, and_true]
    omega

theorem extract_dec {ds : Bytes} {n : Nat} (h : Dec ds n) (dec sci m : Bool) (rest : Bytes) :
    IStr.extractFlt dec sci m (ds ++ rest) = (ds.length + (IStr.extractFlt dec sci true rest).1, ds ++ (IStr.extractFlt dec sci true rest).2) := by
  obtain ⟨h1, h2, -⟩ := dec_iff.1 h
  cases ds with
  | nil => exact absurd rfl h1
  | cons c cs =>
    have hc := h2 c (by simp)
    rw [List.cons_append, extract_step hc, extract_digits (ds := cs) (fun x hx => h2 x (by simp [hx]))]
    simp only [List.length_cons, List.cons_append, Prod.mk.injEq, and_true]
    omega

theorem extract_end {post : Bytes} (hp : numberEnds post) (dec sci m : Bool) : IStr.extractFlt dec sci m post = (0, []) := by
  cases post with
  | nil => simp [IStr.extractFlt]
  | cons c ps =>
    have hd := numberEnds_digit hp c ps rfl
    unfold IStr.extractFlt
    rw [if_neg (by simp [hd]), if_neg (fun h => hp.2.1 h.1), if_neg]
    rintro ⟨h | h, -⟩
    · exact hp.2.2.1 h
    · exact hp.2.2.2 h

theorem extract_expo {ep post : Bytes} {e : Int} (h : ExpoVal ep e) (hp : numberEnds post) (dec : Bool) :
    ∃ ep', IStr.extractFlt dec false true (ep ++ post) = (ep.length, ep') ∧ ExpoVal ep' e ∧ ep'.length = ep.length := by
  rcases h with ⟨rfl, rfl⟩ | ⟨c, s, ds, n, hc, hd, rfl, hs⟩
  · exact ⟨[], by rw [List.nil_append, extract_end hp]; rfl, .inl ⟨rfl, rfl⟩, rfl⟩
  · refine ⟨0x65 :: (s ++ ds), ?_, .inr ⟨0x65, s, ds, n, .inl rfl, hd, rfl, hs⟩, by simp⟩
    have hnd : isDigit c = false ∧ c ≠ 0x2E := by rcases hc with rfl | rfl <;> decide
    have hcons : ∀ cs : Bytes, IStr.extractFlt dec false true (c :: cs) = (match cs with
        | [] => (1, [0x65])
        | s :: ds =>
          if s = 0x2B ∨ s = 0x2D then ((IStr.extractFlt dec true true ds).1 + 2, 0x65 :: s :: (IStr.extractFlt dec true true ds).2)
          else ((IStr.extractFlt dec true true (s :: ds)).1 + 1, 0x65 :: (IStr.extractFlt dec true true (s :: ds)).2)) := by
      intro cs
      cases cs with
      | nil =>
        unfold IStr.extractFlt
        rw [if_neg (by simp [hnd.1]), if_neg (fun h => hnd.2 h.1), if_pos ⟨hc, rfl, rfl⟩]
      | cons a as =>
        conv => lhs; unfold IStr.extractFlt
        rw [if_neg (by simp [hnd.1]), if_neg (fun h => hnd.2 h.1), if_pos ⟨hc, rfl, rfl⟩]
    have hx := extract_dec hd dec true true post
    rw [extract_end hp] at hx
    rw [List.cons_append, hcons]
    obtain ⟨h1, h2, -⟩ := dec_iff.1 hd
    rcases hs with ⟨rfl, rfl⟩ | ⟨rfl, rfl⟩ | ⟨rfl, rfl⟩
    · cases ds with
      | nil => exact absurd rfl h1
      | cons a as =>
        have ha := digit_noSign (h2 a (by simp))
        rw [List.cons_append] at hx
        simp only [List.nil_append, List.cons_append]
        rw [if_neg (by rintro (h | h); exact ha.2 h; exact ha.1 h), hx]
        simp
    · simp only [List.cons_append, List.nil_append]
      rw [if_pos (by simp), hx]
      simp
    · simp only [List.cons_append, List.nil_append]
      rw [if_pos (by simp), hx]
      simp

theorem extract_frac {fp ep post : Bytes} {len fr : Nat} {e : Int} (hf : FracVal fp len fr) (h : ExpoVal ep e) (hp : numberEnds post) :
    ∃ ep', IStr.extractFlt false false true (fp ++ (ep ++ post)) = (fp.length + ep.length, fp ++ ep') ∧ ExpoVal ep' e ∧ ep'.length = ep.length := by
  rcases hf with ⟨rfl, rfl, rfl⟩ | ⟨ds, rfl, hd, rfl⟩
  · obtain ⟨ep', h1, h2, h3⟩ := extract_expo h hp false
    exact ⟨ep', by simpa using h1, h2, h3⟩
  · obtain ⟨ep', h1, h2, h3⟩ := extract_expo h hp true
    refine ⟨ep', ?_, h2, h3⟩
    rw [List.cons_append]
    conv => lhs; unfold IStr.extractFlt
    rw [if_neg (by decide), if_pos ⟨rfl, rfl, rfl⟩, extract_dec hd, h1]
    simp
    omega

/-- Reading the text of a JSON number. -/
theorem numGetFlt_number (f : FKind) {t post : Bytes} {x : Decimal} (h : JsonNumber t x) (hp : numberEnds post) :
    IStr.numGetFlt f (t ++ post) = (t.length, streamFlt f x) := by
  obtain ⟨s, ip, fp, ep, i, len, fr, e, hs, hi, hz, hf, he, rfl, hn, hk⟩ := h
  have hx : x = ⟨x.neg, i * 10 ^ len + fr, e - len⟩ := by
    cases x; simp only at hn hk; simp [hn, hk]
  have hi' := dec_iff.1 hi
  obtain ⟨ep', h1, h2, h3⟩ := extract_frac hf he hp
  have hex : IStr.extractFlt false false false (ip ++ (fp ++ (ep ++ post))) = (ip.length + (fp.length + ep.length), ip ++ (fp ++ ep')) := by
    rw [extract_dec hi, h1]
  have hsc := scanDecimal_spec hi hf h2 (post := []) trivial
  rw [List.append_nil] at hsc
  have hval : ∀ neg, x.neg = neg → ((Decimal.mk neg (i * 10 ^ len + fr) (e - len)).toFltInf f = .inf neg ∧ streamFlt f x = maxFlt f neg) ∨
      ((Decimal.mk neg (i * 10 ^ len + fr) (e - len)).toFltInf f = .fin neg (x.round f).1 (x.round f).2 ∧ streamFlt f x = .fin neg (x.round f).1 (x.round f).2) := by
    rintro neg rfl
    rw [← hx]
    unfold Decimal.toFltInf streamFlt maxFlt
    simp only
    by_cases h : (x.round f).2 > f.emax
    · rw [if_pos h, if_pos h]; exact .inl ⟨rfl, rfl⟩
    · rw [if_neg h, if_neg h]; exact .inr ⟨rfl, rfl⟩
  unfold SignText at hs
  cases hneg : x.neg with
  | true =>
    rw [hneg] at hs
    simp only [if_true] at hs
    subst hs
    unfold IStr.numGetFlt
    simp only [List.cons_append, List.nil_append, List.head?_cons, decide_true, Bool.true_or, if_true, List.drop_succ_cons, List.drop_zero, List.append_assoc]
    rw [hex]
    simp only [hsc]
    rw [if_pos (by simp; omega)]
    rcases hval true hneg with ⟨hv, hw⟩ | ⟨hv, hw⟩ <;> (rw [hv, hw]; simp; try omega)
  | false =>
    rw [hneg] at hs
    simp only [Bool.false_eq_true, if_false] at hs
    subst hs
    obtain ⟨a, r, rfl⟩ : ∃ a r, ip = a :: r := by
      cases ip with
      | nil => exact absurd rfl hi'.1
      | cons a t => exact ⟨a, t, rfl⟩
    have ha := digit_noSign (hi'.2.1 a (by simp))
    unfold IStr.numGetFlt
    simp only [List.cons_append] at hex hsc
    simp only [List.cons_append, List.nil_append, List.head?_cons, Option.some.injEq, ha.1, ha.2, decide_false, Bool.or_self, Bool.false_eq_true, if_false, List.append_assoc]
    rw [hex]
    simp only [hsc]
    rw [if_pos (by simp; omega)]
    rcases hval false hneg with ⟨hv, hw⟩ | ⟨hv, hw⟩ <;> (rw [hv, hw]; simp; try omega)

theorem numGetFlt_bad (f : FKind) {c : Byte} {t : Bytes} (hd : isDigit c = false) (hm : c ≠ 0x2D) (hpl : c ≠ 0x2B) (hpt : c ≠ 0x2E) :
    (IStr.numGetFlt f (c :: t)).1 = 0 := by
  unfold IStr.numGetFlt
  have : IStr.extractFlt false false false (c :: t) = (0, []) := by
    unfold IStr.extractFlt
    rw [if_neg (by simp [hd]), if_neg (fun h => hpt h.1), if_neg (fun h => by simp at h)]
  simp only [List.head?_cons, Option.some.injEq, hm, hpl, decide_false, Bool.or_self, Bool.false_eq_true, if_false, this]

end Thors
