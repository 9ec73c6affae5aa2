import Verif.Model.JsonLexer
import Verif.Model.JsonToken
import Verif.Spec.Number
import Verif.Proofs.JsonString
/-
Lemmas: decimal text and reading integers.
-/
namespace Thors
open Spec StrIn

theorem digit_iff {c : Byte} {d : Nat} : Digit c d ↔ isDigit c = true ∧ c.toNat - 0x30 = d := by
  constructor
  · rintro ⟨d, h⟩
    have : ∀ d, d < 10 → isDigit (UInt8.ofNat (0x30 + d)) = true ∧ (UInt8.ofNat (0x30 + d)).toNat - 0x30 = d := by decide
    exact this d h
  · rintro ⟨h, rfl⟩
    have h1 : 0x30 ≤ c.toNat ∧ c.toNat ≤ 0x39 := by
      simp [isDigit] at h
      exact ⟨by have := UInt8.le_iff_toNat_le.mp h.1; simpa using this, by have := UInt8.le_iff_toNat_le.mp h.2; simpa using this⟩
    have := Digit.mk (c.toNat - 0x30) (by omega)
    rw [show 0x30 + (c.toNat - 0x30) = c.toNat by omega] at this
    simpa using this

theorem digitsVal_snoc (t : Bytes) (c : Byte) : digitsVal (t ++ [c]) = digitsVal t * 10 + (c.toNat - 0x30) := by
  simp [digitsVal]

theorem dec_iff {t : Bytes} {n : Nat} : Dec t n ↔ t ≠ [] ∧ (∀ c ∈ t, isDigit c = true) ∧ digitsVal t = n := by
  constructor
  · intro h
    induction h with
    | one h => have := digit_iff.mp h; simp [digitsVal, this.1, this.2]
    | snoc ht h ih =>
      obtain ⟨h1, h2, h3⟩ := ih
      have := digit_iff.mp h
      refine ⟨by simp, ?_, ?_⟩
      · intro c hc
        simp at hc
        rcases hc with hc | rfl
        · exact h2 c hc
        · exact this.1
      · rw [digitsVal_snoc, h3, this.2]
  · rintro ⟨h1, h2, rfl⟩
    obtain ⟨m, hm⟩ : ∃ m, t.length = m + 1 := ⟨t.length - 1, by have := List.length_pos_iff.mpr h1; omega⟩
    induction m generalizing t with
    | zero =>
      match t, hm with
      | [c], _ =>
        have := Dec.one (digit_iff.mpr ⟨h2 c (by simp), rfl⟩)
        simpa [digitsVal] using this
    | succ m ih =>
      have hne : t ≠ [] := h1
      rw [← List.dropLast_concat_getLast hne, digitsVal_snoc]
      refine Dec.snoc (ih ?_ ?_ ?_) (digit_iff.mpr ⟨h2 _ (List.getLast_mem hne), rfl⟩)
      · intro h
        have := congrArg List.length h
        simp at this; omega
      · intro c hc
        exact h2 c ((List.dropLast_sublist t).mem hc)
      · simp; omega

theorem digitPrefix_append {t post : Bytes} (h : ∀ c ∈ t, isDigit c = true) (hp : ∀ c ps, post = c :: ps → isDigit c = false) :
    digitPrefix (t ++ post) = t := by
  unfold digitPrefix
  induction t with
  | nil =>
    cases post with
    | nil => rfl
    | cons c ps => simp [hp c ps rfl]
  | cons c cs ih =>
    simp [h c (by simp)]
    exact ih (fun x hx => h x (by simp [hx]))

theorem natText_dec (n : Nat) : Dec (natText n) n := by
  induction n using natText.induct with
  | case1 n h => rw [natText, dif_pos h]; exact .one (.mk n h)
  | case2 n h ih =>
    rw [natText, dif_neg h]
    have := Dec.snoc ih (.mk (n % 10) (by omega))
    rwa [show n / 10 * 10 + n % 10 = n by omega] at this

theorem natText_head (n : Nat) : ∃ c cs, natText n = c :: cs ∧ (c = 0x30 → n = 0 ∧ cs = []) := by
  induction n using natText.induct with
  | case1 n h =>
    rw [natText, dif_pos h]
    refine ⟨_, [], rfl, ?_⟩
    have : ∀ n, n < 10 → UInt8.ofNat (0x30 + n) = 0x30 → n = 0 := by decide
    exact fun he => ⟨this n h he, rfl⟩
  | case2 n h ih =>
    obtain ⟨c, cs, he, hz⟩ := ih
    rw [natText, dif_neg h, he]
    refine ⟨c, cs ++ [_], rfl, ?_⟩
    intro hc
    have := (hz hc).1
    omega

theorem intText_lit (i : Int) : IntLit (intText i) i := by
  unfold intText
  split
  · have := IntLit.neg (natText_dec i.natAbs)
    rwa [show -(i.natAbs : Int) = i by omega] at this
  · have := IntLit.pos (natText_dec i.natAbs)
    rwa [show (i.natAbs : Int) = i by omega] at this

theorem intText_noLeadingZero (i : Int) : ¬ litLeadingZero (intText i) := by
  unfold intText
  obtain ⟨c, cs, he, hz⟩ := natText_head i.natAbs
  rw [he]
  split
  · simp only [litLeadingZero]
    intro h
    unfold leadingZero at h
    split at h
    · rename_i heq
      simp at heq
      have := (hz heq.1).2
      simp [this] at heq
    · exact h
  · have hd : c ≠ 0x2D := by
      have := dec_iff.mp (natText_dec i.natAbs)
      rw [he] at this
      have := this.2.1 c (by simp)
      rintro rfl
      simp [isDigit] at this
    intro h
    unfold litLeadingZero at h
    split at h
    · rename_i heq; simp at heq; exact hd heq.1
    unfold leadingZero at h
    split at h
    · rename_i heq
      simp at heq
      have := (hz heq.1).2
      simp [this] at heq
    · exact h

theorem numberEnds_digit {post : Bytes} (h : numberEnds post) : ∀ c ps, post = c :: ps → isDigit c = false := by
  rintro c ps rfl
  simp only [numberEnds] at h
  simp only [isDigit, decide_eq_false_iff_not]
  exact h.1

theorem peek_cons {s : StrIn} {c : Byte} {t : Bytes} (hr : s.rest = c :: t) : s.peek = sext c := by
  unfold StrIn.rest at hr
  have hlt : s.pos < s.data.length := by
    have := congrArg List.length hr; simp at this; omega
  unfold StrIn.peek
  rw [if_pos hlt]
  rw [List.drop_eq_getElem_cons hlt] at hr
  injection hr with h1 h2
  simp [hlt, h1]

theorem peek_nil {s : StrIn} (hr : s.rest = []) : s.peek = EOFv := by
  unfold StrIn.rest at hr
  have : ¬ s.pos < s.data.length := by simp at hr; omega
  unfold StrIn.peek
  rw [if_neg this]

theorem rest_pos {s : StrIn} {c : Byte} {t : Bytes} (hr : s.rest = c :: t) : s.pos < s.data.length := by
  unfold StrIn.rest at hr
  have := congrArg List.length hr; simp at this; omega

theorem sext_inj {a b : Byte} (h : sext a = sext b) : a = b := by
  have := congrArg toChar h
  rwa [toChar_sext, toChar_sext] at this

theorem sext_digit (c : Byte) : (sext c ≥ 0x31 ∧ sext c ≤ 0x39) ↔ (isDigit c = true ∧ c ≠ 0x30) := by
  revert c
  apply forall_byte
  decide +kernel

/-- `checkZero` on a text: it throws exactly when the text starts with a zero followed by a digit 1-9. -/
theorem checkZero_eq {s : StrIn} (hg : s.good = true) (hne : s.rest ≠ []) :
    checkZero s = match s.rest with
      | 0x30 :: c :: _ => if isDigit c = true ∧ c ≠ 0x30 then throwStd else .ok s
      | _ => .ok s := by
  cases hr : s.rest with
  | nil => exact absurd hr hne
  | cons c t =>
    have hpos := rest_pos hr
    by_cases hc : c = 0x30
    · subst hc
      unfold checkZero
      rw [peek_cons hr]
      rw [if_pos (show sext 0x30 = 0x30 by decide)]
      obtain ⟨hget, hr1⟩ := get_cons hg hr
      have hunget : StrIn.unget { s with pos := s.pos + 1 } = s := by
        unfold StrIn.unget
        cases s
        simp at hg hpos ⊢
        rw [hg]; simp; omega
      simp only [hget, hunget]
      cases t with
      | nil =>
        rw [peek_nil hr1]
        simp [EOFv]
      | cons d t' =>
        rw [peek_cons hr1]
        by_cases hd : isDigit d = true ∧ d ≠ 0x30
        · simp only; rw [if_pos ((sext_digit d).mpr hd), if_pos hd]
        · simp only; rw [if_neg (fun h => hd ((sext_digit d).mp h)), if_neg hd]
    · unfold checkZero
      rw [peek_cons hr]
      rw [if_neg]
      · split
        · rename_i heq; simp at heq; exact absurd heq.1 hc
        · rfl
      · intro h
        exact hc (sext_inj (h.trans (show (0x30 : Int) = sext 0x30 by decide)))

theorem fromChars_lit {k : IntKind} {t post : Bytes} {i : Int} (h : IntLit t i) (hp : numberEnds post)
    (hs : k.signed = true ∨ 0 ≤ i ∧ ∀ cs, t ≠ 0x2D :: cs) :
    fromChars k (t ++ post) = if k.fits i then .value t.length i else .outOfRange t.length := by
  cases h with
  | pos h =>
    rename_i n
    obtain ⟨h1, h2, h3⟩ := dec_iff.mp h
    cases t with
    | nil => exact absurd rfl h1
    | cons c cs =>
      have hc : c ≠ 0x2D := by
        have := h2 c (by simp)
        rintro rfl
        simp [isDigit] at this
      have := digitPrefix_append h2 (numberEnds_digit hp)
      simp only [List.cons_append] at this
      simp only [fromChars, List.cons_append, this, h3]
      rw [if_neg (by simp [hc]), if_neg (by simp)]
  | neg h =>
    rename_i t n
    obtain ⟨h1, h2, h3⟩ := dec_iff.mp h
    rcases hs with hs | ⟨_, hs⟩
    · have := digitPrefix_append h2 (numberEnds_digit hp)
      simp only [fromChars, List.cons_append, this, h3, hs, List.length_cons]
      simp [h1]
    · exact absurd rfl (hs t)

theorem numberEnds_validate {s : StrIn} {post : Bytes} (hr : s.rest = post) (h : numberEnds post) (ok : Bool) :
    validateResult ok s = ok := by
  unfold validateResult
  cases post with
  | nil => rw [peek_nil hr]; simp [toChar, EOFv]
  | cons c t =>
    rw [peek_cons hr, toChar_sext]
    simp only [numberEnds] at h
    simp [h.2.1, h.2.2.1, h.2.2.2]

theorem rest_adv {s : StrIn} {t post : Bytes} (hr : s.rest = t ++ post) (g : Bool) :
    ({ s with pos := s.pos + t.length, good := g } : StrIn).rest = post := by
  unfold StrIn.rest at hr ⊢
  simp only
  rw [← List.drop_drop, hr]
  simp

theorem pos_adv {s : StrIn} {t post : Bytes} (hr : s.rest = t ++ post) (hp : s.pos ≤ s.data.length) :
    s.pos + t.length ≤ s.data.length := by
  unfold StrIn.rest at hr
  have := congrArg List.length hr
  simp at this; omega

theorem pos_le_of_good {s : StrIn} {c : Byte} {t : Bytes} (hr : s.rest = c :: t) : s.pos ≤ s.data.length :=
  Nat.le_of_lt (rest_pos hr)

theorem lit_ne_nil {t : Bytes} {i : Int} (h : IntLit t i) : t ≠ [] := by
  cases h with
  | pos h => exact (dec_iff.mp h).1
  | neg h => simp

/-- Does `checkZero` let a literal through. -/
def zeroOk : Bytes → Bool
  | 0x30 :: c :: _ => ¬ (isDigit c = true ∧ c ≠ 0x30)
  | _ => true

/-- Reading an integer literal, all cases. -/
theorem scanInt_lit (l : Lexer) (k : IntKind) {t post : Bytes} {i : Int} (h : IntLit t i) (hp : numberEnds post)
    (hs : k.signed = true ∨ 0 ≤ i ∧ ∀ cs, t ≠ 0x2D :: cs) (hg : l.inp.good = true) (hr : l.inp.rest = t ++ post) :
    l.scanInt k = if zeroOk t = false then throwStd else
      if k.fits i then .ok (i, { l with inp := { l.inp with pos := l.inp.pos + t.length, good := true } }) else .ub := by
  have hne : l.inp.rest ≠ [] := by
    rw [hr]; have := lit_ne_nil h; simp [this]
  have hpos : l.inp.pos < l.inp.data.length := by
    cases hr' : l.inp.rest with
    | nil => exact absurd hr' hne
    | cons c t => exact rest_pos hr'
  have hz : checkZero l.inp = if zeroOk t = false then throwStd else .ok l.inp := by
    rw [checkZero_eq hg hne, hr]
    match t, lit_ne_nil h with
    | [c], _ =>
      simp only [zeroOk, List.cons_append, List.nil_append]
      cases post with
      | nil => simp
      | cons d ps =>
        have hd := numberEnds_digit hp d ps rfl
        by_cases hc : c = 0x30
        · subst hc; simp [hd]
        · split
          · rename_i heq; simp at heq; exact absurd heq.1 hc
          · simp
    | c :: d :: t', _ =>
      by_cases hc : c = 0x30
      · subst hc
        simp only [List.cons_append, zeroOk]
        by_cases hd : isDigit d = true ∧ d ≠ 0x30
        · rw [if_pos hd]; simp [hd]
        · rw [if_neg hd]; simp [hd]
      · have e1 : zeroOk (c :: d :: t') = true := by
          unfold zeroOk; split
          · rename_i heq; simp at heq; exact absurd heq.1 hc
          · rfl
        rw [e1]
        simp only [List.cons_append]
        split
        · rename_i heq; simp at heq; exact absurd heq.1 hc
        · simp
  unfold Lexer.scanInt readIntValue
  rw [hz]
  by_cases hzo : zeroOk t = false
  · rw [if_pos hzo, if_pos hzo]; rfl
  · rw [if_neg hzo, if_neg hzo]
    have hadv := pos_adv hr (by omega)
    have hl : t.length ≠ 0 := by have := lit_ne_nil h; simpa using this
    simp only [Res.ok_bind, StrIn.readInt]
    rw [if_neg (by omega)]
    have hf := fromChars_lit (k := k) h hp hs
    have hr0 := hr
    unfold StrIn.rest at hr0
    rw [hr0, hf]
    have hval := numberEnds_validate (rest_adv hr true) hp
    by_cases hfit : k.fits i
    · simp only [if_pos hfit, Res.ok_bind, hadv, decide_true, hl, ne_eq, not_false_eq_true, hval, Res.pure_eq]
      simp
    · simp only [if_neg hfit, Res.ok_bind, hadv, decide_true, hl, ne_eq, not_false_eq_true, hval, Res.pure_eq]
      simp

/-- Reading an integer in front of something that is not one. -/
theorem scanInt_bad (k : IntKind) {l : Lexer} {c : Byte} {t : Bytes} (hd : isDigit c = false) (hm : c = 0x2D → k.signed = false)
    (hg : l.inp.good = true) (hr : l.inp.rest = c :: t) : l.scanInt k = throwStd := by
  have hz : checkZero l.inp = .ok l.inp := by
    rw [checkZero_eq hg (by rw [hr]; simp), hr]
    split
    · rename_i heq
      rw [(List.cons.inj heq).1] at hd
      exact absurd hd (by decide)
    · rfl
  have hf : fromChars k (c :: t) = .invalid := by
    unfold fromChars
    simp only
    rw [if_neg]
    · simp [digitPrefix, hd]
    · rintro ⟨h1, h2⟩
      rw [hm h1] at h2
      exact absurd h2 (by decide)
  have hlt := rest_pos hr
  unfold StrIn.rest at hr
  unfold Lexer.scanInt readIntValue
  rw [hz]
  simp only [Res.ok_bind, StrIn.readInt]
  rw [if_neg (by omega), hr, hf]
  simp [validateResult]

/-- Reading an integer in front of a number with a fraction or an exponent. -/
theorem scanInt_frac_lit (k : IntKind) (t rest : Bytes) (c : Byte) (i : Int) (l : Lexer) (h : IntLit t i)
    (hk : k.signed = true ∨ ∀ cs, t ≠ 0x2D :: cs) (hc : c = 0x2E ∨ c = 0x65 ∨ c = 0x45) (hg : l.inp.good = true)
    (hr : l.inp.rest = t ++ c :: rest) : l.scanInt k = throwStd := by
  -- the digits end in front of `c`
  have hcd : isDigit c = false := by rcases hc with rfl | rfl | rfl <;> decide
  have hne : l.inp.rest ≠ [] := by rw [hr]; simp
  have hpos : l.inp.pos < l.inp.data.length := by
    cases hr' : l.inp.rest with
    | nil => exact absurd hr' hne
    | cons c t => exact rest_pos hr'
  have hz : checkZero l.inp = throwStd ∨ checkZero l.inp = .ok l.inp := by
    rw [checkZero_eq hg hne]
    split
    · split
      · left; rfl
      · right; rfl
    · right; rfl
  rcases hz with hz | hz
  · unfold Lexer.scanInt readIntValue; rw [hz]; rfl
  · have hadv := pos_adv hr (by omega)
    have hr0 := hr
    unfold StrIn.rest at hr0
    have hf : fromChars k (t ++ c :: rest) = if k.fits i then .value t.length i else .outOfRange t.length := by
      cases h with
      | pos h =>
        rename_i n
        obtain ⟨h1, h2, h3⟩ := dec_iff.mp h
        cases t with
        | nil => exact absurd rfl h1
        | cons d ds =>
          have hd : d ≠ 0x2D := by
            have := h2 d (by simp)
            rintro rfl
            simp [isDigit] at this
          have := digitPrefix_append h2 (post := c :: rest) (by rintro _ _ ⟨rfl, _⟩; exact hcd)
          simp only [List.cons_append] at this
          simp only [fromChars, List.cons_append, this, h3]
          rw [if_neg (by simp [hd]), if_neg (by simp)]
      | neg h =>
        rename_i t n
        obtain ⟨h1, h2, h3⟩ := dec_iff.mp h
        have := digitPrefix_append h2 (post := c :: rest) (by rintro _ _ ⟨rfl, _⟩; exact hcd)
        have hk := hk.resolve_right (fun h => h t rfl)
        simp only [fromChars, List.cons_append, this, h3, hk, List.length_cons]
        simp [h1]
    have hval : ∀ ok : Bool, validateResult ok { l.inp with pos := l.inp.pos + t.length, good := true } = false := by
      intro ok
      unfold validateResult
      rw [peek_cons (rest_adv hr true), toChar_sext]
      rcases hc with rfl | rfl | rfl <;> simp
    unfold Lexer.scanInt readIntValue
    rw [hz]
    simp only [Res.ok_bind, StrIn.readInt]
    rw [if_neg (by omega), hr0, hf]
    by_cases hfit : k.fits i
    · simp only [if_pos hfit, Res.ok_bind, hadv, decide_true, hval, Res.pure_eq]; simp
    · simp only [if_neg hfit, Res.ok_bind, hadv, decide_true, hval, Res.pure_eq]; simp


theorem scanInt_frac (k : IntKind) (t rest : Bytes) (c : Byte) (i : Int) (l : Lexer) (h : IntLit t i)
    (hc : c = 0x2E ∨ c = 0x65 ∨ c = 0x45) (hg : l.inp.good = true)
    (hr : l.inp.rest = t ++ c :: rest) : l.scanInt k = throwStd := by
  by_cases hk : k.signed = true
  · exact scanInt_frac_lit k t rest c i l h (.inl hk) hc hg hr
  · by_cases hm : t.head? = some 0x2D
    · cases t with
      | nil => simp at hm
      | cons d cs =>
        simp only [List.head?_cons, Option.some.injEq] at hm
        subst hm
        exact scanInt_bad k (by decide) (fun _ => by simpa using hk) hg hr
    · exact scanInt_frac_lit k t rest c i l h (.inr (by rintro cs rfl; simp at hm)) hc hg hr

end Thors
